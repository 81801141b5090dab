import Verif.Model.Families.MvNormal
import Verif.Lemmas.Families.Normal
import Verif.Lemmas.Product

/-!
# Multivariate normal families with independent components are regular
-/

namespace Efax

open MeasureTheory Spec Set

/-- The components of a parameter of the diagonal family. -/
def mvComponents {d : ℕ} : ((Fin d → ℝ) × (Fin d → ℝ)) →ₗ[ℝ] (Fin d → ℝ × ℝ) where
  toFun q i := (q.1 i, q.2 i)
  map_add' _ _ := rfl
  map_smul' _ _ := rfl

theorem mvNormals_regular (d : ℕ) :
    Regular (normal.pow d) volume {q | ∀ i, q i ∈ normalDom} ⊤ :=
  normal_regular.pow d

theorem mvDiagonal_regular (d : ℕ) : Regular (mvDiagonal d) volume (mvDiagonalDom d) ⊤ := by
  refine (mvNormals_regular d).pullback mvComponents mvComponents (fun q t v => by simp)
    (fun η v t w => ?_) (fun q => ⟨fun h => ⟨trivial, h⟩, fun h => h.2⟩) (fun _ _ => trivial)
    (fun q h x => ?_) 0 (fun q h => ?_) fun q h v _ => ?_
  · simp only [mvDiagonal, Prod.fst_add, Prod.snd_add, Prod.smul_fst, Prod.smul_snd, Pi.add_apply,
      Pi.smul_apply, smul_eq_mul, add_mul, Finset.sum_add_distrib, mul_add, Finset.mul_sum, mul_assoc]
    ring
  · simp only [ExpFam.pdf, ExpFam.logPdf, mvDiagonal, ExpFam.pow, normal, mvComponents,
      Finset.sum_add_distrib, Finset.sum_const_zero, LinearMap.coe_mk, AddHom.coe_mk]
  · simp [mvDiagonal, ExpFam.pow, normal, mvComponents]
  · simp only [mvDiagonal, ExpFam.pow, normal, mvComponents, Finset.sum_add_distrib,
      LinearMap.coe_mk, AddHom.coe_mk]

theorem mvDiagonal_minimal (d : ℕ) : Minimal (mvDiagonal d) volume ⊤ := by
  intro v _ c h
  have hc : ContinuousOn (fun x : Fin d → ℝ => ∑ i, v.1 i * x i + ∑ i, v.2 i * x i ^ 2) univ := by
    fun_prop
  rw [← Measure.restrict_univ (μ := (volume : Measure (Fin d → ℝ)))] at h
  have hall := ae_open (μ := volume) isOpen_univ hc h
  have key : ∀ (i : Fin d) (s : ℝ), v.1 i * s + v.2 i * s ^ 2 = c := by
    intro i s
    have := hall (Pi.single i s) trivial
    simpa [Pi.single_apply, ite_pow] using this
  refine Prod.ext (funext fun i => ?_) (funext fun i => ?_)
  · have h1 := key i 0; have h2 := key i 1; have h3 := key i (-1)
    simp at h1 h2 h3 ⊢
    linarith
  · have h1 := key i 0; have h2 := key i 1; have h3 := key i (-1)
    simp at h1 h2 h3 ⊢
    linarith

/-- The parameters of the diagonal family for a parameter of the isotropic family. -/
def mvIsotropicDiagonal {d : ℕ} : ((Fin d → ℝ) × ℝ) →ₗ[ℝ] ((Fin d → ℝ) × (Fin d → ℝ)) where
  toFun q := (q.1, fun _ => q.2)
  map_add' _ _ := rfl
  map_smul' _ _ := rfl

theorem mvIsotropic_regular (d : ℕ) :
    Regular (mvIsotropic (d + 1)) volume (mvIsotropicDom (d + 1)) ⊤ := by
  have hA : ∀ q ∈ mvIsotropicDom (d + 1), (mvIsotropic (d + 1)).logNormalizer q =
      (mvDiagonal (d + 1)).logNormalizer (mvIsotropicDiagonal q) := by
    intro q h
    have hq : q.2 ≠ 0 := (show q.2 < 0 from h).ne
    simp only [mvIsotropic, mvDiagonal, mvIsotropicDiagonal, Finset.sum_add_distrib,
      LinearMap.coe_mk, AddHom.coe_mk, Finset.sum_const, Finset.card_univ, Fintype.card_fin,
      nsmul_eq_mul, ← Finset.sum_div, Finset.sum_neg_distrib]
    rw [div_neg, neg_div]
    field_simp
    ring
  refine (mvDiagonal_regular (d + 1)).pullback mvIsotropicDiagonal mvIsotropicDiagonal
    (fun q t v => by simp)
    (fun η v t w => ?_) (fun q => ⟨fun h => ⟨trivial, fun _ => h⟩, fun h => h.2 0⟩)
    (fun _ _ => trivial)
    (fun q h x => ?_) 0 (fun q h => by rw [hA q h, add_zero]) fun q h v _ => ?_
  · simp only [mvIsotropic, Prod.fst_add, Prod.snd_add, Prod.smul_fst, Prod.smul_snd, Pi.add_apply,
      Pi.smul_apply, smul_eq_mul, add_mul, Finset.sum_add_distrib, mul_add, Finset.mul_sum, mul_assoc]
    ring
  · rw [ExpFam.pdf, ExpFam.pdf, ExpFam.logPdf, ExpFam.logPdf, hA q h]
    simp [mvIsotropic, mvDiagonal, mvIsotropicDiagonal, Finset.mul_sum]
  · have hq : q.2 ≠ 0 := (show q.2 < 0 from h).ne
    simp only [mvIsotropic, mvDiagonal, mvIsotropicDiagonal, LinearMap.coe_mk, AddHom.coe_mk,
      ← Finset.mul_sum, Finset.sum_sub_distrib, Finset.sum_const, Finset.card_univ,
      Fintype.card_fin, nsmul_eq_mul]
    congr 1
    · refine Finset.sum_congr rfl fun i _ => ?_
      field_simp
    · congr 1
      rw [sub_eq_add_neg]
      congr 1
      · refine Finset.sum_congr rfl fun i _ => ?_
        field_simp
      · field_simp
        norm_num

theorem mvIsotropic_minimal (d : ℕ) : Minimal (mvIsotropic (d + 1)) volume ⊤ := by
  intro v _ c h
  have := mvDiagonal_minimal (d + 1) (mvIsotropicDiagonal v) trivial c (by
    filter_upwards [h] with x hx
    simpa [mvIsotropic, mvDiagonal, mvIsotropicDiagonal, Finset.mul_sum] using hx)
  exact Prod.ext (congrArg (fun q => q.1) this :) (congrArg (fun q => q.2 0) this :)

theorem mvFixed_pdf {d : ℕ} {v : ℝ} (hv : 0 < v) (q : Fin d → ℝ) :
    (mvFixed d v).logNormalizer q = (mvDiagonal d).logNormalizer (q, fun _ => -0.5 / v) ∧
    ∀ x, (mvFixed d v).pdf q x = (mvDiagonal d).pdf (q, fun _ => -0.5 / v) x := by
  have hl : Real.log (-Real.pi / (-0.5 / v)) = Real.log (Real.pi * 2 * v) := by
    congr 1
    field_simp
    norm_num
  have hA : (mvFixed d v).logNormalizer q = (mvDiagonal d).logNormalizer (q, fun _ => -0.5 / v) := by
    simp only [mvFixed, mvDiagonal, Finset.sum_add_distrib, Finset.sum_const, Finset.card_univ,
      Fintype.card_fin, nsmul_eq_mul, ← Finset.sum_div, Finset.sum_neg_distrib, hl]
    field_simp
    ring
  refine ⟨hA, fun x => ?_⟩
  rw [ExpFam.pdf, ExpFam.pdf, ExpFam.logPdf, ExpFam.logPdf, hA]
  simp only [mvFixed, mvDiagonal, ← Finset.mul_sum]
  congr 1
  ring

theorem mvFixed_dom {d : ℕ} {v : ℝ} (hv : 0 < v) (q : Fin d → ℝ) :
    (q, fun _ => -0.5 / v) ∈ mvDiagonalDom d :=
  fun _ => div_neg_of_neg_of_pos (by norm_num) hv

theorem mvFixed_regular (d : ℕ) {v : ℝ} (hv : 0 < v) :
    Regular (mvFixed d v) volume univ ⊤ := by
  refine (mvDiagonal_regular d).pullback (fun q => (q, fun _ => -0.5 / v)) (LinearMap.inl ℝ _ _)
    (fun q t v => by simp)
    (fun η v t w => ?_) (fun q => ⟨fun h => ⟨trivial, mvFixed_dom hv q⟩, fun h => trivial⟩)
    (fun _ _ => trivial)
    (fun q h x => (mvFixed_pdf hv q).2 x) 0 (fun q h => by rw [(mvFixed_pdf hv q).1, add_zero])
    fun q h w _ => ?_
  · simp only [mvFixed, Pi.add_apply,
      Pi.smul_apply, smul_eq_mul, add_mul, Finset.sum_add_distrib, Finset.mul_sum, mul_assoc]
  · simp only [mvFixed, mvDiagonal, LinearMap.inl_apply, Pi.zero_apply, zero_mul,
      Finset.sum_const_zero, add_zero]
    refine Finset.sum_congr rfl fun i _ => ?_
    field_simp
    norm_num
    ring

theorem mvFixed_minimal (d : ℕ) (v : ℝ) : Minimal (mvFixed d v) volume ⊤ := by
  intro w _ c h
  have := mvDiagonal_minimal d (w, 0) trivial c (by
    filter_upwards [h] with x hx
    simpa [mvFixed, mvDiagonal] using hx)
  exact congrArg Prod.fst this

theorem mvUnit_eq (d : ℕ) : mvUnit d = mvFixed d 1 := by
  simp [mvUnit, mvFixed]

theorem mvUnit_regular (d : ℕ) : Regular (mvUnit d) volume univ ⊤ := by
  rw [mvUnit_eq]
  exact mvFixed_regular d one_pos

theorem mvUnit_minimal (d : ℕ) : Minimal (mvUnit d) volume ⊤ := by
  rw [mvUnit_eq]
  exact mvFixed_minimal d 1

end Efax
