import Verif.Lemmas.Families.CmvCircular
import Verif.Props.Families.Inverse
import Verif.Props.Families.MvCarrier

/-!
# Complex normal families: moments, carrier measures and conversions (C30, C31, C36)
-/

namespace Efax

open MeasureTheory Spec Set Matrix Complex

/-! ### C30: expectations of the statistics -/

theorem C30_complex_unit (q : ℂ) :
    HasMean volume (complexUnit.pdf q) (fun x => x.re) (complexUnit.toExp q).re ∧
    HasMean volume (complexUnit.pdf q) (fun x => x.im) (complexUnit.toExp q).im :=
  ⟨(complexUnit_regular.mean_dot (η := q) trivial (v := 1) trivial).congr
    (fun x => by simp [complexUnit]) (by simp [complexUnit]),
  (complexUnit_regular.mean_dot (η := q) trivial (v := -I) trivial).congr
    (fun x => by simp [complexUnit]) (by simp [complexUnit])⟩

theorem cmvUnit_dot_single {d : ℕ} (i : Fin d) (z : ℂ) (p : Fin d → ℂ) :
    (cmvUnit d).dot (Pi.single i z) p = (z * p i).re := by
  simp only [cmvUnit, Pi.single_apply, ite_mul, zero_mul, Finset.sum_ite_eq', Finset.mem_univ, if_true]

theorem C30_cmv_unit {d : ℕ} (q : Fin d → ℂ) (i : Fin d) :
    HasMean volume ((cmvUnit d).pdf q) (fun x => (x i).re) ((cmvUnit d).toExp q i).re ∧
    HasMean volume ((cmvUnit d).pdf q) (fun x => (x i).im) ((cmvUnit d).toExp q i).im :=
  ⟨((cmvUnit_regular d).mean_dot (η := q) trivial (v := Pi.single i 1) trivial).congr
    (fun x => by rw [cmvUnit_dot_single]; simp [cmvUnit]) (by rw [cmvUnit_dot_single]; simp),
  ((cmvUnit_regular d).mean_dot (η := q) trivial (v := Pi.single i (-I)) trivial).congr
    (fun x => by rw [cmvUnit_dot_single]; simp [cmvUnit]) (by rw [cmvUnit_dot_single]; simp)⟩

theorem C30_complex_normal {q : ComplexNormalParams} (h : q ∈ complexNormalDom) :
    HasMean volume (complexNormal.pdf q) (fun x => x.re) (complexNormal.toExp q).1.re ∧
    HasMean volume (complexNormal.pdf q) (fun x => x.im) (complexNormal.toExp q).1.im ∧
    HasMean volume (complexNormal.pdf q) (fun x => ‖x‖ ^ 2) (complexNormal.toExp q).2.1 ∧
    HasMean volume (complexNormal.pdf q) (fun x => (x ^ 2).re) (complexNormal.toExp q).2.2.re ∧
    HasMean volume (complexNormal.pdf q) (fun x => (x ^ 2).im) (complexNormal.toExp q).2.2.im := by
  refine ⟨(complexNormal_regular.mean_dot h (v := (1, 0, 0)) trivial).congr (fun x => ?_) ?_,
    (complexNormal_regular.mean_dot h (v := (-I, 0, 0)) trivial).congr (fun x => ?_) ?_,
    (complexNormal_regular.mean_dot h (v := (0, 1, 0)) trivial).congr (fun x => ?_) ?_,
    (complexNormal_regular.mean_dot h (v := (0, 0, 1)) trivial).congr (fun x => ?_) ?_,
    (complexNormal_regular.mean_dot h (v := (0, 0, -I)) trivial).congr (fun x => ?_) ?_⟩ <;>
  simp [complexNormal, normSq_eq_norm_sq]

theorem cmvCircular_exp_hermitian {d : ℕ} {q : Matrix (Fin d) (Fin d) ℂ} (h : q ∈ cmvCircularDom d) :
    ((cmvCircular d).toExp q).IsHermitian := by
  have hq : (-q).IsHermitian := ((cmvCircular_regular d).mem_dirs q h).neg
  have := hq.inv
  ext i j
  simpa [cmvCircular] using congrArg (starRingEnd ℂ) (this.apply i j)

theorem C30_cmv_circular {d : ℕ} {q : Matrix (Fin d) (Fin d) ℂ} (h : q ∈ cmvCircularDom d)
    (i j : Fin d) :
    HasMean volume ((cmvCircular d).pdf q) (fun x => (x i * starRingEnd ℂ (x j)).re)
      ((cmvCircular d).toExp q i j).re ∧
    HasMean volume ((cmvCircular d).pdf q) (fun x => (x i * starRingEnd ℂ (x j)).im)
      ((cmvCircular d).toExp q i j).im := by
  have hs := (cmvCircular_exp_hermitian h).apply i j
  have key : ∀ (z : ℂ) (p : Matrix (Fin d) (Fin d) ℂ),
      (cmvCircular d).dot (Matrix.single i j z + Matrix.single j i (star z)) p =
      (z * p i j).re + (star z * p j i).re := by
    intro z p
    simp only [cmvCircular, Matrix.add_apply, Matrix.single_apply, add_mul, Finset.sum_add_distrib,
      ite_and, ite_mul, zero_mul, Finset.sum_ite_eq, Finset.mem_univ, if_true, Finset.sum_ite_irrel,
      Finset.sum_const_zero, add_re]
  have hv : ∀ z : ℂ, Matrix.single i j z + Matrix.single j i (star z) ∈ hermitianDirs d := by
    intro z
    show (Matrix.single i j z + Matrix.single j i (star z)).IsHermitian
    rw [IsHermitian, conjTranspose_add, conjTranspose_single, conjTranspose_single, star_star, add_comm]
  refine ⟨(((cmvCircular_regular d).mean_dot h (hv 1)).const_mul 0.5).congr (fun x => ?_) ?_,
    (((cmvCircular_regular d).mean_dot h (hv (-I))).const_mul 0.5).congr (fun x => ?_) ?_⟩
  · rw [key]
    simp [cmvCircular, vecMulVec_apply]
    ring
  · rw [key, ← hs]
    simp
    ring
  · rw [key]
    simp [cmvCircular, vecMulVec_apply]
    ring
  · rw [key, ← hs]
    simp
    ring

/-! ### C36 -/

theorem complexUnit_eq (q : ℂ) : ((q, -1, 0) : ComplexNormalParams) ∈ complexNormalDom ∧
    complexNormal.logNormalizer (q, -1, 0) = complexUnit.logNormalizer q ∧
    (complexNormal.toExp (q, -1, 0)).2.1 = 1 + normSq (complexUnit.toExp q) := by
  have e : normSq (0.5 : ℂ) = 0.25 := by
    rw [show (0.5 : ℂ) = ((0.5 : ℝ) : ℂ) by norm_num, normSq_ofReal]; norm_num
  refine ⟨by simp [complexNormalDom], ?_, ?_⟩
  · simp [complexNormal, complexUnit, complexNormalRSMu, e]
    ring
  · simp [complexNormal, complexUnit, complexNormalRSMu, e]
    ring

theorem cmvUnit_second {d : ℕ} (q : Fin d → ℂ) (i : Fin d) :
    HasMean volume ((cmvUnit d).pdf q) (fun x => normSq (x i))
      (1 + normSq ((cmvUnit d).toExp q i)) := by
  have h := (complexNormal_regular.pow d).mean_dot (η := fun i => (q i, -1, 0))
    (fun i => (complexUnit_eq (q i)).1) (v := Pi.single i (0, 1, 0)) trivial
  have e : (cmvUnit d).pdf q = (complexNormal.pow d).pdf fun i => (q i, -1, 0) := by
    funext x
    simp only [ExpFam.pdf, ExpFam.logPdf, ExpFam.pow, (complexUnit_eq (q _)).2.1]
    congr 1
    simp [cmvUnit, complexUnit, complexNormal, Finset.sum_add_distrib]
    ring
  have e2 : ∀ p : Fin d → ComplexNormalParams,
      (complexNormal.pow d).dot (Pi.single i (0, 1, 0)) p = (p i).2.1 := by
    intro p
    simp only [ExpFam.pow]
    rw [Finset.sum_eq_single i]
    · simp [complexNormal]
    · intro j _ hj
      simp [complexNormal, hj]
    · simp
  rw [e]
  refine h.congr (fun x => by rw [e2]; rfl) ?_
  rw [e2]
  exact (complexUnit_eq (q i)).2.2.symm

theorem C36_complex_unit (q : ℂ) :
    HasMean volume (complexUnit.pdf q) complexUnit.carrier
      (complexUnitEcm (complexUnit.toExp q)) := by
  obtain ⟨hd, e1, e2⟩ := complexUnit_eq q
  have h := (C30_complex_normal hd).2.2.1
  have e : complexUnit.pdf q = complexNormal.pdf (q, -1, 0) := by
    funext x
    rw [ExpFam.pdf, ExpFam.pdf, ExpFam.logPdf, ExpFam.logPdf, e1]
    congr 1
    simp [complexNormal, complexUnit]
    ring
  rw [e]
  refine (h.const_mul (-1)).congr (fun x => by simp [complexUnit, normSq_eq_norm_sq]) ?_
  rw [e2]
  simp only [complexUnitEcm]
  ring

theorem C36_cmv_unit {d : ℕ} (q : Fin d → ℂ) :
    HasMean volume ((cmvUnit d).pdf q) (cmvUnit d).carrier
      (cmvUnitEcm ((cmvUnit d).toExp q)) := by
  refine ((HasMean.sum Finset.univ fun i _ => cmvUnit_second q i).const_mul (-1)).congr
    (fun x => ?_) ?_
  · simp [cmvUnit]
  · simp only [cmvUnitEcm, Finset.sum_add_distrib, Finset.sum_const, Finset.card_univ,
      Fintype.card_fin, nsmul_eq_mul]
    ring

theorem C36_complex_normal {q : ComplexNormalParams} (h : q ∈ complexNormalDom) :
    HasMean volume (complexNormal.pdf q) complexNormal.carrier
      (complexNormalEcm (complexNormal.toExp q)) :=
  .const (complexNormal_regular.density q h) 0

theorem C36_cmv_circular {d : ℕ} {q : Matrix (Fin d) (Fin d) ℂ} (h : q ∈ cmvCircularDom d) :
    HasMean volume ((cmvCircular d).pdf q) (cmvCircular d).carrier
      (cmvCircularEcm ((cmvCircular d).toExp q)) :=
  .const ((cmvCircular_regular d).density q h) 0

/-! ### C31 -/

theorem conj_half : (starRingEnd ℂ) 0.5 = (0.5 : ℂ) := by
  rw [show (0.5 : ℂ) = ((0.5 : ℝ) : ℂ) by norm_num, conj_ofReal]

theorem C31_complex_unit : Inverses complexUnit.toExp complexUnitToNat univ univ := by
  refine ⟨fun q _ => ⟨trivial, ?_⟩, fun m _ => ⟨trivial, ?_⟩⟩ <;>
  · simp [complexUnit, complexUnitToNat, conj_half, conj_ofNat]
    ring

theorem C31_cmv_unit {d : ℕ} :
    Inverses (cmvUnit d).toExp cmvUnitToNat univ (univ : Set (Fin d → ℂ)) :=
  ⟨fun q _ => ⟨trivial, funext fun i => (C31_complex_unit.1 (q i) trivial).2⟩,
    fun m _ => ⟨trivial, funext fun i => (C31_complex_unit.2 (m i) trivial).2⟩⟩

theorem C31_complex_normal : Inverses complexNormal.toExp complexNormalToNat complexNormalDom
    {χ | ‖χ.2.2 - χ.1 ^ 2‖ < χ.2.1 - ‖χ.1‖ ^ 2} := by
  refine ⟨fun q h => ?_, fun χ h => ?_⟩
  · obtain ⟨hh, hD⟩ := complexNormal_dom h
    have hn : ‖q.2.2‖ < -q.2.1 := h
    have hs := (complexNormal_mu hh.ne hD.ne').1
    have hu := complexNormal_u hh.ne hD.ne'
    have hm := complexNormal_mu_eq hh.ne hD.ne'
    obtain ⟨η, h', J⟩ := q
    simp only at hh hD hn hs hu hm
    have hJ : (normSq J : ℂ) = J * starRingEnd ℂ J := (mul_conj J).symm
    generalize hg : h' ^ 2 - normSq J = D at *
    have hgc : (h' : ℂ) ^ 2 - J * starRingEnd ℂ J = D := by rw [← hg, ← hJ]; push_cast; rfl
    have hDc : (D : ℂ) ≠ 0 := ofReal_ne_zero.2 hD.ne'
    have hhc : (h' : ℂ) ≠ 0 := ofReal_ne_zero.2 hh.ne
    have e1 : (complexNormal.toExp (η, h', J)).2.1 - normSq (complexNormal.toExp (η, h', J)).1 =
        -h' / D := by
      simp only [complexNormal, hs]; ring
    have e2 : (complexNormal.toExp (η, h', J)).2.2 - (complexNormal.toExp (η, h', J)).1 ^ 2 =
        starRingEnd ℂ J / D := by
      simp only [complexNormal, hu]; ring
    refine ⟨?_, ?_⟩
    · rw [mem_setOf_eq, ← normSq_eq_norm_sq, e1, e2, norm_div, norm_real, Real.norm_of_nonneg hD.le,
        RCLike.norm_conj]
      gcongr
    · have e3 : starRingEnd ℂ (starRingEnd ℂ J / D) / ((-h' / D : ℝ) : ℂ) = -J / h' := by
        rw [map_div₀, conj_conj, conj_ofReal]
        push_cast
        field_simp
      have e4 : ((-h' / D : ℝ) : ℂ) - starRingEnd ℂ (-J / h' * (starRingEnd ℂ J / D)) = -1 / h' := by
        simp only [map_mul, map_div₀, map_neg, conj_conj, conj_ofReal]
        push_cast
        field_simp
        linear_combination -hgc
      have e5 : (1 : ℂ) / (-1 / h') = ((-h' : ℝ) : ℂ) := by
        push_cast
        field_simp
      simp only [complexNormalToNat, e1, e2, e3, e4, e5, ofReal_re, neg_neg]
      have e6 : -J / h' * ((-h' : ℝ) : ℂ) = J := by
        push_cast
        field_simp
      rw [e6]
      refine Prod.ext ?_ rfl
      simp only [complexNormal, hm, map_div₀, map_add, map_mul, map_neg, conj_conj, conj_ofReal]
      push_cast
      field_simp
      linear_combination η * hgc
  · have h : ‖χ.2.2 - χ.1 ^ 2‖ < χ.2.1 - ‖χ.1‖ ^ 2 := h
    obtain ⟨m, w, p⟩ := χ
    rw [← normSq_eq_norm_sq] at h
    simp only at h
    generalize hs : w - normSq m = s at h
    generalize hu : p - m ^ 2 = u at h
    have hs0 : 0 < s := (norm_nonneg u).trans_lt h
    have hE : 0 < s ^ 2 - normSq u := by
      rw [normSq_eq_norm_sq]
      have := norm_nonneg u
      nlinarith
    have hU : (normSq u : ℂ) = u * starRingEnd ℂ u := (mul_conj u).symm
    generalize hg : s ^ 2 - normSq u = E at hE
    have hgc : (s : ℂ) ^ 2 - u * starRingEnd ℂ u = E := by rw [← hg, ← hU]; push_cast; rfl
    have hEc : (E : ℂ) ≠ 0 := ofReal_ne_zero.2 hE.ne'
    have hsc : (s : ℂ) ≠ 0 := ofReal_ne_zero.2 hs0.ne'
    have et : complexNormalToNat (m, w, p) =
        (-2 * (((-(s / E) : ℝ) : ℂ) * starRingEnd ℂ m + starRingEnd ℂ u / E * m), -(s / E),
          starRingEnd ℂ u / E) := by
      have e4 : (1 : ℂ) / (s - starRingEnd ℂ (starRingEnd ℂ u / s * u)) = ((s / E : ℝ) : ℂ) := by
        have : (s : ℂ) - starRingEnd ℂ (starRingEnd ℂ u / s * u) = E / s := by
          simp only [map_mul, map_div₀, conj_conj, conj_ofReal]
          field_simp
          linear_combination hgc
        rw [this]
        push_cast
        field_simp
      have e5 : starRingEnd ℂ u / s * ((s / E : ℝ) : ℂ) = starRingEnd ℂ u / E := by
        push_cast
        field_simp
      simp only [complexNormalToNat, hs, hu, e4, e5, ofReal_re]
    have hD : (-(s / E)) ^ 2 - normSq (starRingEnd ℂ u / E) = 1 / E := by
      rw [normSq_div, normSq_conj, normSq_ofReal]
      field_simp
      linarith
    have hh : -(s / E) ≠ 0 := (neg_neg_of_pos (div_pos hs0 hE)).ne
    have hD0 : (1 / E : ℝ) ≠ 0 := (one_div_pos.2 hE).ne'
    have k := fun η => (complexNormal_mu (q := (η, -(s / E), starRingEnd ℂ u / E)) hh
      (by rw [hD]; exact hD0)).1
    have ku := fun η => complexNormal_u (q := (η, -(s / E), starRingEnd ℂ u / E)) hh
      (by rw [hD]; exact hD0)
    have km := fun η => complexNormal_mu_eq (q := (η, -(s / E), starRingEnd ℂ u / E)) hh
      (by rw [hD]; exact hD0)
    simp only [hD] at k ku km
    refine ⟨?_, ?_⟩
    · rw [et]
      show ‖starRingEnd ℂ u / E‖ < - -(s / E)
      rw [norm_div, norm_real, Real.norm_of_nonneg hE.le, RCLike.norm_conj, neg_neg]
      gcongr
    · rw [et]
      simp only [complexNormal, ku, km]
      simp only [k]
      have e1 : (-((-(s / E) : ℝ) : ℂ) * starRingEnd ℂ (-2 * (((-(s / E) : ℝ) : ℂ) *
          starRingEnd ℂ m + starRingEnd ℂ u / E * m)) + starRingEnd ℂ (starRingEnd ℂ u / E) *
          (-2 * (((-(s / E) : ℝ) : ℂ) * starRingEnd ℂ m + starRingEnd ℂ u / E * m))) /
          ((2 * (1 / E) : ℝ) : ℂ) = m := by
        simp only [map_mul, map_div₀, map_neg, map_add, conj_conj, conj_ofReal, conj_ofNat]
        push_cast
        field_simp
        linear_combination m * hgc
      have e2 : starRingEnd ℂ (starRingEnd ℂ u / E) / ((1 / E : ℝ) : ℂ) = u := by
        rw [map_div₀, conj_conj, conj_ofReal]
        push_cast
        field_simp
      have e3 : - -(s / E) / (1 / E) = s := by
        field_simp
      rw [e1, e2, e3, ← hs, ← hu]
      simp

theorem hermitian_map_conj {d : ℕ} {M : Matrix (Fin d) (Fin d) ℂ} (h : M.IsHermitian) :
    M.map (starRingEnd ℂ) = Mᵀ := by
  ext i j
  exact h.apply j i

open scoped ComplexOrder in
theorem C31_cmv_circular {d : ℕ} : Inverses (cmvCircular d).toExp cmvCircularToNat
    (cmvCircularDom d) {χ | χ.PosDef} := by
  refine ⟨fun q h => ?_, fun χ h => ?_⟩
  · have h : (-q).PosDef := h
    have hu : IsUnit (-q).det := (isUnit_iff_isUnit_det _).1 h.isUnit
    have e : (cmvCircular d).toExp q = ((-q)⁻¹)ᵀ := hermitian_map_conj h.isHermitian.inv
    rw [e]
    refine ⟨h.inv.transpose, ?_⟩
    rw [cmvCircularToNat, ← transpose_nonsing_inv, nonsing_inv_nonsing_inv _ hu,
      hermitian_map_conj h.transpose.isHermitian, transpose_transpose, neg_neg]
  · have h : χ.PosDef := h
    have hu : IsUnit χ.det := (isUnit_iff_isUnit_det _).1 h.isUnit
    have e : cmvCircularToNat χ = -(χ⁻¹)ᵀ := by
      rw [cmvCircularToNat, hermitian_map_conj h.isHermitian.inv]
    rw [e]
    refine ⟨?_, ?_⟩
    · show (- -(χ⁻¹)ᵀ).PosDef
      rw [neg_neg]
      exact h.inv.transpose
    · simp only [cmvCircular, neg_neg]
      rw [← transpose_nonsing_inv, nonsing_inv_nonsing_inv _ hu,
        hermitian_map_conj h.transpose.isHermitian, transpose_transpose]

open scoped ComplexOrder in
/-- The hypotheses are satisfiable. -/
example : ((3 + I, -2, 1 + I) : ComplexNormalParams) ∈ complexNormalDom ∧
    (-1 : Matrix (Fin 4) (Fin 4) ℂ) ∈ cmvCircularDom 4 := by
  constructor
  · show ‖1 + I‖ < - -2
    refine lt_of_pow_lt_pow_left₀ 2 (by norm_num) ?_
    rw [← normSq_eq_norm_sq, normSq_apply]
    norm_num
  · show (-(-1 : Matrix (Fin 4) (Fin 4) ℂ)).PosDef
    rw [neg_neg]
    exact PosDef.one

end Efax
