import Verif.Model.Families.ComplexNormal
import Verif.Lemmas.Families.MvFull
import Mathlib.MeasureTheory.Measure.Lebesgue.Complex

/-!
# Complex normal families are regular
-/

namespace Efax

open MeasureTheory Spec Set Matrix Complex

/-! ### Unit variance -/

/-- The parameters of the real family for a parameter of the complex unit normal family. -/
def complexUnitReal : ℂ →ₗ[ℝ] (Fin 2 → ℝ) where
  toFun q := ![q.re, -q.im]
  map_add' a b := by ext i; fin_cases i <;> simp; ring
  map_smul' c a := by ext i; fin_cases i <;> simp

theorem complexUnit_logNormalizer (q : ℂ) : complexUnit.logNormalizer q =
    (mvFixed 2 0.5).logNormalizer (complexUnitReal q) := by
  simp only [complexUnit, mvFixed, complexUnitReal, LinearMap.coe_mk, AddHom.coe_mk, Fin.sum_univ_two,
    Matrix.cons_val_zero, Matrix.cons_val_one, map_mul, normSq_apply q]
  have e : Real.pi * 2 * 0.5 = Real.pi := by ring
  rw [e]
  have e2 : normSq (0.5 : ℂ) = 0.25 := by
    rw [show (0.5 : ℂ) = ((0.5 : ℝ) : ℂ) by norm_num, normSq_ofReal]; norm_num
  rw [e2]
  push_cast
  ring

theorem complexUnit_regular : Regular complexUnit volume univ ⊤ := by
  refine (mvFixed_regular 2 (v := 0.5) (by norm_num)).transport measurableEquivPi
    volume_preserving_equiv_pi measurableEquivPi.measurableEmbedding complexUnitReal complexUnitReal
    (fun q t v => by rw [map_add, map_smul]) (fun η v t w => ?_)
    (fun q => ⟨fun _ => ⟨trivial, trivial⟩, fun _ => trivial⟩)
    (fun _ _ => trivial) (fun q _ x => ?_) 0
    (fun q _ => by rw [complexUnit_logNormalizer, add_zero]) fun q _ v _ => ?_
  · simp [complexUnit, add_mul]
    ring
  · rw [ExpFam.pdf, ExpFam.pdf, ExpFam.logPdf, ExpFam.logPdf, complexUnit_logNormalizer]
    congr 1
    simp [complexUnit, mvFixed, complexUnitReal, measurableEquivPi_apply, normSq_apply]
    norm_num
    ring
  · simp [complexUnit, mvFixed, complexUnitReal]

theorem complexUnitReal_injective : Function.Injective complexUnitReal := by
  intro a b h
  have h0 := congrFun h 0
  have h1 := congrFun h 1
  simp [complexUnitReal] at h0 h1
  exact Complex.ext h0 h1

theorem complexUnit_minimal : Minimal complexUnit volume ⊤ :=
  (mvFixed_minimal 2 0.5).transport measurableEquivPi volume_preserving_equiv_pi
    measurableEquivPi.measurableEmbedding complexUnitReal (fun _ _ => trivial)
    complexUnitReal_injective fun v x => by
      simp [complexUnit, mvFixed, complexUnitReal, measurableEquivPi_apply]
      ring

theorem cmvUnit_regular (d : ℕ) : Regular (cmvUnit d) volume univ ⊤ := by
  refine (complexUnit_regular.pow d).pullback id LinearMap.id
    (fun q t v => rfl) (fun η v t w => ?_)
    (fun q => ⟨fun _ => ⟨trivial, fun _ => trivial⟩, fun _ => trivial⟩)
    (fun _ _ => trivial) (fun q _ x => ?_) 0 (fun q _ => ?_) fun q _ v _ => ?_
  · simp only [cmvUnit, re_sum, Pi.add_apply, Pi.smul_apply, add_mul, add_re, Finset.sum_add_distrib,
      Finset.mul_sum, smul_mul_assoc, smul_re, smul_eq_mul]
  · simp [ExpFam.pdf, ExpFam.logPdf, cmvUnit, ExpFam.pow, complexUnit, Finset.sum_add_distrib]
  · simp [cmvUnit, ExpFam.pow, complexUnit, Finset.sum_add_distrib]
  · simp [cmvUnit, ExpFam.pow, complexUnit]

theorem cmvUnit_minimal (d : ℕ) : Minimal (cmvUnit d) volume ⊤ := by
  intro v _ c h
  have hc : ContinuousOn (fun x : Fin d → ℂ => (∑ i, v i * x i).re) univ := by
    fun_prop
  rw [← Measure.restrict_univ (μ := (volume : Measure (Fin d → ℂ)))] at h
  have hall := ae_open (μ := volume) isOpen_univ hc h
  have h0 := hall 0 trivial
  simp only [Pi.zero_apply, mul_zero, Finset.sum_const_zero, zero_re] at h0
  subst h0
  funext i
  have h1 := hall (Pi.single i 1) trivial
  have h2 := hall (Pi.single i I) trivial
  simp [Pi.single_apply] at h1 h2
  exact Complex.ext (by simpa using h1) (by simpa using h2)

/-! ### Arbitrary variance and pseudo-variance -/

/-- The parameters of the real family for a parameter of the complex normal family. -/
def complexNormalReal : ComplexNormalParams →ₗ[ℝ] ((Fin 2 → ℝ) × Matrix (Fin 2) (Fin 2) ℝ) where
  toFun q := (![q.1.re, -q.1.im], !![q.2.1 + q.2.2.re, -q.2.2.im; -q.2.2.im, q.2.1 - q.2.2.re])
  map_add' a b := by
    refine Prod.ext ?_ ?_
    · ext i; fin_cases i <;> simp; ring
    · ext i j; fin_cases i <;> fin_cases j <;> simp <;> ring
  map_smul' c a := by
    refine Prod.ext ?_ ?_
    · ext i; fin_cases i <;> simp
    · ext i j; fin_cases i <;> fin_cases j <;> simp <;> ring

theorem complexNormalReal_injective : Function.Injective complexNormalReal := by
  rintro ⟨a, h, J⟩ ⟨a', h', J'⟩ e
  have e0 := congrFun (congrArg Prod.fst e) 0
  have e1 := congrFun (congrArg Prod.fst e) 1
  have e2 := congrFun (congrFun (congrArg Prod.snd e) 0) 0
  have e3 := congrFun (congrFun (congrArg Prod.snd e) 0) 1
  have e4 := congrFun (congrFun (congrArg Prod.snd e) 1) 1
  simp [complexNormalReal] at e0 e1 e2 e3 e4
  have : h = h' := by linarith
  subst this
  exact Prod.ext (Complex.ext e0 e1) (Prod.ext rfl (Complex.ext (by simpa using e2) e3))

theorem complexNormal_form (q : ComplexNormalParams) (x : Fin 2 → ℝ) :
    x ⬝ᵥ (-(complexNormalReal q).2) *ᵥ x =
      -q.2.1 * normSq ⟨x 0, x 1⟩ - (q.2.2 * (⟨x 0, x 1⟩ : ℂ) ^ 2).re := by
  simp [complexNormalReal, dotProduct, mulVec, Fin.sum_univ_two, normSq_apply, pow_two]
  ring

theorem complexNormal_det (q : ComplexNormalParams) :
    (complexNormalReal q).2.det = q.2.1 ^ 2 - normSq q.2.2 := by
  simp [complexNormalReal, det_fin_two_of, normSq_apply]
  ring

theorem complexNormal_symm (q : ComplexNormalParams) : (complexNormalReal q).2.IsSymm := by
  ext i j; fin_cases i <;> fin_cases j <;> simp [complexNormalReal]

theorem complexNormalDom_iff (q : ComplexNormalParams) :
    q ∈ complexNormalDom ↔ complexNormalReal q ∈ mvNormalDom 2 := by
  have hH : (-(complexNormalReal q).2).IsHermitian := by
    rw [IsHermitian, conjTranspose_eq_transpose_of_trivial]
    exact (complexNormal_symm q).neg
  constructor
  · intro h
    have h : ‖q.2.2‖ < -q.2.1 := h
    show (-(complexNormalReal q).2).PosDef
    rw [posDef_iff_dotProduct_mulVec]
    refine ⟨hH, fun {x} hx => ?_⟩
    rw [star_trivial, complexNormal_form]
    have hz : (⟨x 0, x 1⟩ : ℂ) ≠ 0 := by
      intro h0
      refine hx (funext fun i => ?_)
      have a := congrArg re h0
      have b := congrArg im h0
      fin_cases i
      · simpa using a
      · simpa using b
    have hp : 0 < normSq ⟨x 0, x 1⟩ := normSq_pos.2 hz
    have hb : (q.2.2 * (⟨x 0, x 1⟩ : ℂ) ^ 2).re ≤ ‖q.2.2‖ * normSq ⟨x 0, x 1⟩ := by
      refine (re_le_norm _).trans ?_
      rw [norm_mul, norm_pow, normSq_eq_norm_sq]
    nlinarith
  · intro h
    have h : (-(complexNormalReal q).2).PosDef := h
    have d0 := h.diag_pos (i := 0)
    have d1 := h.diag_pos (i := 1)
    have dd := h.det_pos
    rw [det_neg, complexNormal_det] at dd
    simp [complexNormalReal] at d0 d1 dd
    show ‖q.2.2‖ < -q.2.1
    rw [normSq_eq_norm_sq] at dd
    have hn : 0 < -q.2.1 := by linarith
    exact lt_of_pow_lt_pow_left₀ 2 hn.le (by rw [neg_sq]; linarith)

/-- The intermediate quantities in real terms. -/
theorem complexNormal_mu {q : ComplexNormalParams} (hh : q.2.1 ≠ 0)
    (hD : q.2.1 ^ 2 - normSq q.2.2 ≠ 0) :
    (complexNormalRSMu q).2.1 = -q.2.1 / (q.2.1 ^ 2 - normSq q.2.2) ∧
    (complexNormalRSMu q).2.2.re =
      (-q.2.1 * q.1.re + q.2.2.re * q.1.re + q.2.2.im * q.1.im) /
        (2 * (q.2.1 ^ 2 - normSq q.2.2)) ∧
    (complexNormalRSMu q).2.2.im =
      (q.2.1 * q.1.im + q.2.2.re * q.1.im - q.2.2.im * q.1.re) /
        (2 * (q.2.1 ^ 2 - normSq q.2.2)) := by
  obtain ⟨⟨a, b⟩, h, ⟨x, y⟩⟩ := q
  have hh : h ≠ 0 := hh
  have hD : h ^ 2 - normSq ⟨x, y⟩ ≠ 0 := hD
  have e : (normSq ((⟨x, y⟩ : ℂ) / h) - 1) * h = -(h ^ 2 - normSq ⟨x, y⟩) / h := by
    rw [normSq_div, normSq_ofReal]
    field_simp
    ring
  have e' : (normSq (-(⟨x, y⟩ : ℂ) / h) - 1) * h = -(h ^ 2 - normSq ⟨x, y⟩) / h := by
    rw [neg_div, normSq_neg, e]
  simp only [complexNormalRSMu, e, e']
  generalize hg : h ^ 2 - normSq ⟨x, y⟩ = D at *
  have e5 : (0.5 : ℂ) = ((0.5 : ℝ) : ℂ) := by norm_num
  refine ⟨by field_simp, ?_, ?_⟩
  · simp only [e5, sub_re, mul_re, conj_re, conj_im, div_ofReal_re, div_ofReal_im, re_ofReal_mul,
      im_ofReal_mul, ofReal_re, ofReal_im]
    field_simp
    ring
  · simp only [e5, sub_im, mul_im, conj_re, conj_im, div_ofReal_re, div_ofReal_im, re_ofReal_mul,
      im_ofReal_mul, ofReal_re, ofReal_im]
    field_simp
    ring

theorem complexNormal_inv {q : ComplexNormalParams} (hD : q.2.1 ^ 2 - normSq q.2.2 ≠ 0) :
    (complexNormalReal q).2⁻¹ = (q.2.1 ^ 2 - normSq q.2.2)⁻¹ •
      !![q.2.1 - q.2.2.re, q.2.2.im; q.2.2.im, q.2.1 + q.2.2.re] := by
  rw [Matrix.inv_def, complexNormal_det, Ring.inverse_eq_inv']
  simp [complexNormalReal, adjugate_fin_two_of]

theorem complexNormal_dom {q : ComplexNormalParams} (h : q ∈ complexNormalDom) :
    q.2.1 < 0 ∧ 0 < q.2.1 ^ 2 - normSq q.2.2 := by
  have h : ‖q.2.2‖ < -q.2.1 := h
  have := norm_nonneg q.2.2
  rw [normSq_eq_norm_sq]
  constructor
  · linarith
  · nlinarith

theorem complexNormal_logNormalizer {q : ComplexNormalParams} (h : q ∈ complexNormalDom) :
    complexNormal.logNormalizer q = (mvNormal 2).logNormalizer (complexNormalReal q) := by
  obtain ⟨hh, hD⟩ := complexNormal_dom h
  obtain ⟨hs, hr, hi⟩ := complexNormal_mu hh.ne hD.ne'
  rw [mvNormal_logNormalizer, det_neg, complexNormal_det, complexNormal_inv hD.ne']
  simp only [complexNormal, hs, Fintype.card_fin]
  rw [Real.log_div (by linarith) hD.ne', normSq_apply (complexNormalRSMu q).2.2, pow_two, mul_re,
    mul_re, mul_im, hr, hi]
  have e : complexNormalReal q = (![q.1.re, -q.1.im],
    !![q.2.1 + q.2.2.re, -q.2.2.im; -q.2.2.im, q.2.1 - q.2.2.re]) := rfl
  rw [e]
  simp only [dotProduct, mulVec, Fin.sum_univ_two, Matrix.smul_apply, of_apply, cons_val', cons_val_zero,
    cons_val_one, cons_val_fin_one, smul_eq_mul]
  rw [normSq_apply q.2.2] at hD ⊢
  generalize hg : q.2.1 ^ 2 - (q.2.2.re * q.2.2.re + q.2.2.im * q.2.2.im) = D at *
  have hD' := hD.ne'
  norm_num
  field_simp
  rw [← hg]
  ring

theorem complexNormal_u {q : ComplexNormalParams} (hh : q.2.1 ≠ 0)
    (hD : q.2.1 ^ 2 - normSq q.2.2 ≠ 0) :
    starRingEnd ℂ ((complexNormalRSMu q).1 * (complexNormalRSMu q).2.1) =
      starRingEnd ℂ q.2.2 / ((q.2.1 ^ 2 - normSq q.2.2 : ℝ) : ℂ) := by
  rw [(complexNormal_mu hh hD).1]
  have h1 : (q.2.1 : ℂ) ≠ 0 := ofReal_ne_zero.2 hh
  have h2 : ((q.2.1 ^ 2 - normSq q.2.2 : ℝ) : ℂ) ≠ 0 := ofReal_ne_zero.2 hD
  have h3 : (complexNormalRSMu q).1 * ((-q.2.1 / (q.2.1 ^ 2 - normSq q.2.2) : ℝ) : ℂ) =
      q.2.2 / ((q.2.1 ^ 2 - normSq q.2.2 : ℝ) : ℂ) := by
    simp only [complexNormalRSMu]
    rw [ofReal_div, ofReal_neg]
    field_simp
  rw [h3, map_div₀, conj_ofReal]

theorem complexNormal_mu_eq {q : ComplexNormalParams} (hh : q.2.1 ≠ 0)
    (hD : q.2.1 ^ 2 - normSq q.2.2 ≠ 0) :
    (complexNormalRSMu q).2.2 = (-q.2.1 * starRingEnd ℂ q.1 + starRingEnd ℂ q.2.2 * q.1) /
      ((2 * (q.2.1 ^ 2 - normSq q.2.2) : ℝ) : ℂ) := by
  obtain ⟨-, h1, h2⟩ := complexNormal_mu hh hD
  refine Complex.ext ?_ ?_
  · rw [h1, div_ofReal_re]
    simp
    ring
  · rw [h2, div_ofReal_im]
    simp
    ring

theorem complexNormal_regular : Regular complexNormal volume complexNormalDom ⊤ := by
  refine (mvNormal_regular 2).transport measurableEquivPi
    volume_preserving_equiv_pi measurableEquivPi.measurableEmbedding complexNormalReal
    complexNormalReal (fun q t v => by rw [map_add, map_smul]) (fun η v t w => ?_)
    (fun q => ⟨fun h => ⟨trivial, (complexNormalDom_iff q).1 h⟩,
      fun h => (complexNormalDom_iff q).2 h.2⟩)
    (fun v _ => complexNormal_symm v) (fun q hq x => ?_) 0
    (fun q hq => by rw [complexNormal_logNormalizer hq, add_zero]) fun q hq v _ => ?_
  · simp [complexNormal, add_mul]
    ring
  · rw [ExpFam.pdf, ExpFam.pdf, mvNormal_logPdf, ExpFam.logPdf, complexNormal_logNormalizer hq]
    congr 1
    simp [complexNormal, complexNormalReal, measurableEquivPi_apply, normSq_apply, dotProduct, mulVec,
      Fin.sum_univ_two, pow_two]
    ring
  · obtain ⟨hh, hD⟩ := complexNormal_dom hq
    obtain ⟨hs, hr, hi⟩ := complexNormal_mu hh.ne hD.ne'
    have hu := complexNormal_u hh.ne hD.ne'
    have hm : ∀ i, (complexNormalReal q).2⁻¹.mulVec (complexNormalReal q).1 i =
        -2 * ![(complexNormalRSMu q).2.2.re, (complexNormalRSMu q).2.2.im] i := by
      intro i
      rw [complexNormal_inv hD.ne', hr, hi]
      generalize hg : q.2.1 ^ 2 - normSq q.2.2 = D at *
      have hD' := hD.ne'
      fin_cases i <;> simp [complexNormalReal, mulVec, dotProduct, Fin.sum_univ_two] <;> field_simp <;>
        ring
    simp only [complexNormal, mvNormal, hu, Fin.sum_univ_two, Matrix.sub_apply, Matrix.smul_apply,
      vecMulVec_apply, Pi.smul_apply, hm]
    rw [complexNormal_inv hD.ne', hs]
    have e : ∀ v, complexNormalReal v = (![v.1.re, -v.1.im],
      !![v.2.1 + v.2.2.re, -v.2.2.im; -v.2.2.im, v.2.1 - v.2.2.re]) := fun _ => rfl
    simp only [e, Matrix.smul_apply, of_apply, cons_val', cons_val_zero,
      cons_val_one, cons_val_fin_one, smul_eq_mul, mul_re, add_re, pow_two, mul_im, add_im,
      div_ofReal_re, div_ofReal_im, conj_re, conj_im, normSq_apply (complexNormalRSMu q).2.2]
    generalize hg : q.2.1 * q.2.1 - normSq q.2.2 = D at *
    rw [pow_two, hg] at hD
    have hD' := hD.ne'
    norm_num
    field_simp
    ring

theorem complexNormal_minimal : Minimal complexNormal volume ⊤ :=
  (mvNormal_minimal 2).transport measurableEquivPi volume_preserving_equiv_pi
    measurableEquivPi.measurableEmbedding complexNormalReal (fun v _ => complexNormal_symm v)
    complexNormalReal_injective fun v x => by
      simp [complexNormal, mvNormal, complexNormalReal, measurableEquivPi_apply, vecMulVec_apply,
        normSq_apply, pow_two]
      ring

end Efax
