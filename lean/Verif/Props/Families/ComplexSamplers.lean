import Verif.Props.Families.DiscreteSamplers
import Verif.Props.Families.ComplexCarrier
import Verif.Lemmas.Families.CmvCircular
import Mathlib.MeasureTheory.Measure.Lebesgue.Complex

/-!
# Samplers of complex normal families (C46, C49)
-/

namespace Efax

open MeasureTheory Spec Set Matrix Complex

open scoped ComplexOrder

open scoped MatrixOrder in
/-- A factorization of a positive definite matrix exists, so the hypotheses on `factor` can be met. -/
theorem C46_factor_exists {ι : Type} [Fintype ι] [DecidableEq ι] :
    ∃ factor : Matrix ι ι ℝ → Matrix ι ι ℝ, ∀ V : Matrix ι ι ℝ, V.PosDef →
      factor V * (factor V)ᵀ = V := by
  have h : ∀ V : Matrix ι ι ℝ, ∃ L : Matrix ι ι ℝ, V.PosDef → L * Lᵀ = V := by
    intro V
    by_cases hV : V.PosDef
    · obtain ⟨B, hB⟩ := CStarAlgebra.nonneg_iff_eq_star_mul_self.mp hV.posSemidef.nonneg
      refine ⟨Bᵀ, fun _ => ?_⟩
      rw [hB, transpose_transpose, star_eq_conjTranspose, conjTranspose_eq_transpose_of_trivial]
    · exact ⟨0, fun h => absurd h hV⟩
  choose factor hf using h
  exact ⟨factor, hf⟩

/-! ### The complex normal family -/

/-- The matrix passed to the primitive is positive definite. -/
theorem C46_complex_normal_cov {χ : ComplexNormalParams}
    (h : ‖χ.2.2 - χ.1 ^ 2‖ < χ.2.1 - ‖χ.1‖ ^ 2) : (complexNormalCov χ).PosDef := by
  have hv : ‖χ.2.2 - χ.1 ^ 2‖ < χ.2.1 - normSq χ.1 := by rwa [normSq_eq_norm_sq]
  have hn := normSq_eq_norm_sq (χ.2.2 - χ.1 ^ 2)
  rw [posDef_iff_dotProduct_mulVec]
  refine ⟨?_, fun {x} hx => ?_⟩
  · rw [IsHermitian, conjTranspose_eq_transpose_of_trivial]
    ext i j
    fin_cases i <;> fin_cases j <;> simp [complexNormalCov]
  · rw [star_trivial]
    have hx' : 0 < x 0 ^ 2 + x 1 ^ 2 := by
      by_contra hc
      have h0 : x 0 ^ 2 = 0 := by nlinarith [sq_nonneg (x 0), sq_nonneg (x 1)]
      have h1 : x 1 ^ 2 = 0 := by nlinarith [sq_nonneg (x 0), sq_nonneg (x 1)]
      refine hx (funext fun i => ?_)
      fin_cases i
      · simpa using h0
      · simpa using h1
    generalize hu : χ.2.2 - χ.1 ^ 2 = u at *
    generalize hw : χ.2.1 - normSq χ.1 = v at *
    have e : x ⬝ᵥ complexNormalCov χ *ᵥ x = 0.5 * (v * (x 0 ^ 2 + x 1 ^ 2) +
        (u.re * (x 0 ^ 2 - x 1 ^ 2) + 2 * u.im * (x 0 * x 1))) := by
      simp only [complexNormalCov, hu, hw, dotProduct, mulVec, Fin.sum_univ_two]
      simp
      ring
    rw [e]
    have h1 : |u.re * (x 0 ^ 2 - x 1 ^ 2) + 2 * u.im * (x 0 * x 1)| ≤
        ‖u‖ * (x 0 ^ 2 + x 1 ^ 2) := by
      refine abs_le_of_sq_le_sq ?_ (by positivity)
      rw [mul_pow, ← hn, normSq_apply]
      nlinarith [sq_nonneg (u.im * (x 0 ^ 2 - x 1 ^ 2) - 2 * u.re * (x 0 * x 1))]
    have h2 := neg_le_of_abs_le h1
    nlinarith [mul_pos (sub_pos.2 hv) hx']

theorem complexNormalToNat_eq {χ : ComplexNormalParams} {v : ℝ} {u : ℂ}
    (hv : χ.2.1 - normSq χ.1 = v) (hu : χ.2.2 - χ.1 ^ 2 = u) (h0 : v ≠ 0)
    (hE : v ^ 2 - normSq u ≠ 0) : complexNormalToNat χ =
      (-2 * (((-v / (v ^ 2 - normSq u) : ℝ) : ℂ) * starRingEnd ℂ χ.1 +
          starRingEnd ℂ u / (v ^ 2 - normSq u : ℝ) * χ.1),
        -v / (v ^ 2 - normSq u), starRingEnd ℂ u / (v ^ 2 - normSq u : ℝ)) := by
  have hJ : (normSq u : ℂ) = u * starRingEnd ℂ u := (mul_conj u).symm
  generalize hg : v ^ 2 - normSq u = E at *
  have hgc : (v : ℂ) ^ 2 - u * starRingEnd ℂ u = E := by rw [← hg, ← hJ]; push_cast; rfl
  have hEc : (E : ℂ) ≠ 0 := ofReal_ne_zero.2 hE
  have h0c : (v : ℂ) ≠ 0 := ofReal_ne_zero.2 h0
  have e4 : (v : ℂ) - starRingEnd ℂ (starRingEnd ℂ u / v * u) = E / v := by
    simp only [map_mul, map_div₀, conj_conj, conj_ofReal]
    field_simp
    linear_combination hgc
  have e5 : (1 : ℂ) / (E / v) = ((v / E : ℝ) : ℂ) := by
    push_cast
    field_simp
  have e6 : starRingEnd ℂ u / v * ((v / E : ℝ) : ℂ) = starRingEnd ℂ u / E := by
    push_cast
    field_simp
  have e7 : -(v / E) = -v / E := (neg_div _ _).symm
  simp only [complexNormalToNat, hv, hu, e4, e5, ofReal_re, e6, e7]

theorem C46_complex_normal {factor : Matrix (Fin 2) (Fin 2) ℝ → Matrix (Fin 2) (Fin 2) ℝ}
    {χ : ComplexNormalParams} (h : ‖χ.2.2 - χ.1 ^ 2‖ < χ.2.1 - ‖χ.1‖ ^ 2)
    (hf : factor (complexNormalCov χ) * (factor (complexNormalCov χ))ᵀ = complexNormalCov χ) :
    complexNormalSampleE factor χ = law complexNormal volume (complexNormalToNat χ) := by
  have hP := C46_complex_normal_cov h
  have hv0 : 0 < χ.2.1 - normSq χ.1 := by
    rw [normSq_eq_norm_sq]
    exact lt_of_le_of_lt (norm_nonneg _) h
  rw [complexNormalSampleE, randomMultivariateNormal_eq hP.det_pos.ne' hf]
  have e : (fun z : Fin 2 → ℝ => (z 0 : ℂ) + I * (z 1 : ℂ)) = measurableEquivPi.symm := by
    funext z
    rw [measurableEquivPi_symm_apply, mul_comm]
  have hm : (volume : Measure (Fin 2 → ℝ)).map measurableEquivPi.symm = volume :=
    (volume_preserving_equiv_pi.symm _).map_eq
  rw [e, proportional_map, hm]
  have hreg := complexNormal_regular.density _ (C31_complex_normal.2 χ h).1
  obtain ⟨m, w, p⟩ := χ
  rw [← normSq_eq_norm_sq] at h
  simp only at h hv0 ⊢
  generalize hs : w - normSq m = v at h hv0
  generalize hu : p - m ^ 2 = u at h
  have hE : 0 < v ^ 2 - normSq u := by
    rw [normSq_eq_norm_sq]
    have := norm_nonneg u
    nlinarith
  have hq := complexNormalToNat_eq (χ := (m, w, p)) hs hu hv0.ne' hE.ne'
  have hi : (complexNormalCov (m, w, p))⁻¹ =
      (2 / (v ^ 2 - normSq u)) • !![v - u.re, -u.im; -u.im, v + u.re] := by
    refine inv_eq_left_inv ?_
    simp only [complexNormalCov, hs, hu]
    have h0 := hE.ne'
    have hd : v * v - (u.re * u.re + u.im * u.im) = v ^ 2 - normSq u := by
      rw [normSq_apply, pow_two]
    generalize v ^ 2 - normSq u = E at h0 hd ⊢
    ext i j
    fin_cases i <;> fin_cases j <;> simp [Matrix.mul_apply, Fin.sum_univ_two] <;> field_simp
    · linear_combination hd
    · ring
    · ring
    · linear_combination hd
  rw [hq] at hreg ⊢
  rw [hi]
  refine law_of_form hreg (-((-v / (v ^ 2 - normSq u)) * normSq m +
    (starRingEnd ℂ u / (v ^ 2 - normSq u : ℝ) * m ^ 2).re)) (ae_of_all _ fun x => rfl)
    (ae_of_all _ fun x => ?_)
  generalize v ^ 2 - normSq u = E at *
  have hE' := hE.ne'
  have ediv : ∀ z : ℂ, z / (E : ℂ) = ((1 / E : ℝ) : ℂ) * z := fun z => by
    push_cast
    field_simp
  simp only [complexNormal, ediv, normSq_apply, dotProduct, mulVec, Fin.sum_univ_two, pow_two]
  simp [measurableEquivPi]
  field_simp
  ring

/-! ### The circularly symmetric family -/

/-- The real and imaginary parts of a complex vector, one after the other. -/
def stack {d : ℕ} (z : Fin d → ℂ) : Fin d ⊕ Fin d → ℝ := Sum.elim (fun i => (z i).re) fun i => (z i).im

/-- The equivalence of complex vectors with their real and imaginary parts. -/
noncomputable def unstack (d : ℕ) : (Fin d ⊕ Fin d → ℝ) ≃ᵐ (Fin d → ℂ) :=
  ((MeasurableEquiv.sumPiEquivProdPi fun _ => ℝ).trans
    (MeasurableEquiv.arrowProdEquivProdArrow ℝ ℝ (Fin d)).symm).trans
      (MeasurableEquiv.piCongrRight fun _ => measurableEquivRealProd.symm)

theorem unstack_apply {d : ℕ} (z : Fin d ⊕ Fin d → ℝ) (i : Fin d) :
    unstack d z i = (z (Sum.inl i) : ℂ) + I * (z (Sum.inr i) : ℂ) := by
  rw [mul_comm]
  exact (mk_eq_add_mul_I _ _)

theorem unstack_symm {d : ℕ} (z : Fin d → ℂ) : (unstack d).symm z = stack z := by
  apply (unstack d).injective
  rw [(unstack d).apply_symm_apply]
  funext i
  rw [unstack_apply, mul_comm]
  exact (re_add_im _).symm

theorem unstack_volume (d : ℕ) :
    (volume : Measure (Fin d ⊕ Fin d → ℝ)).map (unstack d) = volume := by
  refine MeasurePreserving.map_eq ?_
  refine MeasurePreserving.trans (μb := volume) (MeasurePreserving.trans (μb := volume)
    (volume_measurePreserving_sumPiEquivProdPi fun _ => ℝ)
    ((volume_measurePreserving_arrowProdEquivProdArrow ℝ ℝ (Fin d)).symm _)) ?_
  exact volume_preserving_pi fun _ => volume_preserving_equiv_real_prod.symm _

theorem stack_dot {d : ℕ} (a b : Fin d → ℂ) : stack a ⬝ᵥ stack b = (star a ⬝ᵥ b).re := by
  simp only [dotProduct, stack, Fintype.sum_sum_type, Sum.elim_inl, Sum.elim_inr, re_sum,
    Pi.star_apply, mul_re, RCLike.star_def, conj_re, conj_im, ← Finset.sum_add_distrib]
  exact Finset.sum_congr rfl fun i _ => by ring

theorem cov_stack {d : ℕ} (χ : Matrix (Fin d) (Fin d) ℂ) (w : Fin d → ℂ) :
    cmvCircularCov χ *ᵥ stack w = (0.5 : ℝ) • stack (χ *ᵥ w) := by
  funext i
  rcases i with i | i <;>
    simp only [cmvCircularCov, stack, mulVec, dotProduct, Fintype.sum_sum_type, Pi.smul_apply,
      fromBlocks_apply₁₁, fromBlocks_apply₁₂, fromBlocks_apply₂₁, fromBlocks_apply₂₂, Sum.elim_inl,
      Sum.elim_inr, Matrix.smul_apply, Matrix.neg_apply, map_apply, smul_eq_mul, re_sum, im_sum, mul_re, mul_im,
      Finset.mul_sum, ← Finset.sum_add_distrib]
  · exact Finset.sum_congr rfl fun j _ => by ring
  · exact Finset.sum_congr rfl fun j _ => by ring

/-- The matrix passed to the primitive is positive definite. -/
theorem C46_cmv_circular_cov {d : ℕ} {χ : Matrix (Fin d) (Fin d) ℂ} (h : χ.PosDef) :
    (cmvCircularCov χ).PosDef := by
  rw [posDef_iff_dotProduct_mulVec]
  refine ⟨?_, fun {x} hx => ?_⟩
  · rw [IsHermitian, conjTranspose_eq_transpose_of_trivial]
    ext i j
    have e := fun i j => h.isHermitian.apply i j
    have er := fun i j => congrArg re (e i j)
    have ei := fun i j => congrArg im (e i j)
    simp only [RCLike.star_def, conj_re, conj_im] at er ei
    rcases i with i | i <;> rcases j with j | j <;> simp [cmvCircularCov, er, ← ei i j]
  · obtain ⟨w, rfl⟩ : ∃ w, x = stack w := ⟨unstack d x, by rw [← unstack_symm]; simp⟩
    have hw : w ≠ 0 := by
      rintro rfl
      exact hx (by funext i; rcases i with i | i <;> simp [stack])
    have := (Complex.pos_iff.1 ((posDef_iff_dotProduct_mulVec.1 h).2 hw)).1
    rw [star_trivial, cov_stack, dotProduct_smul, stack_dot]
    exact mul_pos (by norm_num) this

theorem C46_cmv_circular {d : ℕ}
    {factor : Matrix (Fin d ⊕ Fin d) (Fin d ⊕ Fin d) ℝ → Matrix (Fin d ⊕ Fin d) (Fin d ⊕ Fin d) ℝ}
    {χ : Matrix (Fin d) (Fin d) ℂ} (h : χ.PosDef)
    (hf : factor (cmvCircularCov χ) * (factor (cmvCircularCov χ))ᵀ = cmvCircularCov χ) :
    cmvCircularSampleE factor χ = law (cmvCircular d) volume (cmvCircularToNat χ) := by
  have hP := C46_cmv_circular_cov h
  have e : (fun (z : Fin d ⊕ Fin d → ℝ) i => (z (Sum.inl i) : ℂ) + I * (z (Sum.inr i) : ℂ)) =
      unstack d := by
    funext z i
    rw [unstack_apply]
  rw [cmvCircularSampleE, randomMultivariateNormal_eq hP.det_pos.ne' hf, e, proportional_map,
    unstack_volume]
  refine law_of_form ((cmvCircular_regular d).density _ (C31_cmv_circular.2 χ h).1) 0
    (ae_of_all _ fun x => rfl) (ae_of_all _ fun z => ?_)
  have hu : IsUnit χ.det := (isUnit_iff_isUnit_det _).1 h.isUnit
  have hc : IsUnit (cmvCircularCov χ).det := (isUnit_iff_isUnit_det _).1 hP.isUnit
  have hs : (cmvCircularCov χ)⁻¹ *ᵥ stack z = (2 : ℝ) • stack (χ⁻¹ *ᵥ z) := by
    have h1 := cov_stack χ (χ⁻¹ *ᵥ z)
    rw [mulVec_mulVec, mul_nonsing_inv _ hu, one_mulVec] at h1
    have h2 := congrArg (fun v => (2 : ℝ) • (cmvCircularCov χ)⁻¹ *ᵥ v) h1
    simp only [mulVec_mulVec, nonsing_inv_mul _ hc, one_mulVec, mulVec_smul, smul_smul] at h2
    norm_num at h2
    exact h2.symm
  have hT : (cmvCircularToNat χ)ᵀ = -χ⁻¹ := by
    rw [cmvCircularToNat, hermitian_map_conj h.isHermitian.inv, transpose_neg, transpose_transpose]
  have h0 : stack z - (fun _ => (0 : ℝ)) = stack z := sub_zero _
  rw [unstack_symm, h0, hs, dotProduct_smul, stack_dot]
  simp only [cmvCircular, cmv_form, hT, neg_mulVec, dotProduct_neg, neg_re, smul_eq_mul]
  ring

/-- The hypotheses are satisfiable. -/
example : ‖(I : ℂ) - (1 : ℂ) ^ 2‖ < 4 - ‖(1 : ℂ)‖ ^ 2 ∧ (1 : Matrix (Fin 2) (Fin 2) ℂ).PosDef := by
  refine ⟨?_, PosDef.one⟩
  refine (norm_sub_le _ _).trans_lt ?_
  norm_num

end Efax
