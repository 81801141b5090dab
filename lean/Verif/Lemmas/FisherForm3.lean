import Verif.Lemmas.FisherForm2
import Verif.Lemmas.ClosedForm2
import Verif.Lemmas.VmfStart

/-!
# Derivatives of the expectation parameters of the remaining families in closed form
-/

namespace Efax

open MeasureTheory Spec Set Filter Topology Matrix

theorem multinomial_info {d : ℕ} (q : Fin (d + 1) → ℝ) : HasInfo (multinomial d) ⊤ q fun v w =>
    Textbook.Info.categorical (categories ((multinomial d).toExp q)) (Fin.snoc (α := fun _ => ℝ) v 0)
      (Fin.snoc (α := fun _ => ℝ) w 0) := by
  intro v _ w _
  have ht : ∀ q i, (multinomial d).toExp q i = Real.exp (q i) / (1 + ∑ j, Real.exp (q j)) :=
    toExp_multinomial
  have hs : 0 < 1 + ∑ i, Real.exp (q i) := by positivity
  have e1 : ∀ i, HasDerivAt (fun t : ℝ => Real.exp (q i + t * w i)) (Real.exp (q i) * w i) 0 := fun i => by
    simpa using (hasDerivAt_line (q i) (w i)).exp
  have e2 : HasDerivAt (fun t : ℝ => 1 + ∑ i, Real.exp (q i + t * w i)) (∑ i, Real.exp (q i) * w i) 0 :=
    (HasDerivAt.fun_sum fun i _ => e1 i).const_add 1
  have e3 : ∀ i, HasDerivAt (fun t : ℝ => Real.exp (q i + t * w i) / (1 + ∑ j, Real.exp (q j + t * w j)))
      ((Real.exp (q i) * w i * (1 + ∑ j, Real.exp (q j)) - Real.exp (q i) * ∑ j, Real.exp (q j) * w j) /
        (1 + ∑ j, Real.exp (q j)) ^ 2) 0 := fun i => by
    simpa using (e1 i).fun_div e2 (by simpa using hs.ne')
  have h := HasDerivAt.fun_sum fun i (_ : i ∈ Finset.univ) => (e3 i).const_mul (v i)
  refine HasDerivAt.congr_deriv (hasDerivAt_of_eq h (fun t => ?_) rfl) ?_
  · show ∑ i, v i * (multinomial d).toExp (q + t • w) i = _
    exact Finset.sum_congr rfl fun i _ => congrArg (v i * ·) (ht (q + t • w) i)
  · have e4 : ∑ k, categories ((multinomial d).toExp q) k *
        ((Fin.snoc (α := fun _ => ℝ) v 0 : Fin (d + 2) → ℝ) k * (Fin.snoc (α := fun _ => ℝ) w 0 : Fin (d + 2) → ℝ) k) =
        ∑ i, v i * w i * (multinomial d).toExp q i := by
      rw [Fin.sum_univ_castSucc]
      simp [mul_comm]
    simp only [Textbook.Info.categorical]
    rw [categories_dot, categories_dot, e4]
    simp only [ht]
    generalize hS : 1 + ∑ j, Real.exp (q j) = S at hs ⊢
    have hW : ∑ i, w i * (Real.exp (q i) / S) = (∑ j, Real.exp (q j) * w j) / S := by
      rw [Finset.sum_div]
      exact Finset.sum_congr rfl fun i _ => by ring
    rw [hW]
    generalize ∑ j, Real.exp (q j) * w j = W
    rw [Finset.sum_mul, ← Finset.sum_sub_distrib]
    refine Finset.sum_congr rfl fun i _ => ?_
    have := hs.ne'
    field_simp

theorem genDirichlet_info {k : ℕ} {q : (Fin k → ℝ) × (Fin k → ℝ)} (hq : q ∈ genDirichletDom k) :
    HasInfo (genDirichlet k) ⊤ q (Textbook.Info.genDirichlet (genDirichletAlphaBeta q).1
      (genDirichletAlphaBeta q).2) := by
  intro v _ w _
  have hf : ∀ (v : (Fin k → ℝ) × (Fin k → ℝ)) i, (Textbook.Info.fractions v i).2 =
      (∑ j, if i ≤ j then v.2 j else 0) + ∑ j, if i < j then v.1 j else 0 := fun v i => by
    rw [Textbook.Info.fractions, add_comm, ← Finset.sum_filter, ← Finset.sum_filter, Finset.filter_le_eq_Ici,
      Finset.filter_lt_eq_Ioi]
  have hd : ∀ q, (genDirichlet k).dot v ((genDirichlet k).toExp q) =
      ∑ i, ((digamma (q.1 i + 1) - digamma (q.1 i + 1 + betaArg q.1 q.2 0 i)) * v.1 i +
        (digamma (betaArg q.1 q.2 0 i) - digamma (q.1 i + 1 + betaArg q.1 q.2 0 i)) *
          (Textbook.Info.fractions v i).2) := fun q => by
    simp only [genDirichlet, genDirichletToExp, genDirichlet_alpha, genDirichlet_beta, hf]
    exact gradient_sums _ _ _ _
  have h := HasDerivAt.fun_sum fun i (_ : i ∈ Finset.univ) => by
    have ha : 0 < q.1 i + 1 := by linarith [hq.1 i]
    have hb := genDirichletDom_beta hq i
    have d1 := hasDerivAt_digamma_line ha (w.1 i)
    have d2 := hasDerivAt_digamma_line hb (Textbook.Info.fractions w i).2
    have d3 := hasDerivAt_digamma_line (add_pos ha hb) (w.1 i + (Textbook.Info.fractions w i).2)
    exact ((d1.fun_sub d3).mul_const (v.1 i)).fun_add ((d2.fun_sub d3).mul_const (Textbook.Info.fractions v i).2)
  refine HasDerivAt.congr_deriv (hasDerivAt_of_eq h (fun t => ?_) rfl) ?_
  · rw [hd]
    refine Finset.sum_congr rfl fun i _ => ?_
    rw [betaArg_line, ← hf]
    simp only [Prod.fst_add, Prod.smul_fst, Pi.add_apply, Pi.smul_apply, smul_eq_mul]
    rw [show q.1 i + t * w.1 i + 1 = q.1 i + 1 + t * w.1 i by ring,
      show q.1 i + 1 + t * w.1 i + (betaArg q.1 q.2 0 i + t * (Textbook.Info.fractions w i).2) =
        q.1 i + 1 + betaArg q.1 q.2 0 i + t * (w.1 i + (Textbook.Info.fractions w i).2) by ring]
  · refine Finset.sum_congr rfl fun i _ => ?_
    have h1 : ∀ v : (Fin k → ℝ) × (Fin k → ℝ), (Textbook.Info.fractions v i).1 = v.1 i := fun _ => rfl
    rw [genDirichlet_beta, genDirichlet_alpha, Textbook.Info.beta, h1, h1]
    ring

theorem vmf_info {n : ℕ} {q : EuclideanSpace ℝ (Fin (n + 1))} (hq : q ≠ 0) :
    HasInfo (vonMisesFisher (n + 1)) ⊤ q fun v w =>
      Textbook.Info.vonMisesFisher (fun i => q i / vmfKappa q) (vmfKappa q) v w := by
  intro v _ w _
  have hk : 0 < ‖q‖ := norm_pos_iff.2 hq
  have ha : 0 < ((n : ℝ) + 1) / 2 := by positivity
  set ν := ((n : ℝ) + 1) / 2 with hν
  have hA : ∀ x : EuclideanSpace ℝ (Fin (n + 1)), x ≠ 0 → vmfAK (n + 1 : ℕ) ‖x‖ / ‖x‖ =
      1 / 2 * (besselH (ν + 1) (‖x‖ ^ 2 / 4) / besselH ν (‖x‖ ^ 2 / 4)) := fun x hx => by
    have hx := norm_pos_iff.2 hx
    rw [vmfAK_eq hx, ← hν]
    generalize besselH (ν + 1) _ / besselH ν _ = r
    field_simp
  have hline : ∀ t : ℝ, ‖q + t • w‖ ^ 2 / 4 = ∑ i, (q i + t * w i) ^ 2 / 4 := fun t => by
    rw [EuclideanSpace.real_norm_sq_eq, Finset.sum_div]
    rfl
  have hz : HasDerivAt (fun t : ℝ => ‖q + t • w‖ ^ 2 / 4) ((∑ i, q i * w i) / 2) 0 := by
    have h : HasDerivAt (fun t : ℝ => ∑ i, (q i + t * w i) ^ 2 / 4)
        (∑ i, ((2 : ℕ) : ℝ) * (q i + 0 * w i) ^ (2 - 1) * w i / 4) 0 :=
      HasDerivAt.fun_sum fun i _ => ((hasDerivAt_line (q i) (w i)).fun_pow 2).div_const 4
    refine HasDerivAt.congr_deriv (hasDerivAt_of_eq h hline rfl) ?_
    rw [Finset.sum_div]
    refine Finset.sum_congr rfl fun i _ => ?_
    norm_num
    ring
  set z := ‖q‖ ^ 2 / 4 with hzd
  have hz0 : 0 < z := by positivity
  have h0 := besselH_pos ha hz0.le
  have hc : ∀ a, 0 < a → HasDerivAt (fun t : ℝ => besselH a (‖q + t • w‖ ^ 2 / 4))
      (besselH (a + 1) z * ((∑ i, q i * w i) / 2)) 0 := fun a ha => by
    refine HasDerivAt.comp (h₂ := besselH a) 0 ?_ hz
    simpa using besselH_hasDerivAt ha _
  have hr : HasDerivAt (fun t : ℝ => 1 / 2 * (besselH (ν + 1) (‖q + t • w‖ ^ 2 / 4) /
      besselH ν (‖q + t • w‖ ^ 2 / 4)))
      (1 / 2 * ((besselH (ν + 1 + 1) z * ((∑ i, q i * w i) / 2) * besselH ν z -
        besselH (ν + 1) z * (besselH (ν + 1) z * ((∑ i, q i * w i) / 2))) / besselH ν z ^ 2)) 0 := by
    have := ((hc (ν + 1) (by linarith)).fun_div (hc ν ha) (by simpa [← hzd] using h0.ne')).const_mul (1 / 2)
    simpa [← hzd] using this
  have hl : HasDerivAt (fun t : ℝ => ∑ i, v i * (q i + t * w i)) (∑ i, v i * w i) 0 :=
    HasDerivAt.fun_sum fun i _ => (hasDerivAt_line (q i) (w i)).const_mul (v i)
  have hne : ∀ᶠ t : ℝ in 𝓝 0, q + t • w ≠ 0 := by
    have hcont : ContinuousAt (fun t : ℝ => q + t • w) 0 := by fun_prop
    exact hcont.eventually_ne (by simpa using hq)
  have h := hr.fun_mul hl
  refine HasDerivAt.congr_deriv (h.congr_of_eventuallyEq (hne.mono fun t ht => ?_)) ?_
  · show (vonMisesFisher (n + 1)).dot v ((vonMisesFisher (n + 1)).toExp (q + t • w)) = _
    rw [vmf_toExp' ht, hA _ ht]
    simp only [vonMisesFisher, Finset.mul_sum]
    exact Finset.sum_congr rfl fun i _ => by
      simp only [PiLp.smul_apply, PiLp.add_apply, smul_eq_mul]
      ring
  · have hrec := besselH_rec ha z
    rw [show ν + 2 = ν + 1 + 1 by ring] at hrec
    have hAq : besselI (((n + 1 : ℕ) : ℝ) / 2) ‖q‖ / besselI (((n + 1 : ℕ) : ℝ) / 2 - 1) ‖q‖ =
        ‖q‖ / 2 * (besselH (ν + 1) z / besselH ν z) := by
      have := vmfAK_eq (n := n) hk
      rw [vmfAK, ivRatio, show ((n + 1 : ℕ) : ℝ) * 0.5 = ((n + 1 : ℕ) : ℝ) / 2 by ring] at this
      rw [this]
    have hm : ∀ u : EuclideanSpace ℝ (Fin (n + 1)), (fun i => q i / ‖q‖) ⬝ᵥ (fun i => u i) =
        (∑ i, q i * u i) / ‖q‖ := fun u => by
      rw [dotProduct, Finset.sum_div]
      exact Finset.sum_congr rfl fun i _ => by ring
    have hm1 := hm v
    have hm2 := hm w
    simp only [Textbook.Info.vonMisesFisher, vmfKappa]
    rw [hAq]
    simp only [zero_smul, add_zero, ← hzd, zero_mul]
    have e1 : ∑ i, v i * q i = ∑ i, q i * v i := Finset.sum_congr rfl fun i _ => mul_comm _ _
    have e2 : (v : Fin (n + 1) → ℝ) ⬝ᵥ (w : Fin (n + 1) → ℝ) = ∑ i, v i * w i := rfl
    rw [hm1, hm2, e1, e2]
    have hH : besselH (ν + 1 + 1) z = (besselH ν z - ν * besselH (ν + 1) z) / z := by
      field_simp
      linarith
    rw [hH, hzd, hν]
    generalize besselH (((n : ℝ) + 1) / 2) (‖q‖ ^ 2 / 4) = H0 at *
    push_cast
    have := hk.ne'
    have := h0.ne'
    field_simp
    ring

/-- The derivative of the inverse of a matrix. -/
theorem inv_line {d : ℕ} {H V : Matrix (Fin d) (Fin d) ℝ} (hH : IsUnit H.det) (i j : Fin d) :
    HasDerivAt (fun t : ℝ => (H + t • V)⁻¹ i j) (-(H⁻¹ * V * H⁻¹) i j) 0 := by
  have hc : ContinuousAt (fun t : ℝ => -((H + t • V)⁻¹ * V * H⁻¹) i j) 0 := by
    have h := inv_perturb_continuous (V := V) hH
    simp only [Matrix.mul_apply]
    refine ContinuousAt.neg (tendsto_finsetSum _ fun k _ => Tendsto.mul (tendsto_finsetSum _ fun l _ =>
      Tendsto.mul ?_ tendsto_const_nhds) tendsto_const_nhds)
    exact continuousAt_pi.1 (continuousAt_pi.1 h i) l
  have := hasDerivAt_of_factor (f := fun t : ℝ => (H + t • V)⁻¹ i j) ((inv_perturb (V := V) hH).mono fun t ht => by
    show (H + t • V)⁻¹ i j = (H + (0 : ℝ) • V)⁻¹ i j + t * _
    nth_rw 1 [ht]
    simp only [zero_smul, add_zero, Matrix.sub_apply, Matrix.smul_apply, smul_eq_mul]
    ring) hc
  simpa using this

theorem mvNormal_info {d : ℕ} {q : (Fin d → ℝ) × Matrix (Fin d) (Fin d) ℝ} (hq : q ∈ mvNormalDom d) :
    HasInfo (mvNormal d) (symmetricDirs d) q (Textbook.Info.mvNormal ((mvNormal d).toExp q).1
      (mvNormalVariance ((mvNormal d).toExp q))) := by
  intro v hv w hw
  have hv : v.2.IsSymm := hv
  have hw : w.2.IsSymm := hw
  have hu := mvNormalDom_unit hq
  have hsy := mvNormalDom_symm hq
  have hM : (q.2⁻¹)ᵀ = q.2⁻¹ := by rw [transpose_nonsing_inv, hsy.eq]
  set m := ((mvNormal d).toExp q).1 with hm
  set S := mvNormalVariance ((mvNormal d).toExp q) with hS
  have hMS : q.2⁻¹ = (-2 : ℝ) • S := by
    rw [hS, mvNormal_variance, smul_smul]
    norm_num
  have hy : q.2⁻¹ *ᵥ q.1 = (-2 : ℝ) • m := by
    rw [hm]
    simp only [mvNormal, smul_smul]
    norm_num
  have hSt : Sᵀ = S := by
    have : S = (-0.5 : ℝ) • q.2⁻¹ := mvNormal_variance q
    rw [this, transpose_smul, hM]
  set D := S *ᵥ (w.1 + (2 : ℝ) • w.2 *ᵥ m) with hD
  -- the solution of the linear equation
  have y : ∀ i, HasDerivAt (fun t : ℝ => ((q.2 + t • w.2)⁻¹ *ᵥ (q.1 + t • w.1)) i) (-2 * D i) 0 := fun i => by
    have h : HasDerivAt (fun t : ℝ => ∑ j, (q.2 + t • w.2)⁻¹ i j * (q.1 j + t * w.1 j))
        (∑ j, (-(q.2⁻¹ * w.2 * q.2⁻¹) i j * (q.1 j + 0 * w.1 j) + (q.2 + (0 : ℝ) • w.2)⁻¹ i j * w.1 j)) 0 :=
      HasDerivAt.fun_sum fun j _ => (inv_line hu i j).fun_mul (hasDerivAt_line (q.1 j) (w.1 j))
    refine HasDerivAt.congr_deriv (hasDerivAt_of_eq h (fun t => rfl) rfl) ?_
    have e : ∑ j, (-(q.2⁻¹ * w.2 * q.2⁻¹) i j * (q.1 j + 0 * w.1 j) + (q.2 + (0 : ℝ) • w.2)⁻¹ i j * w.1 j) =
        (-((q.2⁻¹ * w.2 * q.2⁻¹) *ᵥ q.1) + q.2⁻¹ *ᵥ w.1) i := by
      simp [Matrix.mulVec, dotProduct, Finset.sum_add_distrib]
    rw [e, ← mulVec_mulVec, hy, ← mulVec_mulVec, hMS, hD]
    simp only [mulVec_smul, smul_mulVec, mulVec_add, Pi.add_apply, Pi.neg_apply, Pi.smul_apply, smul_eq_mul]
    ring
  have hN : ∀ i j, HasDerivAt (fun t : ℝ => (q.2 + t • w.2)⁻¹ i j) (-4 * (S * w.2 * S) i j) 0 := fun i j => by
    refine HasDerivAt.congr_deriv (inv_line hu i j) ?_
    rw [hMS]
    simp only [Matrix.smul_mul, Matrix.mul_smul, smul_smul, Matrix.smul_apply, smul_eq_mul]
    ring
  have h1 := HasDerivAt.fun_sum fun i (_ : i ∈ Finset.univ) => ((y i).const_mul (-0.5)).const_mul (v.1 i)
  have h2 := HasDerivAt.fun_sum fun i (_ : i ∈ Finset.univ) => HasDerivAt.fun_sum fun j (_ : j ∈ Finset.univ) =>
    ((((y i).fun_mul (y j)).const_mul 0.25).fun_sub ((hN i j).const_mul 0.5)).const_mul (v.2 i j)
  refine HasDerivAt.congr_deriv (hasDerivAt_of_eq (h1.fun_add h2) (fun t => rfl) rfl) ?_
  have hy0 : ∀ i, ((q.2 + (0 : ℝ) • w.2)⁻¹ *ᵥ (q.1 + (0 : ℝ) • w.1)) i = -2 * m i := fun i => by
    rw [zero_smul, zero_smul, add_zero, add_zero, hy]
    rfl
  simp only [hy0]
  have e1 : ∑ i, v.1 i * (-0.5 * (-2 * D i)) = v.1 ⬝ᵥ D :=
    Finset.sum_congr rfl fun i _ => by ring
  have e2 : ∑ i, ∑ j, v.2 i j * (0.25 * (-2 * D i * (-2 * m j) + -2 * m i * (-2 * D j)) -
      0.5 * (-4 * (S * w.2 * S) i j)) = 2 * ((v.2 *ᵥ m) ⬝ᵥ D) + 2 * (v.2 * (S * w.2 * S)).trace := by
    have a1 : ∑ i, ∑ j, v.2 i j * (D i * m j) = (v.2 *ᵥ m) ⬝ᵥ D := by
      simp only [Matrix.mulVec, dotProduct, Finset.sum_mul]
      exact Finset.sum_congr rfl fun i _ => Finset.sum_congr rfl fun j _ => by ring
    have a2 : ∑ i, ∑ j, v.2 i j * (m i * D j) = (v.2 *ᵥ m) ⬝ᵥ D := by
      rw [← a1, Finset.sum_comm]
      exact Finset.sum_congr rfl fun i _ => Finset.sum_congr rfl fun j _ => by rw [hv.apply i j]; ring
    have hSy : (S * w.2 * S)ᵀ = S * w.2 * S := by
      rw [transpose_mul, transpose_mul, hSt, hw.eq, Matrix.mul_assoc]
    have a3 : ∑ i, ∑ j, v.2 i j * (S * w.2 * S) i j = (v.2 * (S * w.2 * S)).trace := by
      simp only [Matrix.trace, Matrix.diag_apply]
      refine Finset.sum_congr rfl fun i _ => ?_
      rw [Matrix.mul_apply]
      exact Finset.sum_congr rfl fun j _ => by rw [← hSy, transpose_apply, hSy]
    rw [← a3, two_mul]
    nth_rw 1 [← a1]
    rw [← a2, Finset.mul_sum, ← Finset.sum_add_distrib, ← Finset.sum_add_distrib]
    refine Finset.sum_congr rfl fun i _ => ?_
    rw [Finset.mul_sum, ← Finset.sum_add_distrib, ← Finset.sum_add_distrib]
    exact Finset.sum_congr rfl fun j _ => by ring
  rw [e1, e2, Textbook.Info.mvNormal, ← hD, add_dotProduct, smul_dotProduct, smul_eq_mul,
    show v.2 * S * w.2 * S = v.2 * (S * w.2 * S) by simp only [Matrix.mul_assoc]]
  ring

theorem complexNormal_info {q : ComplexNormalParams} (hq : q ∈ complexNormalDom) :
    HasInfo complexNormal ⊤ q (Textbook.Info.complexNormal (complexNormal.toExp q).1
      (complexVariance (complexNormal.toExp q)) (complexPseudo (complexNormal.toExp q))) := by
  intro v _ w _
  have h := mvNormal_info ((complexNormalDom_iff q).1 hq) (complexNormalReal v) (complexNormal_symm v)
    (complexNormalReal w) (complexNormal_symm w)
  rw [(complexNormal_params hq).1, (complexNormal_params hq).2] at h
  refine h.congr_of_eventuallyEq ?_
  filter_upwards [complexNormal_regular.toLocallyRegular.is_open q hq w trivial] with t ht
  rw [complexNormal_dot_real ht, map_add, map_smul]

end Efax
