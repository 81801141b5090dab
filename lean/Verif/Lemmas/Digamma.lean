import Verif.Lemmas.Families.Positive

/-!
# Bounds on the digamma function and their consequences
-/

namespace Efax

open Spec Set Filter Topology

theorem gammaln_add_one {x : ℝ} (hx : 0 < x) : gammaln (x + 1) = Real.log x + gammaln x := by
  rw [gammaln, Real.Gamma_add_one hx.ne', Real.log_mul hx.ne' (Real.Gamma_pos_of_pos hx).ne',
    gammaln]

/-- Strict convexity of the logarithm of the gamma function. -/
theorem gammaln_support {x y : ℝ} (hx : 0 < x) (hy : 0 < y) (hne : x ≠ y) :
    gammaln x + (y - x) * digamma x < gammaln y := by
  have := chiSquare_regular.support_strict chiSquare_minimal (p := x - 1) (q := y - 1)
    (by simp [hx]) (by simp [hy]) (by simpa [sub_left_inj] using hne)
  simp only [chiSquare, sub_add_cancel] at this
  nlinarith

theorem digamma_lt_log {x : ℝ} (hx : 0 < x) : digamma x < Real.log x := by
  have := gammaln_support hx (y := x + 1) (by linarith) (by linarith)
  rw [gammaln_add_one hx] at this
  linarith

theorem log_lt_digamma_add_one {x : ℝ} (hx : 0 < x) : Real.log x < digamma (x + 1) := by
  have := gammaln_support (x := x + 1) (by linarith) (y := x) hx (by linarith)
  rw [gammaln_add_one hx] at this
  linarith

theorem digamma_strictMonoOn : StrictMonoOn digamma (Ioi 0) := by
  intro x hx y hy h
  have h1 := gammaln_support hx hy h.ne
  have h2 := gammaln_support hy hx h.ne'
  have h3 : (y - x) * digamma x < (y - x) * digamma y := by nlinarith
  exact lt_of_mul_lt_mul_left h3 (by linarith)

theorem digamma_add_one {x : ℝ} (hx : 0 < x) : digamma (x + 1) = digamma x + 1 / x := by
  have h1 : HasDerivAt (fun t => gammaln (t + 1)) (digamma (x + 1)) x := by
    have := HasDerivAt.comp (h₂ := gammaln) (h := fun t => t + 1) x
      (hasDerivAt_gammaln (by linarith : 0 < x + 1)) ((hasDerivAt_id x).add_const 1)
    rw [mul_one] at this
    exact this
  have h2 : HasDerivAt (fun t => Real.log t + gammaln t) (x⁻¹ + digamma x) x :=
    (Real.hasDerivAt_log hx.ne').add (hasDerivAt_gammaln hx)
  have h3 : HasDerivAt (fun t => gammaln (t + 1)) (x⁻¹ + digamma x) x :=
    h2.congr_of_eventuallyEq (by
      filter_upwards [lt_mem_nhds hx] with t ht
      exact gammaln_add_one ht)
  rw [h1.unique h3, one_div]
  ring

theorem digamma_continuousAt {x : ℝ} (hx : 0 < x) : ContinuousAt digamma x := by
  obtain ⟨_, _, h⟩ := chiSquare_regular.deriv_toExp (η := x - 1) (u := 1) (v := 1) (by simp [hx])
    trivial trivial
  replace h := h.continuousAt
  simp only [chiSquare, smul_eq_mul, mul_one, one_mul, sub_add_cancel] at h
  have h2 : ContinuousAt (fun t : ℝ => digamma (x - 1 + t + 1)) 0 := by
    have := h.add (continuousAt_const (y := Real.log 0.5))
    exact this.congr (Eventually.of_forall fun t => by simp)
  have h3 : ContinuousAt (fun y : ℝ => y - x) x := by fun_prop
  have h4 : ContinuousAt ((fun t : ℝ => digamma (x - 1 + t + 1)) ∘ fun y : ℝ => y - x) x :=
    ContinuousAt.comp (by simpa using h2) h3
  refine h4.congr (Eventually.of_forall fun y => ?_)
  simp

theorem digamma_continuousOn : ContinuousOn digamma (Ioi 0) :=
  fun _ hx => (digamma_continuousAt hx).continuousWithinAt

/-- `digamma` takes every real value. -/
theorem digamma_surj (y : ℝ) : ∃ x, 0 < x ∧ digamma x = y := by
  set a : ℝ := min (1 / (|y| + 1)) 1 with ha
  have hy := abs_nonneg y
  have ha0 : 0 < a := by positivity
  have ha1 : a ≤ 1 := min_le_right _ _
  have h1 : digamma a ≤ y := by
    have h2 := digamma_add_one ha0
    have h3 := digamma_lt_log (x := a + 1) (by linarith)
    have h4 : Real.log (a + 1) ≤ a := by
      have := Real.log_le_sub_one_of_pos (x := a + 1) (by linarith)
      linarith
    have h5 : |y| + 1 ≤ 1 / a := by
      rw [le_div_iff₀ ha0]
      calc (|y| + 1) * a ≤ (|y| + 1) * (1 / (|y| + 1)) := by
            gcongr; exact min_le_left _ _
        _ = 1 := by field_simp
    have h6 := neg_abs_le y
    linarith
  set b : ℝ := Real.exp y + 1 with hb
  have h7 : y ≤ digamma b := by
    have := log_lt_digamma_add_one (Real.exp_pos y)
    rw [Real.log_exp] at this
    exact this.le
  have hab : a ≤ b := by have := Real.exp_pos y; linarith
  obtain ⟨x, hx, hxy⟩ := intermediate_value_Icc hab
    (digamma_continuousOn.mono fun t ht => lt_of_lt_of_le ha0 ht.1) ⟨h1, h7⟩
  exact ⟨x, lt_of_lt_of_le ha0 hx.1, hxy⟩

/-- The difference between `log` and `digamma` takes every positive value. -/
theorem log_sub_digamma_surj {y : ℝ} (hy : 0 < y) : ∃ x, 0 < x ∧ Real.log x - digamma x = y := by
  -- near zero the difference exceeds `y`
  set t : ℝ := (y + 2) ^ 2 with ht
  have ht0 : 0 < t := by positivity
  have h1 : y ≤ Real.log t⁻¹ - digamma t⁻¹ := by
    have ha0 : 0 < t⁻¹ := by positivity
    have h2 := digamma_add_one ha0
    have h3 := digamma_lt_log (x := t⁻¹ + 1) (by linarith)
    have h4 : Real.log (t⁻¹ + 1) ≤ t⁻¹ := by
      have := Real.log_le_sub_one_of_pos (x := t⁻¹ + 1) (by linarith)
      linarith
    have h5 : t⁻¹ ≤ 1 := inv_le_one_of_one_le₀ (by nlinarith)
    have h6 : Real.log t ≤ 2 * (y + 1) := by
      rw [ht, Real.log_pow]
      have := Real.log_le_sub_one_of_pos (x := y + 2) (by linarith)
      push_cast
      linarith
    rw [Real.log_inv]
    rw [one_div, inv_inv] at h2
    nlinarith
  -- far out it is below `y`
  set b : ℝ := 1 / y + 1 with hb
  have hb1 : 0 < 1 / y := by positivity
  have h7 : Real.log b - digamma b ≤ y := by
    have h8 := log_lt_digamma_add_one hb1
    have h9 : Real.log b - Real.log (1 / y) = Real.log (1 + y) := by
      rw [← Real.log_div (by positivity) (by positivity), hb]
      congr 1
      field_simp
    have h10 : Real.log (1 + y) ≤ y := by
      have := Real.log_le_sub_one_of_pos (x := 1 + y) (by linarith)
      linarith
    rw [← hb] at h8
    linarith
  have hc : ContinuousOn (fun x => Real.log x - digamma x) (Ioi 0) :=
    (Real.continuousOn_log.mono fun x (hx : 0 < x) => hx.ne').sub digamma_continuousOn
  have hab : t⁻¹ ≤ b := by
    have : t⁻¹ ≤ 1 := inv_le_one_of_one_le₀ (by nlinarith)
    linarith
  obtain ⟨x, hx, hxy⟩ := intermediate_value_Icc' hab
    (hc.mono fun s hs => lt_of_lt_of_le (by positivity : 0 < t⁻¹) hs.1) ⟨h7, h1⟩
  exact ⟨x, lt_of_lt_of_le (by positivity : 0 < t⁻¹) hx.1, hxy⟩

end Efax
