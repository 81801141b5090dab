import Verif.Model.Special
import Mathlib.Analysis.Calculus.SmoothSeries
import Mathlib.Analysis.SpecialFunctions.Exponential

/-!
# Modified Bessel functions
-/

namespace Efax

open Real

/-- The entire function with `I_ν(x) = (x / 2)^ν h_{ν + 1}(x² / 4)`. -/
noncomputable def besselH (a z : ℝ) : ℝ := ∑' k : ℕ, z ^ k / (k.factorial * Gamma (k + a))

theorem gamma_lower {a : ℝ} (ha : 0 < a) : ∃ m > 0, ∀ k : ℕ, m ≤ Gamma (k + a) := by
  refine ⟨min (Gamma a) (Gamma (a + 1)), lt_min (Gamma_pos_of_pos ha) (Gamma_pos_of_pos (by linarith)),
    fun k => ?_⟩
  rcases k with _ | k
  · simp
  refine (min_le_right _ _).trans ?_
  induction k with
  | zero => simp [add_comm]
  | succ k ih =>
    refine ih.trans ?_
    have h0 : 0 < ((k + 1 : ℕ) : ℝ) + a := by positivity
    rw [show ((k + 1 + 1 : ℕ) : ℝ) + a = ((k + 1 : ℕ) : ℝ) + a + 1 by push_cast; ring,
      Gamma_add_one h0.ne']
    refine le_mul_of_one_le_left (Gamma_pos_of_pos h0).le ?_
    push_cast
    have : (0 : ℝ) ≤ k := Nat.cast_nonneg k
    linarith

theorem besselH_term_le {a : ℝ} {m : ℝ} (hm : 0 < m) (h : ∀ k : ℕ, m ≤ Gamma (k + a)) (z : ℝ)
    (k : ℕ) : |z ^ k / (k.factorial * Gamma (k + a))| ≤ |z| ^ k / k.factorial / m := by
  have hk : (0 : ℝ) < k.factorial := by positivity
  have hG := hm.trans_le (h k)
  rw [abs_div, abs_pow, abs_of_pos (mul_pos hk hG), div_div]
  gcongr
  exact h k

theorem besselH_summable {a : ℝ} (ha : 0 < a) (z : ℝ) :
    Summable fun k : ℕ => z ^ k / (k.factorial * Gamma (k + a)) := by
  obtain ⟨m, hm, h⟩ := gamma_lower ha
  exact Summable.of_norm_bounded ((Real.summable_pow_div_factorial |z|).div_const m) fun k =>
    besselH_term_le hm h z k

theorem besselH_pos {a z : ℝ} (ha : 0 < a) (hz : 0 ≤ z) : 0 < besselH a z := by
  refine (besselH_summable ha z).tsum_pos (fun k => ?_) 0 ?_
  · have : 0 < Gamma (k + a) := Gamma_pos_of_pos (by positivity)
    positivity
  · have : 0 < Gamma a := Gamma_pos_of_pos ha
    simpa using this

theorem besselH_hasDerivAt {a : ℝ} (ha : 0 < a) (z : ℝ) :
    HasDerivAt (besselH a) (besselH (a + 1) z) z := by
  obtain ⟨m, hm, h⟩ := gamma_lower ha
  set R := |z| + 1 with hR
  have hz : z ∈ Metric.ball (0 : ℝ) R := by simp [hR]
  have hd : ∀ (k : ℕ) (y : ℝ), HasDerivAt (fun y => y ^ k / (k.factorial * Gamma (k + a)))
      (k * y ^ (k - 1) / (k.factorial * Gamma (k + a))) y := fun k y =>
    (hasDerivAt_pow k y).div_const _
  have hu : Summable fun k : ℕ => k * R ^ (k - 1) / k.factorial / m := by
    refine Summable.div_const ?_ m
    rw [← summable_nat_add_iff (f := fun k : ℕ => k * R ^ (k - 1) / (k.factorial : ℝ)) 1]
    refine (Real.summable_pow_div_factorial R).congr fun k => ?_
    rw [Nat.factorial_succ]
    push_cast
    have : (0 : ℝ) < k.factorial := by positivity
    field_simp
  have key := hasDerivAt_tsum_of_isPreconnected hu Metric.isOpen_ball
    (convex_ball (0 : ℝ) R).isPreconnected (fun k y _ => hd k y) (fun k y hy => ?_) hz
    (besselH_summable ha z) hz
  · refine key.congr_deriv ?_
    have hs : Summable fun k : ℕ => (k * z ^ (k - 1) / (k.factorial * Gamma (k + a)) : ℝ) := by
      rw [← summable_nat_add_iff
        (f := fun k : ℕ => (k * z ^ (k - 1) / (k.factorial * Gamma (k + a)) : ℝ)) 1]
      refine (besselH_summable (add_pos ha one_pos) z).congr fun k => ?_
      rw [Nat.factorial_succ]
      push_cast
      have h1 : (0 : ℝ) < k.factorial := by positivity
      have h2 : (0 : ℝ) < k + 1 := by positivity
      rw [show (k : ℝ) + 1 + a = k + (a + 1) by ring]
      field_simp
    rw [hs.tsum_eq_zero_add, besselH]
    simp only [Nat.cast_zero, zero_mul, zero_div, zero_add]
    refine tsum_congr fun k => ?_
    rw [Nat.factorial_succ]
    push_cast
    have h1 : (0 : ℝ) < k.factorial := by positivity
    have h2 : (0 : ℝ) < k + 1 := by positivity
    rw [show (k : ℝ) + 1 + a = k + (a + 1) by ring]
    field_simp
  · have hk : (0 : ℝ) < k.factorial := by positivity
    have hG := hm.trans_le (h k)
    have hy : |y| ≤ R := by simpa using (mem_ball_zero_iff.1 hy).le
    rw [norm_div, Real.norm_of_nonneg (mul_pos hk hG).le, norm_mul, norm_pow, Real.norm_natCast,
      Real.norm_eq_abs, div_div]
    gcongr
    exact h k

theorem besselI_eq {ν x : ℝ} (hx : 0 < x) : besselI ν x = (x / 2) ^ ν * besselH (ν + 1) (x ^ 2 / 4) := by
  rw [besselI, besselH, ← tsum_mul_left]
  refine tsum_congr fun k => ?_
  have h2 : 0 < x / 2 := by positivity
  rw [add_comm (2 * (k : ℝ)) ν, rpow_add h2, ← add_assoc,
    show (2 * (k : ℝ)) = ((2 * k : ℕ) : ℝ) by push_cast; ring, rpow_natCast, pow_mul,
    show (x / 2) ^ 2 = x ^ 2 / 4 by ring]
  ring

theorem besselI_pos {ν x : ℝ} (hν : -1 < ν) (hx : 0 < x) : 0 < besselI ν x := by
  rw [besselI_eq hx]
  exact mul_pos (rpow_pos_of_pos (by positivity) _) (besselH_pos (by linarith) (by positivity))

theorem ivRatio_eq {ν x : ℝ} (hx : 0 < x) :
    ivRatio ν x = x / 2 * (besselH (ν + 1) (x ^ 2 / 4) / besselH ν (x ^ 2 / 4)) := by
  have h2 : 0 < x / 2 := by positivity
  rw [ivRatio, besselI_eq hx, besselI_eq hx, sub_add_cancel, mul_div_mul_comm]
  congr 1
  rw [← rpow_sub h2, sub_sub_cancel, rpow_one]

end Efax
