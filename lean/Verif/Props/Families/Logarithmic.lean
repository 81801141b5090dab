import Verif.Lemmas.Families.Discrete
import Mathlib.Analysis.Complex.ExponentialBounds

/-!
# The logarithmic distribution at the edges (C53)
-/

namespace Efax

open Spec MeasureTheory Filter Topology

/-- The mean of the logarithmic distribution with log-probability `q`. -/
theorem logarithmic_mean {q : ℝ} (h : q < 0) :
    HasMean Measure.count (logarithmic.pdf q) (fun x => (x : ℝ) + 1) (logarithmicQuotient q) :=
  logarithmic_regular.mean_scalar (fun _ _ => rfl) h

/-- Between the floor and the ceiling `to_exp` is the mean. -/
theorem C53_to_exp {q : ℝ} (h1 : logProbabilityFloor ≤ q) (h2 : q ≤ logProbabilityCeiling) :
    ∃ m : ℝ, logarithmicToExp q = m ∧
      HasMean Measure.count (logarithmic.pdf q) (fun x => (x : ℝ) + 1) m := by
  have hc : logProbabilityCeiling < 0 := by norm_num [logProbabilityCeiling]
  refine ⟨logarithmicQuotient q, ?_, logarithmic_mean (by linarith)⟩
  rw [logarithmicToExp, if_neg (not_lt.2 h1), if_neg (not_lt.2 h2)]

theorem logarithmicQuotient_bounds {q : ℝ} (h : q < 0) :
    1 ≤ logarithmicQuotient q ∧ logarithmicQuotient q ≤ 1 / (1 - Real.exp q) := by
  have h0 := Real.exp_pos q
  have h1 : Real.exp q < 1 := by simpa using h
  have h2 : 0 < 1 - Real.exp q := by linarith
  set p := Real.exp q with hp
  have e : logarithmicQuotient q = p / ((1 - p) * -Real.log (1 - p)) := by
    rw [logarithmicQuotient, expm1, log1p, ← hp, ← sub_eq_add_neg]
    congr 1
    ring
  have l1 : p ≤ -Real.log (1 - p) := by
    have := Real.log_le_sub_one_of_pos h2
    linarith
  have l2 : (1 - p) * -Real.log (1 - p) ≤ p := by
    have h3 := Real.one_sub_inv_le_log_of_pos h2
    have : (1 - p) * (1 - (1 - p)⁻¹) = -p := by
      field_simp
      ring
    have h4 := mul_le_mul_of_nonneg_left h3 h2.le
    rw [this] at h4
    linarith
  have l3 : 0 < (1 - p) * -Real.log (1 - p) := mul_pos h2 (by linarith)
  rw [e]
  refine ⟨(one_le_div l3).2 l2, ?_⟩
  rw [div_le_div_iff₀ l3 h2, one_mul]
  have := mul_le_mul_of_nonneg_left l1 h2.le
  linarith

/-- Below the floor `to_exp` returns 1; the mean differs from 1 by less than half a unit in the last
place of a float64 at 1. -/
theorem C53_floor {q : ℝ} (h : q < logProbabilityFloor) :
    logarithmicToExp q = 1 ∧ ∃ m, |m - 1| < 1 / 2 ^ 53 ∧
      HasMean Measure.count (logarithmic.pdf q) (fun x => (x : ℝ) + 1) m := by
  have hq : q < -50 := h
  refine ⟨by rw [logarithmicToExp, if_pos h], logarithmicQuotient q, ?_,
    logarithmic_mean (by linarith)⟩
  obtain ⟨l, u⟩ := logarithmicQuotient_bounds (show q < 0 by linarith)
  have h0 := Real.exp_pos q
  have h3 : Real.exp q < 1 / 2 ^ 55 := by
    have e1 : Real.exp q < Real.exp (-50) := Real.exp_lt_exp.2 hq
    have e2 : (2 : ℝ) ^ 72 < Real.exp 50 := by
      have : (2 : ℝ) ^ 72 = ((2 : ℝ) ^ 36) ^ 2 := by norm_num
      have e3 : (2.718 : ℝ) ^ 50 < (Real.exp 1) ^ 50 :=
        pow_lt_pow_left₀ (by have := Real.exp_one_gt_d9; linarith) (by norm_num) (by norm_num)
      rw [← Real.exp_nat_mul] at e3
      norm_num at e3 ⊢
      linarith
    have e4 : Real.exp (-50) < 1 / 2 ^ 55 := by
      rw [Real.exp_neg, one_div]
      exact inv_strictAnti₀ (by norm_num) (lt_trans (by norm_num) e2)
    linarith
  have h4 : 1 / (1 - Real.exp q) < 1 + 1 / 2 ^ 53 := by
    rw [div_lt_iff₀ (by norm_num at h3 ⊢; linarith)]
    norm_num at h3 ⊢
    nlinarith
  rw [abs_lt]
  constructor
  · norm_num
    linarith
  · linarith

/-- `chi < 1` is mapped to NaN. -/
theorem C53_below_one (z : ℝ) {χ : ℝ} (h : χ < 1) : logarithmicToNat z χ = none := by
  rw [logarithmicToNat, if_pos h]

/-- Above 1 the conversion is the result of the search. -/
theorem C53_above_one (z : ℝ) {χ : ℝ} (h : 1 < χ) : logarithmicToNat z χ = some (z : EReal) := by
  rw [logarithmicToNat, if_neg (not_lt.2 h.le), if_neg h.ne']

/-- The mean tends to 1 as the log-probability tends to minus infinity. -/
theorem C53_limit : Tendsto logarithmicQuotient atBot (𝓝 1) := by
  have h1 : Tendsto (fun q : ℝ => 1 / (1 - Real.exp q)) atBot (𝓝 (1 / (1 - 0))) :=
    tendsto_const_nhds.div (tendsto_const_nhds.sub Real.tendsto_exp_atBot) (by norm_num)
  rw [sub_zero, div_one] at h1
  refine tendsto_of_tendsto_of_tendsto_of_le_of_le' tendsto_const_nhds h1 ?_ ?_ <;>
  · filter_upwards [eventually_lt_atBot (0 : ℝ)] with q hq
    first
      | exact (logarithmicQuotient_bounds hq).1
      | exact (logarithmicQuotient_bounds hq).2

/-- The code violates the property at `chi = 1`: the conversion returns plus infinity, whatever the
search returns, and not the limit minus infinity. -/
theorem C53_one_negation (z : ℝ) :
    logarithmicToNat z 1 = some ⊤ ∧ logarithmicToNat z 1 ≠ some ⊥ := by
  have : logarithmicToNat z 1 = some ⊤ := by
    rw [logarithmicToNat, if_neg (lt_irrefl 1), if_pos rfl]
  exact ⟨this, by rw [this]; simp⟩

/-- The code violates the property above the ceiling: the conversion returns infinity although the
mean exists. -/
theorem C53_ceiling_negation : ∃ q < (0 : ℝ), logarithmicToExp q = ⊤ ∧ ∃ m : ℝ,
    HasMean Measure.count (logarithmic.pdf q) (fun x => (x : ℝ) + 1) m := by
  refine ⟨-1 / 10 ^ 8, by norm_num, ?_, _, logarithmic_mean (by norm_num)⟩
  rw [logarithmicToExp, if_neg (by norm_num [logProbabilityFloor]),
    if_pos (by norm_num [logProbabilityCeiling])]

/-- The hypotheses are satisfiable. -/
example : logProbabilityFloor ≤ -1 ∧ (-1 : ℝ) ≤ logProbabilityCeiling ∧ -60 < logProbabilityFloor := by
  norm_num [logProbabilityFloor, logProbabilityCeiling]

end Efax
