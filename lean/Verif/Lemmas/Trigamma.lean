import Verif.Spec.FisherForm
import Verif.Lemmas.Digamma
import Mathlib.Analysis.Calculus.UniformLimitsDeriv
import Mathlib.Analysis.Normed.Group.FunctionSeries
import Mathlib.Analysis.PSeries

/-!
# The derivative of the digamma function
-/

namespace Efax

open Filter Topology Spec Set

theorem summable_trigamma {a : ℝ} (ha : 0 < a) : Summable fun k : ℕ => 1 / (a + k) ^ 2 := by
  rw [← summable_nat_add_iff 1]
  have h := (summable_nat_add_iff 1).2 (Real.summable_one_div_nat_pow.2 (le_refl 2))
  refine Summable.of_nonneg_of_le (fun k => by positivity) (fun k => ?_) h
  refine one_div_le_one_div_of_le (by positivity) ?_
  have : (0 : ℝ) ≤ ((k + 1 : ℕ) : ℝ) := by positivity
  gcongr
  linarith

theorem digamma_nat {x : ℝ} (hx : 0 < x) (n : ℕ) :
    digamma x = digamma (x + n) - ∑ k ∈ Finset.range n, 1 / (x + k) := by
  induction n with
  | zero => simp
  | succ n ih =>
    rw [Finset.sum_range_succ, ih]
    have := digamma_add_one (x := x + n) (by positivity)
    push_cast
    rw [← add_assoc, this]
    ring

theorem digamma_limit {x : ℝ} (hx : 0 < x) :
    Tendsto (fun n : ℕ => Real.log n - ∑ k ∈ Finset.range n, 1 / (x + k)) atTop (𝓝 (digamma x)) := by
  have h1 : Tendsto (fun n : ℕ => digamma (x + n) - Real.log (x + n)) atTop (𝓝 0) := by
    have h : Tendsto (fun n : ℕ => -(1 / (x + n))) atTop (𝓝 0) := by
      rw [← neg_zero]
      refine Tendsto.neg ?_
      simp only [one_div]
      exact tendsto_inv_atTop_zero.comp (tendsto_atTop_add_const_left _ _ tendsto_natCast_atTop_atTop)
    refine tendsto_of_tendsto_of_tendsto_of_le_of_le h tendsto_const_nhds (fun n => ?_) (fun n => ?_)
    · have hp : 0 < x + n := by positivity
      have h2 := log_lt_digamma_add_one hp
      rw [digamma_add_one hp] at h2
      simp only
      linarith
    · have := digamma_lt_log (x := x + n) (by positivity)
      simp only
      linarith
  have h2 : Tendsto (fun n : ℕ => Real.log (x + n) - Real.log n) atTop (𝓝 0) := by
    have h := Real.tendsto_log_comp_add_sub_log x
    have := h.comp tendsto_natCast_atTop_atTop
    refine this.congr fun n => ?_
    simp [add_comm]
  have h3 := (tendsto_const_nhds (x := digamma x)).sub (h1.add h2)
  rw [add_zero, sub_zero] at h3
  refine h3.congr fun n => ?_
  rw [digamma_nat hx n]
  ring

theorem hasDerivAt_harmonic (n : ℕ) {y : ℝ} (hy : 0 < y) :
    HasDerivAt (fun y : ℝ => Real.log n - ∑ k ∈ Finset.range n, 1 / (y + (k : ℝ)))
      (∑ k ∈ Finset.range n, 1 / (y + (k : ℝ)) ^ 2) y := by
  have h2 : HasDerivAt (fun y : ℝ => ∑ k ∈ Finset.range n, 1 / (y + (k : ℝ)))
      (∑ k ∈ Finset.range n, -(1 / (y + (k : ℝ)) ^ 2)) y := by
    refine HasDerivAt.fun_sum fun k _ => ?_
    have h3 : HasDerivAt (fun y : ℝ => y + (k : ℝ)) 1 y := (hasDerivAt_id y).add_const _
    have h4 := h3.fun_inv (by positivity : y + (k : ℝ) ≠ 0)
    simp only [one_div]
    rw [neg_div, one_div] at h4
    exact h4
  have h5 := h2.const_sub (Real.log n)
  rwa [Finset.sum_neg_distrib, neg_neg] at h5

theorem hasDerivAt_digamma {x : ℝ} (hx : 0 < x) : HasDerivAt digamma (trigamma x) x := by
  have ha : 0 < x / 2 := by positivity
  have h1 : TendstoUniformlyOn (fun (N : ℕ) (y : ℝ) => ∑ n ∈ Finset.range N, 1 / (y + (n : ℝ)) ^ 2)
      (fun y => ∑' n : ℕ, 1 / (y + (n : ℝ)) ^ 2) atTop (Ioi (x / 2)) := by
    refine tendstoUniformlyOn_tsum_nat (f := fun (n : ℕ) (y : ℝ) => 1 / (y + (n : ℝ)) ^ 2)
      (summable_trigamma ha) fun n y hy => ?_
    have hy : x / 2 < y := hy
    rw [Real.norm_of_nonneg (by positivity)]
    refine one_div_le_one_div_of_le (by positivity) ?_
    gcongr
  have hm : x ∈ Ioi (x / 2) := by
    simp only [mem_Ioi]
    linarith
  have := hasDerivAt_of_tendstoUniformlyOn isOpen_Ioi h1
    (f := fun (n : ℕ) (y : ℝ) => Real.log n - ∑ k ∈ Finset.range n, 1 / (y + (k : ℝ))) (g := digamma)
    (Eventually.of_forall fun n y hy => hasDerivAt_harmonic n (ha.trans hy))
    (fun y hy => digamma_limit (ha.trans hy)) hm
  exact this

end Efax
