import Verif.Model.Examples.CrossEntropy
import Verif.Lemmas.Optimization
import Verif.Props.Samples2
import Mathlib.Analysis.SpecialFunctions.Log.Deriv
import Mathlib.Analysis.Complex.ExponentialBounds

/-!
# C99: the example `examples/cross_entropy.py` prints what its comments say
-/

namespace Efax

open Spec Calc

variable [MachEps] {solve : Solver} {search : Cls → List Val → Except Err (List Val)}

theorem bernoulliLoss_logit {p r : ℝ} (h0 : 0 < r) (h1 : r < 1) :
    bernoulliLoss p (Real.log (r / (1 - r))) = -(p * Real.log r) - (1 - p) * Real.log (1 - r) := by
  have h2 : 0 < 1 - r := by linarith
  have h3 : logaddexp (Real.log (r / (1 - r))) 0 = -Real.log (1 - r) := by
    rw [logaddexp, Real.exp_log (by positivity), Real.exp_zero, ← Real.log_inv]
    congr 1
    field_simp
    ring
  rw [bernoulliLoss, h3, Real.log_div h0.ne' h2.ne']
  ring

/-- **C99.** The example succeeds; the numbers are the cross entropies `-(p log r) - (1 - p) log (1 - r)`. -/
theorem C99_cross_entropy (hs : solve.For search) :
    ∃ a b : Arr ℝ, crossEntropyExample (library search) = .ok (a, b) ∧ a.rshape = [3] ∧ b.rshape = [3] ∧
      (∀ k < 3, a.get [k] = Real.log 2) ∧
      ∀ k < 3, b.get [k] = -((4 + k) / 10 * Real.log (3 / 10)) - (6 - k) / 10 * Real.log (7 / 10) := by
  have h := simple_bernoulli hs
  have hce : ∀ q : List ℕ → ℝ, (Dist.mk Cls.bernoulliEP [.real (asarray3 0.4 0.5 0.6)] .nil).crossEntropy
      (library search) (.mk .bernoulliNP [.real (scalars [3] q)] .nil) =
      ok (scalars [3] fun i => bernoulliLoss (([0.4, 0.5, 0.6] : List ℝ).getD i.sum 0) (q i)) := fun q =>
    C51_cross_entropy h trivial [3] (fun _ => ()) _ q
  have hv : Val.ofR (const 0.3 * ok (Arr.ofFn [3] fun _ => 1)) = .ok (.real (scalars [3] fun _ => 0.3)) := by
    have : (ok (Arr.ofFn [3] fun _ => (1 : ℝ))) = ok (scalars [3] fun _ => (1 : ℝ)) := rfl
    rw [this]
    calc_simp
    simp only [mul_one]
    rfl
  have hn : (Dist.mk Cls.bernoulliEP [.real (scalars [3] fun _ => (0.3 : ℝ))] .nil).toNat (library search).toNat =
      .ok (.mk .bernoulliNP [.real (scalars [3] fun _ => Real.log (0.3 / (1 - 0.3)))] .nil) :=
    h.toNat [3] (fun _ => ()) (fun _ => (0.3 : ℝ)) fun _ _ => trivial
  have e0 : Real.log ((1 / 2 : ℝ) / (1 - 1 / 2)) = 0 := by norm_num
  refine ⟨scalars [3] fun i => bernoulliLoss (([0.4, 0.5, 0.6] : List ℝ).getD i.sum 0) 0,
    scalars [3] fun i => bernoulliLoss (([0.4, 0.5, 0.6] : List ℝ).getD i.sum 0) (Real.log (0.3 / (1 - 0.3))),
    ?_, rfl, rfl, fun k hk => ?_, fun k hk => ?_⟩
  · simp only [crossEntropyExample, hv, hn, Bind.bind, Except.bind]
    have h1 := hce fun _ => 0
    have h2 := hce fun _ => Real.log (0.3 / (1 - 0.3))
    simp only [scalars] at h1 h2 ⊢
    rw [h1, h2]
    rfl
  · refine (Arr.ofFn_get (by simpa [inB] using hk)).trans ?_
    rw [← e0, bernoulliLoss_logit (by norm_num) (by norm_num), show (1 : ℝ) - 1 / 2 = 1 / 2 by norm_num,
      one_div, Real.log_inv]
    ring
  · refine (Arr.ofFn_get (by simpa [inB] using hk)).trans ?_
    rw [bernoulliLoss_logit (by norm_num) (by norm_num)]
    interval_cases k <;> norm_num

theorem log_seven_tenths : |Real.log (7 / 10) + 0.35667494| ≤ 2e-8 := by
  have h := Real.abs_log_sub_add_sum_range_le (x := 3 / 10) (by norm_num [abs_of_pos]) 16
  simp only [Finset.sum_range_succ, Finset.sum_range_zero] at h
  norm_num [abs_le] at h ⊢
  constructor <;> linarith [h.1, h.2]

theorem log_three_tenths : |Real.log (3 / 10) + 1.2039728| ≤ 2e-8 := by
  have h := Real.abs_log_sub_add_sum_range_le (x := 1 / 6) (by norm_num [abs_of_pos]) 11
  simp only [Finset.sum_range_succ, Finset.sum_range_zero] at h
  have h2 : Real.log (3 / 10) = -Real.log (5 / 6) - 2 * Real.log 2 := by
    rw [← Real.log_inv, show (2 : ℝ) * Real.log 2 = Real.log (2 ^ 2) by rw [Real.log_pow]; norm_num,
      ← Real.log_div (by norm_num) (by norm_num)]
    norm_num
  have h3 := Real.log_two_gt_d9
  have h4 := Real.log_two_lt_d9
  rw [h2]
  norm_num [abs_le] at h h3 h4 ⊢
  constructor <;> linarith [h.1, h.2]

/-- **C99.** What the comments of the example say: to seven digits the numbers are 0.6931472 three times, and
then 0.6955941, 0.78032386 and 0.86505365, of which the first is the least ("predicts a Bernoulli
observation with probability 0.4 better than the other observations"). -/
theorem C99_cross_entropy_comments (hs : solve.For search) :
    ∃ a b : Arr ℝ, crossEntropyExample (library search) = .ok (a, b) ∧ a.rshape = [3] ∧ b.rshape = [3] ∧
      (∀ k < 3, |a.get [k] - 0.6931472| ≤ 5e-8) ∧
      |b.get [0] - 0.6955941| ≤ 5e-8 ∧ |b.get [1] - 0.78032386| ≤ 5e-8 ∧ |b.get [2] - 0.86505365| ≤ 5e-8 ∧
      b.get [0] < b.get [1] ∧ b.get [1] < b.get [2] := by
  obtain ⟨a, b, h, ha, hb, h1, h2⟩ := C99_cross_entropy hs
  have h3 := Real.log_two_gt_d9
  have h4 := Real.log_two_lt_d9
  have h5 := abs_le.1 log_seven_tenths
  have h6 := abs_le.1 log_three_tenths
  have e0 := h2 0 (by norm_num)
  have e1 := h2 1 (by norm_num)
  have e2 := h2 2 (by norm_num)
  norm_num at e0 e1 e2 h3 h4 h5 h6
  refine ⟨a, b, h, ha, hb, fun k hk => ?_, ?_, ?_, ?_, ?_, ?_⟩
  · rw [h1 k hk, abs_le]
    norm_num
    constructor <;> linarith
  · rw [e0, abs_le]; norm_num; constructor <;> linarith [h5.1, h5.2, h6.1, h6.2]
  · rw [e1, abs_le]; norm_num; constructor <;> linarith [h5.1, h5.2, h6.1, h6.2]
  · rw [e2, abs_le]; norm_num; constructor <;> linarith [h5.1, h5.2, h6.1, h6.2]
  · rw [e0, e1]; linarith [h5.1, h5.2, h6.1, h6.2]
  · rw [e1, e2]; linarith [h5.1, h5.2, h6.1, h6.2]

/-- Non-vacuity. -/
example : ∃ r, crossEntropyExample (library (searchFor zeroMinimizer)) = .ok r :=
  let ⟨_, _, h, _⟩ := C99_cross_entropy (C51_search zeroMinimizer_returns)
  ⟨_, h⟩

end Efax
