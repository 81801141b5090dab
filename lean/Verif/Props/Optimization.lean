import Verif.Lemmas.Optimization

/-!
# C72: the example `examples/optimization.py` terminates with the right distribution
-/

namespace Efax

open Calc Spec

variable [MachEps] {solve : Solver} {search : Cls → List Val → Except Err (List Val)}

/-- **C72.** `gce` returns the difference of the expectation parameters, and a step of the loop
decreases the loss by at least `1e-4 (1 - 1e-4)` times the total that the condition of the loop
compares with `1e-6`. -/
theorem C72_step (hs : solve.For search) (rs : List ℕ) (p q : List ℕ → ℝ) :
    gce (library search) (.mk .bernoulliEP [.real (scalars rs p)] .nil)
        (.mk .bernoulliNP [.real (scalars rs q)] .nil) =
      .ok (.mk .bernoulliNP [.real (scalars rs fun i => 1 / (1 + Real.exp (-q i)) - p i)] .nil) ∧
    ∃ q' l l', bodyFun (library search) (.mk .bernoulliEP [.real (scalars rs p)] .nil)
        (.mk .bernoulliNP [.real (scalars rs q)] .nil) = .ok q' ∧
      crossEntropyLoss (library search) (.mk .bernoulliEP [.real (scalars rs p)] .nil)
        (.mk .bernoulliNP [.real (scalars rs q)] .nil) = .ok l ∧
      crossEntropyLoss (library search) (.mk .bernoulliEP [.real (scalars rs p)] .nil) q' = .ok l' ∧
      l' ≤ l - 1e-4 * (1 - 1e-4) * sumBox rs fun i => (1 / (1 + Real.exp (-q i)) - p i) ^ 2 := by
  refine ⟨bernoulli_gce hs rs p q, _, _, _, bernoulli_body hs rs p q, bernoulli_loss hs rs p q,
    bernoulli_loss hs rs p _, ?_⟩
  have h := sumBox_le (rs := rs) fun i _ => bernoulliLoss_step (p i) (q i) (η := 1e-4) (by norm_num)
  refine h.trans (le_of_eq ?_)
  simp only [sub_eq_add_neg (bernoulliLoss _ _), ← neg_mul]
  rw [sumBox_add, sumBox_mul]
  simp only [expit]
  ring

/-- **C72.** The loop of the example ends, for every batch of probabilities from zero to one and
wherever it starts, with a prediction whose probabilities differ from the given ones by at most `1e-3`
(the sum of the squares by at most `1e-6`).  The number of steps is at most the initial loss divided by
`1e-10 (1 - 1e-4)`. -/
theorem C72_terminates (hs : solve.For search) (rs : List ℕ) (p q : List ℕ → ℝ)
    (hp : ∀ i, inB rs i = true → 0 ≤ p i ∧ p i ≤ 1) :
    ∃ n r χ l, WhileLoop (condFun (library search) (.mk .bernoulliEP [.real (scalars rs p)] .nil))
        (bodyFun (library search) (.mk .bernoulliEP [.real (scalars rs p)] .nil))
        (.mk .bernoulliNP [.real (scalars rs q)] .nil) n r ∧
      r.toExp (library search).toExp = .ok (.mk .bernoulliEP [.real (scalars rs χ)] .nil) ∧
      (∀ i, inB rs i = true → |χ i - p i| ≤ 1e-3) ∧
      sumBox rs (fun i => (χ i - p i) ^ 2) ≤ 1e-6 ∧
      crossEntropyLoss (library search) (.mk .bernoulliEP [.real (scalars rs p)] .nil)
        (.mk .bernoulliNP [.real (scalars rs q)] .nil) = .ok l ∧
      n * (1e-10 * (1 - 1e-4)) ≤ l := by
  suffices h : ∀ (N : ℕ) (q : List ℕ → ℝ),
      sumBox rs (fun i => bernoulliLoss (p i) (q i)) < N * (1e-10 * (1 - 1e-4)) →
      ∃ n r, WhileLoop (condFun (library search) (bernoulliExp rs p))
        (bodyFun (library search) (bernoulliExp rs p)) (bernoulliNat rs q) n (bernoulliNat rs r) ∧
      sumBox rs (fun i => (expit (r i) - p i) ^ 2) ≤ 1e-6 ∧
      n * (1e-10 * (1 - 1e-4)) ≤ sumBox rs fun i => bernoulliLoss (p i) (q i) by
    obtain ⟨N, hN⟩ := exists_nat_gt
      (sumBox rs (fun i => bernoulliLoss (p i) (q i)) / (1e-10 * (1 - 1e-4)))
    rw [div_lt_iff₀ (by norm_num)] at hN
    obtain ⟨n, r, h1, h2, h3⟩ := h N q hN
    refine ⟨n, _, fun i => expit (r i), _, h1,
      (simple_bernoulli hs).toExp rs (fun _ => ()) r fun _ _ => trivial, fun i hi => ?_, h2,
      bernoulli_loss hs rs p q, h3⟩
    have h4 := (le_sumBox (fun j _ => sq_nonneg (expit (r j) - p j)) hi).trans h2
    exact abs_le_of_sq_le_sq (h4.trans (by norm_num)) (by norm_num)
  intro N
  induction N with
  | zero =>
    intro q hq
    have := sumBox_nonneg (rs := rs) fun i hi => bernoulliLoss_nonneg (hp i hi).1 (hp i hi).2 (q i)
    rw [Nat.cast_zero, zero_mul] at hq
    linarith
  | succ N ih =>
    intro q hq
    by_cases hc : 1e-6 < sumBox rs fun i => (expit (q i) - p i) ^ 2
    · obtain ⟨-, q', l, l', h1, h2, h3, h4⟩ := C72_step hs rs p q
      obtain rfl : l = _ := Except.ok.inj (h2.symm.trans (bernoulli_loss hs rs p q))
      obtain rfl : q' = _ := Except.ok.inj (h1.symm.trans (bernoulli_body hs rs p q))
      obtain rfl : l' = _ := Except.ok.inj (h3.symm.trans (bernoulli_loss hs rs p _))
      have h4 : sumBox rs (fun i => bernoulliLoss (p i) (q i - 1e-4 * (expit (q i) - p i))) ≤
        sumBox rs (fun i => bernoulliLoss (p i) (q i)) -
          1e-4 * (1 - 1e-4) * sumBox rs fun i => (expit (q i) - p i) ^ 2 := h4
      have h5 : sumBox rs (fun i => bernoulliLoss (p i) (q i - 1e-4 * (expit (q i) - p i))) ≤
          sumBox rs (fun i => bernoulliLoss (p i) (q i)) - 1e-10 * (1 - 1e-4) := by
        refine h4.trans ?_
        norm_num at hc ⊢
        linarith
      obtain ⟨n, r, h6, h7, h8⟩ := ih _ (h5.trans_lt (by
        rw [Nat.cast_succ, add_mul, one_mul] at hq
        linarith))
      refine ⟨n + 1, r, .step ?_ (bernoulli_body hs rs p q) h6, h7, ?_⟩
      · rw [bernoulli_cond hs, decide_eq_true hc]
      · rw [Nat.cast_succ, add_mul, one_mul]
        linarith
    · refine ⟨0, q, .stop ?_, not_lt.1 hc, ?_⟩
      · rw [bernoulli_cond hs, decide_eq_false hc]
      · rw [Nat.cast_zero, zero_mul]
        exact sumBox_nonneg fun i hi => bernoulliLoss_nonneg (hp i hi).1 (hp i hi).2 (q i)

omit [MachEps] in
/-- **C72.** A loop ends in one way only. -/
theorem C72_unique {σ : Type} {cond : σ → Except Err Bool} {body : σ → Except Err σ} {s r r' : σ}
    {n n' : ℕ} (h : WhileLoop cond body s n r) (h' : WhileLoop cond body s n' r') : n = n' ∧ r = r' := by
  induction h generalizing n' r' with
  | stop h1 =>
    cases h' with
    | stop => exact ⟨rfl, rfl⟩
    | step h2 => rw [h1] at h2; simp at h2
  | step h1 h2 _ ih =>
    cases h' with
    | stop h3 => rw [h1] at h3; simp at h3
    | step h3 h4 h5 =>
      obtain rfl := Except.ok.inj (h2.symm.trans h4)
      obtain ⟨rfl, rfl⟩ := ih h5
      exact ⟨rfl, rfl⟩

/-- Non-vacuity of C72: the numbers of the example; three probabilities, starting at log-odds zero. -/
example (hs : solve.For search) :
    let p : List ℕ → ℝ := fun i => [0.3, 0.4, 0.7].getD (i.headD 0) 0
    ∃ n r χ, WhileLoop (condFun (library search) (.mk .bernoulliEP [.real (scalars [3] p)] .nil))
        (bodyFun (library search) (.mk .bernoulliEP [.real (scalars [3] p)] .nil))
        (.mk .bernoulliNP [.real (scalars [3] fun _ => 0)] .nil) n r ∧
      r.toExp (library search).toExp = .ok (.mk .bernoulliEP [.real (scalars [3] χ)] .nil) ∧
      |χ [0] - 0.3| ≤ 1e-3 ∧ |χ [1] - 0.4| ≤ 1e-3 ∧ |χ [2] - 0.7| ≤ 1e-3 := by
  intro p
  obtain ⟨n, r, χ, _, h1, h2, h3, -⟩ := C72_terminates hs [3] p (fun _ => 0) fun i hi => by
    match i, hi with
    | [0], _ => norm_num [p]
    | [1], _ => norm_num [p]
    | [2], _ => norm_num [p]
    | (_ + 3) :: _, h => simp [inB] at h
    | _ :: _ :: _, h => simp [inB] at h
    | [], h => simp [inB] at h
  exact ⟨n, r, χ, h1, h2, h3 [0] rfl, h3 [1] rfl, h3 [2] rfl⟩

end Efax
