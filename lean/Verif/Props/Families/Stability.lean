import Verif.Model.Families.Discrete
import Verif.Model.Families.Positive

/-!
# C65: the exponents of the multinomial distribution are shifted so that nothing overflows
-/

namespace Efax

variable {d : ℕ} (q : Fin (d + 1) → ℝ)

/-- **C65.** The shift is the largest of the log odds of all categories, including the last one, which
are zero. -/
theorem C65_shift : IsGreatest (insert 0 (Set.range q)) (maxQ q) := by
  refine ⟨?_, ?_⟩
  · rcases max_choice 0 (Finset.univ.sup' Finset.univ_nonempty q) with h | h
    · exact Or.inl h
    · obtain ⟨i, _, hi⟩ := Finset.exists_mem_eq_sup' Finset.univ_nonempty q
      exact Or.inr ⟨i, (hi.symm.trans h.symm)⟩
  · rintro x (rfl | ⟨i, rfl⟩)
    · exact le_max_left _ _
    · exact (Finset.le_sup' q (Finset.mem_univ i)).trans (le_max_right _ _)

/-- **C65.** All exponents are at most zero, and one of them is zero. -/
theorem C65_exponents : (∀ i, q i - maxQ q ≤ 0) ∧ -maxQ q ≤ 0 ∧
    (-maxQ q = 0 ∨ ∃ i, q i - maxQ q = 0) := by
  have h := C65_shift q
  refine ⟨fun i => sub_nonpos.2 (h.2 (Or.inr ⟨i, rfl⟩)), by simpa using h.2 (Or.inl rfl), ?_⟩
  rcases h.1 with h | ⟨i, hi⟩
  · exact Or.inl (by rw [h, neg_zero])
  · exact Or.inr ⟨i, sub_eq_zero.2 hi⟩

/-- **C65.** The logarithm of the scaled sum lies between zero and the logarithm of the number of
categories. -/
theorem C65_scaled : 0 ≤ logScaledA q ∧ logScaledA q ≤ Real.log (d + 2) := by
  have h := C65_exponents q
  have hs : 0 < ∑ i, Real.exp (q i - maxQ q) :=
    Finset.sum_pos (fun i _ => Real.exp_pos _) Finset.univ_nonempty
  rw [logScaledA, logaddexp, Real.exp_log hs]
  have hm : Real.exp (-maxQ q) ≤ 1 := Real.exp_le_one_iff.2 h.2.1
  refine ⟨Real.log_nonneg ?_, Real.log_le_log (by positivity) ?_⟩
  · rcases h.2.2 with h0 | ⟨i, hi⟩
    · rw [h0, Real.exp_zero]
      linarith
    · have : Real.exp (q i - maxQ q) ≤ ∑ i, Real.exp (q i - maxQ q) :=
        Finset.single_le_sum (f := fun i => Real.exp (q i - maxQ q)) (fun i _ => (Real.exp_pos _).le)
          (Finset.mem_univ i)
      rw [hi, Real.exp_zero] at this
      linarith [Real.exp_pos (-maxQ q)]
  · have : ∑ i, Real.exp (q i - maxQ q) ≤ ∑ _i : Fin (d + 1), (1 : ℝ) :=
      Finset.sum_le_sum fun i _ => Real.exp_le_one_iff.2 (h.1 i)
    simp only [Finset.sum_const, Finset.card_univ, Fintype.card_fin, nsmul_eq_mul, mul_one] at this
    push_cast at this
    linarith

/-- Both bounds are attained or approached: equal odds attain the upper one. -/
example : maxQ (fun _ : Fin 2 => (0 : ℝ)) = 0 := by simp [maxQ]

end Efax
