import Mathlib.LinearAlgebra.Matrix.PosDef
import Mathlib.Analysis.Matrix.PosDef
import Mathlib.Analysis.Matrix.Order
import Mathlib.Data.Set.Finite.Basic
import Mathlib.Data.Set.Finite.Lattice
import Mathlib.Algebra.BigOperators.Fin
import Mathlib.Analysis.Complex.Basic

/-!
# Factors of semidefinite matrices without zeros
-/

namespace Efax

open Matrix

open scoped ComplexOrder MatrixOrder Matrix.Norms.L2Operator

/-- A rotation of two columns. -/
noncomputable def rotate {d : ℕ} (M : Matrix (Fin d) (Fin d) ℂ) (n m : Fin d) (t : ℝ) :
    Matrix (Fin d) (Fin d) ℂ := fun k l =>
  if l = n then (M k n + t * M k m) / (√(1 + t ^ 2) : ℝ)
  else if l = m then (M k m - t * M k n) / (√(1 + t ^ 2) : ℝ) else M k l

theorem rotate_mul {d : ℕ} (M : Matrix (Fin d) (Fin d) ℂ) {n m : Fin d} (h : n ≠ m) (t : ℝ) :
    rotate M n m t * (rotate M n m t)ᴴ = M * Mᴴ := by
  have hs : ((√(1 + t ^ 2) : ℝ) : ℂ) * ((√(1 + t ^ 2) : ℝ) : ℂ) = 1 + (t : ℂ) ^ 2 := by
    rw [← Complex.ofReal_mul, Real.mul_self_sqrt (by positivity)]
    push_cast; rfl
  have hs0 : ((√(1 + t ^ 2) : ℝ) : ℂ) ≠ 0 := by
    rw [Complex.ofReal_ne_zero]
    exact (Real.sqrt_pos.2 (by positivity)).ne'
  have ht : (1 + (t : ℂ) ^ 2) ≠ 0 := by rw [← hs]; exact mul_ne_zero hs0 hs0
  ext i k
  rw [Matrix.mul_apply, Matrix.mul_apply]
  have hm : m ∈ Finset.univ.erase n := Finset.mem_erase.2 ⟨h.symm, Finset.mem_univ _⟩
  rw [← Finset.add_sum_erase _ _ (Finset.mem_univ n), ← Finset.add_sum_erase _ _ hm,
    ← Finset.add_sum_erase _ (fun j => M i j * Mᴴ j k) (Finset.mem_univ n),
    ← Finset.add_sum_erase _ (fun j => M i j * Mᴴ j k) hm, ← add_assoc, ← add_assoc]
  congr 1
  · simp only [Matrix.conjTranspose_apply, rotate, if_true, if_neg h.symm, star_div₀, star_add, star_sub,
      star_mul', Complex.star_def, Complex.conj_ofReal]
    rw [div_mul_div_comm, div_mul_div_comm, hs, ← add_div, div_eq_iff ht]
    ring
  · refine Finset.sum_congr rfl fun l hl => ?_
    have h1 := (Finset.mem_erase.1 hl).1
    have h2 := (Finset.mem_erase.1 (Finset.mem_erase.1 hl).2).1
    simp only [Matrix.conjTranspose_apply, rotate, if_neg h1, if_neg h2]

/-- A matrix without zero rows can be rotated into one without zeros. -/
theorem exists_no_zero {d : ℕ} (M : Matrix (Fin d) (Fin d) ℂ) (hM : ∀ i, ∃ n, M i n ≠ 0) :
    ∃ N : Matrix (Fin d) (Fin d) ℂ, N * Nᴴ = M * Mᴴ ∧ ∀ i n, N i n ≠ 0 := by
  classical
  induction hz : (Finset.univ.filter fun p : Fin d × Fin d => M p.1 p.2 = 0).card using
    Nat.strong_induction_on generalizing M with
  | _ z ih =>
    by_cases h : ∀ i n, M i n ≠ 0
    · exact ⟨M, rfl, h⟩
    · push Not at h
      obtain ⟨i, n, hin⟩ := h
      obtain ⟨m, him⟩ := hM i
      have hnm : n ≠ m := fun he => him (he ▸ hin)
      have hfin : (⋃ k : Fin d, {t : ℝ | (M k n ≠ 0 ∨ M k m ≠ 0) ∧
          (M k n + t * M k m = 0 ∨ M k m - t * M k n = 0)}).Finite := by
        refine Set.finite_iUnion fun k => ?_
        by_cases h0 : M k n = 0
        · refine Set.Finite.subset (Set.finite_singleton 0) fun t ht => ?_
          obtain ⟨h1, h2⟩ := ht
          have h1 : M k m ≠ 0 := h1.resolve_left (not_not.2 h0)
          simp only [h0, zero_add, mul_zero, sub_zero, mul_eq_zero, h1, or_false,
            Complex.ofReal_eq_zero] at h2
          exact h2
        · by_cases h1 : M k m = 0
          · refine Set.Finite.subset (Set.finite_singleton 0) fun t ht => ?_
            have h2 := ht.2
            simp only [h1, mul_zero, add_zero, h0, zero_sub, neg_eq_zero, mul_eq_zero, or_false, false_or,
              Complex.ofReal_eq_zero] at h2
            exact h2
          · refine Set.Finite.subset (Set.toFinite {(-(M k n / M k m)).re, (M k m / M k n).re})
              fun t ht => ?_
            rcases ht.2 with h2 | h2
            · left
              have : (t : ℂ) = -(M k n / M k m) := by
                field_simp
                linear_combination h2
              rw [← this, Complex.ofReal_re]
            · right
              have : (t : ℂ) = M k m / M k n := by
                field_simp
                linear_combination -h2
              rw [Set.mem_singleton_iff, ← this, Complex.ofReal_re]
      obtain ⟨t, ht⟩ := hfin.exists_notMem
      simp only [Set.mem_iUnion, Set.mem_setOf_eq, not_exists, not_and, not_or] at ht
      have hs0 : ((√(1 + t ^ 2) : ℝ) : ℂ) ≠ 0 := by
        rw [Complex.ofReal_ne_zero]
        exact (Real.sqrt_pos.2 (by positivity)).ne'
      have key : ∀ k l, rotate M n m t k l = 0 → M k l = 0 := by
        intro k l hkl
        unfold rotate at hkl
        split_ifs at hkl with h1 h2
        · subst h1
          by_contra h0
          exact (ht k (.inl h0)).1 ((div_eq_zero_iff.1 hkl).resolve_right hs0)
        · subst h2
          by_contra h0
          exact (ht k (.inr h0)).2 ((div_eq_zero_iff.1 hkl).resolve_right hs0)
        · exact hkl
      have hin' : rotate M n m t i n ≠ 0 := by
        intro h0
        rw [rotate, if_pos rfl] at h0
        exact (ht i (.inr him)).1 ((div_eq_zero_iff.1 h0).resolve_right hs0)
      obtain ⟨N, h1, h2⟩ := ih _ (by
        rw [← hz]
        refine Finset.card_lt_card ⟨fun p hp => ?_, fun hsub => ?_⟩
        · rw [Finset.mem_filter] at hp ⊢
          exact ⟨hp.1, key _ _ hp.2⟩
        · have := hsub (Finset.mem_filter.2 ⟨Finset.mem_univ (i, n), hin⟩)
          exact hin' (Finset.mem_filter.1 this).2) (rotate M n m t) (fun k => by
          obtain ⟨l, hl⟩ := hM k
          exact ⟨l, fun h0 => hl (key _ _ h0)⟩) rfl
      exact ⟨N, h1.trans (rotate_mul M hnm t), h2⟩

theorem exists_factor_real {d : ℕ} {A : Matrix (Fin d) (Fin d) ℝ} (hA : A.PosSemidef) :
    ∃ M : Matrix (Fin d) (Fin d) ℝ, M * Mᴴ = A := by
  obtain ⟨B, hB⟩ := CStarAlgebra.nonneg_iff_eq_star_mul_self.1 hA.nonneg
  exact ⟨Bᴴ, by rw [hB, Matrix.conjTranspose_conjTranspose]; rfl⟩

theorem exists_factor_complex {d : ℕ} {A : Matrix (Fin d) (Fin d) ℂ} (hA : A.PosSemidef)
    (hd : ∀ i, A i i ≠ 0) : ∃ M : Matrix (Fin d) (Fin d) ℂ, M * Mᴴ = A ∧ ∀ i n, M i n ≠ 0 := by
  obtain ⟨B, hB⟩ := CStarAlgebra.nonneg_iff_eq_star_mul_self.1 hA.nonneg
  obtain ⟨N, h1, h2⟩ := exists_no_zero Bᴴ (fun i => by
    by_contra h0
    push Not at h0
    refine hd i ?_
    rw [hB, Matrix.mul_apply]
    exact Finset.sum_eq_zero fun n _ => (congrArg (· * B n i) (h0 n)).trans (zero_mul _))
  exact ⟨N, by rw [h1, hB, Matrix.conjTranspose_conjTranspose]; rfl, h2⟩

end Efax
