import Verif.Lemmas.Families.Discrete
import Verif.Lemmas.Families.Multinomial

/-!
# Probability vectors of the Bernoulli and multinomial families (C52)
-/

namespace Efax

open Spec

/-- `nat_to_probability` lists the probabilities of success and failure: positive numbers with sum
one; `nat_to_surprisal` are the negative logarithms of the probabilities. -/
theorem C52_bernoulli (q : ℝ) :
    (∀ i, 0 < bernoulliProbability q i) ∧ ∑ i, bernoulliProbability q i = 1 ∧
    bernoulliProbability q 0 = bernoulli.pdf q true ∧
    bernoulliProbability q 1 = bernoulli.pdf q false ∧
    bernoulliSurprisal q 0 = -bernoulli.logPdf q true ∧
    bernoulliSurprisal q 1 = -bernoulli.logPdf q false := by
  have h0 : bernoulliProbability q 0 = bernoulli.pdf q true := by
    rw [bernoulli_pdf]; rfl
  have h1 : bernoulliProbability q 1 = bernoulli.pdf q false := by
    rw [bernoulli_pdf]; rfl
  refine ⟨fun i => ?_, ?_, h0, h1, ?_, ?_⟩
  · fin_cases i
    · exact expit_pos q
    · exact sub_pos.2 (expit_lt_one q)
  · simp [bernoulliProbability, Fin.sum_univ_two]
  · rw [bernoulliSurprisal, h0, bernoulli.log_pdf]
  · rw [bernoulliSurprisal, h1, bernoulli.log_pdf]

/-- `nat_to_probability` lists the probabilities of the `d + 2` categories, the last category being
the one with no log odds. -/
theorem C52_multinomial {d : ℕ} (q : Fin (d + 1) → ℝ) :
    (∀ k, 0 < multinomialProbability q k) ∧ ∑ k, multinomialProbability q k = 1 ∧
    ∀ k, multinomialProbability q k = (multinomial d).pdf q (oneHot k) ∧
      multinomialSurprisal q k = -(multinomial d).logPdf q (oneHot k) := by
  have hs : 0 < ∑ i, Real.exp (q i) :=
    Finset.sum_pos (fun i _ => Real.exp_pos _) Finset.univ_nonempty
  have h : ∀ k, multinomialProbability q k = (multinomial d).pdf q (oneHot k) := by
    intro k
    rw [multinomial_pdf]
    refine Fin.lastCases ?_ (fun j => ?_) k
    · simp only [multinomialProbability, toExp_multinomial, ← Finset.sum_div]
      rw [Fin.snoc_last, Fin.snoc_last, Real.exp_zero]
      field_simp
      ring
    · simp only [multinomialProbability, toExp_multinomial]
      rw [Fin.snoc_castSucc, Fin.snoc_castSucc]
  refine ⟨fun k => ?_, ?_, fun k => ⟨h k, ?_⟩⟩
  · rw [h]
    exact (multinomial d).pdf_pos q _
  · simp [multinomialProbability, Fin.sum_univ_castSucc]
  · rw [multinomialSurprisal, h, (multinomial d).log_pdf]

/-- Subtracting the maximum does not change the result: the probabilities are those of the textbook
formula. -/
theorem C52_shift {d : ℕ} (q : Fin (d + 1) → ℝ) :
    (∀ i : Fin (d + 1), multinomialProbability q i.castSucc =
      Real.exp (q i) / (1 + ∑ j, Real.exp (q j))) ∧
    multinomialProbability q (Fin.last (d + 1)) = 1 / (1 + ∑ j, Real.exp (q j)) ∧
    (multinomial d).logNormalizer q = Real.log (1 + ∑ j, Real.exp (q j)) := by
  have hs : 0 < ∑ i, Real.exp (q i) :=
    Finset.sum_pos (fun i _ => Real.exp_pos _) Finset.univ_nonempty
  refine ⟨fun i => ?_, ?_, logNormalizer_multinomial q⟩
  · simp only [multinomialProbability, toExp_multinomial]
    rw [Fin.snoc_castSucc]
  · simp only [multinomialProbability, toExp_multinomial, ← Finset.sum_div]
    rw [Fin.snoc_last]
    field_simp
    ring

end Efax
