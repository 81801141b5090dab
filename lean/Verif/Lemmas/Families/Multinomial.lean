import Verif.Model.Families.Discrete
import Verif.Lemmas.Families
import Verif.Spec.Measures
import Verif.Lemmas.Special
import Mathlib.Analysis.SpecialFunctions.ExpDeriv
import Mathlib.Analysis.Calculus.FDeriv.Pi
import Mathlib.MeasureTheory.Constructions.BorelSpace.Basic

/-!
# The multinomial family is regular
-/

namespace Efax

open MeasureTheory Spec

theorem logNormalizer_multinomial {d : ℕ} (q : Fin (d + 1) → ℝ) :
    maxQ q + logScaledA q = Real.log (1 + ∑ i, Real.exp (q i)) := by
  have hs : 0 < ∑ i, Real.exp (q i - maxQ q) :=
    Finset.sum_pos (fun i _ => Real.exp_pos _) Finset.univ_nonempty
  have hs' : 0 < ∑ i, Real.exp (q i) :=
    Finset.sum_pos (fun i _ => Real.exp_pos _) Finset.univ_nonempty
  have h : ∑ i, Real.exp (q i - maxQ q) = Real.exp (-maxQ q) * ∑ i, Real.exp (q i) := by
    rw [Finset.mul_sum]
    refine Finset.sum_congr rfl fun i _ => ?_
    rw [← Real.exp_add]
    congr 1
    ring
  have h2 : Real.exp (-maxQ q) + Real.exp (-maxQ q) * ∑ i, Real.exp (q i) =
      Real.exp (-maxQ q) * (1 + ∑ i, Real.exp (q i)) := by ring
  rw [logScaledA, logaddexp, Real.exp_log hs, h, h2, Real.log_mul (Real.exp_pos _).ne'
    (by positivity), Real.log_exp]
  ring

theorem toExp_multinomial {d : ℕ} (q : Fin (d + 1) → ℝ) (i : Fin (d + 1)) :
    Real.exp (q i - maxQ q - logScaledA q) = Real.exp (q i) / (1 + ∑ j, Real.exp (q j)) := by
  have hs' : 0 < ∑ i, Real.exp (q i) :=
    Finset.sum_pos (fun i _ => Real.exp_pos _) Finset.univ_nonempty
  rw [sub_sub, logNormalizer_multinomial, Real.exp_sub, Real.exp_log (by positivity)]

theorem multinomial_sum {d : ℕ} (q : Fin (d + 1) → ℝ) (k : Fin (d + 2)) :
    ∑ i, q i * oneHot k i = (Fin.snoc (α := fun _ => ℝ) q 0 : Fin (d + 2) → ℝ) k := by
  refine Fin.lastCases ?_ (fun j => ?_) k
  · rw [Fin.snoc_last]
    refine Finset.sum_eq_zero fun i _ => ?_
    have : i.castSucc ≠ Fin.last (d + 1) := (Fin.castSucc_lt_last i).ne
    simp [oneHot, this]
  · rw [Fin.snoc_castSucc]
    simp [oneHot, Fin.castSucc_inj]

theorem multinomial_pdf {d : ℕ} (q : Fin (d + 1) → ℝ) (k : Fin (d + 2)) :
    (multinomial d).pdf q (oneHot k) =
      Real.exp ((Fin.snoc (α := fun _ => ℝ) q 0 : Fin (d + 2) → ℝ) k) /
        (1 + ∑ j, Real.exp (q j)) := by
  have hs' : 0 < ∑ i, Real.exp (q i) :=
    Finset.sum_pos (fun i _ => Real.exp_pos _) Finset.univ_nonempty
  rw [ExpFam.pdf, ExpFam.logPdf]
  simp only [multinomial]
  rw [multinomial_sum, logNormalizer_multinomial, add_zero, Real.exp_sub,
    Real.exp_log (by positivity)]

theorem multinomial_sum_pdf {d : ℕ} (q : Fin (d + 1) → ℝ) :
    ∑ k, (multinomial d).pdf q (oneHot k) = 1 := by
  have hs' : 0 < ∑ i, Real.exp (q i) :=
    Finset.sum_pos (fun i _ => Real.exp_pos _) Finset.univ_nonempty
  simp only [multinomial_pdf]
  rw [← Finset.sum_div, Fin.sum_univ_castSucc]
  simp only [Fin.snoc_castSucc, Fin.snoc_last, Real.exp_zero]
  rw [add_comm, div_self (by positivity)]

theorem integral_categories {d : ℕ} (f : (Fin (d + 1) → ℝ) → ℝ) :
    ∫ x, f x ∂categories d = ∑ k, f (oneHot k) := by
  rw [categories, integral_finset_sum_measure fun k _ => ?_]
  · simp
  · exact integrable_dirac (by simp)

theorem integrable_categories {d : ℕ} (f : (Fin (d + 1) → ℝ) → ℝ) :
    Integrable f (categories d) := by
  rw [categories, integrable_finset_sum_measure]
  exact fun k _ => integrable_dirac (by simp)

theorem ae_categories {d : ℕ} {p : (Fin (d + 1) → ℝ) → Prop} (h : ∀ᵐ x ∂categories d, p x)
    (k : Fin (d + 2)) : p (oneHot k) := by
  have h1 : Measure.dirac (oneHot k) ≤ categories d := by
    rw [categories]
    intro s
    rw [Measure.finset_sum_apply]
    exact Finset.single_le_sum (f := fun k => (Measure.dirac (oneHot (d := d) k)) s)
      (fun _ _ => zero_le) (Finset.mem_univ k)
  have := Measure.absolutelyContinuous_of_le h1 h
  simpa using this

theorem multinomial_regular (d : ℕ) :
    Regular (multinomial d) (categories d) Set.univ ⊤ := by
  refine .of_fderiv (fun w => ⟨fun a b => ?_, fun c a => ?_⟩) isOpen_univ convex_univ
    (fun η _ => ⟨fun x => ((multinomial d).pdf_pos η x).le, ?_⟩) fun η _ => ?_
  · simp only [multinomial, Pi.add_apply, add_mul, Finset.sum_add_distrib]
  · simp only [multinomial, Pi.smul_apply, smul_eq_mul, mul_assoc, Finset.mul_sum]
  · rw [integral_categories]
    exact multinomial_sum_pdf η
  · have hs' : 0 < ∑ i, Real.exp (η i) :=
      Finset.sum_pos (fun i _ => Real.exp_pos _) Finset.univ_nonempty
    have h1 : HasFDerivAt (fun q : Fin (d + 1) → ℝ => 1 + ∑ i, Real.exp (q i))
        (∑ i, Real.exp (η i) • ContinuousLinearMap.proj (R := ℝ) (φ := fun _ : Fin (d + 1) => ℝ) i)
        η := by
      refine (HasFDerivAt.fun_sum fun i _ => ?_).const_add 1
      exact (hasFDerivAt_apply i η).exp
    have h2 := h1.log (by positivity)
    have e : (multinomial d).logNormalizer = fun q => Real.log (1 + ∑ i, Real.exp (q i)) :=
      funext fun q => logNormalizer_multinomial q
    rw [e]
    refine ⟨_, h2, fun v => ?_⟩
    simp only [multinomial, toExp_multinomial]
    simp [ContinuousLinearMap.sum_apply, Finset.mul_sum]
    exact Finset.sum_congr rfl fun i _ => by ring

theorem multinomial_minimal (d : ℕ) : Minimal (multinomial d) (categories d) ⊤ := by
  intro v _ c h
  have h1 : ∀ k, (Fin.snoc (α := fun _ => ℝ) v 0 : Fin (d + 2) → ℝ) k = c := fun k => by
    rw [← multinomial_sum]
    exact ae_categories h k
  have h2 := h1 (Fin.last _)
  rw [Fin.snoc_last] at h2
  funext i
  have := h1 i.castSucc
  rw [Fin.snoc_castSucc] at this
  rw [this, ← h2]
  rfl

end Efax
