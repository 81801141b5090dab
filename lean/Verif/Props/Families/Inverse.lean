import Verif.Lemmas.Families.Discrete
import Verif.Lemmas.Families.Multinomial
import Verif.Lemmas.Families.Normal
import Verif.Lemmas.Simplex

/-!
# Closed-form conversions undo each other (C31)

`Inverses toExp toNat dom mdom`: each conversion maps its domain into the other one and the
compositions are the identity.
-/

namespace Efax

open Spec Set

theorem C31_bernoulli : Inverses bernoulli.toExp bernoulliToNat univ (Ioo 0 1) :=
  ⟨fun η _ => ⟨⟨expit_pos η, expit_lt_one η⟩, logit_expit η⟩,
    fun _ h => ⟨trivial, expit_of_logit h.1 h.2⟩⟩

theorem C31_poisson : Inverses poisson.toExp poissonToNat univ (Ioi 0) :=
  ⟨fun η _ => ⟨Real.exp_pos η, Real.log_exp η⟩, fun _ h => ⟨trivial, Real.exp_log h⟩⟩

theorem C31_negative_binomial {r : ℕ} (hr : 1 ≤ r) :
    Inverses (negativeBinomial r).toExp (negativeBinomialToNat r) (Iio 0) (Ioi 0) := by
  have hr' : (0 : ℝ) < r := Nat.cast_pos.2 hr
  refine ⟨fun η (h : η < 0) => ?_, fun χ (h : 0 < χ) => ?_⟩
  · have h1 : 1 < Real.exp (-η) := Real.one_lt_exp_iff.2 (by linarith)
    have h2 : 0 < Real.exp (-η) - 1 := by linarith
    refine ⟨div_pos hr' h2, ?_⟩
    simp only [negativeBinomial, negativeBinomialToNat, expm1, log1p]
    rw [div_div_cancel₀ hr'.ne', add_sub_cancel, Real.log_exp, neg_neg]
  · have h1 : 0 < r / χ := div_pos hr' h
    refine ⟨neg_lt_zero.2 (Real.log_pos (by linarith)), ?_⟩
    simp only [negativeBinomial, negativeBinomialToNat, expm1, log1p]
    rw [neg_neg, Real.exp_log (by linarith), add_sub_cancel_left, div_div_cancel₀ hr'.ne']

theorem C31_geometric : Inverses geometric.toExp geometricToNat (Iio 0) (Ioi 0) :=
  C31_negative_binomial le_rfl

theorem C31_multinomial (d : ℕ) :
    Inverses (multinomial d).toExp multinomialToNat univ (simplex (d + 1)) := by
  refine ⟨fun η _ => ?_, fun χ h => ⟨trivial, ?_⟩⟩
  · have hs : 0 < ∑ i, Real.exp (η i) :=
      Finset.sum_pos (fun i _ => Real.exp_pos _) Finset.univ_nonempty
    have h1 : 1 - ∑ i, (multinomial d).toExp η i = 1 / (1 + ∑ j, Real.exp (η j)) := by
      simp only [multinomial, toExp_multinomial, ← Finset.sum_div]
      field_simp
      ring
    refine ⟨⟨fun i => Real.exp_pos _, ?_⟩, ?_⟩
    · have : 0 < 1 / (1 + ∑ j, Real.exp (η j)) := by positivity
      linarith
    · funext i
      rw [multinomialToNat, h1]
      simp only [multinomial, toExp_multinomial]
      rw [div_div_div_cancel_right₀ (by positivity), div_one, Real.log_exp]
  · have h0 : 0 < 1 - ∑ j, χ j := by linarith [h.2]
    have h1 : ∀ i, Real.exp (multinomialToNat χ i) = χ i / (1 - ∑ j, χ j) := fun i =>
      Real.exp_log (div_pos (h.1 i) h0)
    funext i
    simp only [multinomial, toExp_multinomial]
    rw [h1]
    simp only [h1, ← Finset.sum_div]
    field_simp
    ring

theorem C31_exponential : Inverses exponential.toExp exponentialToNat (Iio 0) (Ioi 0) := by
  refine ⟨fun η (h : η < 0) => ⟨div_pos_of_neg_of_neg (by norm_num) h, ?_⟩,
    fun χ (h : 0 < χ) => ⟨div_neg_of_neg_of_pos (by norm_num) h, ?_⟩⟩
  · have := h.ne
    simp only [exponential, exponentialToNat]
    field_simp
  · have := h.ne'
    simp only [exponential, exponentialToNat]
    field_simp

theorem C31_rayleigh : Inverses rayleigh.toExp rayleighToNat (Iio 0) (Ioi 0) := C31_exponential

theorem C31_weibull (k : ℝ) : Inverses (weibull k).toExp weibullToNat (Iio 0) (Ioi 0) :=
  C31_exponential

theorem C31_normal : Inverses normal.toExp normalToNat normalDom {χ | χ.1 ^ 2 < χ.2} := by
  refine ⟨fun η h => ⟨?_, ?_⟩, fun χ h => ⟨?_, ?_⟩⟩
  · have h : η.2 < 0 := h
    have : 0.5 / η.2 < 0 := div_neg_of_pos_of_neg (by norm_num) h
    show (-η.1 / (2 * η.2)) ^ 2 < (-η.1 / (2 * η.2)) ^ 2 - 0.5 / η.2
    linarith
  · have h : η.2 ≠ 0 := (show η.2 < 0 from h).ne
    simp only [normal, normalToNat, normalVariance]
    ext
    · field_simp
      ring
    · field_simp
      ring
  · have h : 0 < normalVariance χ := sub_pos.2 h
    exact div_neg_of_neg_of_pos (by norm_num) h
  · have h : 0 < normalVariance χ := sub_pos.2 h
    have h' := h.ne'
    simp only [normal, normalToNat]
    have e : normalVariance χ = χ.2 - χ.1 ^ 2 := rfl
    ext
    · simp only
      norm_num
      field_simp
    · simp only
      norm_num
      field_simp
      rw [e]
      ring

theorem C31_unit_normal : Inverses unitNormal.toExp unitNormalToNat univ univ :=
  ⟨fun _ _ => ⟨trivial, rfl⟩, fun _ _ => ⟨trivial, rfl⟩⟩

/-- The hypotheses are satisfiable. -/
example : (1 / 3 : ℝ) ∈ Ioo (0 : ℝ) 1 ∧ ((1, 2) : ℝ × ℝ) ∈ {χ : ℝ × ℝ | χ.1 ^ 2 < χ.2} ∧ 1 ≤ 4 := by
  norm_num

end Efax
