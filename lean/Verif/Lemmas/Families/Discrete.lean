import Verif.Model.Families.Discrete
import Verif.Lemmas.Families
import Verif.Lemmas.Special
import Mathlib.Analysis.SpecificLimits.Normed
import Mathlib.Analysis.SpecialFunctions.Log.Deriv
import Mathlib.Analysis.SpecialFunctions.Exponential

/-!
# Discrete families are regular
-/

namespace Efax

open MeasureTheory Spec

/-! ### Bernoulli -/

theorem bernoulli_pdf (q : ℝ) (x : Bool) :
    bernoulli.pdf q x = if x then expit q else 1 - expit q := by
  have h : (0 : ℝ) < Real.exp q + 1 := by positivity
  rw [ExpFam.pdf, ExpFam.logPdf]
  simp only [bernoulli, logaddexp, ofBool, Real.exp_zero, add_zero]
  cases x
  · simp only [Bool.false_eq_true, if_false, mul_zero, zero_sub]
    rw [one_sub_expit_eq, Real.exp_neg, Real.exp_log h, one_div]
  · simp only [if_true, mul_one]
    rw [Real.exp_sub, Real.exp_log h, expit_eq]

theorem bernoulli_regular : Regular bernoulli Measure.count Set.univ ⊤ :=
  .scalar (fun _ _ => rfl) isOpen_univ convex_univ
    (fun η _ => .of_sum (fun x => (bernoulli.pdf_pos η x).le) (by
      rw [Fintype.sum_bool, bernoulli_pdf, bernoulli_pdf]
      simp))
    fun η _ => hasDerivAt_logaddexp_zero η

theorem bernoulli_minimal : Minimal bernoulli Measure.count ⊤ := by
  intro v _ c h
  have h0 := ae_count h false
  have h1 := ae_count h true
  simp [bernoulli, ofBool] at h0 h1
  linarith

/-! ### Poisson -/

theorem poisson_pdf (q : ℝ) (x : ℕ) :
    poisson.pdf q x = Real.exp (-Real.exp q) * (Real.exp q ^ x / x.factorial) := by
  have hx : (0 : ℝ) < x.factorial := by exact_mod_cast x.factorial_pos
  rw [ExpFam.pdf, ExpFam.logPdf]
  simp only [poisson, gammaln_nat]
  rw [Real.exp_add, Real.exp_neg, Real.exp_log hx, sub_eq_add_neg, Real.exp_add, ← Real.exp_nat_mul,
    mul_comm (x : ℝ) q, div_eq_mul_inv]
  ring

theorem poisson_regular : Regular poisson Measure.count Set.univ ⊤ :=
  .scalar (fun _ _ => rfl) isOpen_univ convex_univ
    (fun η _ => .of_hasSum (fun x => (poisson.pdf_pos η x).le) (by
      have h := (NormedSpace.expSeries_div_hasSum_exp (Real.exp η)).mul_left
        (Real.exp (-Real.exp η))
      rw [← Real.exp_eq_exp_ℝ, ← Real.exp_add, neg_add_cancel, Real.exp_zero] at h
      exact (funext (poisson_pdf η)) ▸ h))
    fun η _ => Real.hasDerivAt_exp η

theorem poisson_minimal : Minimal poisson Measure.count ⊤ := by
  intro v _ c h
  have h0 := ae_count h 0
  have h1 := ae_count h 1
  simp [poisson] at h0 h1
  linarith

/-! ### Negative binomial and geometric -/

theorem exp_lt_one {q : ℝ} (h : q < 0) : Real.exp q < 1 := by
  rw [← Real.exp_zero]; exact Real.exp_lt_exp.2 h

theorem negativeBinomial_pdf (r : ℕ) {q : ℝ} (hq : q < 0) (x : ℕ) :
    (negativeBinomial (r + 1)).pdf q x =
      (1 - Real.exp q) ^ (r + 1) * (((x + r).choose r : ℝ) * Real.exp q ^ x) := by
  have hx : (0 : ℝ) < x.factorial := by exact_mod_cast x.factorial_pos
  have hr : (0 : ℝ) < r.factorial := by exact_mod_cast r.factorial_pos
  have hxr : (0 : ℝ) < (x + r).factorial := by exact_mod_cast (x + r).factorial_pos
  have h1 : 0 < 1 - Real.exp q := by linarith [exp_lt_one hq]
  have hc : ((x + r).choose r : ℝ) = (x + r).factorial / (x.factorial * r.factorial) := by
    rw [Nat.add_comm x r, Nat.choose_symm_add, Nat.add_choose]
    rw [Nat.cast_div (Nat.factorial_mul_factorial_dvd_factorial_add r x)
      (by positivity), Nat.cast_mul, mul_comm (x.factorial : ℝ)]
  rw [ExpFam.pdf, ExpFam.logPdf]
  simp only [negativeBinomial, Nat.cast_add, Nat.cast_one, log1p]
  have e1 : (x : ℝ) + (r + 1) - 1 + 1 = ((x + r : ℕ) : ℝ) + 1 := by push_cast; ring
  have e2 : (x : ℝ) + (r + 1) - 1 - x + 1 = (r : ℝ) + 1 := by ring
  rw [e1, e2, gammaln_nat, gammaln_nat, gammaln_nat, hc]
  have e3 : q * (x : ℝ) - -((r : ℝ) + 1) * Real.log (1 + -Real.exp q) +
      (Real.log (x + r).factorial - Real.log x.factorial - Real.log r.factorial) =
      (x : ℝ) * q + ((r + 1 : ℕ) : ℝ) * Real.log (1 - Real.exp q) +
      Real.log (x + r).factorial + -Real.log x.factorial + -Real.log r.factorial := by
    push_cast
    rw [← sub_eq_add_neg]
    ring
  rw [e3, Real.exp_add, Real.exp_add, Real.exp_add, Real.exp_add, Real.exp_neg, Real.exp_neg,
    Real.exp_nat_mul, Real.exp_nat_mul, Real.exp_log h1, Real.exp_log hx, Real.exp_log hr,
    Real.exp_log hxr]
  field_simp

theorem negativeBinomial_deriv (r : ℕ) {q : ℝ} (hq : q < 0) :
    HasDerivAt (negativeBinomial r).logNormalizer ((negativeBinomial r).toExp q) q := by
  have h1 : 0 < 1 - Real.exp q := by linarith [exp_lt_one hq]
  have h2 : HasDerivAt (fun q => 1 + -Real.exp q) (-Real.exp q) q :=
    (Real.hasDerivAt_exp q).neg.const_add 1
  have h3 := (h2.log (by linarith : 1 + -Real.exp q ≠ 0)).const_mul (-(r : ℝ))
  refine h3.congr_deriv ?_
  have hq' := Real.exp_pos q
  have h4 : (Real.exp q)⁻¹ - 1 ≠ 0 := by
    rw [sub_ne_zero]
    intro h
    have := inv_eq_one.1 h
    linarith
  simp only [negativeBinomial, expm1, Real.exp_neg]
  have h5 : 1 + -Real.exp q ≠ 0 := by linarith
  field_simp
  ring

theorem negativeBinomial_regular {r : ℕ} (hr : 1 ≤ r) :
    Regular (negativeBinomial r) Measure.count (Set.Iio 0) ⊤ := by
  obtain ⟨r, rfl⟩ := Nat.exists_eq_add_of_le' hr
  refine .scalar (fun _ _ => rfl) isOpen_Iio (convex_Iio 0)
    (fun η h => .of_hasSum (fun x => ((negativeBinomial (r + 1)).pdf_pos η x).le) ?_)
    fun η h => negativeBinomial_deriv (r + 1) h
  have h : η < 0 := h
  have h1 : 0 < 1 - Real.exp η := by linarith [exp_lt_one h]
  have hs := (hasSum_choose_mul_geometric_of_norm_lt_one r (r := Real.exp η) (by
    rw [Real.norm_of_nonneg (Real.exp_pos _).le]; exact exp_lt_one h)).mul_left
      ((1 - Real.exp η) ^ (r + 1))
  rw [mul_one_div_cancel (by positivity)] at hs
  exact (funext (negativeBinomial_pdf r h)) ▸ hs

theorem negativeBinomial_minimal (r : ℕ) : Minimal (negativeBinomial r) Measure.count ⊤ := by
  intro v _ c h
  have h0 := ae_count h 0
  have h1 := ae_count h 1
  simp [negativeBinomial] at h0 h1
  linarith

theorem geometric_regular : Regular geometric Measure.count (Set.Iio 0) ⊤ :=
  negativeBinomial_regular le_rfl

theorem geometric_minimal : Minimal geometric Measure.count ⊤ := negativeBinomial_minimal 1

/-! ### Logarithmic -/

theorem neg_log_pos {q : ℝ} (hq : q < 0) : 0 < -log1p (-Real.exp q) := by
  have h0 := Real.exp_pos q
  have h1 := exp_lt_one hq
  have := Real.log_neg (show 0 < 1 + -Real.exp q by linarith) (by linarith)
  rw [log1p]
  linarith

theorem logarithmic_pdf {q : ℝ} (hq : q < 0) (x : ℕ) :
    logarithmic.pdf q x =
      (-log1p (-Real.exp q))⁻¹ * (Real.exp q ^ (x + 1) / (x + 1)) := by
  have hx : (0 : ℝ) < x + 1 := by positivity
  rw [ExpFam.pdf, ExpFam.logPdf]
  simp only [logarithmic]
  rw [Real.exp_add, Real.exp_neg, Real.exp_log hx, sub_eq_add_neg, Real.exp_add, Real.exp_neg,
    Real.exp_log (neg_log_pos hq), ← Real.exp_nat_mul, div_eq_mul_inv]
  push_cast
  rw [mul_comm q]
  ring

theorem logarithmic_deriv {q : ℝ} (hq : q < 0) :
    HasDerivAt logarithmic.logNormalizer (logarithmic.toExp q) q := by
  have hp := neg_log_pos hq
  have h1 := exp_lt_one hq
  have h2 : HasDerivAt (fun q => 1 + -Real.exp q) (-Real.exp q) q :=
    (Real.hasDerivAt_exp q).neg.const_add 1
  have h3 := ((h2.log (by linarith : 1 + -Real.exp q ≠ 0)).neg).log hp.ne'
  refine h3.congr_deriv ?_
  simp only [logarithmic, logarithmicQuotient, expm1, Pi.neg_apply]
  rw [log1p] at hp ⊢
  have e1 : Real.exp q - 1 ≠ 0 := by linarith
  have e2 : 1 + -Real.exp q ≠ 0 := by linarith
  have e3 : Real.log (1 + -Real.exp q) ≠ 0 := by intro h; rw [h] at hp; simp at hp
  field_simp
  ring

theorem logarithmic_regular : Regular logarithmic Measure.count (Set.Iio 0) ⊤ := by
  refine .scalar (fun _ _ => rfl) isOpen_Iio (convex_Iio 0)
    (fun η h => .of_hasSum (fun x => (logarithmic.pdf_pos η x).le) ?_)
    fun η h => logarithmic_deriv h
  have h : η < 0 := h
  have hs := (Real.hasSum_pow_div_log_of_abs_lt_one (x := Real.exp η) (by
    rw [abs_of_pos (Real.exp_pos _)]; exact exp_lt_one h)).mul_left
      (-log1p (-Real.exp η))⁻¹
  have hp := neg_log_pos h
  rw [log1p, ← sub_eq_add_neg] at hp
  rw [log1p, ← sub_eq_add_neg, inv_mul_cancel₀ hp.ne'] at hs
  have e : logarithmic.pdf η = fun i : ℕ =>
      (-Real.log (1 - Real.exp η))⁻¹ * (Real.exp η ^ (i + 1) / (i + 1)) := by
    funext x
    rw [logarithmic_pdf h, log1p, ← sub_eq_add_neg]
  exact e ▸ hs

theorem logarithmic_minimal : Minimal logarithmic Measure.count ⊤ := by
  intro v _ c h
  have h0 := ae_count h 0
  have h1 := ae_count h 1
  simp [logarithmic] at h0 h1
  linarith

end Efax
