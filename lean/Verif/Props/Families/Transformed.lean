import Verif.Props.Families.Carrier
import Mathlib.MeasureTheory.Function.Jacobian
import Mathlib.NumberTheory.Harmonic.EulerMascheroni
import Mathlib.Analysis.Complex.ExponentialBounds

/-!
# Transformed families (C41)
-/

namespace Efax

open MeasureTheory Spec Set

/-- If `f x = g (x ^ p) p x ^ (p - 1)` then `f` is the density of the `p`-th root of a variable with
density `g`. -/
theorem lawOf_power {p : ℝ} (hp : 0 < p) {f g : ℝ → ℝ} (h : PowerOf p f g) :
    (lawOf g).map (fun y => y ^ (1 / p)) = lawOf f := by
  have hm : Measurable fun y : ℝ => y ^ (1 / p) := by fun_prop
  ext s hs
  rw [Measure.map_apply hm hs, lawOf, lawOf, withDensity_apply _ (hm hs), withDensity_apply _ hs,
    Measure.restrict_restrict (hm hs), Measure.restrict_restrict hs]
  have himg : (fun x : ℝ => x ^ p) '' (s ∩ Ioi 0) = (fun y : ℝ => y ^ (1 / p)) ⁻¹' s ∩ Ioi 0 := by
    ext y
    constructor
    · rintro ⟨x, ⟨hx, hx0 : 0 < x⟩, rfl⟩
      refine ⟨?_, Real.rpow_pos_of_pos hx0 p⟩
      show (x ^ p) ^ (1 / p) ∈ s
      rwa [← Real.rpow_mul hx0.le, mul_one_div_cancel hp.ne', Real.rpow_one]
    · rintro ⟨hy, hy0 : 0 < y⟩
      refine ⟨y ^ (1 / p), ⟨hy, Real.rpow_pos_of_pos hy0 _⟩, ?_⟩
      show (y ^ (1 / p)) ^ p = y
      rw [← Real.rpow_mul hy0.le, one_div_mul_cancel hp.ne', Real.rpow_one]
  rw [← himg, lintegral_image_eq_lintegral_abs_deriv_mul (hs.inter measurableSet_Ioi)
    (f' := fun x => p * x ^ (p - 1))]
  · refine setLIntegral_congr_fun (hs.inter measurableSet_Ioi) fun x hx => ?_
    have hx0 : 0 < x := hx.2
    have h1 : 0 ≤ p * x ^ (p - 1) := by positivity
    rw [h x hx0, abs_of_nonneg h1, ← ENNReal.ofReal_mul h1, mul_comm]
  · intro x hx
    exact (Real.hasDerivAt_rpow_const (Or.inl (ne_of_gt hx.2))).hasDerivWithinAt
  · intro x hx y hy hxy
    exact (Real.rpow_left_inj (le_of_lt hx.2) (le_of_lt hy.2) hp.ne').1 hxy

/-- Chi: the density at `x` is the chi-square density at `x²` times `2 x`, and the law is that of the
square root of a chi-square variable. -/
theorem C41_chi {q : ℝ} :
    (∀ x, 0 < x → chi.pdf q x = chiSquare.pdf q (x ^ 2) * (2 * x)) ∧
    (lawOf (chiSquare.pdf q)).map (fun y => y ^ (1 / 2 : ℝ)) = lawOf (chi.pdf q) := by
  refine ⟨fun x hx => ?_, lawOf_power two_pos (chi_power q)⟩
  have := chi_power q x hx
  rw [this, Real.rpow_two]
  norm_num

/-- Rayleigh: the same with the exponential distribution. -/
theorem C41_rayleigh {q : ℝ} :
    (∀ x, 0 < x → rayleigh.pdf q x = exponential.pdf q (x ^ 2) * (2 * x)) ∧
    (lawOf (exponential.pdf q)).map (fun y => y ^ (1 / 2 : ℝ)) = lawOf (rayleigh.pdf q) := by
  refine ⟨fun x hx => ?_,
    lawOf_power two_pos (rayleigh_power q)⟩
  have := rayleigh_power q x hx
  rw [this, Real.rpow_two]
  norm_num

/-- Weibull: the `k`-th root of an exponential variable. -/
theorem C41_weibull {k : ℝ} (hk : 0 < k) {q : ℝ} :
    (∀ x, 0 < x → (weibull k).pdf q x = exponential.pdf q (x ^ k) * (k * x ^ (k - 1))) ∧
    (lawOf (exponential.pdf q)).map (fun y => y ^ (1 / k)) = lawOf ((weibull k).pdf q) :=
  ⟨weibull_power hk q, lawOf_power hk (weibull_power hk q)⟩

/-- The Rayleigh expectation parameter is the documented `E(x²)`. -/
theorem C41_rayleigh_documented {q : ℝ} (h : q < 0) :
    HasMean positive (rayleigh.pdf q) (fun x => x ^ 2) (rayleigh.toExp q) :=
  rayleigh_regular.mean_scalar (fun _ _ => rfl) h

/-- The mean of the logarithm under the chi density is half the expectation parameter. -/
theorem C41_chi_log {q : ℝ} (h : -1 < q) :
    HasMean positive (chi.pdf q) Real.log (chi.toExp q / 2) := by
  have h1 : HasMean positive (chi.pdf q) (fun x => Real.log (x ^ 2)) (chi.toExp q) :=
    chi_regular.mean_scalar (fun _ _ => rfl) h
  refine (h1.const_mul (1 / 2)).congr (fun x => ?_) (by ring)
  rw [Real.log_pow]
  norm_num
  ring

/-- The code violates the documentation of `ChiEP` (chi.py: `mean_log: E(log(x))`): at `q = 0` the
expectation parameter is not the mean of the logarithm. -/
theorem C41_chi_documented_negation :
    ¬ ∀ q, -1 < q → HasMean positive (chi.pdf q) Real.log (chi.toExp q) := by
  intro hall
  have h0 : (-1 : ℝ) < 0 := by norm_num
  have h := (hall 0 h0).unique (C41_chi_log h0)
  have h1 : chi.toExp 0 = 0 := by linarith
  have h2 : chi.toExp 0 = -Real.eulerMascheroniConstant + Real.log 2 := by
    simp only [chi, transformed, chiSquare, zero_add, digamma_one]
    have : (0.5 : ℝ) = 2⁻¹ := by norm_num
    rw [this, Real.log_inv]
    ring
  have h3 := Real.eulerMascheroniConstant_lt_two_thirds
  have h4 := Real.log_two_gt_d9
  rw [h2] at h1
  linarith

/-- The hypotheses are satisfiable. -/
example : (-2 : ℝ) < 0 ∧ (-1 : ℝ) < 3 ∧ (0 : ℝ) < 1.5 := by norm_num

end Efax
