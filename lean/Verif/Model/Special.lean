import Verif.Model.Ring
import Mathlib.Analysis.SpecialFunctions.Log.Basic
import Mathlib.Analysis.SpecialFunctions.Gamma.Basic
import Mathlib.Analysis.Calculus.LogDeriv

/-!
# Library functions used by the distributions

The functions of `jax.numpy` and `jax.scipy.special` called in `efax/_src/distributions`, as exact
real functions.  Simplification: rounding, overflow and the values outside the stated domains (where
JAX returns NaN or an infinity) are not modelled.  `softplus` and `expit` are in `Verif.Model.Ring`.
-/

namespace Efax

/-- `jnp.log1p`. -/
noncomputable def log1p (x : ℝ) : ℝ := Real.log (1 + x)

/-- `jnp.expm1`. -/
noncomputable def expm1 (x : ℝ) : ℝ := Real.exp x - 1

/-- `jnp.logaddexp`. -/
noncomputable def logaddexp (x y : ℝ) : ℝ := Real.log (Real.exp x + Real.exp y)

/-- `jax.scipy.special.logit`. -/
noncomputable def logit (p : ℝ) : ℝ := Real.log (p / (1 - p))

/-- `jax.scipy.special.gammaln`, for positive arguments. -/
noncomputable def gammaln (x : ℝ) : ℝ := Real.log (Real.Gamma x)

/-- `jax.scipy.special.digamma`, for positive arguments: the logarithmic derivative of the gamma
function. -/
noncomputable def digamma (x : ℝ) : ℝ := deriv Real.Gamma x / Real.Gamma x

/-- The modified Bessel function of the first kind, for positive arguments. -/
noncomputable def besselI (ν x : ℝ) : ℝ :=
  ∑' k : ℕ, (x / 2) ^ (2 * k + ν) / (k.factorial * Real.Gamma (k + ν + 1))

/-- `tfp.math.log_bessel_ive` (tools.py 79), for positive arguments. -/
noncomputable def logIve (ν x : ℝ) : ℝ := Real.log (besselI ν x * Real.exp (-x))

/-- `tfp.math.bessel_iv_ratio` (tools.py 78), for positive arguments. -/
noncomputable def ivRatio (ν x : ℝ) : ℝ := besselI ν x / besselI (ν - 1) x

end Efax
