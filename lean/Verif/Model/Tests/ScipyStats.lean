import Verif.Model.Scipy.Joint
import Verif.Model.Dist
import Verif.Model.Mapping
import Mathlib.MeasureTheory.Integral.Bochner.Basic
import Mathlib.MeasureTheory.Measure.Lebesgue.Basic
import Mathlib.Topology.Algebra.InfiniteSum.Basic
import Mathlib.Analysis.SpecialFunctions.Gamma.Basic
import Mathlib.Analysis.SpecialFunctions.Trigonometric.Basic

/-!
# `scipy.stats`: frozen univariate distributions

With the densities of the documentation of SciPy, on the support that it gives.  The draws are not
modelled, nor are the checks of the arguments, which replace the values for invalid arguments by NaN.
-/

namespace Efax.Tests

open Calc MeasureTheory

/-- The methods of a `scipy.stats` distribution, or of one of the replacements in efax, that the tests
call: `pdf` (or `pmf`) and `entropy`. -/
abbrev Oracle := Scipy.Part (Tree Val) Empty Empty

/-- An oracle for observations that are arrays. -/
def arrayOracle (pdf : Val → Except Err (Arr ℝ)) (entropy : Except Err (Arr ℝ)) : Oracle where
  rvs size := size.elim
  pdf
    | .leaf v => pdf v
    | .node _ => .error .typeError
  entropy := entropy

/-- A distribution of `scipy.stats` with the arguments `args`: the density is evaluated with broadcasting,
the entropy for each entry. -/
noncomputable def frozen {α : Type} [Inhabited α] (density : α → ℝ → ℝ) (entropy : (ℝ → ℝ) → ℝ)
    (args : Calc α) : Except Err Oracle := do
  let a ← args.run
  .ok (arrayOracle (fun x => (bin density (ok a) x.toR).run) (.ok (a.map fun b => entropy (density b))))

/-- The entropy of a continuous distribution. -/
noncomputable def continuousEntropy (f : ℝ → ℝ) : ℝ := -∫ x, f x * Real.log (f x)

/-- The entropy of a discrete distribution, on integers. -/
noncomputable def discreteEntropy (f : ℝ → ℝ) : ℝ := -∑' k : ℤ, f k * Real.log (f k)

/-- Two arguments. -/
def args2 (x y : Calc ℝ) : Calc (ℝ × ℝ) := bin Prod.mk x y

open Classical in
/-- A probability mass function at real numbers: zero if the number is not an integer. -/
noncomputable def onIntegers (f : ℤ → ℝ) (x : ℝ) : ℝ := if x = ⌊x⌋ then f ⌊x⌋ else 0

/-- `ss.bernoulli(p)`: `1 - p` if `k = 0`, `p` if `k = 1`. -/
noncomputable def ssBernoulli (p : ℝ) : ℝ → ℝ :=
  onIntegers fun k => if k = 0 then 1 - p else if k = 1 then p else 0

/-- `ss.geom(p)`: `(1 - p) ** (k - 1) * p` for `k >= 1`. -/
noncomputable def ssGeom (p : ℝ) : ℝ → ℝ := onIntegers fun k => Scipy.geometricPmf p k

/-- `ss.poisson(mu)`: `exp(-mu) * mu ** k / k!` for `k >= 0`. -/
noncomputable def ssPoisson (mu : ℝ) : ℝ → ℝ :=
  onIntegers fun k => if 0 ≤ k then Real.exp (-mu) * mu ^ k.toNat / k.toNat.factorial else 0

/-- `ss.nbinom(n, p)`: `binom(k + n - 1, n - 1) * p ** n * (1 - p) ** k` for `k >= 0`, with the binomial
coefficient of real numbers. -/
noncomputable def ssNbinom (a : ℝ × ℝ) : ℝ → ℝ :=
  onIntegers fun k => if 0 ≤ k then
    Real.Gamma (k + a.1) / (Real.Gamma (k + 1) * Real.Gamma a.1) * a.2 ^ a.1 * (1 - a.2) ^ k else 0

/-- `ss.logser(p)`: `-p ** k / (k * log(1 - p))` for `k >= 1`. -/
noncomputable def ssLogser (p : ℝ) : ℝ → ℝ :=
  onIntegers fun k => if 1 ≤ k then -p ^ k / (k * Real.log (1 - p)) else 0

/-- `ss.norm(loc, scale)`: `exp(-y ** 2 / 2) / sqrt(2 * pi) / scale` with `y = (x - loc) / scale`. -/
noncomputable def ssNorm (a : ℝ × ℝ) (x : ℝ) : ℝ :=
  let y := (x - a.1) / a.2
  Real.exp (-y ^ 2 / 2) / Real.sqrt (2 * Real.pi) / a.2

/-- `ss.expon(loc, scale)`: `exp(-y) / scale` for `y = (x - loc) / scale >= 0`. -/
noncomputable def ssExpon (a : ℝ × ℝ) (x : ℝ) : ℝ :=
  let y := (x - a.1) / a.2
  if 0 ≤ y then Real.exp (-y) / a.2 else 0

/-- `ss.rayleigh(scale=scale)`: `y * exp(-y ** 2 / 2) / scale` for `y = x / scale >= 0`. -/
noncomputable def ssRayleigh (scale x : ℝ) : ℝ :=
  let y := x / scale
  if 0 ≤ y then y * Real.exp (-y ^ 2 / 2) / scale else 0

/-- `ss.beta(a, b)`: `gamma(a + b) * x ** (a - 1) * (1 - x) ** (b - 1) / (gamma(a) * gamma(b))` for
`0 < x < 1`.  (At the ends, SciPy has the limit.) -/
noncomputable def ssBeta (a : ℝ × ℝ) (x : ℝ) : ℝ :=
  if 0 < x ∧ x < 1 then
    Real.Gamma (a.1 + a.2) * x ^ (a.1 - 1) * (1 - x) ^ (a.2 - 1) / (Real.Gamma a.1 * Real.Gamma a.2)
  else 0

/-- `ss.gamma(a, scale=scale)`: `y ** (a - 1) * exp(-y) / gamma(a) / scale` for `y = x / scale > 0`. -/
noncomputable def ssGamma (a : ℝ × ℝ) (x : ℝ) : ℝ :=
  let y := x / a.2
  if 0 < y then y ^ (a.1 - 1) * Real.exp (-y) / Real.Gamma a.1 / a.2 else 0

/-- `ss.chi2(df)`: `x ** (df / 2 - 1) * exp(-x / 2) / (2 ** (df / 2) * gamma(df / 2))` for `x > 0`. -/
noncomputable def ssChi2 (df x : ℝ) : ℝ :=
  if 0 < x then 1 / (2 ^ (df / 2) * Real.Gamma (df / 2)) * x ^ (df / 2 - 1) * Real.exp (-x / 2) else 0

/-- `ss.chi(df)`: `x ** (df - 1) * exp(-x ** 2 / 2) / (2 ** (df / 2 - 1) * gamma(df / 2))` for `x > 0`. -/
noncomputable def ssChi (df x : ℝ) : ℝ :=
  if 0 < x then
    1 / (2 ^ (df / 2 - 1) * Real.Gamma (df / 2)) * x ^ (df - 1) * Real.exp (-x ^ 2 / 2) else 0

/-- `ss.weibull_min(c, scale=scale)`: `c * y ** (c - 1) * exp(-y ** c) / scale` for
`y = x / scale > 0`. -/
noncomputable def ssWeibull (a : ℝ × ℝ) (x : ℝ) : ℝ :=
  let y := x / a.2
  if 0 < y then a.1 * y ^ (a.1 - 1) * Real.exp (-y ^ a.1) / a.2 else 0

end Efax.Tests
