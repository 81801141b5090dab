import Mathlib.MeasureTheory.Constructions.Pi
import Mathlib.MeasureTheory.Measure.Lebesgue.Basic
import Mathlib.MeasureTheory.Measure.WithDensity
import Mathlib.MeasureTheory.Measure.Count
import Mathlib.MeasureTheory.Measure.Dirac
import Mathlib.Analysis.SpecialFunctions.Pow.Real
import Mathlib.Analysis.SpecialFunctions.Exp
import Mathlib.LinearAlgebra.Matrix.Notation

/-!
# The random primitives of JAX

`jax.random` is outside the repository.  Each function that the samplers of efax call is represented
by the law of an ideal draw, as the JAX documentation gives it: a density up to a constant factor.
Calls with different keys are independent; calls with the same key give the same draw.
-/

namespace Efax

open MeasureTheory

/-- The law with a density proportional to `g`. -/
noncomputable def proportional {X : Type} [MeasurableSpace X] (μ : Measure X) (g : X → ℝ) :
    Measure X :=
  (∫⁻ x, ENNReal.ofReal (g x) ∂μ)⁻¹ • μ.withDensity fun x => ENNReal.ofReal (g x)

/-- `jax.random.normal(key, ())`, used in normal/normal.py 118 and others. -/
noncomputable def randomNormal : Measure ℝ := proportional volume fun x => Real.exp (-x ^ 2 / 2)

/-- `jax.random.normal(key, shape)`: independent entries. -/
noncomputable def randomNormals (ι : Type) [Fintype ι] : Measure (ι → ℝ) :=
  Measure.pi fun _ => randomNormal

/-- `jax.random.exponential(key)` (exponential.py 65, 109). -/
noncomputable def randomExponential : Measure ℝ :=
  proportional (volume.restrict (Set.Ioi 0)) fun x => Real.exp (-x)

/-- `jax.random.gamma(key, a)` (gamma.py 73). -/
noncomputable def randomGamma (a : ℝ) : Measure ℝ :=
  proportional (volume.restrict (Set.Ioi 0)) fun x => x ^ (a - 1) * Real.exp (-x)

/-- `jax.random.chisquare(key, df)` (chi_square.py 70). -/
noncomputable def randomChisquare (df : ℝ) : Measure ℝ :=
  proportional (volume.restrict (Set.Ioi 0)) fun x => x ^ (df / 2 - 1) * Real.exp (-x / 2)

/-- `jax.random.rayleigh(key, scale)` (rayleigh.py 70, 116). -/
noncomputable def randomRayleigh (scale : ℝ) : Measure ℝ :=
  proportional (volume.restrict (Set.Ioi 0)) fun x => x * Real.exp (-x ^ 2 / (2 * scale ^ 2))

/-- `jax.random.weibull_min(key, scale, concentration)` (weibull.py 117). -/
noncomputable def randomWeibull (scale concentration : ℝ) : Measure ℝ :=
  proportional (volume.restrict (Set.Ioi 0)) fun x =>
    x ^ (concentration - 1) * Real.exp (-(x / scale) ^ concentration)

/-- `jax.random.beta(key, a, b)` (beta.py 54). -/
noncomputable def randomBeta (a b : ℝ) : Measure ℝ :=
  proportional (volume.restrict (Set.Ioo 0 1)) fun x => x ^ (a - 1) * (1 - x) ^ (b - 1)

/-- `jax.random.dirichlet(key, alpha)` (dirichlet_common.py 46), with `d + 1` entries, of which the
last is determined by the others: the density of the others on the simplex, and then the last. -/
noncomputable def randomDirichlet {d : ℕ} (alpha : Fin (d + 1) → ℝ) : Measure (Fin (d + 1) → ℝ) :=
  (proportional (volume.restrict {x : Fin d → ℝ | (∀ i, 0 < x i) ∧ ∑ i, x i < 1}) fun x =>
    (∏ i, x i ^ (alpha i.castSucc - 1)) * (1 - ∑ i, x i) ^ (alpha (Fin.last d) - 1)).map
    fun x => Fin.snoc (α := fun _ => ℝ) x (1 - ∑ i, x i)

/-- `jax.random.bernoulli(key, p)` (bernoulli.py 117). -/
noncomputable def randomBernoulli (p : ℝ) : Measure Bool :=
  ENNReal.ofReal p • Measure.dirac true + ENNReal.ofReal (1 - p) • Measure.dirac false

/-- `jax.random.poisson(key, lam)` (poisson.py 105). -/
noncomputable def randomPoisson (lam : ℝ) : Measure ℕ :=
  Measure.sum fun k : ℕ =>
    ENNReal.ofReal (Real.exp (-lam) * lam ^ k / k.factorial) • Measure.dirac k

/-- `jax.random.geometric(key, p)` (geometric.py 89): the number of trials up to and including the
first success, documented as `p * (1 - p) ^ (k - 1)` for `k = 1, 2, ...`. -/
noncomputable def randomGeometric (p : ℝ) : Measure ℕ :=
  Measure.sum fun k : ℕ => ENNReal.ofReal (p * (1 - p) ^ k) • Measure.dirac (k + 1)

/-- `jax.random.categorical(key, logits)` (multinomial.py 74): an index of `logits`, with probability
proportional to the exponential of the entry. -/
noncomputable def randomCategorical {k : ℕ} (logits : Fin k → ℝ) : Measure (Fin k) :=
  ∑ i, ENNReal.ofReal (Real.exp (logits i) / ∑ j, Real.exp (logits j)) • Measure.dirac i

/-- `jax.random.multivariate_normal(key, mean, cov)` (multivariate_normal/arbitrary.py 150 and
others): `factor` is the factorization of the covariance (Cholesky by default). -/
noncomputable def randomMultivariateNormal {ι : Type} [Fintype ι]
    (factor : Matrix ι ι ℝ → Matrix ι ι ℝ) (mean : ι → ℝ) (cov : Matrix ι ι ℝ) :
    Measure (ι → ℝ) :=
  (randomNormals ι).map fun z => mean + (factor cov).mulVec z

end Efax
