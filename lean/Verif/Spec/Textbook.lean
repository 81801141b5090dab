import Verif.Model.Special
import Mathlib.LinearAlgebra.Matrix.NonsingularInverse
import Mathlib.Analysis.SpecialFunctions.Pow.Real
import Mathlib.Analysis.SpecialFunctions.Trigonometric.Basic
import Mathlib.Analysis.SpecialFunctions.Gamma.Basic
import Mathlib.Analysis.SpecialFunctions.Sqrt

/-!
# Specification: densities in their textbook form

In the parameters that textbooks and `scipy.stats` use.
-/

namespace Efax.Spec.Textbook

open Real Matrix

/-- Bernoulli: success with probability `p`. -/
def bernoulli (p : ℝ) (x : Bool) : ℝ := if x then p else 1 - p

/-- Poisson with mean `m`. -/
noncomputable def poisson (m : ℝ) (k : ℕ) : ℝ := m ^ k * exp (-m) / k.factorial

/-- The number of failures before success number `r`, where `p` is the probability of success. -/
noncomputable def negativeBinomial (r : ℕ) (p : ℝ) (k : ℕ) : ℝ :=
  (k + r - 1).choose k * p ^ r * (1 - p) ^ k

/-- The number of failures before the first success. -/
noncomputable def geometric (p : ℝ) (k : ℕ) : ℝ := p * (1 - p) ^ k

/-- The logarithmic series distribution of a positive integer. -/
noncomputable def logarithmic (p : ℝ) (k : ℕ) : ℝ := -p ^ k / (k * log (1 - p))

/-- Exponential with the given mean. -/
noncomputable def exponential (m x : ℝ) : ℝ := exp (-x / m) / m

/-- Gamma with the given shape and scale. -/
noncomputable def gamma (k θ x : ℝ) : ℝ := x ^ (k - 1) * exp (-x / θ) / (Gamma k * θ ^ k)

/-- Chi-square with `k` degrees of freedom. -/
noncomputable def chiSquare (k x : ℝ) : ℝ :=
  x ^ (k / 2 - 1) * exp (-x / 2) / (2 ^ (k / 2) * Gamma (k / 2))

/-- Chi with `k` degrees of freedom. -/
noncomputable def chi (k x : ℝ) : ℝ :=
  x ^ (k - 1) * exp (-x ^ 2 / 2) / (2 ^ (k / 2 - 1) * Gamma (k / 2))

/-- Rayleigh with scale `σ`. -/
noncomputable def rayleigh (σ x : ℝ) : ℝ := x / σ ^ 2 * exp (-x ^ 2 / (2 * σ ^ 2))

/-- Weibull with shape `k` and scale `l`. -/
noncomputable def weibull (k l x : ℝ) : ℝ := k / l * (x / l) ^ (k - 1) * exp (-(x / l) ^ k)

/-- Normal with mean `m` and variance `v`. -/
noncomputable def normal (m v x : ℝ) : ℝ := exp (-(x - m) ^ 2 / (2 * v)) / sqrt (2 * π * v)

/-- Normal with mean `m` and covariance `S`, in any finite set of coordinates. -/
noncomputable def mvNormal {ι : Type} [Fintype ι] [DecidableEq ι] (m : ι → ℝ) (S : Matrix ι ι ℝ)
    (x : ι → ℝ) : ℝ :=
  exp (-((x - m) ⬝ᵥ (S⁻¹ *ᵥ (x - m))) / 2) / sqrt ((2 * π) ^ Fintype.card ι * S.det)

/-- The covariance of the real and the imaginary part of a complex number with the given variance
`E |z - m|²` and pseudo-variance `E (z - m)²`. -/
noncomputable def complexCov (v : ℝ) (p : ℂ) : Matrix (Fin 2) (Fin 2) ℝ :=
  !![(v + p.re) / 2, p.im / 2; p.im / 2, (v - p.re) / 2]

/-- The real and the imaginary part. -/
def parts (z : ℂ) : Fin 2 → ℝ := ![z.re, z.im]

/-- Complex normal with the given mean, variance and pseudo-variance. -/
noncomputable def complexNormal (m : ℂ) (v : ℝ) (p : ℂ) (z : ℂ) : ℝ :=
  mvNormal (parts m) (complexCov v p) (parts z)

/-- The covariance of the real parts and the imaginary parts of a vector of complex numbers with the
given variance `E (z - m)(z - m)ᴴ` and pseudo-variance `E (z - m)(z - m)ᵀ`. -/
noncomputable def complexMvCov {d : ℕ} (V P : Matrix (Fin d) (Fin d) ℂ) :
    Matrix (Fin d ⊕ Fin d) (Fin d ⊕ Fin d) ℝ :=
  fromBlocks (of fun i j => (V i j + P i j).re / 2) (of fun i j => (P i j - V i j).im / 2)
    (of fun i j => (V i j + P i j).im / 2) (of fun i j => (V i j - P i j).re / 2)

/-- The real parts and the imaginary parts. -/
def mvParts {d : ℕ} (z : Fin d → ℂ) : Fin d ⊕ Fin d → ℝ := Sum.elim (fun i => (z i).re) fun i => (z i).im

/-- Multivariate complex normal with the given mean, variance and pseudo-variance. -/
noncomputable def complexMvNormal {d : ℕ} (m : Fin d → ℂ) (V P : Matrix (Fin d) (Fin d) ℂ)
    (z : Fin d → ℂ) : ℝ := mvNormal (mvParts m) (complexMvCov V P) (mvParts z)

/-- Beta with shapes `a`, `b`. -/
noncomputable def beta (a b x : ℝ) : ℝ :=
  x ^ (a - 1) * (1 - x) ^ (b - 1) * Gamma (a + b) / (Gamma a * Gamma b)

/-- Dirichlet with concentrations `a`, at a point of the simplex with all its coordinates. -/
noncomputable def dirichlet {n : ℕ} (a x : Fin n → ℝ) : ℝ :=
  Gamma (∑ i, a i) / (∏ i, Gamma (a i)) * ∏ i, x i ^ (a i - 1)

/-- The beta function. -/
noncomputable def betaFun (a b : ℝ) : ℝ := Gamma a * Gamma b / Gamma (a + b)

/-- The generalized Dirichlet distribution of Connor and Mosimann: the fractions that are broken off a
stick one after the other are independent with the beta distributions with shapes `a i`, `b i`. -/
noncomputable def genDirichlet {n : ℕ} (a b x : Fin n → ℝ) : ℝ :=
  ∏ i, beta (a i) (b i) (x i / (1 - ∑ j ∈ Finset.Iio i, x j)) / (1 - ∑ j ∈ Finset.Iio i, x j)

/-- Von Mises with concentration `k` and location `m`, as a density of the angle. -/
noncomputable def vonMises (k m x : ℝ) : ℝ := exp (k * cos (x - m)) / (2 * π * besselI 0 k)

/-- Von Mises-Fisher with concentration `k` and mean direction `m`, in dimension `d`. -/
noncomputable def vonMisesFisher {d : ℕ} (m : Fin d → ℝ) (k : ℝ) (x : Fin d → ℝ) : ℝ :=
  k ^ ((d : ℝ) / 2 - 1) / ((2 * π) ^ ((d : ℝ) / 2) * besselI ((d : ℝ) / 2 - 1) k) * exp (k * (m ⬝ᵥ x))

end Efax.Spec.Textbook
