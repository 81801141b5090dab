import Verif.Spec.Fisher
import Verif.Spec.ClosedForm
import Mathlib.Analysis.SpecialFunctions.Complex.Log
import Mathlib.Topology.Algebra.InfiniteSum.Basic

/-!
# Specification: the Fisher information in its textbook form

The Fisher information of a family in the natural parameters is the covariance of the statistics.  In
each definition, `v` and `w` are directions of the natural parameters, and the value is the covariance of
the statistics that belong to the two directions, in the parameters of the textbook densities.
-/

namespace Efax.Spec

open Matrix Calc

/-- The Fisher information matrix of batches has the closed form `g`.  Coordinate `k` of the `n` flat
coordinates moves the natural parameters in the direction `u k`: this is the parameter that a raw flattener
recovers from the unit vector `k`. -/
def FisherIs {P N : Type} (L : Library Cls) [MachEps]
    (nat : List ℕ → (List ℕ → P) → (List ℕ → N) → Dist Cls) (n : ℕ) (dom : P → Set N)
    (g : P → N → N → N → ℝ) : Prop :=
  ∃ u : Fin n → N,
    (∀ p q, q [] ∈ dom (p []) → ∃ fl y, flatten (nat [] p q) false = .ok (fl, y) ∧ y.rshape = [n] ∧
      ∀ k : Fin n, fl.unflatten (unitVector n k) = .ok (nat [] p fun _ => u k)) ∧
    ∀ rs p q, (∀ i, inB rs i = true → q i ∈ dom (p i)) →
      fisherMatrix L (nat rs p q) = .ok (matrices rs fun i => Matrix.of fun k l => g (p i) (q i) (u k) (u l))

/-- The trigamma function, for positive arguments. -/
noncomputable def trigamma (x : ℝ) : ℝ := ∑' k : ℕ, 1 / (x + k) ^ 2

namespace Textbook.Info


/-- Bernoulli with probability of success `p`. -/
def bernoulli (p v w : ℝ) : ℝ := p * (1 - p) * (v * w)

/-- Finitely many categories with probabilities `p`; the statistics are the indicators of all but the
last one. -/
def categorical {n : ℕ} (p v w : Fin n → ℝ) : ℝ :=
  ∑ k, p k * (v k * w k) - (∑ k, p k * v k) * ∑ k, p k * w k

/-- Poisson with mean `m`. -/
def poisson (m v w : ℝ) : ℝ := m * (v * w)

/-- Number of failures before success number `r`, with probability of success `p`. -/
noncomputable def negativeBinomial (r p v w : ℝ) : ℝ := r * (1 - p) / p ^ 2 * (v * w)

/-- The logarithmic series distribution. -/
noncomputable def logarithmic (p v w : ℝ) : ℝ :=
  -p * (p + Real.log (1 - p)) / ((1 - p) ^ 2 * Real.log (1 - p) ^ 2) * (v * w)

/-- Exponential with mean `m`. -/
def exponential (m v w : ℝ) : ℝ := m ^ 2 * (v * w)

/-- Gamma with shape `k` and scale `θ`; the statistics are the number and its logarithm. -/
noncomputable def gamma (k θ : ℝ) (v w : ℝ × ℝ) : ℝ :=
  k * θ ^ 2 * (v.1 * w.1) + θ * (v.1 * w.2 + v.2 * w.1) + trigamma k * (v.2 * w.2)

/-- The logarithm of a chi-square variable with `k` degrees of freedom. -/
noncomputable def chiSquare (k v w : ℝ) : ℝ := trigamma (k / 2) * (v * w)

/-- The square of a Rayleigh variable with scale `σ`. -/
def rayleigh (σ v w : ℝ) : ℝ := (2 * σ ^ 2) ^ 2 * (v * w)

/-- The power `k` of a Weibull variable with shape `k` and scale `l`. -/
noncomputable def weibull (k l v w : ℝ) : ℝ := (l ^ k) ^ 2 * (v * w)

/-- A normal variable with mean `m` and variance `s`, and its square. -/
def normal (m s : ℝ) (v w : ℝ × ℝ) : ℝ :=
  s * (v.1 * w.1) + 2 * m * s * (v.1 * w.2 + v.2 * w.1) + (4 * m ^ 2 * s + 2 * s ^ 2) * (v.2 * w.2)

/-- Linear functions of normal variables with mean `m` and covariance `S`, and the quadratic functions of
symmetric matrices. -/
def mvNormal {ι : Type} [Fintype ι] [DecidableEq ι] (m : ι → ℝ) (S : Matrix ι ι ℝ)
    (v w : (ι → ℝ) × Matrix ι ι ℝ) : ℝ :=
  (v.1 + (2 : ℝ) • v.2 *ᵥ m) ⬝ᵥ S *ᵥ (w.1 + (2 : ℝ) • w.2 *ᵥ m) + 2 * (v.2 * S * w.2 * S).trace

/-- Linear functions of spherical normal variables with mean `m` and variance `s` of the coordinates, and
the square of the norm. -/
def spherical {d : ℕ} (m : Fin d → ℝ) (s : ℝ) (v w : (Fin d → ℝ) × ℝ) : ℝ :=
  s * ∑ i, v.1 i * w.1 i + 2 * s * ((∑ i, m i * v.1 i) * w.2 + v.2 * ∑ i, m i * w.1 i) +
    (4 * s * ∑ i, m i ^ 2 + 2 * d * s ^ 2) * (v.2 * w.2)

/-- The real parts of multiples of a complex normal variable with variance one and no pseudo-variance. -/
noncomputable def complexUnit (v w : ℂ) : ℝ := (v * star w).re / 2

/-- The quadratic function `Re (v.1 z) + v.2.1 |z|² + Re (v.2.2 z²)` of a complex number, in the real and
imaginary parts. -/
def quadratic (v : ℂ × ℝ × ℂ) : (Fin 2 → ℝ) × Matrix (Fin 2) (Fin 2) ℝ :=
  (![v.1.re, -v.1.im], !![v.2.1 + v.2.2.re, -v.2.2.im; -v.2.2.im, v.2.1 - v.2.2.re])

/-- Quadratic functions of a complex normal variable with mean `m`, variance `s` and pseudo-variance `p`. -/
noncomputable def complexNormal (m : ℂ) (s : ℝ) (p : ℂ) (v w : ℂ × ℝ × ℂ) : ℝ :=
  mvNormal (parts m) (complexCov s p) (quadratic v) (quadratic w)

/-- Logarithms of Dirichlet variables with concentrations `a`. -/
noncomputable def dirichlet {n : ℕ} (a v w : Fin n → ℝ) : ℝ :=
  ∑ i, trigamma (a i) * (v i * w i) - trigamma (∑ i, a i) * ((∑ i, v i) * ∑ i, w i)

/-- The logarithms of a beta variable with shapes `a`, `b` and of one minus it. -/
noncomputable def beta (a b : ℝ) (v w : ℝ × ℝ) : ℝ :=
  trigamma a * (v.1 * w.1) + trigamma b * (v.2 * w.2) - trigamma (a + b) * ((v.1 + v.2) * (w.1 + w.2))

/-- What the statistics of the generalized Dirichlet distribution, the logarithms of the coordinates and
of what is left, are in the logarithms of the fractions that are broken off, and of one minus them: the
logarithm of coordinate `i` contains the latter for the coordinates before `i`, and that of what is left
after `i` also the one for `i`. -/
def fractions {n : ℕ} (v : (Fin n → ℝ) × (Fin n → ℝ)) (i : Fin n) : ℝ × ℝ :=
  (v.1 i, ∑ j ∈ Finset.Ioi i, v.1 j + ∑ j ∈ Finset.Ici i, v.2 j)

/-- Generalized Dirichlet: the fractions that are broken off are independent. -/
noncomputable def genDirichlet {n : ℕ} (a b : Fin n → ℝ) (v w : (Fin n → ℝ) × (Fin n → ℝ)) : ℝ :=
  ∑ i, beta (a i) (b i) (fractions v i) (fractions w i)

/-- Von Mises-Fisher with mean direction `m` and concentration `k`. -/
noncomputable def vonMisesFisher {d : ℕ} (m : Fin d → ℝ) (k : ℝ) (v w : Fin d → ℝ) : ℝ :=
  let A := besselI ((d : ℝ) / 2) k / besselI ((d : ℝ) / 2 - 1) k
  A / k * (v ⬝ᵥ w - (m ⬝ᵥ v) * (m ⬝ᵥ w)) + (1 - A ^ 2 - (d - 1) * A / k) * ((m ⬝ᵥ v) * (m ⬝ᵥ w))

end Textbook.Info

end Efax.Spec
