import Verif.Spec.Textbook
import Verif.Spec.Setting
import Verif.Spec.Objects
import Mathlib.NumberTheory.Harmonic.EulerMascheroni
import Mathlib.LinearAlgebra.Matrix.Trace

/-!
# Specification: divergences and entropies in their textbook form

In the parameters of the textbook densities.
-/

namespace Efax.Spec.Textbook

open Real Matrix

namespace KL

/-- Bernoulli with probabilities of success `p`, `p'`. -/
noncomputable def bernoulli (p p' : ℝ) : ℝ := p * log (p / p') + (1 - p) * log ((1 - p) / (1 - p'))

/-- Finitely many categories with probabilities `p`, `p'`. -/
noncomputable def categorical {n : ℕ} (p p' : Fin n → ℝ) : ℝ := ∑ k, p k * log (p k / p' k)

/-- Poisson with means `m`, `m'`. -/
noncomputable def poisson (m m' : ℝ) : ℝ := m * log (m / m') - m + m'

/-- Number of failures before success number `r`, with probabilities of success `p`, `p'`. -/
noncomputable def negativeBinomial (r p p' : ℝ) : ℝ :=
  r * (log (p / p') + (1 - p) / p * log ((1 - p) / (1 - p')))

/-- The logarithmic series distributions, whose means are `-p / ((1 - p) log (1 - p))`. -/
noncomputable def logarithmic (p p' : ℝ) : ℝ :=
  -p / ((1 - p) * log (1 - p)) * log (p / p') + log (log (1 - p') / log (1 - p))

/-- Exponential with means `m`, `m'`. -/
noncomputable def exponential (m m' : ℝ) : ℝ := m / m' - 1 + log (m' / m)

/-- Gamma with shapes `k`, `k'` and scales `θ`, `θ'`: the formula of tests/test_kl.py 74-76. -/
noncomputable def gamma (k θ k' θ' : ℝ) : ℝ :=
  (θ - θ') / θ' * k + log (Gamma k') - log (Gamma k) + k' * log θ' - k * log θ +
    (k - k') * (log θ + digamma k)

/-- Chi-square (or chi) with `k`, `k'` degrees of freedom. -/
noncomputable def chiSquare (k k' : ℝ) : ℝ :=
  log (Gamma (k' / 2) / Gamma (k / 2)) + (k - k') / 2 * digamma (k / 2)

/-- Rayleigh with scales `σ`, `σ'`. -/
noncomputable def rayleigh (σ σ' : ℝ) : ℝ := σ ^ 2 / σ' ^ 2 - 1 + 2 * log (σ' / σ)

/-- Weibull with the shape `k` and scales `l`, `l'`. -/
noncomputable def weibull (k l l' : ℝ) : ℝ := (l / l') ^ k - 1 + k * log (l' / l)

/-- Normal with means `m`, `m'` and variances `v`, `v'`: the formula of tests/test_kl.py 41. -/
noncomputable def normal (m v m' v' : ℝ) : ℝ := 0.5 * (v / v' + (m' - m) ^ 2 / v' - 1 + log (v' / v))

/-- Normal with means `m`, `m'` and covariances `S`, `S'`: the formula of tests/test_kl.py 55-59. -/
noncomputable def mvNormal {ι : Type} [Fintype ι] [DecidableEq ι] (m : ι → ℝ) (S : Matrix ι ι ℝ)
    (m' : ι → ℝ) (S' : Matrix ι ι ℝ) : ℝ :=
  0.5 * ((S'⁻¹ * S).trace + (m' - m) ⬝ᵥ (S'⁻¹ *ᵥ (m' - m)) - Fintype.card ι + log (S'.det / S.det))

/-- Spherical normal with means `m`, `m'` and variances `v`, `v'` of the coordinates. -/
noncomputable def spherical {d : ℕ} (m : Fin d → ℝ) (v : ℝ) (m' : Fin d → ℝ) (v' : ℝ) : ℝ :=
  0.5 * (d * (v / v') + (∑ i, (m' i - m i) ^ 2) / v' - d + d * log (v' / v))

/-- Complex normal with means `m`, `m'`, variances `v`, `v'` and pseudo-variances `p`, `p'`: that of the
real and imaginary parts. -/
noncomputable def complexNormal (m : ℂ) (v : ℝ) (p : ℂ) (m' : ℂ) (v' : ℝ) (p' : ℂ) : ℝ :=
  mvNormal (parts m) (complexCov v p) (parts m') (complexCov v' p')

/-- Complex normal with means `m`, `m'`, variance one and no pseudo-variance. -/
noncomputable def complexUnit (m m' : ℂ) : ℝ := Complex.normSq (m' - m)

/-- Circularly symmetric complex normal with covariances `V`, `V'`. -/
noncomputable def circular {d : ℕ} (V V' : Matrix (Fin d) (Fin d) ℂ) : ℝ :=
  (V'⁻¹ * V).trace.re - d + log (V'.det.re / V.det.re)

/-- Dirichlet with concentrations `a`, `a'`. -/
noncomputable def dirichlet {n : ℕ} (a a' : Fin n → ℝ) : ℝ :=
  log (Gamma (∑ i, a i)) - ∑ i, log (Gamma (a i)) - log (Gamma (∑ i, a' i)) + ∑ i, log (Gamma (a' i)) +
    ∑ i, (a i - a' i) * (digamma (a i) - digamma (∑ j, a j))

/-- Beta with shapes `a`, `b` and `a'`, `b'`. -/
noncomputable def beta (a b a' b' : ℝ) : ℝ :=
  log (betaFun a' b' / betaFun a b) + (a - a') * digamma a + (b - b') * digamma b +
    (a' - a + b' - b) * digamma (a + b)

/-- Generalized Dirichlet: the sum of the divergences of the fractions that are broken off. -/
noncomputable def genDirichlet {n : ℕ} (a b a' b' : Fin n → ℝ) : ℝ :=
  ∑ i, beta (a i) (b i) (a' i) (b' i)

/-- Von Mises-Fisher with mean directions `m`, `m'` and concentrations `k`, `k'`. -/
noncomputable def vonMisesFisher {d : ℕ} (m : Fin d → ℝ) (k : ℝ) (m' : Fin d → ℝ) (k' : ℝ) : ℝ :=
  (k - k' * (m ⬝ᵥ m')) * (besselI ((d : ℝ) / 2) k / besselI ((d : ℝ) / 2 - 1) k) +
    ((d : ℝ) / 2 - 1) * log (k / k') +
    log (besselI ((d : ℝ) / 2 - 1) k' / besselI ((d : ℝ) / 2 - 1) k)

end KL

namespace Entropy

/-- Bernoulli with probability of success `p`. -/
noncomputable def bernoulli (p : ℝ) : ℝ := -p * log p - (1 - p) * log (1 - p)

/-- Finitely many categories with probabilities `p`. -/
noncomputable def categorical {n : ℕ} (p : Fin n → ℝ) : ℝ := -∑ k, p k * log (p k)

/-- Number of failures before the first success, with probability of success `p`. -/
noncomputable def geometric (p : ℝ) : ℝ := (-(1 - p) * log (1 - p) - p * log p) / p

/-- Exponential with mean `m`. -/
noncomputable def exponential (m : ℝ) : ℝ := 1 + log m

/-- Gamma with shape `k` and scale `θ`. -/
noncomputable def gamma (k θ : ℝ) : ℝ := k + log θ + log (Gamma k) + (1 - k) * digamma k

/-- Chi-square with `k` degrees of freedom. -/
noncomputable def chiSquare (k : ℝ) : ℝ :=
  k / 2 + log (2 * Gamma (k / 2)) + (1 - k / 2) * digamma (k / 2)

/-- Chi with `k` degrees of freedom. -/
noncomputable def chi (k : ℝ) : ℝ :=
  log (Gamma (k / 2)) + 1 / 2 * (k - log 2 - (k - 1) * digamma (k / 2))

/-- Rayleigh with scale `σ`. -/
noncomputable def rayleigh (σ : ℝ) : ℝ := 1 + log (σ / sqrt 2) + eulerMascheroniConstant / 2

/-- Weibull with shape `k` and scale `l`. -/
noncomputable def weibull (k l : ℝ) : ℝ := eulerMascheroniConstant * (1 - 1 / k) + log (l / k) + 1

/-- Normal with variance `v`. -/
noncomputable def normal (v : ℝ) : ℝ := 1 / 2 * log (2 * π * exp 1 * v)

/-- Normal with covariance `S`. -/
noncomputable def mvNormal {ι : Type} [Fintype ι] [DecidableEq ι] (S : Matrix ι ι ℝ) : ℝ :=
  1 / 2 * log ((2 * π * exp 1) ^ Fintype.card ι * S.det)

/-- Complex normal with variance `v` and pseudo-variance `p`. -/
noncomputable def complexNormal (v : ℝ) (p : ℂ) : ℝ := log (π * exp 1 * sqrt (v ^ 2 - Complex.normSq p))

/-- Circularly symmetric complex normal with covariance `V`. -/
noncomputable def circular {d : ℕ} (V : Matrix (Fin d) (Fin d) ℂ) : ℝ :=
  log ((π * exp 1) ^ d * V.det.re)

/-- Dirichlet with concentrations `a`. -/
noncomputable def dirichlet {n : ℕ} (a : Fin n → ℝ) : ℝ :=
  ∑ i, log (Gamma (a i)) - log (Gamma (∑ i, a i)) + (∑ i, a i - n) * digamma (∑ i, a i) -
    ∑ i, (a i - 1) * digamma (a i)

/-- Beta with shapes `a`, `b`. -/
noncomputable def beta (a b : ℝ) : ℝ :=
  log (betaFun a b) - (a - 1) * digamma a - (b - 1) * digamma b + (a + b - 2) * digamma (a + b)

/-- Generalized Dirichlet: the entropies of the fractions that are broken off, and the expected
logarithms of what they are fractions of. -/
noncomputable def genDirichlet {n : ℕ} (a b : Fin n → ℝ) : ℝ :=
  ∑ i, (beta (a i) (b i) + ∑ j ∈ Finset.Iio i, (digamma (b j) - digamma (a j + b j)))

/-- Von Mises-Fisher with concentration `k`, in dimension `d`. -/
noncomputable def vonMisesFisher (d : ℕ) (k : ℝ) : ℝ :=
  (d : ℝ) / 2 * log (2 * π) + log (besselI ((d : ℝ) / 2 - 1) k) - ((d : ℝ) / 2 - 1) * log k -
    k * (besselI ((d : ℝ) / 2) k / besselI ((d : ℝ) / 2 - 1) k)

end Entropy

end Efax.Spec.Textbook

namespace Efax.Spec

variable [MachEps]

/-- `kl_divergence` of all batches of valid distributions, from natural parameters or from expectation
parameters, computes the formula `f` of the (fixed and) natural parameters of every entry. -/
def KLIs (L : Library Cls) {K : Kind Cls} (S : Setting K) (f : K.P → K.N → K.N → ℝ) : Prop :=
  ∀ rs p a b, S.Inside rs p a → S.Inside rs p b → EachLeaf RegularVals (K.nat rs p a) →
    (K.nat rs p a).klN L (K.nat rs p b) = .ok (scalars rs fun i => f (p i) (a i) (b i)) ∧
    ∃ e, (K.nat rs p a).toExp L.toExp = .ok e ∧ (Found K rs p a → EachLeaf SearchableVals e →
      e.klE L (K.nat rs p b) = .ok (scalars rs fun i => f (p i) (a i) (b i)))

/-- `entropy` of all batches of valid distributions, from natural parameters or from expectation
parameters, computes the formula `f` of the (fixed and) natural parameters of every entry.  If
`searches`, it converts expectation parameters to natural parameters in both cases. -/
def EntropyIs (L : Library Cls) {K : Kind Cls} (S : Setting K) (searches : Prop)
    (f : K.P → K.N → ℝ) : Prop :=
  ∀ rs p a, S.Inside rs p a → EachLeaf RegularVals (K.nat rs p a) → (searches → Found K rs p a) →
    (K.nat rs p a).entropyN L = .ok (scalars rs fun i => f (p i) (a i)) ∧
    ∃ e, (K.nat rs p a).toExp L.toExp = .ok e ∧ (Found K rs p a → EachLeaf SearchableVals e →
      e.entropyE L = .ok (scalars rs fun i => f (p i) (a i)))

end Efax.Spec
