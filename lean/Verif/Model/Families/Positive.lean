import Verif.Model.ExpFam
import Verif.Model.Special
import Mathlib.Analysis.SpecialFunctions.Pow.Real
import Mathlib.NumberTheory.Harmonic.EulerMascheroni

/-!
# Families on the positive numbers

One distribution (no batch axes), real arithmetic.
-/

namespace Efax

/-- The exponential family of `ExponentialNP` (exponential.py 41-57). -/
noncomputable def exponential : ExpFam ℝ ℝ ℝ where
  dot q p := q * p
  logNormalizer q := -Real.log (-q)
  toExp q := -1 / q
  stat x := x
  carrier _ := 0

/-- `ExponentialEP.to_nat` (exponential.py 95-97). -/
noncomputable def exponentialToNat (m : ℝ) : ℝ := -1 / m

/-- `ExponentialEP.expected_carrier_measure` (exponential.py 99-101). -/
def exponentialEcm (_ : ℝ) : ℝ := 0

/-- The gamma family: `negative_rate` and `shape_minus_one` (gamma.py 48-67). -/
noncomputable def gamma : ExpFam (ℝ × ℝ) (ℝ × ℝ) ℝ where
  dot q p := q.1 * p.1 + q.2 * p.2
  logNormalizer q := gammaln (q.2 + 1) - (q.2 + 1) * Real.log (-q.1)
  toExp q := (-(q.2 + 1) / q.1, digamma (q.2 + 1) - Real.log (-q.1))
  stat x := (x, Real.log x)
  carrier _ := 0

/-- `GammaEP.expected_carrier_measure` (gamma.py 113-115). -/
def gammaEcm (_ : ℝ × ℝ) : ℝ := 0

/-- `GammaEP.search_to_natural` (gamma.py 121-125). -/
noncomputable def gammaSearchToNatural (χ : ℝ × ℝ) (s : ℝ) : ℝ × ℝ :=
  let shape := softplus s
  (-(shape / χ.1), shape - 1)

/-- `GammaEP.search_gradient` (gamma.py 127-131). -/
noncomputable def gammaSearchGradient (χ : ℝ × ℝ) (s : ℝ) : ℝ :=
  let shape := softplus s
  Real.log χ.1 - χ.2 - Real.log shape + digamma shape

/-- `GammaNP.to_var` (gamma.py 75-80). -/
noncomputable def gammaToVar (q : ℝ × ℝ) : ℝ × ℝ :=
  let rate := -q.1
  let mean := (q.2 + 1) / rate
  (mean, mean / rate)

/-- `GammaVP.to_nat` (gamma.py 166-171). -/
noncomputable def gammaVarToNat (w : ℝ × ℝ) : ℝ × ℝ :=
  let rate := w.1 / w.2
  (-rate, w.1 * rate - 1)

/-- `GammaVP.to_exp` (gamma.py 173-174). -/
noncomputable def gammaVarToExp (w : ℝ × ℝ) : ℝ × ℝ := gamma.toExp (gammaVarToNat w)

/-- The chi-square family (chi_square.py 45-63). -/
noncomputable def chiSquare : ExpFam ℝ ℝ ℝ where
  dot q p := q * p
  logNormalizer q := gammaln (q + 1) - (q + 1) * Real.log 0.5
  toExp q := digamma (q + 1) - Real.log 0.5
  stat x := Real.log x
  carrier x := -x * 0.5

/-- `ChiSquareEP.expected_carrier_measure` (chi_square.py 104-108), for the conversion `toNat` that
the search computes. -/
def chiSquareEcm (toNat : ℝ → ℝ) (χ : ℝ) : ℝ := -(toNat χ + 1)

/-- `TransformedNaturalParametrization` (mixins/transformed_parametrization.py 17-59): the methods of
a family whose observation `x` is mapped to the observation `g x` of a base family.
`base_distribution` and `create_expectation` only rename the parameters. -/
noncomputable def transformed {N E X Y : Type} (base : ExpFam N E Y) (g : X → Y) (carrier : X → ℝ) :
    ExpFam N E X where
  dot := base.dot
  logNormalizer := base.logNormalizer
  toExp := base.toExp
  stat x := base.stat (g x)
  carrier := carrier

/-- The chi family (chi.py 46-62). -/
noncomputable def chi : ExpFam ℝ ℝ ℝ :=
  transformed chiSquare (fun x => x ^ 2) fun x => Real.log (2 * x) - x ^ 2 * 0.5

/-- `ChiEP.expected_carrier_measure` (chi.py 99-103), for the conversion `toNat` that the search of
the chi-square family computes. -/
noncomputable def chiEcm (toNat : ℝ → ℝ) (χ : ℝ) : ℝ :=
  let k := toNat χ + 1;
  (-1) * k + 0.5 * digamma k + 1.5 * Real.log 2

/-- The Rayleigh family (rayleigh.py 46-63). -/
noncomputable def rayleigh : ExpFam ℝ ℝ ℝ :=
  transformed exponential (fun x => x ^ 2) fun x => Real.log x + Real.log 2

/-- `RayleighEP.to_nat`: `create_natural` of the exponential conversion (rayleigh.py 99-105,
mixins/transformed_parametrization.py 86-89). -/
noncomputable def rayleighToNat (χ : ℝ) : ℝ := exponentialToNat χ

/-- `RayleighEP.expected_carrier_measure` (rayleigh.py 107-109). -/
noncomputable def rayleighEcm (χ : ℝ) : ℝ :=
  0.5 * Real.log (χ * 0.5) + (1.5 * Real.log 2 - 0.5 * Real.eulerMascheroniConstant)

/-- The Weibull family with concentration `k` (weibull.py 44-63). -/
noncomputable def weibull (k : ℝ) : ExpFam ℝ ℝ ℝ where
  dot q p := q * p
  logNormalizer q := -Real.log (-q) - Real.log k
  toExp q := -1 / q
  stat x := x ^ k
  carrier x := (k - 1) * Real.log x

/-- `WeibullEP.to_nat` (weibull.py 100-102). -/
noncomputable def weibullToNat (χ : ℝ) : ℝ := -1 / χ

/-- `WeibullEP.expected_carrier_measure` (weibull.py 104-108). -/
noncomputable def weibullEcm (k χ : ℝ) : ℝ :=
  let c := 1 - 1 / k
  c * Real.log χ - Real.eulerMascheroniConstant * c

end Efax
