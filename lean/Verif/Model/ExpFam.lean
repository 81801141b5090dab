import Mathlib.Analysis.SpecialFunctions.Log.Basic

/-!
# The generic code of natural and expectation parametrizations

`efax/_src/natural_parametrization.py`, `efax/_src/expectation_parametrization.py`,
`efax/_src/mixins/has_entropy.py`, for one distribution (one entry of a batch).
-/

namespace Efax

/-- The methods of one family for given values of the fixed parameters.  `N` holds the variable
parameters of the natural class, `E` those of the expectation class, `X` one observation.

* `dot` is `parameter_dot_product` (tools.py 21-31) of a natural and an expectation object;
* `logNormalizer`, `toExp`, `carrier` are `log_normalizer()`, `to_exp()`, `carrier_measure(x)` of the
  natural class, and `stat` its class method `sufficient_statistics`
  (natural_parametrization.py 47-83).  The carrier measure may depend on fixed parameters only. -/
structure ExpFam (N E X : Type) where
  dot : N → E → ℝ
  logNormalizer : N → ℝ
  toExp : N → E
  stat : X → E
  carrier : X → ℝ

namespace ExpFam

variable {N E X : Type} (F : ExpFam N E X)

/-- `NaturalParametrization.log_pdf(x)` (natural_parametrization.py 101-109). -/
def logPdf (η : N) (x : X) : ℝ := F.dot η (F.stat x) - F.logNormalizer η + F.carrier x

/-- `NaturalParametrization.pdf(x)` (natural_parametrization.py 91-97). -/
noncomputable def pdf (η : N) (x : X) : ℝ := Real.exp (F.logPdf η x)

/-- `ExpectationParametrization.kl_divergence(q, self_nat=p)` (expectation_parametrization.py 37-52);
`parameter_map(jnp.subtract, ...)` is the difference of the variable parameters. -/
def klWith [Sub N] (χ : E) (p q : N) : ℝ :=
  F.dot (p - q) χ + F.logNormalizer q - F.logNormalizer p

/-- `ExpectationParametrization.kl_divergence(q)` for the conversion `toNat`
(expectation_parametrization.py 47-52). -/
def klE [Sub N] (toNat : E → N) (χ : E) (q : N) : ℝ := F.klWith χ (toNat χ) q

/-- `NaturalParametrization.kl_divergence(q)` (natural_parametrization.py 172-173). -/
def kl [Sub N] (p q : N) : ℝ := F.klWith (F.toExp p) p q

/-- `HasEntropyEP.cross_entropy(q)` (mixins/has_entropy.py 38-47); `ecm` is
`expected_carrier_measure`. -/
def crossEntropy (ecm : E → ℝ) (χ : E) (q : N) : ℝ :=
  -F.dot q χ + F.logNormalizer q - ecm χ

/-- `HasEntropyEP.entropy()` (mixins/has_entropy.py 49-56). -/
def entropyE (ecm : E → ℝ) (toNat : E → N) (χ : E) : ℝ := F.crossEntropy ecm χ (toNat χ)

/-- `HasEntropyNP.entropy()` (mixins/has_entropy.py 65-70). -/
def entropyN (ecm : E → ℝ) (p : N) : ℝ := F.crossEntropy ecm (F.toExp p) p

/-- The tangent that the custom JVP rule of `log_normalizer` returns at `q` in the direction `v`
(natural_parametrization.py 26-36). -/
def jvp (q v : N) : ℝ := F.dot v (F.toExp q)

end ExpFam

end Efax
