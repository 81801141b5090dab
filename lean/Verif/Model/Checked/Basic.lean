import Verif.Model.ExpFam
import Verif.Model.Special
import Mathlib.LinearAlgebra.Matrix.NonsingularInverse
import Mathlib.Analysis.Complex.Basic

/-!
# Arithmetic that notices operations outside their domains

The functions of the library are total in `Verif.Model.Special` and in Mathlib: `log 0 = 0` and
`x / 0 = 0`.  JAX returns NaN or an infinity there.  Here such an operation has no value: `none` is a
result that is not a finite number.  Simplification: real arithmetic, so overflow is not modelled; a
value that is not finite is not recovered by a later operation (`1 / inf` is zero in JAX).
-/

namespace Efax.Checked

/-- `a / b`, which is NaN or infinite in JAX when `b` is zero. -/
noncomputable def div? {K : Type} [DivisionRing K] (a b : K) : Option K :=
  open Classical in
  if b = 0 then none else some (a / b)

/-- `jnp.log`, finite for positive numbers. -/
noncomputable def log? (x : ℝ) : Option ℝ := if 0 < x then some (Real.log x) else none

/-- `jnp.log1p`, finite above minus one. -/
noncomputable def log1p? (x : ℝ) : Option ℝ := if -1 < x then some (log1p x) else none

/-- `jss.logit`, finite strictly between zero and one. -/
noncomputable def logit? (p : ℝ) : Option ℝ := if 0 < p ∧ p < 1 then some (logit p) else none

/-- `jss.gammaln`; used for positive numbers only. -/
noncomputable def gammaln? (x : ℝ) : Option ℝ := if 0 < x then some (gammaln x) else none

/-- `jss.digamma`; used for positive numbers only. -/
noncomputable def digamma? (x : ℝ) : Option ℝ := if 0 < x then some (digamma x) else none

/-- `jss.betaln` (gen_dirichlet.py 49), with positive arguments. -/
noncomputable def betaln? (a b : ℝ) : Option ℝ := do
  let x ← gammaln? a
  let y ← gammaln? b
  let z ← gammaln? (a + b)
  return x + y - z

/-- `x ** k` for an exponent that is not an integer, a number when the base is positive. -/
noncomputable def pow? (x k : ℝ) : Option ℝ := if 0 < x then some (x ^ k) else none

/-- `tfp.math.log_bessel_ive` (tools.py 79), finite for positive arguments: at zero it is zero or
infinite, depending on the order, and not used together with a finite logarithm. -/
noncomputable def logIve? (ν x : ℝ) : Option ℝ := if 0 < x then some (logIve ν x) else none

/-- `tfp.math.bessel_iv_ratio` (tools.py 78), for positive arguments. -/
noncomputable def ivRatio? (ν x : ℝ) : Option ℝ := if 0 < x then some (ivRatio ν x) else none

/-- `jnp.linalg.inv`, finite for matrices with a determinant other than zero. -/
noncomputable def inv? {n : ℕ} {K : Type} [_root_.Field K] (m : Matrix (Fin n) (Fin n) K) :
    Option (Matrix (Fin n) (Fin n) K) :=
  open Classical in
  if m.det = 0 then none else some m⁻¹

/-- The second result of `jnp.linalg.slogdet`, finite for a determinant other than zero. -/
noncomputable def logAbsDet? {n : ℕ} (m : Matrix (Fin n) (Fin n) ℝ) : Option ℝ :=
  if m.det = 0 then none else some (Real.log |m.det|)

/-- An operation on the entries of a vector: the result is finite if all its entries are. -/
noncomputable def vec? {ι A : Type} (f : ι → Option A) : Option (ι → A) :=
  open Classical in
  if h : ∀ i, (f i).isSome then some fun i => (f i).get (h i) else none

/-- The methods of one family for given values of the fixed parameters, as in `ExpFam`, with `to_nat`
and `expected_carrier_measure` of the expectation class; `none` is a result that is not finite. -/
structure CheckedFam (N E X : Type) where
  logNormalizer : N → Option ℝ
  toExp : N → Option E
  stat : X → Option E
  carrier : X → Option ℝ
  toNat : E → Option N
  ecm : E → Option ℝ

namespace CheckedFam

variable {N E X : Type} (C : CheckedFam N E X) (dot : N → E → ℝ)

/-- `NaturalParametrization.log_pdf(x)` (natural_parametrization.py 101-109); `dot` is
`parameter_dot_product`, sums of products. -/
noncomputable def logPdf (q : N) (x : X) : Option ℝ := do
  let t ← C.stat x
  let a ← C.logNormalizer q
  let c ← C.carrier x
  return dot q t - a + c

/-- `NaturalParametrization.pdf(x)` (natural_parametrization.py 91-97). -/
noncomputable def pdf (q : N) (x : X) : Option ℝ := do
  let l ← C.logPdf dot q x
  return Real.exp l

/-- `ExpectationParametrization.kl_divergence(q, self_nat=p)` (expectation_parametrization.py 37-52). -/
noncomputable def klWith [Sub N] (χ : E) (p q : N) : Option ℝ := do
  let a ← C.logNormalizer q
  let b ← C.logNormalizer p
  return dot (p - q) χ + a - b

/-- `NaturalParametrization.kl_divergence(q)` (natural_parametrization.py 172-173). -/
noncomputable def kl [Sub N] (p q : N) : Option ℝ := do
  let χ ← C.toExp p
  C.klWith dot χ p q

/-- `ExpectationParametrization.kl_divergence(q)` (expectation_parametrization.py 47-52). -/
noncomputable def klE [Sub N] (χ : E) (q : N) : Option ℝ := do
  let p ← C.toNat χ
  C.klWith dot χ p q

/-- `HasEntropyEP.cross_entropy(q)` (mixins/has_entropy.py 38-47). -/
noncomputable def crossEntropy (χ : E) (q : N) : Option ℝ := do
  let a ← C.logNormalizer q
  let c ← C.ecm χ
  return -dot q χ + a - c

/-- `HasEntropyEP.entropy()` (mixins/has_entropy.py 49-56). -/
noncomputable def entropyE (χ : E) : Option ℝ := do
  let q ← C.toNat χ
  C.crossEntropy dot χ q

/-- `HasEntropyNP.entropy()` (mixins/has_entropy.py 65-70). -/
noncomputable def entropyN (q : N) : Option ℝ := do
  let χ ← C.toExp q
  C.crossEntropy dot χ q

end CheckedFam

end Efax.Checked
