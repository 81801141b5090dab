import Verif.Model.ExpFam
import Verif.Model.Special
import Mathlib.Order.ConditionallyCompleteLattice.Finset
import Mathlib.Data.Fintype.BigOperators

/-!
# Discrete families

One distribution (no batch axes), real arithmetic.
-/

namespace Efax

/-- The value of a Boolean observation as a number. -/
def ofBool (x : Bool) : ℝ := if x then 1 else 0

/-- The Bernoulli family (bernoulli.py 45-61).  An observation is a Boolean (`boolean_ring`,
lines 40-43). -/
noncomputable def bernoulli : ExpFam ℝ ℝ Bool where
  dot q p := q * p
  logNormalizer q := logaddexp q 0
  toExp q := expit q
  stat x := ofBool x
  carrier _ := 0

/-- `BernoulliEP.to_nat` (bernoulli.py 105-107). -/
noncomputable def bernoulliToNat (p : ℝ) : ℝ := logit p

/-- `BernoulliEP.expected_carrier_measure` (bernoulli.py 109-111). -/
def bernoulliEcm (_ : ℝ) : ℝ := 0

/-- `BernoulliNP.nat_to_probability` (bernoulli.py 63-66): the two entries. -/
noncomputable def bernoulliProbability (q : ℝ) : Fin 2 → ℝ := ![expit q, 1 - expit q]

/-- `BernoulliNP.nat_to_surprisal` (bernoulli.py 68-70). -/
noncomputable def bernoulliSurprisal (q : ℝ) (i : Fin 2) : ℝ := -Real.log (bernoulliProbability q i)

/-- The Poisson family (poisson.py 42-58). -/
noncomputable def poisson : ExpFam ℝ ℝ ℕ where
  dot q p := q * p
  logNormalizer q := Real.exp q
  toExp q := Real.exp q
  stat x := x
  carrier x := -gammaln (x + 1)

/-- `PoissonEP.to_nat` (poisson.py 92-94). -/
noncomputable def poissonToNat (m : ℝ) : ℝ := Real.log m

/-- The negative binomial family with `r` failures (negative_binomial_common.py 35-46,
negative_binomial.py 37-45). -/
noncomputable def negativeBinomial (r : ℕ) : ExpFam ℝ ℝ ℕ where
  dot q p := q * p
  logNormalizer q := -r * log1p (-Real.exp q)
  toExp q := r / expm1 (-q)
  stat x := x
  carrier x := let a : ℝ := x + r - 1
    gammaln (a + 1) - gammaln (x + 1) - gammaln (a - x + 1)

/-- `NegativeBinomialEP.to_nat`, `_log_not_p` (negative_binomial.py 77-79,
negative_binomial_common.py 74-75). -/
noncomputable def negativeBinomialToNat (r : ℕ) (m : ℝ) : ℝ := -log1p (r / m)

/-- The geometric family: `_failures()` is 1 (geometric.py 36-48). -/
noncomputable def geometric : ExpFam ℝ ℝ ℕ := negativeBinomial 1

/-- `GeometricEP.to_nat` (geometric.py 76-78). -/
noncomputable def geometricToNat (m : ℝ) : ℝ := negativeBinomialToNat 1 m

/-- `GeometricEP.expected_carrier_measure` (geometric.py 80-82). -/
def geometricEcm (_ : ℝ) : ℝ := 0

/-- The quotient in `LogarithmicNP.to_exp` (logarithmic.py 47, 50-51). -/
noncomputable def logarithmicQuotient (q : ℝ) : ℝ :=
  let probability := Real.exp q
  probability / (expm1 q * log1p (-probability))

/-- The logarithmic family (logarithmic.py 41-62), with the quotient as the expectation parameter;
the values used outside the interval between the floor and the ceiling are in `logarithmicToExp`.
Observations are positive integers; `x` stands for the observation `x + 1`. -/
noncomputable def logarithmic : ExpFam ℝ ℝ ℕ where
  dot q p := q * p
  logNormalizer q := Real.log (-log1p (-Real.exp q))
  toExp q := logarithmicQuotient q
  stat x := x + 1
  carrier x := -Real.log (x + 1)

/-- `log_probability_floor` (logarithmic.py 17). -/
def logProbabilityFloor : ℝ := -50

/-- `log_probability_ceiling` (logarithmic.py 18); `-1e-7` is taken to be exact. -/
noncomputable def logProbabilityCeiling : ℝ := -1 / 10 ^ 7

/-- `LogarithmicNP.to_exp` (logarithmic.py 45-52); `⊤` is `jnp.inf`. -/
noncomputable def logarithmicToExp (q : ℝ) : EReal :=
  if q < logProbabilityFloor then 1
  else if q > logProbabilityCeiling then ⊤
  else (logarithmicQuotient q : ℝ)

/-- `LogarithmicEP.to_nat` (logarithmic.py 93-100), for the root `z` that the search returns; `none`
is NaN. -/
noncomputable def logarithmicToNat (z χ : ℝ) : Option EReal :=
  if χ < 1 then none else if χ = 1 then some ⊤ else some (z : EReal)

/-- `max_q` (multinomial.py 48, 55, 82), for at least one log odds. -/
noncomputable def maxQ {d : ℕ} (q : Fin (d + 1) → ℝ) : ℝ :=
  max 0 (Finset.univ.sup' Finset.univ_nonempty q)

/-- `log_scaled_a` (multinomial.py 49-50, 56-57, 83-84). -/
noncomputable def logScaledA {d : ℕ} (q : Fin (d + 1) → ℝ) : ℝ :=
  logaddexp (-maxQ q) (Real.log (∑ i, Real.exp (q i - maxQ q)))

/-- The multinomial family of one trial with `d + 2` categories (multinomial.py 46-68).  An
observation is the vector of the first `d + 1` indicator values; `jnp.amax` requires at least one
entry. -/
noncomputable def multinomial (d : ℕ) : ExpFam (Fin (d + 1) → ℝ) (Fin (d + 1) → ℝ)
    (Fin (d + 1) → ℝ) where
  dot q p := ∑ i, q i * p i
  logNormalizer q := maxQ q + logScaledA q
  toExp q i := Real.exp (q i - maxQ q - logScaledA q)
  stat x := x
  carrier _ := 0

/-- `MultinomialEP.to_nat` (multinomial.py 123-126). -/
noncomputable def multinomialToNat {d : ℕ} (p : Fin (d + 1) → ℝ) : Fin (d + 1) → ℝ :=
  fun i => Real.log (p i / (1 - ∑ j, p j))

/-- `MultinomialEP.expected_carrier_measure` (multinomial.py 128-130). -/
def multinomialEcm {d : ℕ} (_ : Fin (d + 1) → ℝ) : ℝ := 0

/-- `MultinomialNP.nat_to_probability` (multinomial.py 81-87). -/
noncomputable def multinomialProbability {d : ℕ} (q : Fin (d + 1) → ℝ) : Fin (d + 2) → ℝ :=
  let p : Fin (d + 1) → ℝ := fun i => Real.exp (q i - maxQ q - logScaledA q)
  Fin.snoc p (1 - ∑ i, p i)

/-- `MultinomialNP.nat_to_surprisal` (multinomial.py 89-91). -/
noncomputable def multinomialSurprisal {d : ℕ} (q : Fin (d + 1) → ℝ) (i : Fin (d + 2)) : ℝ :=
  -Real.log (multinomialProbability q i)

end Efax
