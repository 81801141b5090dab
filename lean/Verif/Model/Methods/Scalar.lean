import Verif.Model.Methods.Basic
import Verif.Model.Families.Discrete

/-!
# Methods on arrays: classes with scalar parameters, and the multinomial class
-/

namespace Efax.Methods

open Calc Val

/-- `BernoulliNP` (bernoulli.py 36-61). -/
noncomputable def bernoulliNP : NatMethods where
  shape
    | [a] => .ok a.rshape
    | _ => .error .typeError
  logNormalizer
    | [a] => bin logaddexp a.toR 0
    | _ => fail .typeError
  toExp
    | [a] => vals [ofR (a.toR.map expit)]
    | _ => .error .typeError
  carrier _ x := zeros 0 x.toR
  stat x _ := .ok [x]

/-- `BernoulliEP` (bernoulli.py 91-93, 105-111). -/
noncomputable def bernoulliEP : ExpMethods where
  shape
    | [a] => .ok a.rshape
    | _ => .error .typeError
  toNat _
    | [a] => vals [ofR (a.toR.map logit)]
    | _ => .error .typeError
  ecm _
    | [a] => zeros 0 a.toR
    | _ => fail .typeError

/-- `BernoulliNP.nat_to_probability` (bernoulli.py 63-66). -/
noncomputable def bernoulliProbability (a : Val) : Calc ℝ :=
  let p := a.toR.map expit
  let final_p := 1 - p
  stack2 p final_p

/-- `BernoulliNP.nat_to_surprisal` (bernoulli.py 68-70). -/
noncomputable def bernoulliSurprisal (a : Val) : Calc ℝ := -log (bernoulliProbability a)

/-- `PoissonNP` (poisson.py 33-58). -/
noncomputable def poissonNP : NatMethods where
  shape
    | [a] => .ok a.rshape
    | _ => .error .typeError
  logNormalizer
    | [a] => exp a.toR
    | _ => fail .typeError
  toExp
    | [a] => vals [ofR (exp a.toR)]
    | _ => .error .typeError
  carrier _ x := -(x.toR + 1).map gammaln
  stat x _ := .ok [x]

/-- `PoissonEP` (poisson.py 78-80, 92-94); there is no `expected_carrier_measure`. -/
noncomputable def poissonEP : ExpMethods where
  shape
    | [a] => .ok a.rshape
    | _ => .error .typeError
  toNat _
    | [a] => vals [ofR (log a.toR)]
    | _ => .error .typeError
  ecm _ _ := fail .typeError

/-- `NBCommonNP.log_normalizer` (negative_binomial_common.py 35-37). -/
noncomputable def nbLogNormalizer (failures q : Calc ℝ) : Calc ℝ :=
  -failures * (-exp q).map log1p

/-- `NBCommonNP.carrier_measure` (negative_binomial_common.py 39-43). -/
noncomputable def nbCarrier (failures x : Calc ℝ) : Calc ℝ :=
  let a := x + failures - 1
  (a + 1).map gammaln - (x + 1).map gammaln - (a - x + 1).map gammaln

/-- `NBCommonNP._mean` (negative_binomial_common.py 45-46). -/
noncomputable def nbMean (failures q : Calc ℝ) : Calc ℝ := failures / (-q).map expm1

/-- `NBCommonEP._log_not_p` (negative_binomial_common.py 74-75). -/
noncomputable def nbLogNotP (failures m : Calc ℝ) : Calc ℝ := -(failures / m).map log1p

/-- `NegativeBinomialNP` (negative_binomial_common.py 26-28, negative_binomial.py 33-53). -/
noncomputable def negativeBinomialNP : NatMethods where
  shape
    | [a, _] => .ok a.rshape
    | _ => .error .typeError
  logNormalizer
    | [a, r] => nbLogNormalizer r.toR a.toR
    | _ => fail .typeError
  toExp
    | [a, r] => vals [ofR (nbMean r.toR a.toR), .ok r]
    | _ => .error .typeError
  carrier
    | [_, r], x => nbCarrier r.toR x.toR
    | _, _ => fail .typeError
  stat x fixed := do
    let r ← fixed.get "failures"
    match r with
    | .int a => do .ok [x, .int (← (broadcastLike (.ok a) x.toR).run)]
    | _ => .error .typeError

/-- `NegativeBinomialEP` (negative_binomial_common.py 62-64, negative_binomial.py 77-83); there is no
`expected_carrier_measure`. -/
noncomputable def negativeBinomialEP : ExpMethods where
  shape
    | [a, _] => .ok a.rshape
    | _ => .error .typeError
  toNat _
    | [a, r] => vals [ofR (nbLogNotP r.toR a.toR), .ok r]
    | _ => .error .typeError
  ecm _ _ := fail .typeError

/-- `GeometricNP` (negative_binomial_common.py 26-28, geometric.py 36-48). -/
noncomputable def geometricNP : NatMethods where
  shape
    | [a] => .ok a.rshape
    | _ => .error .typeError
  logNormalizer
    | [a] => nbLogNormalizer 1 a.toR
    | _ => fail .typeError
  toExp
    | [a] => vals [ofR (nbMean 1 a.toR)]
    | _ => .error .typeError
  carrier _ x := nbCarrier 1 x.toR
  stat x _ := .ok [x]

/-- `GeometricEP` (negative_binomial_common.py 62-64, geometric.py 76-82, 91-93). -/
noncomputable def geometricEP : ExpMethods where
  shape
    | [a] => .ok a.rshape
    | _ => .error .typeError
  toNat _
    | [a] => vals [ofR (nbLogNotP 1 a.toR)]
    | _ => .error .typeError
  ecm _
    | [a] => zeros 0 a.toR
    | _ => fail .typeError

open Classical in
/-- `LogarithmicNP` (logarithmic.py 32-62). -/
noncomputable def logarithmicNP : NatMethods where
  shape
    | [a] => .ok a.rshape
    | _ => .error .typeError
  logNormalizer
    | [a] => log (-(-exp a.toR).map log1p)
    | _ => fail .typeError
  toExp
    | [a] =>
      let q := a.toR
      let probability := exp q
      let quotient := probability / (q.map expm1 * (-probability).map log1p)
      let chi := whereE (· < logProbabilityFloor) q (const (some (1 : EReal)))
        (whereE (· > logProbabilityCeiling) q (const (some (⊤ : EReal)))
          (quotient.map fun r : ℝ => some (r : EReal)))
      vals [ofR chi.finite]
    | _ => .error .typeError
  carrier _ x := -log x.toR
  stat x _ := .ok [x]

open Classical in
/-- `LogarithmicEP` (logarithmic.py 77-79, 93-100); there is no `expected_carrier_measure`. -/
noncomputable def logarithmicEP : ExpMethods where
  shape
    | [a] => .ok a.rshape
    | _ => .error .typeError
  toNat search
    | [a] => do
      match ← search [a] with
      | [z] =>
        let chi := a.toR
        vals [ofR (finite (whereE (· < (1 : ℝ)) chi (const none)
          (whereE (· = (1 : ℝ)) chi (const (some (⊤ : EReal)))
            (z.toR.map fun r : ℝ => some (r : EReal)))))]
      | _ => .error .typeError
    | _ => .error .typeError
  ecm _ _ := fail .typeError

/-- `max_q` (multinomial.py 48, 55, 82). -/
noncomputable def maxQ (q : Calc ℝ) : Calc ℝ := bin max 0 q.amax

/-- `q_minus_max_q` (multinomial.py 49, 56, 83). -/
noncomputable def qMinusMaxQ (q : Calc ℝ) : Calc ℝ := q - (maxQ q).newaxis

/-- `log_scaled_a` (multinomial.py 50, 57, 84). -/
noncomputable def logScaledA (q : Calc ℝ) : Calc ℝ := bin logaddexp (-maxQ q) (qMinusMaxQ q).logsumexp

/-- `MultinomialNP` (multinomial.py 37-68). -/
noncomputable def multinomialNP : NatMethods where
  shape
    | [a] => .ok (a.rshape.drop 1)
    | _ => .error .typeError
  logNormalizer
    | [a] => maxQ a.toR + logScaledA a.toR
    | _ => fail .typeError
  toExp
    | [a] => vals [ofR (exp (qMinusMaxQ a.toR - (logScaledA a.toR).newaxis))]
    | _ => .error .typeError
  carrier _ x := zeros 1 x.toR
  stat x _ := .ok [x]

/-- `MultinomialEP` (multinomial.py 109-111, 123-130). -/
noncomputable def multinomialEP : ExpMethods where
  shape
    | [a] => .ok (a.rshape.drop 1)
    | _ => .error .typeError
  toNat _
    | [a] =>
      let p_k := 1 - a.toR.sumLast.newaxis
      vals [ofR (log (a.toR / p_k))]
    | _ => .error .typeError
  ecm _
    | [a] => zeros 1 a.toR
    | _ => fail .typeError

/-- `MultinomialNP.nat_to_probability` (multinomial.py 81-87). -/
noncomputable def multinomialProbability (a : Val) : Calc ℝ :=
  let p := exp (qMinusMaxQ a.toR - (logScaledA a.toR).newaxis)
  let final_p := 1 - p.sumLast.newaxis
  append p final_p

/-- `MultinomialNP.nat_to_surprisal` (multinomial.py 89-91). -/
noncomputable def multinomialSurprisal (a : Val) : Calc ℝ := -log (multinomialProbability a)

end Efax.Methods
