import Verif.Model.Methods.Basic

/-!
# Conjugate priors on arrays (`efax/_src/interfaces/conjugate_prior.py`)

The arguments are the list of the parameters of the expectation class and the array `n`; the result is
the list of the parameters of the prior, a natural class.  `Verif/Model/Families/Conjugate.lean` contains
the same formulas for one distribution.
-/

namespace Efax

/-- `jnp.roll(a, -1, axis=-1).at[..., -1].set(0.0)` (multinomial.py 144); the assignment raises
`IndexError` for an axis of length zero. -/
def Calc.rollZero (x : Calc ℝ) : Calc ℝ := x.bind fun a =>
  match a.rshape with
  | [] => fail .valueError
  | 0 :: _ => fail .indexError
  | n :: rs => ok (Arr.ofFn (n :: rs) fun
    | k :: i => if k + 1 < n then a.get ((k + 1) :: i) else 0
    | [] => default)

/-- `jnp.diff(a, append=c)` for a number `c` (multinomial.py 145). -/
def Calc.diffAppend (c : ℝ) (x : Calc ℝ) : Calc ℝ := x.bind fun a =>
  match a.rshape with
  | [] => fail .valueError
  | n :: rs => ok (Arr.ofFn (n :: rs) fun
    | k :: i => (if k + 1 < n then a.get ((k + 1) :: i) else c) - a.get (k :: i)
    | [] => default)

/-- `jnp.ones(a.shape[:len(a.shape) - k])`. -/
def Calc.ones (k : ℕ) (x : Calc ℝ) : Calc ℝ :=
  x.bind fun a => ok (Arr.ofFn (a.rshape.drop k) fun _ => 1)

namespace Methods

open Calc Val

/-- The method `conjugate_prior_distribution(n)` or `generalized_conjugate_prior_distribution(n)`. -/
abbrev PriorMethod := List Val → Val → Except Err (List Val)

/-- `BernoulliEP.conjugate_prior_distribution` (bernoulli.py 119-122), a `BetaNP`. -/
noncomputable def bernoulliPrior : PriorMethod
  | [a], n =>
    let reshaped_n := n.toR.newaxis
    vals [ofR (reshaped_n * stack2 a.toR (1 - a.toR))]
  | _, _ => .error .typeError

/-- `PoissonEP.conjugate_prior_distribution` (poisson.py 107-109), a `GammaNP`. -/
noncomputable def poissonPrior : PriorMethod
  | [a], n => vals [ofR (-n.toR), ofR (n.toR * a.toR)]
  | _, _ => .error .typeError

/-- `ExponentialEP.conjugate_prior_distribution` (exponential.py 111-113), a `GammaNP`. -/
noncomputable def exponentialPrior : PriorMethod
  | [a], n => vals [ofR (-n.toR / a.toR), .ok n]
  | _, _ => .error .typeError

/-- `MultinomialEP.conjugate_prior_distribution` (multinomial.py 132-136), a `DirichletNP`. -/
noncomputable def multinomialPrior : PriorMethod
  | [a], n =>
    let reshaped_n := n.toR.newaxis
    let final_p := 1 - a.toR.sumLast.newaxis
    vals [ofR (reshaped_n * append a.toR final_p)]
  | _, _ => .error .typeError

/-- `MultinomialEP.generalized_conjugate_prior_distribution` (multinomial.py 138-146), a
`GeneralizedDirichletNP`. -/
noncomputable def multinomialGeneralPrior : PriorMethod
  | [a], n =>
    let final_p := 1 - a.toR.sumLast.newaxis
    let all_p := append a.toR final_p
    let alpha := n.toR * all_p
    let beta := n.toR * (1 - all_p)
    let alpha_roll := alpha.rollZero
    let gamma := -beta.diffAppend 1 - alpha_roll
    vals [ofR (alpha - 1), ofR gamma]
  | _, _ => .error .typeError

/-- `UnitNormalEP.conjugate_prior_distribution` (normal/unit.py 115-118), a `NormalNP`. -/
noncomputable def unitNormalPrior : PriorMethod
  | [a], n => vals [ofR (n.toR * a.toR), ofR (-0.5 * n.toR)]
  | _, _ => .error .typeError

/-- `MultivariateUnitNormalEP.conjugate_prior_distribution` (multivariate_normal/unit.py 124-127), an
`IsotropicNormalNP`. -/
noncomputable def mvUnitPrior : PriorMethod
  | [a], n => vals [ofR (n.toR.newaxis * a.toR), ofR (-0.5 * n.toR * ones 1 a.toR)]
  | _, _ => .error .typeError

/-- `MultivariateUnitNormalEP.generalized_conjugate_prior_distribution` (multivariate_normal/unit.py
129-133), a `MultivariateDiagonalNormalNP`. -/
noncomputable def mvUnitGeneralPrior : PriorMethod
  | [a], n => vals [ofR (n.toR * a.toR), ofR (-0.5 * n.toR)]
  | _, _ => .error .typeError

/-- `MultivariateFixedVarianceNormalEP.conjugate_prior_distribution` (fixed_variance.py 135-140), an
`IsotropicNormalNP`. -/
noncomputable def mvFixedPrior : PriorMethod
  | [a, v], n =>
    let n_over_variance := n.toR / v.toR
    vals [ofR (n_over_variance.newaxis * a.toR), ofR (-0.5 * n_over_variance)]
  | _, _ => .error .typeError

/-- `MultivariateFixedVarianceNormalEP.generalized_conjugate_prior_distribution` (fixed_variance.py
142-147), a `MultivariateDiagonalNormalNP`. -/
noncomputable def mvFixedGeneralPrior : PriorMethod
  | [a, v], n =>
    let n_over_variance := n.toR / v.toR.newaxis
    vals [ofR (n_over_variance * a.toR), ofR (-0.5 * n_over_variance)]
  | _, _ => .error .typeError

/-- `conjugate_prior_observation`: the first parameter (bernoulli.py 124-126, poisson.py 111-113,
exponential.py 115-117, multinomial.py 148-150, normal/unit.py 120-122, multivariate_normal/unit.py
135-137, fixed_variance.py 149-151). -/
def priorObservation : List Val → Except Err Val
  | a :: _ => .ok a
  | [] => .error .typeError

end Methods

end Efax
