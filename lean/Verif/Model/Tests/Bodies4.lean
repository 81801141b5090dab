import Verif.Model.Tests.Bodies
import Verif.Model.Methods.Prior
import Verif.Model.Vjp

/-!
# The bodies of the tests of conjugate priors
-/

namespace Efax.Tests

open ClassTable Calc

variable [MachEps]

/-- The method `conjugate_prior_distribution` of a class, and the class of its result (bernoulli.py 119-122,
exponential.py 111-113, poisson.py 107-109, multinomial.py 132-136, normal/unit.py 115-118,
multivariate_normal/unit.py 124-127, fixed_variance.py 135-140). -/
noncomputable def priorOf : Cls → Option (Methods.PriorMethod × Cls)
  | .bernoulliEP => some (Methods.bernoulliPrior, .betaNP)
  | .exponentialEP => some (Methods.exponentialPrior, .gammaNP)
  | .poissonEP => some (Methods.poissonPrior, .gammaNP)
  | .multinomialEP => some (Methods.multinomialPrior, .dirichletNP)
  | .unitNormalEP => some (Methods.unitNormalPrior, .normalNP)
  | .mvUnitNormalEP => some (Methods.mvUnitPrior, .isotropicNormalNP)
  | .fixedVarianceNormalEP => some (Methods.mvFixedPrior, .isotropicNormalNP)
  | _ => none

/-- The method `generalized_conjugate_prior_distribution` of a class, and the class of its result
(multinomial.py 138-146, multivariate_normal/unit.py 129-133, fixed_variance.py 142-147). -/
noncomputable def generalPriorOf : Cls → Option (Methods.PriorMethod × Cls)
  | .multinomialEP => some (Methods.multinomialGeneralPrior, .genDirichletNP)
  | .mvUnitNormalEP => some (Methods.mvUnitGeneralPrior, .diagonalNormalNP)
  | .fixedVarianceNormalEP => some (Methods.mvFixedGeneralPrior, .diagonalNormalNP)
  | _ => none

/-- `p.conjugate_prior_distribution(n)` or `p.generalized_conjugate_prior_distribution(n)` (test_conjugate_prior.py
29, 62).  Objects without the method would raise `AttributeError`, here `TypeError`. -/
noncomputable def callPrior (table : Cls → Option (Methods.PriorMethod × Cls)) (p : Dist Cls) (n : Val) :
    Except Err (Dist Cls) :=
  match table p.cls with
  | none => .error .typeError
  | some (m, c) => do .ok (.mk c (← m p.vals n) .nil)

/-- The entry at `i` of an array that may not exist. -/
def entryAt (i : List ℕ) : Calc ℝ → ℝ
  | .ok a => a.get i
  | .error _ => 0

/-- `derivative` is zero, where `derivative = density_gradient(q, x)` and `density_gradient` is the gradient of `pdf`
in the observation, with `vmap` over the axes of `shape` (test_conjugate_prior.py 38-45, 70-77): the derivatives of
the density at every index of the batch in every entry of the observation at this index.  Automatic
differentiation is modelled by the mathematical derivative, which is required to exist. -/
def Stationary (L : Library Cls) (q : Dist Cls) (x : Val) (shape : List ℕ) : Prop :=
  ∀ j, inB x.rshape j = true → HasDerivAt (fun t : ℝ =>
    entryAt (j.drop (x.rshape.length - shape.length)) (q.pdf L (.leaf (x.nudge j (t * 1))))) 0 0

/-- The tests after the parameters `p` have been chosen, with the counts `n` (test_conjugate_prior.py 28-45,
61-77). -/
noncomputable def priorBody (L : Library Cls) (table : Cls → Option (Methods.PriorMethod × Cls)) (p : Dist Cls)
    (n : Val) (shape : List ℕ) : Except Err Unit := do
  let cpQ ← callPrior table p n
  check ((← cpQ.shape L) = (← p.shape L))
  let cpX ← Methods.priorObservation p.vals
  check (Stationary L cpQ cpX shape)

/-- `test_conjugate_prior` (test_conjugate_prior.py 15-45). -/
noncomputable def testPrior (L : Library Cls) (info : TestInfo) (g : Rng) (s : g.State) : Except Err g.State := do
  let shape := [3, 4]
  let n := .real (Arr.full shape 100)
  let (p, s) ← info.expParameters L g shape s
  check (hasConjugatePrior p.cls = true)
  priorBody L priorOf p n shape
  .ok s

/-- `test_generalized_conjugate_prior` (test_conjugate_prior.py 48-77). -/
noncomputable def testGeneralPrior (L : Library Cls) (info : TestInfo) (g : Rng) (s : g.State) :
    Except Err g.State := do
  let shape := [3, 4]
  let (p, s) ← info.expParameters L g shape s
  check (hasGeneralizedConjugatePrior p.cls = true)
  let dimensions ← p.cls.dimensions p.vals
  let n := .real (Arr.full (dimensions :: shape) 100)
  priorBody L generalPriorOf p n shape
  .ok s

end Efax.Tests
