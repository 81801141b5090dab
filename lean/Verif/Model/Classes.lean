import Verif.Model.Dist

/-!
# The table of distribution classes

One entry per concrete class of `efax/_src/distributions/` and `efax/_src/transform/joint.py`:
declared parameters in order (inherited ones included), fixed flags, supports, partner class,
domain support, whether the class is `Multidimensional` and whether it is `Samplable`.
`GeneralizedDirichletEP` etc. inherit nothing that declares further parameters.
-/

namespace Efax

/-- The concrete classes (files relative to `efax/_src/distributions/`). -/
inductive Cls
  /-- `BernoulliNP`, bernoulli.py 23-74 -/
  | bernoulliNP
  /-- `BernoulliEP`, bernoulli.py 77-126 -/
  | bernoulliEP
  /-- `BetaNP`, beta.py 17-54; dirichlet_common.py 22-54 -/
  | betaNP
  /-- `BetaEP`, beta.py 57-77; dirichlet_common.py 60-83 -/
  | betaEP
  /-- `ChiNP`, chi.py 19-62 -/
  | chiNP
  /-- `ChiEP`, chi.py 65-103 -/
  | chiEP
  /-- `ChiSquareNP`, chi_square.py 21-70 -/
  | chiSquareNP
  /-- `ChiSquareEP`, chi_square.py 74-112 -/
  | chiSquareEP
  /-- `ComplexCircularlySymmetricNormalNP`, cmvn/circularly_symmetric.py 21-79 -/
  | ccsnNP
  /-- `ComplexCircularlySymmetricNormalEP`, cmvn/circularly_symmetric.py 82-148 -/
  | ccsnEP
  /-- `ComplexMultivariateUnitNormalNP`, cmvn/unit.py 20-76 -/
  | cmvUnitNormalNP
  /-- `ComplexMultivariateUnitNormalEP`, cmvn/unit.py 79-136 -/
  | cmvUnitNormalEP
  /-- `ComplexNormalNP`, complex_normal/complex_normal.py 21-100 -/
  | complexNormalNP
  /-- `ComplexNormalEP`, complex_normal/complex_normal.py 103-180 -/
  | complexNormalEP
  /-- `ComplexUnitNormalNP`, complex_normal/unit.py 18-68 -/
  | complexUnitNormalNP
  /-- `ComplexUnitNormalEP`, complex_normal/unit.py 71-116 -/
  | complexUnitNormalEP
  /-- `DirichletNP`, dirichlet.py 16-42; dirichlet_common.py 22-54 -/
  | dirichletNP
  /-- `DirichletEP`, dirichlet.py 45-61; dirichlet_common.py 60-83 -/
  | dirichletEP
  /-- `ExponentialNP`, exponential.py 20-65 -/
  | exponentialNP
  /-- `ExponentialEP`, exponential.py 68-117 -/
  | exponentialEP
  /-- `GammaNP`, gamma.py 23-80 -/
  | gammaNP
  /-- `GammaEP`, gamma.py 83-142 -/
  | gammaEP
  /-- `GammaVP`, gamma.py 145-178 -/
  | gammaVP
  /-- `GeneralizedDirichletNP`, gen_dirichlet.py 27-90 -/
  | genDirichletNP
  /-- `GeneralizedDirichletEP`, gen_dirichlet.py 93-134 -/
  | genDirichletEP
  /-- `GeometricNP`, geometric.py 20-52 -/
  | geometricNP
  /-- `GeometricEP`, geometric.py 55-93 -/
  | geometricEP
  /-- `LogarithmicNP`, logarithmic.py 21-62 -/
  | logarithmicNP
  /-- `LogarithmicEP`, logarithmic.py 65-100 -/
  | logarithmicEP
  /-- `MultinomialNP`, multinomial.py 25-91 -/
  | multinomialNP
  /-- `MultinomialEP`, multinomial.py 94-158 -/
  | multinomialEP
  /-- `MultivariateNormalNP`, multivariate_normal/arbitrary.py 20-72 -/
  | mvNormalNP
  /-- `MultivariateNormalEP`, multivariate_normal/arbitrary.py 75-120 -/
  | mvNormalEP
  /-- `MultivariateNormalVP`, multivariate_normal/arbitrary.py 123-158 -/
  | mvNormalVP
  /-- `MultivariateDiagonalNormalNP`, multivariate_normal/diagonal.py 20-74 -/
  | diagonalNormalNP
  /-- `MultivariateDiagonalNormalEP`, multivariate_normal/diagonal.py 77-126 -/
  | diagonalNormalEP
  /-- `MultivariateDiagonalNormalVP`, multivariate_normal/diagonal.py 129-174 -/
  | diagonalNormalVP
  /-- `MultivariateFixedVarianceNormalNP`, multivariate_normal/fixed_variance.py 23-79 -/
  | fixedVarianceNormalNP
  /-- `MultivariateFixedVarianceNormalEP`, multivariate_normal/fixed_variance.py 82-155 -/
  | fixedVarianceNormalEP
  /-- `IsotropicNormalNP`, multivariate_normal/isotropic.py 20-75 -/
  | isotropicNormalNP
  /-- `IsotropicNormalEP`, multivariate_normal/isotropic.py 78-133 -/
  | isotropicNormalEP
  /-- `MultivariateUnitNormalNP`, multivariate_normal/unit.py 23-77 -/
  | mvUnitNormalNP
  /-- `MultivariateUnitNormalEP`, multivariate_normal/unit.py 80-141 -/
  | mvUnitNormalEP
  /-- `NegativeBinomialNP`, negative_binomial.py 21-53 -/
  | negativeBinomialNP
  /-- `NegativeBinomialEP`, negative_binomial.py 56-94 -/
  | negativeBinomialEP
  /-- `NormalNP`, normal/normal.py 20-71 -/
  | normalNP
  /-- `NormalEP`, normal/normal.py 74-124 -/
  | normalEP
  /-- `NormalVP`, normal/normal.py 127-171 -/
  | normalVP
  /-- `UnitNormalNP`, normal/unit.py 21-70 -/
  | unitNormalNP
  /-- `UnitNormalEP`, normal/unit.py 73-122 -/
  | unitNormalEP
  /-- `PoissonNP`, poisson.py 21-62 -/
  | poissonNP
  /-- `PoissonEP`, poisson.py 65-113 -/
  | poissonEP
  /-- `RayleighNP`, rayleigh.py 19-70 -/
  | rayleighNP
  /-- `RayleighEP`, rayleigh.py 73-116 -/
  | rayleighEP
  /-- `VonMisesFisherNP`, von_mises.py 21-85 -/
  | vonMisesFisherNP
  /-- `VonMisesFisherEP`, von_mises.py 88-143 -/
  | vonMisesFisherEP
  /-- `WeibullNP`, weibull.py 19-67 -/
  | weibullNP
  /-- `WeibullEP`, weibull.py 70-117 -/
  | weibullEP
  /-- `JointDistributionE`, transform/joint.py 70-96 -/
  | jointE
  /-- `JointDistributionN`, transform/joint.py 99-130 -/
  | jointN
  deriving DecidableEq, Repr

namespace Cls

/-- The `distribution_parameter` fields of every class, in declaration order (lines as on the
constructors of `Cls`). -/
noncomputable def fields [MachEps] : Cls → List Field
  | bernoulliNP => [⟨"log_odds", .scalar Ring.realField, false⟩]
  | bernoulliEP => [⟨"probability", .scalar (Ring.mkReal (some 0) (some 1)), false⟩]
  | betaNP => [⟨"alpha_minus_one", .vector (Ring.mkReal (some (-1)) none 3), false⟩]
  | betaEP => [⟨"mean_log_probability", .vector Ring.negativeSupport, false⟩]
  | chiNP => [⟨"k_over_two_minus_one", .scalar (Ring.mkReal (some (-1)) none), false⟩]
  | chiEP => [⟨"mean_log", .scalar Ring.realField, false⟩]
  | chiSquareNP => [⟨"k_over_two_minus_one", .scalar (Ring.mkReal (some (-1)) none), false⟩]
  | chiSquareEP => [⟨"mean_log", .scalar Ring.realField, false⟩]
  | ccsnNP => [⟨"negative_precision", .symmetric Ring.complexField false true true, false⟩]
  | ccsnEP => [⟨"variance", .symmetric Ring.complexField true false true, false⟩]
  | cmvUnitNormalNP => [⟨"two_mean_conjugate", .vector Ring.complexField, false⟩]
  | cmvUnitNormalEP => [⟨"mean", .vector Ring.complexField, false⟩]
  | complexNormalNP =>
    [ ⟨"mean_times_precision", .scalar Ring.complexField, false⟩,
      ⟨"negative_precision", .scalar (Ring.mkReal none (some 0)), false⟩,
      ⟨"pseudo_precision", .scalar Ring.complexField, false⟩ ]
  | complexNormalEP =>
    [ ⟨"mean", .scalar Ring.complexField, false⟩,
      ⟨"second_moment", .scalar (Ring.mkReal (some (0)) none), false⟩,
      ⟨"pseudo_second_moment", .scalar Ring.complexField, false⟩ ]
  | complexUnitNormalNP => [⟨"two_mean_conjugate", .scalar Ring.complexField, false⟩]
  | complexUnitNormalEP => [⟨"mean", .scalar Ring.complexField, false⟩]
  | dirichletNP => [⟨"alpha_minus_one", .vector (Ring.mkReal (some (-1)) none 3), false⟩]
  | dirichletEP => [⟨"mean_log_probability", .vector Ring.negativeSupport, false⟩]
  | exponentialNP => [⟨"negative_rate", .scalar Ring.negativeSupport, false⟩]
  | exponentialEP => [⟨"mean", .scalar Ring.positiveSupport, false⟩]
  | gammaNP =>
    [ ⟨"negative_rate", .scalar Ring.negativeSupport, false⟩,
      ⟨"shape_minus_one", .scalar (Ring.mkReal (some (-1)) none), false⟩ ]
  | gammaEP =>
    [ ⟨"mean", .scalar Ring.positiveSupport, false⟩,
      ⟨"mean_log", .scalar Ring.realField, false⟩ ]
  | gammaVP =>
    [ ⟨"mean", .scalar Ring.positiveSupport, false⟩,
      ⟨"variance", .scalar Ring.positiveSupport, false⟩ ]
  | genDirichletNP =>
    [ ⟨"alpha_minus_one", .vector (Ring.mkReal (some (-1)) none 3), false⟩,
      ⟨"gamma", .vector (Ring.mkReal (some (0)) none 3), false⟩ ]
  | genDirichletEP =>
    [ ⟨"mean_log_probability", .vector Ring.negativeSupport, false⟩,
      ⟨"mean_log_cumulative_probability", .vector Ring.negativeSupport, false⟩ ]
  | geometricNP => [⟨"log_not_p", .scalar Ring.negativeSupport, false⟩]
  | geometricEP => [⟨"mean", .scalar Ring.positiveSupport, false⟩]
  | logarithmicNP => [⟨"log_probability", .scalar Ring.negativeSupport, false⟩]
  | logarithmicEP => [⟨"chi", .scalar (Ring.mkReal (some (1)) none), false⟩]
  | multinomialNP => [⟨"log_odds", .vector Ring.realField, false⟩]
  | multinomialEP => [⟨"probability", .vector (Ring.mkReal (some 0) (some 1)), false⟩]
  | mvNormalNP =>
    [ ⟨"mean_times_precision", .vector Ring.realField, false⟩,
      ⟨"negative_half_precision", .symmetric Ring.realField false true false, false⟩ ]
  | mvNormalEP =>
    [ ⟨"mean", .vector Ring.realField, false⟩,
      ⟨"second_moment", .symmetric Ring.realField true false false, false⟩ ]
  | mvNormalVP =>
    [ ⟨"mean", .vector Ring.realField, false⟩,
      ⟨"variance", .symmetric Ring.realField false false false, false⟩ ]
  | diagonalNormalNP =>
    [ ⟨"mean_times_precision", .vector Ring.realField, false⟩,
      ⟨"negative_half_precision", .vector Ring.negativeSupport, false⟩ ]
  | diagonalNormalEP =>
    [ ⟨"mean", .vector Ring.realField, false⟩,
      ⟨"second_moment", .vector Ring.positiveSupport, false⟩ ]
  | diagonalNormalVP =>
    [ ⟨"mean", .vector Ring.realField, false⟩,
      ⟨"variance", .vector Ring.realField, false⟩ ]
  | fixedVarianceNormalNP =>
    [ ⟨"mean_times_precision", .vector Ring.realField, false⟩,
      ⟨"variance", .scalar (Ring.mkReal (some (0)) none), true⟩ ]
  | fixedVarianceNormalEP =>
    [ ⟨"mean", .vector Ring.realField, false⟩,
      ⟨"variance", .scalar (Ring.mkReal (some (0)) none), true⟩ ]
  | isotropicNormalNP =>
    [ ⟨"mean_times_precision", .vector Ring.realField, false⟩,
      ⟨"negative_half_precision", .scalar Ring.negativeSupport, false⟩ ]
  | isotropicNormalEP =>
    [ ⟨"mean", .vector Ring.realField, false⟩,
      ⟨"total_second_moment", .scalar Ring.positiveSupport, false⟩ ]
  | mvUnitNormalNP => [⟨"mean", .vector Ring.realField, false⟩]
  | mvUnitNormalEP => [⟨"mean", .vector Ring.realField, false⟩]
  | negativeBinomialNP =>
    [ ⟨"log_not_p", .scalar Ring.negativeSupport, false⟩,
      ⟨"failures", .scalar (.integral (some 1) none), true⟩ ]
  | negativeBinomialEP =>
    [ ⟨"mean", .scalar Ring.positiveSupport, false⟩,
      ⟨"failures", .scalar (.integral (some 1) none), true⟩ ]
  | normalNP =>
    [ ⟨"mean_times_precision", .scalar Ring.realField, false⟩,
      ⟨"negative_half_precision", .scalar Ring.negativeSupport, false⟩ ]
  | normalEP =>
    [ ⟨"mean", .scalar Ring.realField, false⟩,
      ⟨"second_moment", .scalar Ring.positiveSupport, false⟩ ]
  | normalVP =>
    [ ⟨"mean", .scalar Ring.realField, false⟩,
      ⟨"variance", .scalar Ring.positiveSupport, false⟩ ]
  | unitNormalNP => [⟨"mean", .scalar Ring.realField, false⟩]
  | unitNormalEP => [⟨"mean", .scalar Ring.realField, false⟩]
  | poissonNP => [⟨"log_mean", .scalar Ring.realField, false⟩]
  | poissonEP => [⟨"mean", .scalar Ring.positiveSupport, false⟩]
  | rayleighNP => [⟨"eta", .scalar Ring.negativeSupport, false⟩]
  | rayleighEP => [⟨"chi", .scalar Ring.positiveSupport, false⟩]
  | vonMisesFisherNP => [⟨"mean_times_concentration", .vector Ring.realField, false⟩]
  | vonMisesFisherEP => [⟨"mean", .circular 1, false⟩]
  | weibullNP =>
    [ ⟨"concentration", .scalar Ring.positiveSupport, true⟩,
      ⟨"eta", .scalar Ring.negativeSupport, false⟩ ]
  | weibullEP =>
    [ ⟨"concentration", .scalar Ring.positiveSupport, true⟩,
      ⟨"chi", .scalar Ring.positiveSupport, false⟩ ]
  | jointE | jointN => []

/-- Subclass of `JointDistribution` (transform/joint.py 71, 100). -/
def isJoint : Cls → Bool
  | jointE | jointN => true
  | _ => false

/-- Subclass of `Multidimensional` (interfaces/multidimensional.py 8; base lists of the classes). -/
def isMultidimensional : Cls → Bool
  | betaNP | betaEP | ccsnNP | ccsnEP | cmvUnitNormalNP | cmvUnitNormalEP | dirichletNP |
    dirichletEP | genDirichletNP | genDirichletEP | multinomialNP | multinomialEP | mvNormalNP |
    mvNormalEP | mvNormalVP | diagonalNormalNP | diagonalNormalEP | diagonalNormalVP |
    fixedVarianceNormalNP | fixedVarianceNormalEP | isotropicNormalNP | isotropicNormalEP |
    mvUnitNormalNP | mvUnitNormalEP | vonMisesFisherNP | vonMisesFisherEP => true
  | _ => false

/-- Subclass of `Samplable` (interfaces/samplable.py 10; base lists of the classes). -/
def isSamplable : Cls → Bool
  | chiNP | chiEP | genDirichletNP | genDirichletEP | logarithmicNP | logarithmicEP | mvNormalNP
    | vonMisesFisherNP | vonMisesFisherEP | jointE | jointN => false
  | _ => true

/-- `expectation_parametrization_cls()` (natural_parametrization.py 85-87: the return annotation of
`to_exp`; chi.py 38, rayleigh.py 38). -/
def expCls : Cls → Option Cls
  | bernoulliNP => some bernoulliEP
  | betaNP => some betaEP
  | chiNP => some chiEP
  | chiSquareNP => some chiSquareEP
  | ccsnNP => some ccsnEP
  | cmvUnitNormalNP => some cmvUnitNormalEP
  | complexNormalNP => some complexNormalEP
  | complexUnitNormalNP => some complexUnitNormalEP
  | dirichletNP => some dirichletEP
  | exponentialNP => some exponentialEP
  | gammaNP => some gammaEP
  | genDirichletNP => some genDirichletEP
  | geometricNP => some geometricEP
  | logarithmicNP => some logarithmicEP
  | multinomialNP => some multinomialEP
  | mvNormalNP => some mvNormalEP
  | diagonalNormalNP => some diagonalNormalEP
  | fixedVarianceNormalNP => some fixedVarianceNormalEP
  | isotropicNormalNP => some isotropicNormalEP
  | mvUnitNormalNP => some mvUnitNormalEP
  | negativeBinomialNP => some negativeBinomialEP
  | normalNP => some normalEP
  | unitNormalNP => some unitNormalEP
  | poissonNP => some poissonEP
  | rayleighNP => some rayleighEP
  | vonMisesFisherNP => some vonMisesFisherEP
  | weibullNP => some weibullEP
  | jointN => some jointE
  | _ => none

/-- `natural_parametrization_cls()` (in each expectation class; transform/joint.py 80-83). -/
def natCls : Cls → Option Cls
  | bernoulliEP => some bernoulliNP
  | betaEP => some betaNP
  | chiEP => some chiNP
  | chiSquareEP => some chiSquareNP
  | ccsnEP => some ccsnNP
  | cmvUnitNormalEP => some cmvUnitNormalNP
  | complexNormalEP => some complexNormalNP
  | complexUnitNormalEP => some complexUnitNormalNP
  | dirichletEP => some dirichletNP
  | exponentialEP => some exponentialNP
  | gammaEP => some gammaNP
  | genDirichletEP => some genDirichletNP
  | geometricEP => some geometricNP
  | logarithmicEP => some logarithmicNP
  | multinomialEP => some multinomialNP
  | mvNormalEP => some mvNormalNP
  | diagonalNormalEP => some diagonalNormalNP
  | fixedVarianceNormalEP => some fixedVarianceNormalNP
  | isotropicNormalEP => some isotropicNormalNP
  | mvUnitNormalEP => some mvUnitNormalNP
  | negativeBinomialEP => some negativeBinomialNP
  | normalEP => some normalNP
  | unitNormalEP => some unitNormalNP
  | poissonEP => some poissonNP
  | rayleighEP => some rayleighNP
  | vonMisesFisherEP => some vonMisesFisherNP
  | weibullEP => some weibullNP
  | jointE => some jointN
  | _ => none

/-- `domain_support()` (in each class; joint classes have none). -/
noncomputable def domainSupport [MachEps] : Cls → Option Support
  | bernoulliNP => some (.scalar .boolean)
  | bernoulliEP => some (.scalar .boolean)
  | betaNP => some (.scalar (Ring.mkReal (some 0) (some 1)))
  | betaEP => some (.scalar (Ring.mkReal (some 0) (some 1)))
  | chiNP => some (.scalar (Ring.mkReal (some (0)) none))
  | chiEP => some (.scalar (Ring.mkReal (some (0)) none))
  | chiSquareNP => some (.scalar Ring.realField)
  | chiSquareEP => some (.scalar Ring.realField)
  | ccsnNP => some (.vector Ring.complexField)
  | ccsnEP => some (.vector Ring.complexField)
  | cmvUnitNormalNP => some (.vector Ring.complexField)
  | cmvUnitNormalEP => some (.vector Ring.complexField)
  | complexNormalNP => some (.scalar Ring.complexField)
  | complexNormalEP => some (.scalar Ring.complexField)
  | complexUnitNormalNP => some (.scalar Ring.complexField)
  | complexUnitNormalEP => some (.scalar Ring.complexField)
  | dirichletNP => some (.simplex Ring.realField)
  | dirichletEP => some (.simplex Ring.realField)
  | exponentialNP => some (.scalar Ring.realField)
  | exponentialEP => some (.scalar Ring.realField)
  | gammaNP => some (.scalar Ring.realField)
  | gammaEP => some (.scalar Ring.realField)
  | gammaVP => some (.scalar Ring.realField)
  | genDirichletNP => some (.vector Ring.realField)
  | genDirichletEP => some (.vector Ring.realField)
  | geometricNP => some (.scalar Ring.integralRing)
  | geometricEP => some (.scalar Ring.integralRing)
  | logarithmicNP => some (.scalar (.integral (some 1) none))
  | logarithmicEP => some (.scalar (.integral (some 1) none))
  | multinomialNP => some (.vector Ring.realField)
  | multinomialEP => some (.vector Ring.realField)
  | mvNormalNP => some (.vector Ring.realField)
  | mvNormalEP => some (.vector Ring.realField)
  | mvNormalVP => some (.vector Ring.realField)
  | diagonalNormalNP => some (.vector Ring.realField)
  | diagonalNormalEP => some (.vector Ring.realField)
  | diagonalNormalVP => some (.vector Ring.realField)
  | fixedVarianceNormalNP => some (.vector Ring.realField)
  | fixedVarianceNormalEP => some (.vector Ring.realField)
  | isotropicNormalNP => some (.vector Ring.realField)
  | isotropicNormalEP => some (.vector Ring.realField)
  | mvUnitNormalNP => some (.vector Ring.realField)
  | mvUnitNormalEP => some (.vector Ring.realField)
  | negativeBinomialNP => some (.scalar Ring.integralRing)
  | negativeBinomialEP => some (.scalar Ring.integralRing)
  | normalNP => some (.scalar Ring.realField)
  | normalEP => some (.scalar Ring.realField)
  | normalVP => some (.scalar Ring.realField)
  | unitNormalNP => some (.scalar Ring.realField)
  | unitNormalEP => some (.scalar Ring.realField)
  | poissonNP => some (.scalar Ring.integralRing)
  | poissonEP => some (.scalar Ring.integralRing)
  | rayleighNP => some (.scalar Ring.realField)
  | rayleighEP => some (.scalar Ring.realField)
  | vonMisesFisherNP => some (.vector Ring.realField)
  | vonMisesFisherEP => some (.vector Ring.realField)
  | weibullNP => some (.scalar Ring.realField)
  | weibullEP => some (.scalar Ring.realField)
  | jointE | jointN => none

/-- `dimensions()` of the multidimensional classes is the last axis of the first declared parameter
(e.g. multinomial.py 78-79, cmvn/circularly_symmetric.py 78-79, multivariate_normal/isotropic.py
70-71); for other classes `Structure._make_info` uses 1 (structure.py 133). -/
def dimensions (c : Cls) (vals : List Val) : Except Err ℕ :=
  if c.isMultidimensional then
    match vals with
    | v :: _ => v.lastDim
    | [] => .error .typeError
  else .ok 1

/-- `adjust_support(name, **kwargs)`: the declared support (parametrization.py 36-39), except for
`ComplexNormalNP` (complex_normal/complex_normal.py 91-96), where the modulus of `pseudo_precision`
is bounded by the precision.  The override in `ComplexNormalEP` (154-159) tests for a parameter name
that this class does not have, so it never takes effect on the class's own parameters; asked for
that name it raises `KeyError` as well, since `negative_precision` is not among the arguments. -/
noncomputable def adjust [MachEps] (c : Cls) (name : String) (kwargs : Dict String Val) :
    Except Err Support :=
  if c = complexNormalNP ∧ name = "pseudo_precision" then
    match kwargs.get? "negative_precision" with
    | none => .error .keyError
    | some (.real a) => .ok (.scalar (.complex (Arr.full [] 0) (some (a.map fun x => |-x|))))
    | some _ => .error .typeError
  else
    Dict.get (Dict.ofList ((fields c).map fun f => (f.name, f.support))) name

end Cls

noncomputable instance [MachEps] : ClassTable Cls where
  fields := Cls.fields
  isJoint := Cls.isJoint
  adjust := Cls.adjust
  dimensions := Cls.dimensions
  domainSupport := Cls.domainSupport
  expCls := Cls.expCls
  natCls := Cls.natCls
  names_nodup := fun c => by cases c <;> simp [Cls.fields]
  joint_fields := fun c h => by cases c <;> simp_all [Cls.fields, Cls.isJoint]
  has_variable := fun c h => by cases c <;> simp_all [Cls.fields, Cls.isJoint]

end Efax
