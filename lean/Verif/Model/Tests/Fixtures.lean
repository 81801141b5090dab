import Verif.Model.Tests.Infos
import Verif.Model.Methods.Table
import Verif.Model.Structure

/-!
# The distributions that the test-suite is run with

`create_infos` in `tests/create_info.py` and the fixtures in `tests/conftest.py`.
-/

namespace Efax.Tests



/-- `create_infos()` (create_info.py 527-559).  `BetaInfo` and `VonMisesInfo` set their own dimension 2. -/
def createInfos : List TestInfo := [
  .simple .bernoulli 1,
  .simple .beta 2,
  .simple .chi 1,
  .simple .chiSquare 1,
  .simple .cmvCircular 3,
  .simple .cmvUnit 4,
  .simple .complexNormal 1,
  .simple .complexUnit 1,
  .simple .dirichlet 5,
  .simple .exponential 1,
  .simple .gamma 1,
  .simple .genDirichlet 5,
  .simple .geometric 1,
  .simple .isotropic 5,
  .simple .logarithmic 1,
  .simple .mvDiagonal 4,
  .simple .mvFixed 2,
  .simple .mvNormal 4,
  .simple .mvUnit 5,
  .simple .negativeBinomial 1,
  .joint (.cons "gamma" (.simple .gamma 1) (.cons "normal" (.simple .normal 1) .nil)),
  .simple .normal 1,
  .simple .poisson 1,
  .simple .rayleigh 1,
  .simple .unitNormal 1,
  .simple .vonMises 2,
  .simple .vonMisesFisher 5,
  .simple .weibull 1]

/-- `supports(s, abc)` (conftest.py 66-68): `sub` says which classes are subclasses of `abc`. -/
def supports (s : List (Info Cls)) (sub : Cls → Bool) : Bool := s.all fun i => sub i.cls || i.cls.isJoint

/-- Subclass of `HasEntropyNP` (mixins/has_entropy.py 62; base lists of the classes). -/
def hasEntropyNP : Cls → Bool
  | .bernoulliNP | .betaNP | .chiNP | .chiSquareNP | .ccsnNP | .cmvUnitNormalNP | .complexNormalNP |
    .complexUnitNormalNP | .dirichletNP | .exponentialNP | .gammaNP | .genDirichletNP | .geometricNP |
    .multinomialNP | .mvNormalNP | .diagonalNormalNP | .fixedVarianceNormalNP | .isotropicNormalNP |
    .mvUnitNormalNP | .normalNP | .unitNormalNP | .rayleighNP | .vonMisesFisherNP | .weibullNP | .jointN => true
  | _ => false

/-- The condition for `entropy_distribution_info` (conftest.py 121-123). -/
def entropySelected (info : TestInfo) : Bool :=
  (supports info.expStructure Cls.hasEntropyEP || supports info.natStructure hasEntropyNP) &&
    match info with
    | .simple .genDirichlet _ => false
    | _ => true

/-- The condition for `sampling_distribution_info` (conftest.py 86-90). -/
def samplingSelected (info : TestInfo) (natural : Bool) : Bool :=
  supports (if natural then info.natStructure else info.expStructure) Cls.isSamplable

/-- `any_integral_supports(structure)` (conftest.py 71-73). -/
noncomputable def anyIntegralSupports [MachEps] (s : List (Info Cls)) : Bool :=
  (domainSupports s).values.any fun t => match t.ring with
    | .boolean | .integral _ _ => true
    | _ => false

/-- The condition for `sampling_wc_distribution_info` (conftest.py 94-104). -/
noncomputable def samplingWcSelected [MachEps] (info : TestInfo) (natural : Bool) : Bool :=
  let infos := if natural then info.natStructure else info.expStructure
  supports infos Cls.isSamplable && !anyIntegralSupports infos &&
    match info with
    | .simple .cmvCircular _ | .simple .beta _ | .simple .dirichlet _ | .simple .chiSquare _
    | .simple .gamma _ | .joint _ => false
    | _ => true

/-- Subclass of `HasGeneralizedConjugatePrior` (multinomial.py 97; multivariate_normal/unit.py 83;
multivariate_normal/fixed_variance.py 85). -/
def hasGeneralizedConjugatePrior : Cls → Bool
  | .multinomialEP | .mvUnitNormalEP | .fixedVarianceNormalEP => true
  | _ => false

/-- Subclass of `HasConjugatePrior` (bernoulli.py 79; exponential.py 70; poisson.py 66; normal/unit.py 75;
conjugate_prior.py 30). -/
def hasConjugatePrior : Cls → Bool
  | .bernoulliEP | .exponentialEP | .poissonEP | .unitNormalEP => true
  | c => hasGeneralizedConjugatePrior c

/-- The condition for `cp_distribution_info` (conftest.py 108-111). -/
def cpSelected (info : TestInfo) : Bool := supports info.expStructure hasConjugatePrior

/-- The condition for `gcp_distribution_info` (conftest.py 113-116). -/
def gcpSelected (info : TestInfo) : Bool := supports info.expStructure hasGeneralizedConjugatePrior

end Efax.Tests
