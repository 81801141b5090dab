import Verif.Model.Methods.Scalar
import Verif.Model.Methods.Positive
import Verif.Model.Methods.Normal
import Verif.Model.Methods.Simplex
import Verif.Model.Methods.Complex
import Verif.Model.Methods.Tree
import Verif.Model.Classes

/-! # The methods of every class -/

namespace Efax

namespace Cls

  /-- The methods of the simple natural classes (lines on the definitions in
    `Verif/Model/Methods`). -/
noncomputable def natMethods : Cls → Option NatMethods
  | bernoulliNP => some Methods.bernoulliNP
  | betaNP => some Methods.betaNP
  | chiNP => some Methods.chiNP
  | chiSquareNP => some Methods.chiSquareNP
  | ccsnNP => some Methods.ccsnNP
  | cmvUnitNormalNP => some Methods.cmvUnitNormalNP
  | complexNormalNP => some Methods.complexNormalNP
  | complexUnitNormalNP => some Methods.complexUnitNormalNP
  | dirichletNP => some Methods.dirichletNP
  | exponentialNP => some Methods.exponentialNP
  | gammaNP => some Methods.gammaNP
  | genDirichletNP => some Methods.genDirichletNP
  | geometricNP => some Methods.geometricNP
  | logarithmicNP => some Methods.logarithmicNP
  | multinomialNP => some Methods.multinomialNP
  | mvNormalNP => some Methods.mvNormalNP
  | diagonalNormalNP => some Methods.diagonalNormalNP
  | fixedVarianceNormalNP => some Methods.fixedVarianceNormalNP
  | isotropicNormalNP => some Methods.isotropicNormalNP
  | mvUnitNormalNP => some Methods.mvUnitNormalNP
  | negativeBinomialNP => some Methods.negativeBinomialNP
  | normalNP => some Methods.normalNP
  | unitNormalNP => some Methods.unitNormalNP
  | poissonNP => some Methods.poissonNP
  | rayleighNP => some Methods.rayleighNP
  | vonMisesFisherNP => some Methods.vonMisesFisherNP
  | weibullNP => some Methods.weibullNP
  | _ => none

/-- The methods of the simple expectation classes; `BetaEP` inherits those of `DirichletCommonEP`
(beta.py 58). -/
noncomputable def expMethods : Cls → Option ExpMethods
  | bernoulliEP => some Methods.bernoulliEP
  | betaEP => some Methods.dirichletEP
  | chiEP => some Methods.chiEP
  | chiSquareEP => some Methods.chiSquareEP
  | ccsnEP => some Methods.ccsnEP
  | cmvUnitNormalEP => some Methods.cmvUnitNormalEP
  | complexNormalEP => some Methods.complexNormalEP
  | complexUnitNormalEP => some Methods.complexUnitNormalEP
  | dirichletEP => some Methods.dirichletEP
  | exponentialEP => some Methods.exponentialEP
  | gammaEP => some Methods.gammaEP
  | genDirichletEP => some Methods.genDirichletEP
  | geometricEP => some Methods.geometricEP
  | logarithmicEP => some Methods.logarithmicEP
  | multinomialEP => some Methods.multinomialEP
  | mvNormalEP => some Methods.mvNormalEP
  | diagonalNormalEP => some Methods.diagonalNormalEP
  | fixedVarianceNormalEP => some Methods.fixedVarianceNormalEP
  | isotropicNormalEP => some Methods.isotropicNormalEP
  | mvUnitNormalEP => some Methods.mvUnitNormalEP
  | negativeBinomialEP => some Methods.negativeBinomialEP
  | normalEP => some Methods.normalEP
  | unitNormalEP => some Methods.unitNormalEP
  | poissonEP => some Methods.poissonEP
  | rayleighEP => some Methods.rayleighEP
  | vonMisesFisherEP => some Methods.vonMisesFisherEP
  | weibullEP => some Methods.weibullEP
  | _ => none

  /-- Subclass of `HasEntropyEP` (mixins/has_entropy.py 22; base lists of the classes).  All
    expectation
classes except `PoissonEP`, `NegativeBinomialEP` and `LogarithmicEP` are. -/
def hasEntropyEP : Cls → Bool
  | bernoulliEP | betaEP | chiEP | chiSquareEP | ccsnEP | cmvUnitNormalEP | complexNormalEP |
    complexUnitNormalEP | dirichletEP | exponentialEP | gammaEP | genDirichletEP | geometricEP |
    multinomialEP | mvNormalEP | diagonalNormalEP | fixedVarianceNormalEP | isotropicNormalEP |
    mvUnitNormalEP | normalEP | unitNormalEP | rayleighEP | vonMisesFisherEP | weibullEP
    | jointE => true
  | _ => false

end Cls

/-- The library: all methods, for a given conversion by search (`ExpToNat.to_nat`). -/
noncomputable def library (search : Cls → List Val → Except Err (List Val)) : Library Cls where
  nat := Cls.natMethods
  exp := Cls.expMethods
  hasEntropy := Cls.hasEntropyEP
  search := search

end Efax
