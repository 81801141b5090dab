import Verif.Spec.Objects

/-!
# Specification: the natural parameters that the searches reach
-/

namespace Efax.Spec

/-- Natural parameters inside the (stored, slightly narrowed) bounds of the supports of the classes whose
expectation parametrization searches.  For the generalized Dirichlet distribution, `gamma` is positive, although
the distribution exists for some negative values. -/
def ReachableVals [MachEps] : Cls → List Val → Prop
  | .chiSquareNP, [.real a] | .chiNP, [.real a] | .betaNP, [.real a] | .dirichletNP, [.real a] =>
      ∀ i, inB a.rshape i = true → Ring.openMin (-1) < a.get i
  | .logarithmicNP, [.real a] => ∀ i, inB a.rshape i = true → a.get i < Ring.openMax 0
  | .genDirichletNP, [_, .real b] => ∀ i, inB b.rshape i = true → 0 < b.get i
  | _, _ => True

end Efax.Spec
