import Verif.Spec.Tree
import Verif.Model.Mapping
import Verif.Model.Estimator

/-!
# Specification: the statistics of a nested observation
-/

namespace Efax.Spec

open ClassTable

variable {C : Type} [ClassTable C]

/-- The names and values of the fixed parameters of a node. -/
def fixedArgs (c : C) (vals : List Val) : List (String × Val) :=
  (((fields c).zip vals).filter fun fv => fv.1.fixed).map fun fv => (fv.1.name, fv.2)

mutual
/-- `StatTree e stat p x q`: `q` are the statistics of the observation `x` for the distribution `p`;
`e` assigns to each class in `p` its expectation class.  For a simple distribution the observation is
an array, and `q` is the result of the natural class's statistics with the fixed parameters of `p`;
for a joint distribution the observation is a dictionary, and `q` is the joint distribution of the
statistics of the parts. -/
def StatTree (e : C → Option C) (stat : StatFn C) : Dist C → Tree Val → Dist C → Prop
  | .mk c vals _, .leaf x, q => isJoint c = false ∧ ∃ ec nc, e c = some ec ∧ natCls ec = some nc ∧
      stat nc x (fixedArgs c vals) = .ok q ∧ (natCls q.cls).isSome
  | .mk c _ subs, .node f, q => isJoint c = true ∧ ∃ ec s, e c = some ec ∧ (natCls ec).isSome ∧
      StatSubs e stat subs f s ∧ q = .mk ec [] s
/-- The statistics of the parts: each part has an observation under its name. -/
def StatSubs (e : C → Option C) (stat : StatFn C) : Subs C → Forest Val → Subs C → Prop
  | .nil, _, s => s = .nil
  | .cons n d r, f, s => ∃ t q s', (n, t) ∈ f.toList ∧ StatTree e stat d t q ∧
      StatSubs e stat r f s' ∧ s = .cons n q s'
end

/-- The estimator's class `ec` for a class `c` of the distribution: both or none are joint, and the
natural class of `ec` has the fixed parameters of `c`. -/
def EstimatorClasses (e : C → Option C) : Prop :=
  ∀ c ec, e c = some ec → isJoint ec = isJoint c ∧ ∀ nc, natCls ec = some nc →
    ((fields nc).filter Field.fixed).map Field.name = ((fields c).filter Field.fixed).map Field.name

end Efax.Spec
