import Verif.Spec.Index
import Verif.Model.Methods.Tree

/-!
# Specification: the simple distributions that a joint distribution consists of
-/

namespace Efax.Spec

open ClassTable Calc

section

variable {C : Type} [ClassTable C]

mutual
/-- The simple distributions that a distribution consists of, in order, however deeply nested. -/
def leaves : Dist C → List (Dist C)
  | .mk c vals subs => if isJoint c then leavesOf subs else [.mk c vals subs]
/-- The simple distributions that these parts consist of. -/
def leavesOf : Subs C → List (Dist C)
  | .nil => []
  | .cons _ d r => leaves d ++ leavesOf r
end

mutual
/-- The pairs of corresponding simple distributions of two distributions with the same parts. -/
def leafPairs : Dist C → Dist C → List (Dist C × Dist C)
  | .mk c vals subs, .mk c' vals' subs' =>
    if isJoint c then leafPairsOf subs subs' else [(.mk c vals subs, .mk c' vals' subs')]
/-- `leafPairs` of corresponding parts. -/
def leafPairsOf : Subs C → Subs C → List (Dist C × Dist C)
  | .cons _ d r, .cons _ d' r' => leafPairs d d' ++ leafPairsOf r r'
  | _, _ => []
end

mutual
/-- The simple distributions with their observations: the observation of a part is the item of the
dictionary with the name of the part. -/
def leafObs : Dist C → Tree Val → List (Dist C × Tree Val)
  | .mk c vals subs, t =>
    if isJoint c then
      match t with
      | .node f => leafObsOf subs f
      | .leaf _ => []
    else [(.mk c vals subs, t)]
/-- `leafObs` of the parts. -/
def leafObsOf : Subs C → Forest Val → List (Dist C × Tree Val)
  | .nil, _ => []
  | .cons n d r, f => (match f.get? n with
      | some t => leafObs d t
      | none => []) ++ leafObsOf r f
end

end

/-- Every part is an array of shape `rs`, and the total is their sum, entry by entry. -/
def Sums (rs : List ℕ) (parts : List (Calc ℝ)) (total : Calc ℝ) : Prop :=
  ∃ (as : List (Arr ℝ)) (a : Arr ℝ), parts = as.map ok ∧ (∀ b ∈ as, b.rshape = rs) ∧ total = ok a ∧
    a.rshape = rs ∧ ∀ i, inB rs i = true → a.get i = (as.map fun b => b.get i).sum

end Efax.Spec
