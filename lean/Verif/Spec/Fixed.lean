import Verif.Spec.Tree
import Verif.Model.Tools

/-!
# Specification: fixed parameters
-/

namespace Efax.Spec

open ClassTable

variable {C : Type} [ClassTable C]

/-- The distribution `p` has at the path `k` a fixed parameter, whose value is `v`. -/
def FixedAt (p : Dist C) (k : Path) (v : Val) : Prop := ∃ f, ParamAt p k f v ∧ f.fixed = true

/-- The fixed parameters of `p` and `q` are at the same paths, and corresponding values are related. -/
def FixedRel {D : Type} [ClassTable D] (R : Val → Val → Prop) (p : Dist C) (q : Dist D) : Prop :=
  (∀ k v, FixedAt p k v → ∃ v', FixedAt q k v' ∧ R v v') ∧
    ∀ k v', FixedAt q k v' → ∃ v, FixedAt p k v ∧ R v v'

/-- The same fixed parameters: same paths, same arrays. -/
def SameFixed (p q : Dist C) : Prop := ∀ k v, FixedAt p k v ↔ FixedAt q k v

/-- Every number in `v'` is the number in `v` at the same place; an axis of `v` with one element, and
an axis that `v` does not have, mean that the number is the same along that axis. -/
def Repeats (v v' : Val) : Prop :=
  ∀ i, inB v'.rshape i = true → ∃ j, inB v.rshape j = true ∧
    (∀ a : ℕ, v.rshape[a]? = some 1 ∨ v.rshape[a]? = none ∨ j[a]? = i[a]?) ∧
    v'.toC.get i = v.toC.get j

end Efax.Spec
