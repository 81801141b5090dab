import Mathlib.Data.List.Basic

/-!
# NumPy's broadcasting rule

Stated on its own, without the model's arrays.  Shapes and indices are written last axis first, so the
axes of two shapes are aligned at the head, and a missing axis counts as one of length 1.
-/

namespace Efax.Spec

/-- The length of the axis `k`, counted from the last one. -/
def axisLength (s : List ℕ) (k : ℕ) : ℕ := s.getD k 1

/-- `s` and `t` broadcast to `r`: along every axis the lengths agree, or one of them is 1 and the other
one is taken. -/
structure Broadcast (s t r : List ℕ) : Prop where
  length : r.length = max s.length t.length
  axis : ∀ k, axisLength s k = axisLength t k ∧ axisLength r k = axisLength s k ∨
    axisLength s k = 1 ∧ axisLength r k = axisLength t k ∨
    axisLength t k = 1 ∧ axisLength r k = axisLength s k

/-- The entry of an array of shape `s` that stands at the index `i` of the broadcast result: the
additional axes are dropped, and the index along an axis of length 1 is 0. -/
def along (s i : List ℕ) : List ℕ :=
  (List.range s.length).map fun k => if axisLength s k = 1 then 0 else i.getD k 0

end Efax.Spec
