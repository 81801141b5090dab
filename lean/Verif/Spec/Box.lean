import Verif.Model.Arr
import Mathlib.Data.Finset.Prod

/-!
# All the indices of an array
-/

namespace Efax.Spec

/-- The indices (last axis first) of an array of the given shape (last axis first). -/
def box : List ℕ → Finset (List ℕ)
  | [] => {[]}
  | n :: rs => (Finset.range n ×ˢ box rs).image fun p => p.1 :: p.2

/-- The first `k` axes, as in `tuple(range(k))`. -/
def firstAxes (k : ℕ) : List ℤ := (List.range k).map fun a : ℕ => (a : ℤ)

end Efax.Spec
