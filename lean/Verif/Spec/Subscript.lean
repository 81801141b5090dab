import Verif.Model.Subscript
import Verif.Spec.Index

/-!
# Specification: subscripts of batches

Which keys address the axes of a batch, and which indices a slice selects.
-/

namespace Efax.Spec

open Calc

/-- Keys that count the axes from the first one: an ellipsis can only come last, and nothing can be
mixed with arrays and masks. -/
def LeadingKey : List Key → Prop
  | [] => True
  | .ellipsis :: ks => ks = []
  | _ :: ks => LeadingKey ks

/-- `LeadingKey` for all subscripts. -/
def Leading : Subscript → Prop
  | .basic key => LeadingKey key
  | .array _ => True
  | .mask _ => True

/-- A number that counts from the end of an axis of length `n` if it is negative. -/
def fromEnd (n : ℕ) (k : ℤ) : ℤ := if k < 0 then k + n else k

/-- The indices `j` that the slice `start:stop:step` selects from an axis of length `n`: with a positive
step, every `step`-th index from `start` (or the first index) up to but excluding `stop`, and the same
downwards with a negative one. -/
def Selected (start stop : Option ℤ) (step : ℤ) (n : ℕ) (j : ℤ) : Prop :=
  (0 ≤ j ∧ j < n) ∧
  (0 < step → ∃ lo, lo = max ((start.map (fromEnd n)).getD 0) 0 ∧ lo ≤ j ∧ step ∣ j - lo ∧
    ∀ b ∈ stop, j < fromEnd n b) ∧
  (step < 0 → ∃ hi, hi = min ((start.map (fromEnd n)).getD (n - 1)) (n - 1) ∧ j ≤ hi ∧ step ∣ hi - j ∧
    ∀ b ∈ stop, fromEnd n b < j)

/-- The subscript of the result of a calculation. -/
def atKey (key : Subscript) : Calc ℝ → Calc ℝ
  | .ok a => a.at key
  | .error e => .error e

mutual
/-- The same subscript for all arrays of a nested observation. -/
def treeAt (key : Subscript) : Tree Val → Except Err (Tree Val)
  | .leaf v => Tree.leaf <$> v.at key
  | .node f => Tree.node <$> forestAt key f
/-- The same subscript for all arrays of a dictionary. -/
def forestAt (key : Subscript) : Forest Val → Except Err (Forest Val)
  | .nil => .ok .nil
  | .cons k t r => do
    let t' ← treeAt key t
    let r' ← forestAt key r
    .ok (.cons k t' r')
end

end Efax.Spec
