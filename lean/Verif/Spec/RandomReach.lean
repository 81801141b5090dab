import Verif.Spec.Generate

/-!
# Specification: the values that random generation can return
-/

namespace Efax.Spec

/-- The rings whose random elements are not confined to fewer values than `RingReach` says: the bounds are
strictly in order, the generation scale is positive, and integers have a lower bound that is not negative,
and no upper bound. -/
def Spread (r : Ring) (batch : List ℕ) : Prop :=
  match r with
  | .real mn mx scale => 0 < scale ∧ ∀ m ∈ mn, ∀ M ∈ mx, m < M
  | .complex mn mx => IsBound mn batch ∧ (∀ M ∈ mx, IsBound M batch) ∧
      ∀ j, inB batch j = true → 0 ≤ boundVal mn j ∧ ∀ M ∈ mx, 0 < boundVal M j
  | .boolean => True
  | .integral mn mx => ∃ m, mn = some m ∧ 0 ≤ m ∧ mx = none

/-- The arrays of shape `(*batch, *sup)` that can be random elements of a ring.  The lower bound of a real
number is attained, and so is its upper bound unless there is also a lower bound.  The modulus of a complex
number is strictly between its bounds.  An integer is at least *ten times* its
lower bound, moved inwards, rounded down. -/
def RingReach [MachEps] (r : Ring) (sup batch : List ℕ) (v : Val) : Prop :=
  v.rshape = sup ++ batch ∧
  match r, v with
  | .real mn mx _, .real a => ∀ i, inB (sup ++ batch) i = true →
      (∀ m ∈ mn, m ≤ a.get i) ∧ ∀ M ∈ mx, a.get i ≤ M ∧ (mn ≠ none → a.get i < M)
  | .complex mn mx, .complex a => ∀ i j, inB sup i = true → inB batch j = true →
      boundVal mn j < ‖a.get (i ++ j)‖ ∧ ∀ M ∈ mx, ‖a.get (i ++ j)‖ < boundVal mn j + boundVal M j
  | .boolean, .bool _ => True
  | .integral mn _, .int a => ∀ i, inB (sup ++ batch) i = true → ∀ m ∈ mn,
      10 * Ring.openMin m < a.get i + 1
  | _, _ => False

/-- The supports whose random elements are those that `Reach` describes. -/
def Spreads (t : Support) (batch : List ℕ) : Prop :=
  match t with
  | .scalar r | .vector r => Spread r batch
  | .circular _ => True
  | .symmetric (.real none none scale) psd nsd _ => 0 < scale ∧ ¬(psd = true ∧ nsd = true)
  | .symmetric (.complex mn none) psd nsd true => mn = Arr.full [] 0 ∧ psd = !nsd
  | _ => False

/-- The values that can be random elements of a support with `d` dimensions.  The vectors of the disk are
not confined to it.  Of the semidefinite Hermitian matrices, those with a zero on the diagonal need a draw of
the complex number zero, at which the code divides zero by zero. -/
def Reach [MachEps] (t : Support) (d : ℕ) (batch : List ℕ) (v : Val) : Prop :=
  match t with
  | .scalar r => RingReach r [] batch v
  | .vector r => RingReach r [d] batch v
  | .circular _ => RingReach (.real none none 1) [d] batch v
  | .symmetric r psd nsd herm => v.rshape = d :: d :: batch ∧ IsSymm herm d batch v ∧
      (∀ j, inB batch j = true → ∀ x, (psd = true → 0 ≤ quadratic d v j x) ∧
        (nsd = true → quadratic d v j x ≤ 0)) ∧
      match r, v with
      | .real _ _ _, .real _ => True
      | .complex _ _, .complex a => ∀ k j, k < d → inB batch j = true → a.get (k :: k :: j) ≠ 0
      | _, _ => False
  | _ => False

end Efax.Spec
