import Verif.Model.Support

/-!
# Specification: which values are admissible for a support

Written without the model's flattening helpers.  `sup` is the shape of one value (last axis first)
and `batch` the shape of the batch; a value array has shape `sup ++ batch` (last axis first), i.e.
Python shape `(*batch, *sup)`.
-/

namespace Efax.Spec

/-- A bound is either one number or one number per batch entry. -/
def IsBound (b : Arr ℝ) (batch : List ℕ) : Prop := b.rshape = [] ∨ b.rshape = batch

/-- The value of a bound for the batch entry `j`. -/
def boundVal (b : Arr ℝ) (j : List ℕ) : ℝ := if b.rshape = [] then b.get [] else b.get j

/-- The entries are of the ring's type and, if `mapped`, lie strictly inside the bounds of the ring.
A complex ring with bounds m, M contains the numbers of modulus in (m, m + M). -/
def InRing (r : Ring) (mapped : Bool) (sup batch : List ℕ) (v : Val) : Prop :=
  v.rshape = sup ++ batch ∧
  match r, v with
  | .real mn mx _, .real a => mapped = true → ∀ i, inB (sup ++ batch) i = true →
      (∀ m ∈ mn, m < a.get i) ∧ (∀ M ∈ mx, a.get i < M)
  | .complex mn mx, .complex a => mapped = true →
      IsBound mn batch ∧ (∀ M ∈ mx, IsBound M batch) ∧
      ∀ i j, inB sup i = true → inB batch j = true →
        0 ≤ boundVal mn j ∧ boundVal mn j < ‖a.get (i ++ j)‖ ∧
        ∀ M ∈ mx, ‖a.get (i ++ j)‖ < boundVal mn j + boundVal M j
  | .boolean, .bool _ => True
  | .integral _ _, .int _ => True
  | _, _ => False

/-- Entry (r, c) of the matrix at batch index j equals entry (c, r), conjugated for complex arrays
if `herm`. -/
def IsSymm (herm : Bool) (d : ℕ) (batch : List ℕ) : Val → Prop
  | .real a => ∀ r c j, r < d → c < d → inB batch j = true → a.get (c :: r :: j) = a.get (r :: c :: j)
  | .complex a => ∀ r c j, r < d → c < d → inB batch j = true →
      a.get (c :: r :: j) = if herm then star (a.get (r :: c :: j)) else a.get (r :: c :: j)
  | .bool a => ∀ r c j, r < d → c < d → inB batch j = true → a.get (c :: r :: j) = a.get (r :: c :: j)
  | .int a => ∀ r c j, r < d → c < d → inB batch j = true → a.get (c :: r :: j) = a.get (r :: c :: j)

/-- The values that are admissible for a support with `d` dimensions.  (No value is declared
admissible for the simplex support, whose `flattened`/`unflattened` disagree about the length: see
C12.  No class has a simplex parameter.) -/
def Fits (s : Support) (mapped : Bool) (d : ℕ) (batch : List ℕ) (v : Val) : Prop :=
  match s with
  | .scalar r => InRing r mapped [] batch v
  | .vector r => InRing r mapped [d] batch v
  | .simplex _ => False
  | .symmetric r _ _ herm => InRing r mapped [d, d] batch v ∧ IsSymm herm d batch v
  | .square r => InRing r mapped [d, d] batch v
  | .circular radius => v.rshape = d :: batch ∧
      match v with
      | .real a => mapped = true → 0 < radius ∧ ∀ j, 0 < d → inB batch j = true →
          0 < ∑ k ∈ Finset.range d, a.get (k :: j) ^ 2 ∧
          ∑ k ∈ Finset.range d, a.get (k :: j) ^ 2 < radius ^ 2
      | _ => False

/-- `Fits` without the symmetry of matrices: type, shape and bounds of the entries. -/
def Lies (s : Support) (mapped : Bool) (d : ℕ) (batch : List ℕ) (v : Val) : Prop :=
  match s with
  | .symmetric r _ _ _ => InRing r mapped [d, d] batch v
  | s => Fits s mapped d batch v

/-- The number of real coordinates of one value of the support. -/
def coords (s : Support) (d : ℕ) : ℕ :=
  let per (r : Ring) : ℕ := match r with
    | .complex _ _ => 2
    | _ => 1
  match s with
  | .scalar r => per r
  | .vector r => per r * d
  | .simplex r => per r * (d - 1)
  | .symmetric r _ _ _ => per r * (d * (d + 1) / 2)
  | .square r => per r * (d * d)
  | .circular _ => d

/-- The flat vectors of length `n` (per real coordinate block) that come from ring elements: any real
numbers for the real field (whose bounds must be in order), non-zero complex numbers if mapped,
0/1 for booleans and integers for the integral ring. -/
def InFlat (r : Ring) (mapped : Bool) (n : ℕ) (batch : List ℕ) (y : Arr ℝ) : Prop :=
  match r with
  | .real mn mx _ => y.rshape = n :: batch ∧
      (mapped = true → ∀ m ∈ mn, ∀ M ∈ mx, m < M)
  | .complex mn mx => y.rshape = (2 * n) :: batch ∧
      (mapped = true → IsBound mn batch ∧ (∀ M ∈ mx, IsBound M batch) ∧
        ∀ j, inB batch j = true → 0 ≤ boundVal mn j ∧ (∀ M ∈ mx, 0 < boundVal M j) ∧
          ∀ k < n, y.get (k :: j) ≠ 0 ∨ y.get ((n + k) :: j) ≠ 0)
  | .boolean => y.rshape = n :: batch ∧
      ∀ i, inB (n :: batch) i = true → y.get i = 0 ∨ y.get i = 1
  | .integral _ _ => y.rshape = n :: batch ∧
      ∀ i, inB (n :: batch) i = true → ∃ z : ℤ, y.get i = z

/-- The flat vectors from which `unflattened` recovers a value that flattens back. -/
def FlatFits (s : Support) (mapped : Bool) (d : ℕ) (batch : List ℕ) (y : Arr ℝ) : Prop :=
  match s with
  | .scalar r => InFlat r mapped 1 batch y
  | .vector r => InFlat r mapped d batch y
  | .simplex _ => False
  | .symmetric r _ _ _ => InFlat r mapped (d * (d + 1) / 2) batch y
  | .square r => InFlat r mapped (d * d) batch y
  | .circular radius => y.rshape = d :: batch ∧
      (mapped = true → 0 < radius ∧ ∀ j, 0 < d → inB batch j = true →
          0 < ∑ k ∈ Finset.range d, y.get (k :: j) ^ 2)

/-- The bounds of a ring are usable for decoding a batch: ordered, of the right shape, and (as for
all variable parameters in efax) the ring is the real or the complex field. -/
def RingOk (r : Ring) (mapped : Bool) (batch : List ℕ) : Prop :=
  match r with
  | .real mn mx _ => mapped = true → ∀ m ∈ mn, ∀ M ∈ mx, m < M
  | .complex mn mx => mapped = true → IsBound mn batch ∧ (∀ M ∈ mx, IsBound M batch) ∧
      ∀ j, inB batch j = true → 0 ≤ boundVal mn j ∧ ∀ M ∈ mx, 0 < boundVal M j
  | _ => False

/-- `RingOk` for supports. -/
def SupOk (s : Support) (mapped : Bool) (batch : List ℕ) : Prop :=
  match s with
  | .simplex _ => False
  | .circular radius => mapped = true → 0 < radius
  | s => RingOk s.ring mapped batch

end Efax.Spec
