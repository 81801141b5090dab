import Verif.Model.Err
import Mathlib.Data.Real.Basic
import Mathlib.Data.Complex.Basic
import Mathlib.Algebra.BigOperators.Group.Finset.Basic

/-!
# n-dimensional arrays

A model of the NumPy/JAX arrays used by efax.  Axes are listed **from the last to the first**, so
that the last axis (the one on which the code slices, appends and sums) is the head of the list:
an array of Python shape `(3, 2, 5)` has `rshape = [5, 2, 3]`, and the entry `a[i, j, k]` is
`a.get [k, j, i]`.  Entries outside the shape are `default`; this makes equality of arrays the
equality of shapes and of in-range entries (`Arr.ext`).
-/

namespace Efax

/-- `inB rshape i` : the (reversed) index `i` is in range for the (reversed) shape. -/
def inB : List ℕ → List ℕ → Bool
  | [], [] => true
  | n :: s, i :: is => decide (i < n) && inB s is
  | _, _ => false

/-- A JAX/NumPy array with entries in `α`. -/
structure Arr (α : Type) [Inhabited α] where
  /-- the shape, last axis first -/
  rshape : List ℕ
  /-- the entries, indices last axis first -/
  get : List ℕ → α
  junk : ∀ i, inB rshape i = false → get i = default

namespace Arr

variable {α β γ : Type} [Inhabited α] [Inhabited β] [Inhabited γ]

/-- Build an array from its shape and entries. -/
def ofFn (rs : List ℕ) (f : List ℕ → α) : Arr α where
  rshape := rs
  get := fun i => if inB rs i then f i else default
  junk := fun i h => by simp [h]

/-- `a.ndim`. -/
def ndim (a : Arr α) : ℕ := a.rshape.length

/-- An elementwise operation. -/
def map (f : α → β) (a : Arr α) : Arr β := ofFn a.rshape fun i => f (a.get i)

/-- `jnp.full(shape, x)` / `jnp.zeros(shape)`. -/
def full (rs : List ℕ) (x : α) : Arr α := ofFn rs fun _ => x

/-- `a[..., jnp.newaxis]`. -/
def newaxis (a : Arr α) : Arr α := ofFn (1 :: a.rshape) fun i => a.get i.tail

/-- `a[..., k]` for a fixed `k`; IndexError when there is no such entry. -/
def idxLast (a : Arr α) (k : ℕ) : Except Err (Arr α) :=
  match a.rshape with
  | [] => .error .indexError
  | n :: rs => if k < n then .ok (ofFn rs fun i => a.get (k :: i)) else .error .indexError

/-- `a.shape[-1]`; IndexError for a 0-dimensional array. -/
def lastDim (a : Arr α) : Except Err ℕ :=
  match a.rshape with
  | [] => .error .indexError
  | n :: _ => .ok n

/-- `a[..., lo : hi]`, with Python's clipping of slice bounds. -/
def slice (a : Arr α) (lo hi : ℕ) : Except Err (Arr α) :=
  match a.rshape with
  | [] => .error .indexError
  | n :: rs =>
    .ok (ofFn ((min hi n - min lo n) :: rs) fun i =>
      match i with
      | [] => default
      | k :: i' => a.get ((min lo n + k) :: i'))

/-- `jnp.append(a, b, axis=-1)` / `jnp.concatenate([a, b], axis=-1)`: the other axes must agree. -/
def append (a b : Arr α) : Except Err (Arr α) :=
  match a.rshape, b.rshape with
  | n :: rs, m :: rs' =>
    if rs = rs' then
      .ok (ofFn ((n + m) :: rs) fun i =>
        match i with
        | [] => default
        | k :: i' => if k < n then a.get (k :: i') else b.get ((k - n) :: i'))
    else .error .valueError
  | _, _ => .error .valueError

/-- `a[key]` for a tuple `key` of (in-range, non-negative) integers indexing the leading axes,
given in Python order; IndexError when out of range. -/
def index (a : Arr α) (key : List ℕ) : Except Err (Arr α) :=
  let n := a.rshape.length - key.length
  if key.length ≤ a.rshape.length ∧ inB (a.rshape.drop n) key.reverse then
    .ok (ofFn (a.rshape.take n) fun i => a.get (i ++ key.reverse))
  else .error .indexError

/-- `a[newaxis, ..., newaxis, ...]` with `k` new axes: they come first in Python's order. -/
def expand (k : ℕ) (a : Arr α) : Arr α :=
  ofFn (a.rshape ++ List.replicate k 1) fun i => a.get (i.take a.rshape.length)

/-- `jnp.swapaxes(a, -2, -1)`; an error on arrays with fewer than two axes. -/
def swapLast (a : Arr α) : Except Err (Arr α) :=
  match a.rshape with
  | n :: m :: rs =>
    .ok (ofFn (m :: n :: rs) fun i =>
      match i with
      | k :: l :: i' => a.get (l :: k :: i')
      | _ => default)
  | _ => .error .valueError

/-- `jnp.reshape(a, (*a.shape[:-2], -1))`: merge the last two axes in row-major order. -/
def mergeLast (a : Arr α) : Except Err (Arr α) :=
  match a.rshape with
  | n :: m :: rs =>
    .ok (ofFn ((m * n) :: rs) fun i =>
      match i with
      | k :: i' => a.get (k % n :: k / n :: i')
      | _ => default)
  | _ => .error .valueError

/-- `jnp.reshape(a, a.shape[:-1] + (m, n))`: split the last axis in row-major order; the sizes must
match. -/
def splitLast (a : Arr α) (m n : ℕ) : Except Err (Arr α) :=
  match a.rshape with
  | k :: rs =>
    if k = m * n then
      .ok (ofFn (n :: m :: rs) fun i =>
        match i with
        | q :: r :: i' => a.get ((r * n + q) :: i')
        | _ => default)
    else .error .typeError
  | [] => .error .typeError

/-- `a[..., rows, cols]` for two lists of indices of equal length (advanced indexing of the last two
axes); IndexError unless there are two axes (JAX clamps out-of-range indices; the callers only
use in-range ones). -/
def gather (a : Arr α) (ix : List (ℕ × ℕ)) : Except Err (Arr α) :=
  match a.rshape with
  | _ :: _ :: rs =>
    .ok (ofFn (ix.length :: rs) fun i =>
      match i with
      | k :: i' =>
        match ix[k]? with
        | some (r, c) => a.get (c :: r :: i')
        | none => default
      | _ => default)
  | _ => .error .indexError

/-- `a.at[..., rows, cols].set(x)`: entry `(r, c)` becomes `x[..., k]` for the position `k` of
`(r, c)` in the index list, other entries are kept.  (The index lists used have no duplicates.) -/
def scatter (a : Arr α) (ix : List (ℕ × ℕ)) (x : Arr α) : Except Err (Arr α) :=
  match a.rshape, x.rshape with
  | n :: m :: rs, k :: rs' =>
    if rs' = rs ∧ k = ix.length then
      .ok (ofFn (n :: m :: rs) fun i =>
        match i with
        | c :: r :: i' => if (r, c) ∈ ix then x.get (ix.idxOf (r, c) :: i') else a.get i
        | _ => default)
    else .error .valueError
  | _, _ => .error .indexError

/-- `jnp.sum(a, axis=-1)`. -/
def sumLast [AddCommMonoid α] (a : Arr α) : Except Err (Arr α) :=
  match a.rshape with
  | [] => .error .valueError
  | n :: rs => .ok (ofFn rs fun i => ∑ k ∈ Finset.range n, a.get (k :: i))

/-- `jnp.sum(a, axis=(-n, ..., -1))`; with `n = 0` the empty tuple of axes: no reduction. -/
def sumAxes [AddCommMonoid α] : ℕ → Arr α → Except Err (Arr α)
  | 0, a => .ok a
  | n + 1, a => do sumAxes n (← sumLast a)

/-- The axis numbers meant by the argument `axis` of a reduction of an array with `n` axes (NumPy's
`normalize_axis_tuple`): `None` stands for all axes, an integer is a tuple of length one, negative
numbers count from the end; `ValueError` for a number out of range and for a repeated axis. -/
def normAxes (n : ℕ) : Option (List ℤ) → Except Err (List ℕ)
  | none => .ok (List.range n)
  | some ks =>
    if (ks.all fun k => decide (-(n : ℤ) ≤ k ∧ k < n)) &&
        decide (ks.map fun k : ℤ => (if k < 0 then k + n else k).toNat).Nodup then
      .ok (ks.map fun k : ℤ => (if k < 0 then k + n else k).toNat)
    else .error .valueError

/-- The lengths of the axes, last axis first, each with the decision whether it is reduced.  The axis
at the head of the list has as number the count of the axes after it. -/
def markAxes (ax : List ℕ) : List ℕ → List (ℕ × Bool)
  | [] => []
  | n :: rs => (n, ax.contains rs.length) :: markAxes ax rs

/-- The sums of the entries over the marked axes. -/
def sumMarked [AddCommMonoid α] : List (ℕ × Bool) → (List ℕ → α) → List ℕ → α
  | [], f, _ => f []
  | (n, true) :: ds, f, i => ∑ k ∈ Finset.range n, sumMarked ds (fun j => f (k :: j)) i
  | (_, false) :: ds, f, i => sumMarked ds (fun j => f (i.headD 0 :: j)) i.tail

/-- `jnp.mean(a, axis)`.  (When there are no entries to average NumPy returns NaN; modelled as
`nonFinite`.) -/
noncomputable def mean [AddCommMonoid α] (smul : ℝ → α → α) (axis : Option (List ℤ)) (a : Arr α) :
    Except Err (Arr α) := do
  let ds := markAxes (← normAxes a.rshape.length axis) a.rshape
  let n : ℕ := ((ds.filter (·.2)).map (·.1)).prod
  if n = 0 then .error .nonFinite else
  .ok (ofFn ((ds.filter (!·.2)).map (·.1)) fun i => smul ((n : ℝ)⁻¹) (sumMarked ds a.get i))

open Classical in
/-- An elementwise operation that may produce NaN/inf (`none`) at some index; the whole result is
then `nonFinite`.  The function also receives the index, for bounds that vary over the batch. -/
noncomputable def mapE (f : List ℕ → α → Option β) (a : Arr α) : Except Err (Arr β) :=
  if ∀ i, inB a.rshape i = true → (f i (a.get i)).isSome then
    .ok (ofFn a.rshape fun i => (f i (a.get i)).getD default)
  else .error .nonFinite

end Arr

/-- A dtype-tagged array: the values stored in distribution objects. -/
inductive Val
  | real (a : Arr ℝ)
  | complex (a : Arr ℂ)
  | bool (a : Arr Bool)
  | int (a : Arr ℤ)

namespace Val

/-- `x.shape`, last axis first. -/
def rshape : Val → List ℕ
  | real a => a.rshape
  | complex a => a.rshape
  | bool a => a.rshape
  | int a => a.rshape

/-- `x[key]` for an integer tuple `key`. -/
def index (key : List ℕ) : Val → Except Err Val
  | real a => real <$> a.index key
  | complex a => complex <$> a.index key
  | bool a => bool <$> a.index key
  | int a => int <$> a.index key

/-- `x[newaxis, ..., newaxis, ...]` with `k` new axes. -/
def expand (k : ℕ) : Val → Val
  | real a => real (a.expand k)
  | complex a => complex (a.expand k)
  | bool a => bool (a.expand k)
  | int a => int (a.expand k)

end Val

/-- The shape of the result of an elementwise operation (NumPy broadcasting; shapes are stored last
axis first, so the axes are aligned at the head); `ValueError` for incompatible shapes. -/
def bcast : List ℕ → List ℕ → Except Err (List ℕ)
  | [], t => .ok t
  | s, [] => .ok s
  | n :: s, m :: t => do
    let r ← bcast s t
    if n = m then .ok (n :: r)
    else if n = 1 then .ok (m :: r)
    else if m = 1 then .ok (n :: r)
    else .error .valueError

/-- The index of the entry of an array of the given shape that is used at an index of the broadcast
result. -/
def bidx : List ℕ → List ℕ → List ℕ
  | [], _ => []
  | n :: s, k :: i => (if n = 1 then 0 else k) :: bidx s i
  | _ :: s, [] => 0 :: bidx s []

end Efax
