import Verif.Model.Structure

/-!
# Subscripts: `x[key]` of arrays and distributions (`efax/_src/parametrization.py`)

The keys of NumPy and JAX: tuples of integers, slices, `newaxis` and `...`, or one array of integers, or
one mask.  Shapes and indices are in Python's order in this file.  Simplifications: indices out of
range are errors (JAX clamps them), and arrays are not mixed with other keys.
-/

namespace Efax

/-- An entry of a tuple that is used as a key: an integer, a slice `start:stop:step`, `newaxis` or
`...`. -/
inductive Key
  | int (k : ℤ)
  | slice (start stop step : Option ℤ)
  | newaxis
  | ellipsis

/-- What can be written between the brackets of `x[...]` (parametrization.py 17, `key: Any`). -/
inductive Subscript
  | basic (key : List Key)
  | array (ix : Arr ℤ)
  | mask (m : Arr Bool)

/-- The result of a subscript: its shape, and where its entries come from. -/
structure View where
  shape : List ℕ
  source : List ℕ → List ℕ

/-- An integer as an index of an axis of length `n`: negative numbers count from the end. -/
def axisIndex (k : ℤ) (n : ℕ) : Except Err ℕ :=
  if 0 ≤ k ∧ k < n then .ok k.toNat
  else if -n ≤ k ∧ k < 0 then .ok (k + n).toNat
  else .error .indexError

/-- A bound of a slice (`PySlice_AdjustIndices`): negative numbers count from the end, and the result is
clipped to `lower` and `upper`. -/
def sliceBound (k : ℤ) (n : ℕ) (lower upper : ℤ) : ℤ :=
  if k < 0 then max (k + n) lower else min k upper

/-- `slice(start, stop, step).indices(n)`, and the number of selected indices: first index, number,
step; ValueError for the step zero. -/
def sliceIndices (start stop step : Option ℤ) (n : ℕ) : Except Err (ℤ × ℕ × ℤ) :=
  let step := step.getD 1
  if step = 0 then .error .valueError
  else if 0 < step then
    let first := (start.map fun k => sliceBound k n 0 n).getD 0
    let last := (stop.map fun k => sliceBound k n 0 n).getD n
    .ok (first, if first < last then ((last - first - 1) / step + 1).toNat else 0, step)
  else
    let first := (start.map fun k => sliceBound k n (-1) (n - 1)).getD (n - 1)
    let last := (stop.map fun k => sliceBound k n (-1) (n - 1)).getD (-1)
    .ok (first, if last < first then ((first - last - 1) / -step + 1).toNat else 0, step)

/-- How many axes a key uses, without the ellipsis. -/
def Key.consumed : List Key → ℕ
  | [] => 0
  | .int _ :: ks | .slice _ _ _ :: ks => consumed ks + 1
  | .newaxis :: ks | .ellipsis :: ks => consumed ks

/-- Is there an ellipsis? -/
def Key.hasEllipsis : List Key → Bool
  | [] => false
  | .ellipsis :: _ => true
  | _ :: ks => hasEllipsis ks

/-- Basic indexing of an array of shape `s`: integers remove an axis, slices shorten it, `newaxis` adds
one and `...` skips as many axes as are left; IndexError for too many indices and for a second
ellipsis. -/
def Key.view : List Key → List ℕ → Except Err View
  | [], s => .ok ⟨s, id⟩
  | .int k :: ks, n :: s => do
    let j ← axisIndex k n
    let v ← view ks s
    .ok ⟨v.shape, fun i => j :: v.source i⟩
  | .slice a b c :: ks, n :: s => do
    let (first, len, step) ← sliceIndices a b c n
    let v ← view ks s
    .ok ⟨len :: v.shape, fun i => (first + i.headD 0 * step).toNat :: v.source i.tail⟩
  | .newaxis :: ks, s => do
    let v ← view ks s
    .ok ⟨1 :: v.shape, fun i => v.source i.tail⟩
  | .ellipsis :: ks, s =>
    if hasEllipsis ks then .error .indexError
    else do
      let m := s.length - consumed ks
      let v ← view ks (s.drop m)
      .ok ⟨s.take m ++ v.shape, fun i => i.take m ++ v.source (i.drop m)⟩
  | .int _ :: _, [] | .slice _ _ _ :: _, [] => .error .indexError

/-- All indices of an array of shape `s`, in row-major order. -/
def allIndices : List ℕ → List (List ℕ)
  | [] => [[]]
  | n :: s => (List.range n).flatMap fun k => (allIndices s).map (k :: ·)

/-- The view of a subscript of an array of shape `s`.  An array of integers replaces the first axis by
its own axes, a mask (which must have the shape of the leading axes) replaces them by one axis with
the selected entries. -/
def Subscript.view : Subscript → List ℕ → Except Err View
  | .basic key, s => Key.view key s
  | .array _, [] => .error .indexError
  | .array ix, n :: s =>
    if (allIndices ix.rshape.reverse).all fun i => decide (-n ≤ ix.get i.reverse ∧ ix.get i.reverse < n) then
      let m := ix.rshape.length
      .ok ⟨ix.rshape.reverse ++ s, fun i =>
        (let k := ix.get (i.take m).reverse; if k < 0 then k + n else k).toNat :: i.drop m⟩
    else .error .indexError
  | .mask m, s =>
    if s.take m.rshape.length = m.rshape.reverse then
      let chosen := (allIndices m.rshape.reverse).filter fun i => m.get i.reverse
      .ok ⟨chosen.length :: s.drop m.rshape.length, fun i => chosen.getD (i.headD 0) [] ++ i.tail⟩
    else .error .indexError

/-- `a[key]` of an array. -/
def Arr.at {α : Type} [Inhabited α] (a : Arr α) (key : Subscript) : Except Err (Arr α) := do
  let v ← key.view a.rshape.reverse
  .ok (Arr.ofFn v.shape.reverse fun i => a.get (v.source i.reverse).reverse)

/-- `value[key]` of a parameter (parametrization.py 20). -/
def Val.at (key : Subscript) : Val → Except Err Val
  | .real a => .real <$> a.at key
  | .complex a => .complex <$> a.at key
  | .int a => .int <$> a.at key
  | .bool a => .bool <$> a.at key

/-- `Distribution.__getitem__` (parametrization.py 17-21). -/
def Dist.at {C : Type} [ClassTable C] (p : Dist C) (key : Subscript) : Except Err (Dist C) := do
  let ps ← (parameters p none).mapM fun kv => do .ok (kv.1, ← kv.2.at key)
  assemble (← infosOf p) ps

end Efax
