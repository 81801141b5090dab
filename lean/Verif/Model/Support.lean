import Verif.Model.Ring
import Mathlib.Data.Nat.Choose.Basic

/-!
# Supports (`efax/_src/parameter.py` 220-460)
-/

namespace Efax

namespace Val

/-- Apply a dtype-independent array operation. -/
def liftE (f : {α : Type} → [Inhabited α] → Arr α → Except Err (Arr α)) : Val → Except Err Val
  | real a => real <$> f a
  | complex a => complex <$> f a
  | bool a => bool <$> f a
  | int a => int <$> f a

/-- `x[..., jnp.newaxis]`. -/
def newaxis : Val → Val
  | real a => real a.newaxis
  | complex a => complex a.newaxis
  | bool a => bool a.newaxis
  | int a => int a.newaxis

/-- `x.shape[-1]`. -/
def lastDim (v : Val) : Except Err ℕ :=
  match v.rshape with
  | [] => .error .indexError
  | n :: _ => .ok n

end Val

/-- `jnp.triu_indices(d)`: the pairs (row, column) with row ≤ column, in row-major order. -/
def triu (d : ℕ) : List (ℕ × ℕ) :=
  (List.range d).flatMap fun r => (List.range' r (d - r)).map fun c => (r, c)

/-- `SymmetricMatrixSupport.flattened` before the ring map (parameter.py 378-381). -/
def symGather {α : Type} [Inhabited α] (a : Arr α) : Except Err (Arr α) :=
  match a.rshape with
  | n :: m :: _ => if m = n then a.gather (triu n) else .error .assertionError
  | _ => .error .indexError

/-- `SymmetricMatrixSupport.unflattened` after the ring map (parameter.py 386-401): the matrix size
is recovered from the length of the last axis (the `dimensions` argument is ignored), the upper
triangle is filled, reflected (and conjugated), and filled again.  `sqrt` of the small integer
`1 + 8k` is exact.  `jnp.empty` is an array of an arbitrary constant. -/
def symScatter {α : Type} [Inhabited α] (cj : α → α) (x : Arr α) : Except Err (Arr α) := do
  let k ← x.lastDim
  let s := Nat.sqrt (1 + 8 * k)
  if s * s ≠ 1 + 8 * k then .error .valueError else
  if s % 2 ≠ 1 then .error .valueError else
  let d := (s - 1) / 2
  let empty : Arr α := Arr.full (d :: d :: x.rshape.tail) default
  let upper ← empty.scatter (triu d) x
  let lower := (← upper.swapLast).map cj
  lower.scatter (triu d) x

/-- The support objects. -/
inductive Support
  | scalar (ring : Ring)
  | vector (ring : Ring)
  | simplex (ring : Ring)
  | symmetric (ring : Ring) (positiveSemidefinite negativeSemidefinite hermitian : Bool)
  | square (ring : Ring)
  | circular (radius : ℝ)

namespace Support

/-- `self.ring`; `CircularBoundedSupport` has the default ring (parameter.py 440). -/
noncomputable def ring : Support → Ring
  | scalar r | vector r | simplex r | symmetric r _ _ _ | square r => r
  | circular _ => Ring.realField

/-- `axes()` (parameter.py 257-258, 285-286, 313-314, 362-363, 416-417). -/
def axes : Support → ℕ
  | scalar _ => 0
  | vector _ | simplex _ | circular _ => 1
  | symmetric _ _ _ _ | square _ => 2

/-- `shape(dimensions)`, last axis first (parameter.py 261-262, 289-290, 317-318, 366-367, 420-421).
Natural subtraction: the simplex with `dimensions = 0` is not modelled. -/
def rshape : Support → ℕ → List ℕ
  | scalar _, _ => []
  | vector _, d | circular _, d => [d]
  | simplex _, d => [d - 1]
  | symmetric _ _ _ _, d | square _, d => [d, d]

/-- `num_elements(dimensions)` (parameter.py 265-266, 293-294, 321-322, 370-371, 424-425). -/
def numElements : Support → ℕ → ℕ
  | scalar r, _ => r.numElements 1
  | vector r, d => r.numElements d
  | circular _, d => d
  | simplex r, d => r.numElements (d - 1)
  | symmetric r _ _ _, d => r.numElements ((d + 1).choose 2)
  | square r, d => r.numElements (d ^ 2)

/-- `jnp.linalg.norm(x, 2, axis=-1, keepdims=True)` at the row of an index. -/
noncomputable def rowNorm (a : Arr ℝ) (i : List ℕ) : ℝ :=
  Real.sqrt (∑ k ∈ Finset.range (a.rshape.headD 0), a.get (k :: i.tail) ^ 2)

/-- `CircularBoundedSupport.flattened` (parameter.py 444-450). -/
noncomputable def circFlat (radius : ℝ) (mapToPlane : Bool) (a : Arr ℝ) : Except Err (Arr ℝ) :=
  if mapToPlane then
    match a.rshape with
    | [] => .error .valueError
    | _ :: _ => a.mapE fun i x => do
      let q ← div? (rowNorm a i) radius
      let c ← logit? (q * 0.5 + 0.5)
      div? (x * c) (rowNorm a i)
  else .ok a

/-- `CircularBoundedSupport.unflattened` (parameter.py 453-460). -/
noncomputable def circUnflat (radius : ℝ) (mapFromPlane : Bool) (y : Arr ℝ) (dimensions : ℕ) :
    Except Err (Arr ℝ) :=
  if mapFromPlane then do
    let n ← y.lastDim
    if n ≠ dimensions then .error .assertionError else
    y.mapE fun i v =>
      div? (v * (radius * (expit (rowNorm y i) - 0.5) * 2)) (rowNorm y i)
  else .ok y

/-- `Support.flattened` (parameter.py 269-270, 297-298, 325-326, 374-381, 428-430, 444-450). -/
noncomputable def flattened (s : Support) (mapToPlane : Bool) (x : Val) : Except Err (Arr ℝ) :=
  match s with
  | scalar r => r.flattened mapToPlane x.newaxis
  | vector r | simplex r => r.flattened mapToPlane x
  | symmetric r _ _ _ => do r.flattened mapToPlane (← x.liftE symGather)
  | square r => do r.flattened mapToPlane (← x.liftE Arr.mergeLast)
  | circular radius =>
    match x with
    | .real a => circFlat radius mapToPlane a
    | _ => .error .typeError

/-- `Support.unflattened` (parameter.py 273-276, 301-304, 329-332, 384-401, 433-435, 453-460). -/
noncomputable def unflattened (s : Support) (mapFromPlane : Bool) (y : Arr ℝ) (dimensions : ℕ) :
    Except Err Val :=
  match s with
  | scalar r => do
    let x ← r.unflattened mapFromPlane y
    let n ← x.lastDim
    if n = 1 then x.liftE (·.idxLast 0) else .error .assertionError
  | vector r | simplex r => do
    let x ← r.unflattened mapFromPlane y
    let n ← x.lastDim
    if n = dimensions then .ok x else .error .assertionError
  | symmetric r _ _ herm => do
    match ← r.unflattened mapFromPlane y with
    | .complex a => Val.complex <$> symScatter (if herm then star else id) a
    | x => x.liftE (symScatter id)
  | square r => do
    let x ← r.unflattened mapFromPlane y
    x.liftE (·.splitLast dimensions dimensions)
  | circular radius => Val.real <$> circUnflat radius mapFromPlane y dimensions

/-- `SimplexSupport.clamp` on a real array (parameter.py 335-339); `e` is the epsilon of the dtype.
When the sum is (positive) zero, NumPy's quotient is +inf and `minimum(1, inf) = 1`. -/
noncomputable def simplexClamp (e : ℝ) (a : Arr ℝ) : Except Err (Arr ℝ) :=
  match a.rshape with
  | [] => .error .valueError
  | n :: rs => .ok (Arr.ofFn (n :: rs) fun i =>
      let s := ∑ k ∈ Finset.range n, a.get (k :: i.tail)
      let factor := if s = 0 then 1 else min 1 ((1 - e) / s)
      min (max (a.get i * factor) e) (1 - e))

/-- `Support.clamp` (parameter.py 251-252, 335-339). -/
noncomputable def clamp (s : Support) (e : ℝ) (x : Val) : Except Err Val :=
  match s, x with
  | simplex _, .real a => Val.real <$> simplexClamp e a
  | simplex _, _ => .error .typeError
  | s, x => .ok (s.ring.clamp e x)

end Support

end Efax
