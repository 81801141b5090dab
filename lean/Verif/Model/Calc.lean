import Verif.Model.Tools
import Verif.Model.Special
import Mathlib.LinearAlgebra.Matrix.NonsingularInverse
import Mathlib.Order.ConditionallyCompleteLattice.Finset

/-!
# Array expressions

The part of NumPy/JAX/tjax in which the methods of the distributions are written, for arrays with
batch axes.  A value of type `Calc α` is the outcome of an array expression: an array or an error.
Arithmetic is exact (real or complex numbers); floating-point overflow and NaN are not modelled, so
the statements about these expressions are meaningful on the domain of the functions only.
-/

namespace Efax

/-- The outcome of an array expression. -/
def Calc (α : Type) [Inhabited α] : Type := Except Err (Arr α)

namespace Calc

variable {α β γ : Type} [Inhabited α] [Inhabited β] [Inhabited γ]

/-- An array as an expression. -/
def ok (a : Arr α) : Calc α := Except.ok a

/-- An expression that raises. -/
def fail (e : Err) : Calc α := Except.error e

/-- Apply a function that may raise to the value of an expression. -/
def bind (x : Calc α) (f : Arr α → Calc β) : Calc β := Except.bind x f

/-- The outcome of the expression. -/
def run (x : Calc α) : Except Err (Arr α) := x

/-- A Python scalar or 0-dimensional array. -/
def const (c : α) : Calc α := ok (Arr.ofFn [] fun _ => c)

/-- An elementwise function of one array. -/
def map (f : α → β) (x : Calc α) : Calc β := x.bind fun a => ok (a.map f)

/-- An elementwise function of two arrays, with broadcasting. -/
def bin (f : α → β → γ) (x : Calc α) (y : Calc β) : Calc γ :=
  x.bind fun a => y.bind fun b =>
    match bcast a.rshape b.rshape with
    | .error e => fail e
    | .ok rs => ok (Arr.ofFn rs fun i => f (a.get (bidx a.rshape i)) (b.get (bidx b.rshape i)))

instance [Add α] : Add (Calc α) := ⟨bin (· + ·)⟩
instance [Sub α] : Sub (Calc α) := ⟨bin (· - ·)⟩
instance [Mul α] : Mul (Calc α) := ⟨bin (· * ·)⟩
instance [Div α] : Div (Calc α) := ⟨bin (· / ·)⟩
instance [Neg α] : Neg (Calc α) := ⟨map (- ·)⟩
instance {n : ℕ} [OfNat α n] : OfNat (Calc α) n := ⟨const (OfNat.ofNat n)⟩
instance [OfScientific α] : OfScientific (Calc α) := ⟨fun m s e => const (OfScientific.ofScientific m s e)⟩
instance : Coe (Arr α) (Calc α) := ⟨ok⟩
instance : Coe α (Calc α) := ⟨const⟩

/-- `jnp.square`. -/
def square [Monoid α] (x : Calc α) : Calc α := x.map fun a => a ^ 2

/-- Promotion of a real array to a complex array. -/
noncomputable def toComplex (x : Calc ℝ) : Calc ℂ := x.map fun a : ℝ => (a : ℂ)

/-- `a.conjugate()`. -/
noncomputable def conj (x : Calc ℂ) : Calc ℂ := x.map (starRingEnd ℂ)

/-- `a.real`. -/
noncomputable def re (x : Calc ℂ) : Calc ℝ := x.map Complex.re

/-- `abs_square(a)` of tjax. -/
noncomputable def absSquare (x : Calc ℂ) : Calc ℝ := x.map Complex.normSq

/-- `jnp.log`. -/
noncomputable def log (x : Calc ℝ) : Calc ℝ := x.map Real.log

/-- `jnp.exp`. -/
noncomputable def exp (x : Calc ℝ) : Calc ℝ := x.map Real.exp

open Classical in
/-- An array with the possible values inf and NaN (`none`) as an array of numbers: `nonFinite` unless
all values are numbers. -/
noncomputable def finite (x : Calc (Option EReal)) : Calc ℝ := x.bind fun a =>
  if ∀ i, inB a.rshape i = true → ∃ r : ℝ, a.get i = some (r : EReal) then
    ok (a.map fun o => (o.getD 0).toReal)
  else fail .nonFinite

/-- `jnp.zeros(a.shape[:len(a.shape) - k])`. -/
def zeros [Zero α] (k : ℕ) (x : Calc β) : Calc α :=
  x.bind fun a => ok (Arr.ofFn (a.rshape.drop k) fun _ => 0)

/-- `a.shape[-1]`; `IndexError` for a 0-dimensional array. -/
def dim [NatCast α] (x : Calc β) : Calc α := x.bind fun a =>
  match a.rshape with
  | [] => fail .indexError
  | n :: _ => const (n : α)

/-- `jnp.sum(a, axis=-1)`. -/
def sumLast [AddCommMonoid α] (x : Calc α) : Calc α := x.bind Arr.sumLast

/-- `a[..., jnp.newaxis]`. -/
def newaxis (x : Calc α) : Calc α := x.bind fun a => ok a.newaxis

/-- `jnp.amax(a, axis=-1)`; an error for an axis of length zero. -/
noncomputable def amax (x : Calc ℝ) : Calc ℝ := x.bind fun a =>
  match a.rshape with
  | [] => fail .valueError
  | 0 :: _ => fail .valueError
  | (n + 1) :: rs => ok (Arr.ofFn rs fun i =>
      (Finset.range (n + 1)).sup' Finset.nonempty_range_add_one fun k => a.get (k :: i))

/-- `jax.scipy.special.logsumexp(a, axis=-1)`. -/
noncomputable def logsumexp (x : Calc ℝ) : Calc ℝ := x.bind fun a =>
  match a.rshape with
  | [] => fail .valueError
  | n :: rs => ok (Arr.ofFn rs fun i => Real.log (∑ k ∈ Finset.range n, Real.exp (a.get (k :: i))))

/-- `jnp.linalg.norm(a, 2, axis=-1)` and `jnp.linalg.norm(a, axis=-1)`: the Euclidean norm. -/
noncomputable def norm (x : Calc ℝ) : Calc ℝ := x.bind fun a =>
  match a.rshape with
  | [] => fail .valueError
  | n :: rs => ok (Arr.ofFn rs fun i => √(∑ k ∈ Finset.range n, a.get (k :: i) ^ 2))

/-- `jnp.stack([a, b], axis=-1)`; the shapes must agree. -/
def stack2 (x y : Calc α) : Calc α := x.bind fun a => y.bind fun b =>
  if a.rshape = b.rshape then
    ok (Arr.ofFn (2 :: a.rshape) fun
      | k :: i => if k = 0 then a.get i else b.get i
      | [] => default)
  else fail .valueError

/-- `jnp.append(a, b, axis=-1)`; the other axes must agree. -/
def append (x y : Calc α) : Calc α := x.bind fun a => y.bind fun b =>
  match a.rshape, b.rshape with
  | n :: rs, m :: rs' =>
    if rs = rs' then
      ok (Arr.ofFn ((n + m) :: rs) fun
        | k :: i => if k < n then a.get (k :: i) else b.get ((k - n) :: i)
        | [] => default)
    else fail .valueError
  | _, _ => fail .valueError

/-- `a[..., ::-1]`. -/
def flip (x : Calc α) : Calc α := x.bind fun a =>
  match a.rshape with
  | [] => fail .indexError
  | n :: rs => ok (Arr.ofFn (n :: rs) fun
    | k :: i => a.get ((n - 1 - k) :: i)
    | [] => default)

/-- `jnp.cumulative_sum(a, axis=-1)`. -/
def cumsum [AddCommMonoid α] (x : Calc α) : Calc α := x.bind fun a =>
  match a.rshape with
  | [] => fail .valueError
  | n :: rs => ok (Arr.ofFn (n :: rs) fun
    | k :: i => ∑ j ∈ Finset.range (k + 1), a.get (j :: i)
    | [] => default)

/-- `jnp.cumulative_sum(a, axis=-1, include_initial=True)`. -/
def cumsum0 [AddCommMonoid α] (x : Calc α) : Calc α := x.bind fun a =>
  match a.rshape with
  | [] => fail .valueError
  | n :: rs => ok (Arr.ofFn ((n + 1) :: rs) fun
    | k :: i => ∑ j ∈ Finset.range k, a.get (j :: i)
    | [] => default)

/-- `a[..., :-1]`. -/
def init (x : Calc α) : Calc α := x.bind fun a =>
  match a.rshape with
  | [] => fail .indexError
  | n :: rs => ok (Arr.ofFn ((n - 1) :: rs) a.get)

/-- `a[..., 1:]`. -/
def tail (x : Calc α) : Calc α := x.bind fun a =>
  match a.rshape with
  | [] => fail .indexError
  | n :: rs => ok (Arr.ofFn ((n - 1) :: rs) fun
    | k :: i => a.get ((k + 1) :: i)
    | [] => default)

/-- `a[..., k]`. -/
def at_ (k : ℕ) (x : Calc α) : Calc α := x.bind fun a =>
  match a.rshape with
  | [] => fail .indexError
  | n :: rs => if k < n then ok (Arr.ofFn rs fun i => a.get (k :: i)) else fail .indexError

/-- `a[..., :n]`. -/
def take (n : ℕ) (x : Calc α) : Calc α := x.bind fun a =>
  match a.rshape with
  | [] => fail .indexError
  | m :: rs => ok (Arr.ofFn (min n m :: rs) a.get)

/-- `a[..., n:]`. -/
def drop (n : ℕ) (x : Calc α) : Calc α := x.bind fun a =>
  match a.rshape with
  | [] => fail .indexError
  | m :: rs => ok (Arr.ofFn ((m - n) :: rs) fun
    | k :: i => a.get ((n + k) :: i)
    | [] => default)

/-- `jnp.broadcast_to(a, b.shape)`. -/
def broadcastLike (x : Calc α) (y : Calc β) : Calc α := x.bind fun a => y.bind fun b =>
  match bcast a.rshape b.rshape with
  | .error e => fail e
  | .ok rs => if rs = b.rshape then ok (Arr.ofFn rs fun i => a.get (bidx a.rshape i))
    else fail .valueError

/-- The matrix at a batch index of an array whose last two axes have length `n`: row `r`, column `c`
is stored at the index `c :: r :: i` (last axis first). -/
def mat (n : ℕ) (a : Arr α) (i : List ℕ) : Matrix (Fin n) (Fin n) α :=
  fun r c => a.get (c.val :: r.val :: i)

/-- The entry of a matrix for indices given as natural numbers. -/
def entry {n : ℕ} (M : Matrix (Fin n) (Fin n) α) (r c : ℕ) : α :=
  if h : r < n ∧ c < n then M ⟨r, h.1⟩ ⟨c, h.2⟩ else default

/-- `jnp.linalg.inv(a)`, for the matrices in the last two axes; an error if they are not square.  (A
singular matrix gives NaN or inf in JAX, here the zero matrix.) -/
noncomputable def inv {K : Type} [Inhabited K] [_root_.Field K] (x : Calc K) : Calc K := x.bind fun a =>
  match a.rshape with
  | n :: m :: rs => if n = m then
      ok (Arr.ofFn (n :: n :: rs) fun
        | c :: r :: i => entry (mat n a i)⁻¹ r c
        | _ => default)
    else fail .valueError
  | _ => fail .valueError

/-- `jnp.linalg.det(a)`. -/
noncomputable def det {K : Type} [Inhabited K] [_root_.Field K] (x : Calc K) : Calc K := x.bind fun a =>
  match a.rshape with
  | n :: m :: rs => if n = m then ok (Arr.ofFn rs fun i => (mat n a i).det) else fail .valueError
  | _ => fail .valueError

/-- The second result of `jnp.linalg.slogdet(a)`: the logarithm of the absolute value of the
determinant. -/
noncomputable def slogdet (x : Calc ℝ) : Calc ℝ := x.det.map fun d => Real.log |d|

/-- `matrix_vector_mul(a, v)` of tjax: the product of the matrix in the last two axes with the vector
in the last axis; the batch axes must agree here (tjax broadcasts them). -/
def matVec [NonUnitalNonAssocSemiring α] (x y : Calc α) : Calc α := x.bind fun a => y.bind fun v =>
  match a.rshape, v.rshape with
  | n :: m :: rs, n' :: rs' => if n = n' ∧ rs = rs' then
      ok (Arr.ofFn (m :: rs) fun
        | r :: i => ∑ k ∈ Finset.range n, a.get (k :: r :: i) * v.get (k :: i)
        | [] => default)
    else fail .valueError
  | _, _ => fail .valueError

/-- `outer_product(v, w)` of tjax: entry (r, c) is `v[r] * conj(w[c])` (`star` is the conjugate,
which does nothing for real arrays); the batch axes must agree here. -/
def outer [Mul α] [Star α] (x y : Calc α) : Calc α := x.bind fun v => y.bind fun w =>
  match v.rshape, w.rshape with
  | m :: rs, n :: rs' => if rs = rs' then
      ok (Arr.ofFn (n :: m :: rs) fun
        | c :: r :: i => v.get (r :: i) * star (w.get (c :: i))
        | _ => default)
    else fail .valueError
  | _, _ => fail .valueError

/-- `matrix_dot_product(a, b)` of tjax: the sum of the products of the entries of the matrices in the
last two axes. -/
def matDot [NonUnitalNonAssocSemiring α] (x y : Calc α) : Calc α := (x * y).sumLast.sumLast

/-- `jnp.where(c, a, b)` for a condition on the entries of an array `z`, `a` and `b` arrays. -/
noncomputable def whereE (p : γ → Prop) [DecidablePred p] (z : Calc γ) (x y : Calc α) : Calc α :=
  bin (fun (c : γ) (ab : α × α) => if p c then ab.1 else ab.2) z (bin Prod.mk x y)

end Calc

namespace Val

/-- The values of an array as real numbers (arithmetic with integers and booleans promotes them);
`TypeError` for a complex array, whose values no real expression of efax uses. -/
noncomputable def toR : Val → Calc ℝ
  | real a => .ok a
  | int a => .ok (a.map fun z : ℤ => (z : ℝ))
  | bool a => .ok (a.map fun b => if b then (1 : ℝ) else 0)
  | complex _ => .fail .typeError

/-- The values of an array as complex numbers. -/
noncomputable def toCalcC (v : Val) : Calc ℂ := .ok v.toC

/-- An expression as the value of a parameter. -/
def ofR (x : Calc ℝ) : Except Err Val := real <$> x.run

/-- A complex expression as the value of a parameter. -/
def ofC (x : Calc ℂ) : Except Err Val := complex <$> x.run

end Val

end Efax
