import Verif.Model.Arr
import Mathlib.Analysis.SpecialFunctions.Log.Basic
import Mathlib.Analysis.SpecialFunctions.Pow.Real
import Mathlib.Analysis.Complex.Norm

/-!
# Rings (`efax/_src/parameter.py` 20-218)

The element-level maps return `Option`; `none` stands for a non-finite float (NaN or infinity).
-/

namespace Efax

/-- Machine epsilon of the canonical float type (`np.finfo(canonicalize_dtype(float)).eps`,
parameter.py 49-50): any positive number below 1/4.  float32 and float64 are instances. -/
class MachEps where
  eps : ℝ
  pos : 0 < eps
  lt : eps < 1 / 4

/-- float64. -/
@[reducible] noncomputable def MachEps.float64 : MachEps where
  eps := 1 / 2 ^ 52
  pos := by positivity
  lt := by norm_num

/-- float32. -/
@[reducible] noncomputable def MachEps.float32 : MachEps where
  eps := 1 / 2 ^ 23
  pos := by positivity
  lt := by norm_num

/-! ## Special functions (idealised library functions) -/

/-- `tjax.softplus`: log(1 + exp x). -/
noncomputable def softplus (x : ℝ) : ℝ := Real.log (1 + Real.exp x)

/-- `tjax.inverse_softplus`: log(exp x - 1); non-finite for x ≤ 0. -/
noncomputable def invSoftplus? (x : ℝ) : Option ℝ :=
  if 0 < x then some (Real.log (Real.exp x - 1)) else none

/-- `jax.scipy.special.expit`. -/
noncomputable def expit (x : ℝ) : ℝ := 1 / (1 + Real.exp (-x))

/-- `jax.scipy.special.logit`; non-finite outside (0, 1). -/
noncomputable def logit? (p : ℝ) : Option ℝ :=
  if 0 < p ∧ p < 1 then some (Real.log (p / (1 - p))) else none

/-- Division; non-finite when the divisor is zero. -/
noncomputable def div? (a b : ℝ) : Option ℝ := if b = 0 then none else some (a / b)

/-- Division of a complex number by a real one; non-finite when the divisor is zero. -/
noncomputable def cdiv? (a : ℂ) (b : ℝ) : Option ℂ := if b = 0 then none else some (a / (b : ℂ))

/-- `np.copysign(a, b)` for a > 0 (`copysign(a, 0.0) = a`; the sign of -0.0 is irrelevant to the
caller, which multiplies by the zero bound). -/
noncomputable def copysign (a b : ℝ) : ℝ := if 0 ≤ b then a else -a

/-- `jnp.asarray(y, dtype=int)`: truncation toward zero. -/
noncomputable def truncZ (x : ℝ) : ℤ := if 0 ≤ x then ⌊x⌋ else ⌈x⌉

/-! ## Ring objects -/

/-- The ring objects.  `real` holds the bounds *after* `__post_init__` and the generation scale;
`complex` holds its bounds as arrays (a float is an array of shape `()`). -/
inductive Ring
  | real (minimum maximum : Option ℝ) (generationScale : ℝ)
  | complex (minimumModulus : Arr ℝ) (maximumModulus : Option (Arr ℝ))
  | boolean
  | integral (minimum maximum : Option ℤ)

namespace Ring

/-- The lower bound stored by `RealField.__post_init__` (parameter.py 48-53) for an open lower
bound. -/
noncomputable def openMin [MachEps] (m : ℝ) : ℝ :=
  max (m + MachEps.eps) (m * (1 + copysign MachEps.eps m))

/-- The upper bound stored by `RealField.__post_init__` (parameter.py 54-56) for an open upper
bound. -/
noncomputable def openMax [MachEps] (m : ℝ) : ℝ :=
  min (m - MachEps.eps) (m * (1 + copysign MachEps.eps (-m)))

/-- The constructor `RealField(minimum, maximum, generation_scale, min_open, max_open)`
(parameter.py 40-56). -/
noncomputable def mkReal [MachEps] (minimum maximum : Option ℝ := none) (generationScale : ℝ := 1)
    (minOpen maxOpen : Bool := true) : Ring :=
  .real (if minOpen then minimum.map openMin else minimum)
    (if maxOpen then maximum.map openMax else maximum) generationScale

/-- `real_field` (parameter.py 213). -/
noncomputable def realField : Ring := .real none none 1

/-- `negative_support` (parameter.py 214). -/
noncomputable def negativeSupport [MachEps] : Ring := mkReal none (some 0)

/-- `positive_support` (parameter.py 215). -/
noncomputable def positiveSupport [MachEps] : Ring := mkReal (some 0) none

/-- `integral_ring` (parameter.py 216). -/
def integralRing : Ring := .integral none none

/-- `complex_field` (parameter.py 217): minimum modulus 0.0, no maximum. -/
noncomputable def complexField : Ring := .complex (Arr.full [] 0) none

/-- `num_elements` (parameter.py 59-60, 117-118, 172-173, 193-194). -/
def numElements : Ring → ℕ → ℕ
  | .complex _ _, n => n * 2
  | _, n => n

/-! ### Element-level maps -/

/-- `RealField.flattened` with `map_to_plane=True`, on one entry (parameter.py 66-74). -/
noncomputable def realFlat (mn mx : Option ℝ) (x : ℝ) : Option ℝ :=
  match mn, mx with
  | none, some M => (invSoftplus? (M - x)).map Neg.neg
  | some m, none => invSoftplus? (x - m)
  | some m, some M => (div? (x - m) (M - m)).bind logit?
  | none, none => some x

/-- `RealField.unflattened` with `map_from_plane=True`, on one entry (parameter.py 80-88). -/
noncomputable def realUnflat (mn mx : Option ℝ) (y : ℝ) : ℝ :=
  match mn, mx with
  | none, some M => M - softplus (-y)
  | some m, none => softplus y + m
  | some m, some M => m + expit y * (M - m)
  | none, none => y

/-- `ComplexField.flattened` with `map_to_plane=True`, on one entry (parameter.py 127-137). -/
noncomputable def complexFlat (mn : ℝ) (mx : Option ℝ) (x : ℂ) : Option ℂ :=
  match mx with
  | none => cdiv? (x * ((‖x‖ - mn : ℝ) : ℂ)) ‖x‖
  | some M => do
    let q ← div? (‖x‖ - mn) M
    let c ← logit? (q * 0.5 + 0.5)
    cdiv? (x * (c : ℂ)) ‖x‖

/-- `ComplexField._unflattened` on one entry (parameter.py 151-163). -/
noncomputable def complexUnflat (mn : ℝ) (mx : Option ℝ) (c : ℂ) : Option ℂ :=
  match mx with
  | none => cdiv? (c * ((‖c‖ + mn : ℝ) : ℂ)) ‖c‖
  | some M => cdiv? (c * ((M * (expit ‖c‖ - 0.5) * 2 + mn : ℝ) : ℂ)) ‖c‖

/-- The value of a bound array at an index of the bounded array: `fix_bound` (parameter.py 472-480)
appends axes of length one to the bound until it has as many axes as the array, so the bound is
constant along the trailing axes. -/
def boundAt (b : Arr ℝ) (i : List ℕ) : ℝ := b.get (i.drop (i.length - b.rshape.length))

/-- The shape condition under which the arithmetic of a bound and an array of shape `rs` is modelled:
the axes of the bound are the leading axes of the array.  (NumPy would also broadcast leading axes
of length one; not needed by the callers.) -/
def boundOk (b : Arr ℝ) (rs : List ℕ) : Prop :=
  rs.drop (rs.length - b.rshape.length) = b.rshape

instance (b : Arr ℝ) (rs : List ℕ) : Decidable (boundOk b rs) := by
  unfold boundOk; infer_instance

/-- Both bounds are compatible with the shape. -/
def boundsOk (mn : Arr ℝ) (mx : Option (Arr ℝ)) (rs : List ℕ) : Bool :=
  decide (boundOk mn rs) && mx.all fun b => decide (boundOk b rs)

/-- `jnp.concatenate([x.real, x.imag], axis=-1)` (parameter.py 140). -/
def concatReIm (a : Arr ℂ) : Except Err (Arr ℝ) := Arr.append (a.map Complex.re) (a.map Complex.im)

/-- `y[..., :n] + 1j * y[..., n:]` with `n = y.shape[-1] // 2`, after the assertion that the last
axis is even (parameter.py 144-146). -/
def splitReIm (y : Arr ℝ) : Except Err (Arr ℂ) :=
  match y.rshape with
  | [] => .error .indexError
  | m :: rs =>
    if m % 2 = 0 then
      .ok (Arr.ofFn (m / 2 :: rs) fun i =>
        match i with
        | [] => default
        | k :: i' => ⟨y.get (k :: i'), y.get ((m / 2 + k) :: i')⟩)
    else .error .assertionError

/-- `Ring.flattened` (parameter.py 63-74, 121-140, 176-177, 197-198).  A value whose dtype does not
belong to the ring is a `typeError` (JAX would promote it). -/
noncomputable def flattened (r : Ring) (mapToPlane : Bool) (x : Val) : Except Err (Arr ℝ) :=
  match r, x with
  | .real mn mx _, .real a =>
    if mapToPlane then a.mapE fun _ v => realFlat mn mx v else .ok a
  | .complex mn mx, .complex a =>
    if mapToPlane then
      if boundsOk mn mx a.rshape then do
        concatReIm (← a.mapE fun i v => complexFlat (boundAt mn i) (mx.map (boundAt · i)) v)
      else .error .valueError
    else concatReIm a
  | .boolean, .bool a => .ok (a.map fun b => if b then (1 : ℝ) else 0)
  | .integral _ _, .int a => .ok (a.map fun z : ℤ => ((z : ℤ) : ℝ))
  | _, _ => .error .typeError

/-- `Ring.unflattened` (parameter.py 77-88, 143-149, 180-181, 201-202). -/
noncomputable def unflattened (r : Ring) (mapFromPlane : Bool) (y : Arr ℝ) : Except Err Val :=
  match r with
  | .real mn mx _ => .ok (.real (if mapFromPlane then y.map (realUnflat mn mx) else y))
  | .complex mn mx => do
    let c ← splitReIm y
    if mapFromPlane then
      if boundsOk mn mx c.rshape then
        Val.complex <$> c.mapE fun i v => complexUnflat (boundAt mn i) (mx.map (boundAt · i)) v
      else .error .valueError
    else .ok (.complex c)
  | .boolean => .ok (.bool (y.map fun v => decide (v ≠ 0)))
  | .integral _ _ => .ok (.int (y.map truncZ))

/-- `RealField.clamp` on one entry (parameter.py 105-109); `e` is the epsilon of the array's dtype.
`jnp.clip(x, min, max)` is `minimum(maximum(x, min), max)`. -/
noncomputable def realClamp (e : ℝ) (mn mx : Option ℝ) (x : ℝ) : ℝ :=
  let y := match mn with | none => x | some m => max x (m + e)
  match mx with | none => y | some M => min y (M - e)

/-- `Ring.clamp` (parameter.py 36-37, 105-109): only `RealField` changes its argument. -/
noncomputable def clamp (r : Ring) (e : ℝ) (x : Val) : Val :=
  match r, x with
  | .real mn mx _, .real a => .real (a.map (realClamp e mn mx))
  | _, x => x

end Ring

end Efax
