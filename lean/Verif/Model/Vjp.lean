import Verif.Model.Methods.Tree
import Mathlib.Analysis.Calculus.Deriv.Basic
import Mathlib.Algebra.BigOperators.Group.Finset.Basic

/-!
# Applying the Fisher information to a vector (`efax/_src/natural_parametrization.py` 156-169)
-/

namespace Efax

open ClassTable

variable {C : Type} [ClassTable C]

/-- The sum over all indices of an array of shape `rs`. -/
def sumBox : List ℕ → (List ℕ → ℝ) → ℝ
  | [], g => g []
  | n :: rs, g => ∑ k ∈ Finset.range n, sumBox rs fun i => g (k :: i)

namespace Val

/-- The array with `z` added to the entry `i`.  Real arrays only take the real part.  Integer and
Boolean arrays do not vary (their tangent type is `float0`). -/
noncomputable def nudge (i : List ℕ) (z : ℂ) : Val → Val
  | real a => real (Arr.ofFn a.rshape fun j => if j = i then a.get j + z.re else a.get j)
  | complex a => complex (Arr.ofFn a.rshape fun j => if j = i then a.get j + z else a.get j)
  | v => v

/-- The pairing of a cotangent with a value: the sum of the products of the entries, of which JAX takes
the real part for complex arrays (so that the transpose of multiplication by a complex number is
multiplication by the same number).  Integer and Boolean arrays have no cotangents. -/
noncomputable def pair : Val → Val → ℝ
  | real a, real b => sumBox a.rshape fun i => a.get i * b.get i
  | complex a, complex b => sumBox a.rshape fun i => (a.get i * b.get i).re
  | _, _ => 0

/-- The cotangent of an array, from the derivatives `D i z` in the direction in which entry `i` grows by
multiples of `z`.  The cotangent of an integer or Boolean array is an array of `float0` zeros, here zeros of the
same type. -/
noncomputable def cotangent (D : List ℕ → ℂ → ℝ) : Val → Val
  | real a => real (Arr.ofFn a.rshape fun i => D i 1)
  | complex a => complex (Arr.ofFn a.rshape fun i => ⟨D i 1, -D i Complex.I⟩)
  | bool a => bool (Arr.ofFn a.rshape fun _ => false)
  | int a => int (Arr.ofFn a.rshape fun _ => 0)

/-- Two arrays of the same type and shape. -/
def sameType : Val → Val → Bool
  | real a, real b => a.rshape == b.rshape
  | complex a, complex b => a.rshape == b.rshape
  | bool a, bool b => a.rshape == b.rshape
  | int a, int b => a.rshape == b.rshape
  | _, _ => false

end Val

/-- The lists have the same length and corresponding arrays have the same type and shape. -/
def sameTypes (v w : List Val) : Bool :=
  v.length == w.length && (List.zipWith Val.sameType v w).all id

mutual
/-- The distribution with `z` added to the entry `i` of parameter `k` of the part at `path` (positions
in the dictionaries of sub-distributions). -/
noncomputable def Dist.nudge (k : ℕ) (i : List ℕ) (z : ℂ) : List ℕ → Dist C → Dist C
  | [], .mk c vals subs => .mk c (vals.modify k (Val.nudge i z)) subs
  | n :: path, .mk c vals subs => .mk c vals (Subs.nudge k i z n path subs)
/-- `Dist.nudge` in part `n` of the dictionary. -/
noncomputable def Subs.nudge (k : ℕ) (i : List ℕ) (z : ℂ) : ℕ → List ℕ → Subs C → Subs C
  | _, _, .nil => .nil
  | 0, path, .cons s d r => .cons s (Dist.nudge k i z path d) r
  | n + 1, path, .cons s d r => .cons s d (Subs.nudge k i z n path r)
end

mutual
/-- The pairing of a cotangent with a distribution: the sum over all parameters of all parts, including
the fixed parameters. -/
noncomputable def Dist.pair : Dist C → Dist C → ℝ
  | .mk _ v s, .mk _ v' s' => (List.zipWith Val.pair v v').sum + Subs.pair s s'
/-- `Dist.pair`, summed over the parts. -/
noncomputable def Subs.pair : Subs C → Subs C → ℝ
  | .cons _ d r, .cons _ d' r' => Dist.pair d d' + Subs.pair r r'
  | _, _ => 0
end

mutual
/-- The cotangent of a distribution, from the derivatives `D path k i z` in the directions of
`Dist.nudge`: a distribution of the same class. -/
noncomputable def Dist.cotangent (D : List ℕ → ℕ → List ℕ → ℂ → ℝ) : Dist C → Dist C
  | .mk c vals subs => .mk c (vals.mapIdx fun k v => v.cotangent (D [] k))
      (Subs.cotangent (fun n path => D (n :: path)) subs)
/-- `Dist.cotangent` of all parts. -/
noncomputable def Subs.cotangent (D : ℕ → List ℕ → ℕ → List ℕ → ℂ → ℝ) : Subs C → Subs C
  | .nil => .nil
  | .cons s d r => .cons s (Dist.cotangent (D 0) d) (Subs.cotangent (fun n => D (n + 1)) r)
end

mutual
/-- The same tree of classes, and parameters of the same types and shapes. -/
def Dist.sameType [DecidableEq C] : Dist C → Dist C → Bool
  | .mk c v s, .mk c' v' s' => c == c' && sameTypes v v' && Subs.sameType s s'
/-- `Dist.sameType` of all parts, with the same names. -/
def Subs.sameType [DecidableEq C] : Subs C → Subs C → Bool
  | .nil, .nil => true
  | .cons n d r, .cons n' d' r' => n == n' && Dist.sameType d d' && Subs.sameType r r'
  | _, _ => false
end

/-- The pairing of a cotangent with the value of a function that may raise. -/
noncomputable def pairResult (ct : Dist C) : Except Err (Dist C) → ℝ
  | .ok e => ct.pair e
  | .error _ => 0

/-- `_, f_vjp = vjp(f, p); f_vjp(ct)` for a function `f` of distributions: the derivatives of the
pairing of `ct` with `f`, with respect to every entry of every parameter of `p`, including the fixed
parameters, whose arrays are leaves of `p` as well.  Automatic differentiation is modelled by
the mathematical derivative. -/
noncomputable def pullback (f : Dist C → Except Err (Dist C)) (p ct : Dist C) : Dist C :=
  p.cotangent fun path k i z => deriv (fun t : ℝ => pairResult ct (f (p.nudge k i (t * z) path))) 0

/-- `apply_fisher_information(vector)` (natural_parametrization.py 156-169).  The vector must have the
structure, the types and the shapes of the expectation parameters (`ValueError` from `vjp`, or
`TypeError`, which is not distinguished here); an integer cotangent for an integer output is accepted in place
of `float0`. -/
noncomputable def Dist.applyFisher [DecidableEq C] (L : Library C) (p vector : Dist C) :
    Except Err (Dist C × Dist C) := do
  let expectationParameters ← p.toExp L.toExp
  if vector.sameType expectationParameters then
    .ok (expectationParameters, pullback (fun q => q.toExp L.toExp) p vector)
  else .error .valueError

end Efax
