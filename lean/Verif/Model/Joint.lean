import Verif.Model.Structure
import Verif.Model.Mapping

/-!
# Joint distributions (`efax/_src/transform/joint.py`)

The formulas of the simple classes enter as parameters (`leaf` below); `Verif/Model/Families`
contains them.
-/

namespace Efax

open ClassTable

variable {C : Type} [ClassTable C]

mutual
/-- `p.to_exp()` (transform/joint.py 114-117 for joint distributions; `leaf c vals` are the parameters
of `to_exp()` of a simple distribution of class `c` with the parameters `vals`).  A distribution that
is not a natural parametrization has no `to_exp` (`AttributeError`, here `TypeError`). -/
def Dist.toExp (leaf : C → List Val → Except Err (List Val)) : Dist C → Except Err (Dist C)
  | .mk c vals subs =>
    match expCls c with
    | none => .error .typeError
    | some c' =>
      if isJoint c then do
        let s ← Subs.toExp leaf subs
        .ok (.mk c' [] s)
      else do
        let v ← leaf c vals
        .ok (.mk c' v .nil)
/-- `{name: value.to_exp() for name, value in self._sub_distributions.items()}`. -/
def Subs.toExp (leaf : C → List Val → Except Err (List Val)) : Subs C → Except Err (Subs C)
  | .nil => .ok .nil
  | .cons n d r => do
    let d' ← Dist.toExp leaf d
    let r' ← Subs.toExp leaf r
    .ok (.cons n d' r')
end

mutual
/-- `p.to_nat()` (transform/joint.py 85-88). -/
def Dist.toNat (leaf : C → List Val → Except Err (List Val)) : Dist C → Except Err (Dist C)
  | .mk c vals subs =>
    match natCls c with
    | none => .error .typeError
    | some c' =>
      if isJoint c then do
        let s ← Subs.toNat leaf subs
        .ok (.mk c' [] s)
      else do
        let v ← leaf c vals
        .ok (.mk c' v .nil)
/-- `{name: value.to_nat() for name, value in self._sub_distributions.items()}`. -/
def Subs.toNat (leaf : C → List Val → Except Err (List Val)) : Subs C → Except Err (Subs C)
  | .nil => .ok .nil
  | .cons n d r => do
    let d' ← Dist.toNat leaf d
    let r' ← Subs.toNat leaf r
    .ok (.cons n d' r')
end

/-- `JointDistribution.general_method(f, t)` (transform/joint.py 26-33): a nested dictionary with the
results of `f` for the sub-distributions that are instances of `t` (`keep`); sub-distributions that
are neither joint nor instances of `t` are left out.  `f` may change a state (the closures of
`general_sample` do) and may raise. -/
def generalMethod {S R : Type} (keep : C → Bool) (f : Dist C → S → Except Err (R × S)) :
    Subs C → S → Except Err (Forest R × S)
  | .nil, st => .ok (.nil, st)
  | .cons n (.mk c vals subs) rest, st =>
    if isJoint c then do
      let (a, st) ← generalMethod keep f subs st
      let (b, st) ← generalMethod keep f rest st
      .ok (.cons n (.node a) b, st)
    else if keep c then do
      let (a, st) ← f (.mk c vals subs) st
      let (b, st) ← generalMethod keep f rest st
      .ok (.cons n (.leaf a) b, st)
    else generalMethod keep f rest st

/-- The closure `g` of `general_sample`: count (transform/joint.py 38-40). -/
def countOne (_ : Dist C) (count : ℕ) : Except Err (Unit × ℕ) := .ok ((), count + 1)

/-- The closure `f` of `general_sample` (transform/joint.py 46-51); `keys[count]` beyond the end is an
`IndexError` (JAX would clamp the index). -/
def sampleOne {K : Type} (sample : Dist C → K → Except Err Val) (keys : List K) (x : Dist C)
    (count : ℕ) : Except Err (Val × ℕ) :=
  match keys[count]? with
  | none => .error .indexError
  | some k => do .ok (← sample x k, count + 1)

/-- `JointDistribution.general_sample(key, shape)` (transform/joint.py 35-53); `split` is
`jax.random.split`, `sample x k` is `x.sample(k, shape)`, and `samplable c` says whether the class is
a subclass of `Samplable`. -/
def generalSample {K : Type} (samplable : C → Bool) (split : K → ℕ → List K)
    (sample : Dist C → K → Except Err Val) (subs : Subs C) (key : K) : Except Err (Forest Val) := do
  let (_, count) ← generalMethod samplable countOne subs 0
  let (r, _) ← generalMethod samplable (sampleOne sample (split key count)) subs 0
  .ok r

/-- The closure `f` of `as_dict` (transform/joint.py 56-58). -/
def asDictOne (x : Dist C) (_ : Unit) : Except Err (Dist C × Unit) := .ok (x, ())

/-- `JointDistribution.as_dict()` (transform/joint.py 55-60). -/
def asDict (subs : Subs C) : Except Err (Forest (Dist C)) := do
  let (r, _) ← generalMethod (fun _ => true) asDictOne subs ()
  .ok r

end Efax
