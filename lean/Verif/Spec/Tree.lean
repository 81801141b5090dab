import Verif.Model.Dist
import Mathlib.Data.Complex.Basic

/-!
# Specification: well-formed distribution objects and what is found where

Stated as inductive relations, without the traversals of the model.
-/

namespace Efax.Spec

open ClassTable

variable {C : Type} [ClassTable C]

mutual
/-- Well-formed objects: one value per declared parameter; joint distributions, and only they, have
sub-distributions; sub-distributions have distinct names (they are the keys of a dictionary). -/
def WF : Dist C → Prop
  | .mk c vals subs => vals.length = (fields c).length ∧ (isJoint c = true ↔ subs ≠ .nil) ∧
      subs.names.Nodup ∧ WFs subs
/-- All sub-distributions are well-formed. -/
def WFs : Subs C → Prop
  | .nil => True
  | .cons _ d rest => WF d ∧ WFs rest
end

/-- `ParamAt p k f v`: following the path `k` from `p` leads to the declared parameter `f`, whose
value is `v`. -/
inductive ParamAt : Dist C → Path → Field → Val → Prop
  | here {c : C} {vals : List Val} {subs : Subs C} {i : ℕ} {f : Field} {v : Val} :
      (fields c)[i]? = some f → vals[i]? = some v → ParamAt (.mk c vals subs) [f.name] f v
  | sub {c : C} {vals : List Val} {subs : Subs C} {n : String} {d : Dist C} {k : Path} {f : Field}
      {v : Val} :
      (n, d) ∈ subs.toList → ParamAt d k f v → ParamAt (.mk c vals subs) (n :: k) f v

/-- `SubAt p k q`: following the path `k` from `p` leads to the sub-distribution `q` (`p` itself for
the empty path). -/
inductive SubAt : Dist C → Path → Dist C → Prop
  | here (p : Dist C) : SubAt p [] p
  | sub {c : C} {vals : List Val} {subs : Subs C} {n : String} {d q : Dist C} {k : Path} :
      (n, d) ∈ subs.toList → SubAt d k q → SubAt (.mk c vals subs) (n :: k) q

mutual
/-- Same classes and same names of sub-distributions in the same order, whatever the values. -/
def SameTree : Dist C → Dist C → Prop
  | .mk c _ s, .mk c' _ s' => c = c' ∧ SameTrees s s'
/-- `SameTree` for dictionaries of sub-distributions. -/
def SameTrees : Subs C → Subs C → Prop
  | .nil, .nil => True
  | .cons n d r, .cons n' d' r' => n = n' ∧ SameTree d d' ∧ SameTrees r r'
  | _, _ => False
end

mutual
/-- Same names of sub-distributions and same number of parameters in every node, whatever the
classes. -/
def Parallel : Dist C → Dist C → Prop
  | .mk c _ s, .mk c' _ s' => (fields c).length = (fields c').length ∧ Parallels s s'
/-- `Parallel` for dictionaries of sub-distributions. -/
def Parallels : Subs C → Subs C → Prop
  | .nil, .nil => True
  | .cons n d r, .cons n' d' r' => n = n' ∧ Parallel d d' ∧ Parallels r r'
  | _, _ => False
end

mutual
/-- Same values in corresponding places, whatever the classes. -/
def SameVals : Dist C → Dist C → Prop
  | .mk _ v s, .mk _ v' s' => v = v' ∧ SameValss s s'
/-- `SameVals` for dictionaries of sub-distributions. -/
def SameValss : Subs C → Subs C → Prop
  | .nil, .nil => True
  | .cons n d r, .cons n' d' r' => n = n' ∧ SameVals d d' ∧ SameValss r r'
  | _, _ => False
end

/-- `v'` is `v[key]` for a tuple `key` of integers: same dtype, the leading axes (last in the reversed
shape) are gone, and the entries are those of `v` at `key`. -/
def IsIndexed (key : List ℕ) (v v' : Val) : Prop :=
  ∃ b, b.length = key.length ∧ inB b key.reverse = true ∧ v.rshape = v'.rshape ++ b ∧
    match v, v' with
    | .real a, .real a' => ∀ i, inB a'.rshape i = true → a'.get i = a.get (i ++ key.reverse)
    | .complex a, .complex a' => ∀ i, inB a'.rshape i = true → a'.get i = a.get (i ++ key.reverse)
    | .bool a, .bool a' => ∀ i, inB a'.rshape i = true → a'.get i = a.get (i ++ key.reverse)
    | .int a, .int a' => ∀ i, inB a'.rshape i = true → a'.get i = a.get (i ++ key.reverse)
    | _, _ => False

/-- `ax` lists the axes, numbered from 0 to `n - 1`, that the argument `axis` of a reduction means:
all axes for `None`; otherwise those of the tuple, where a number `k` may also be given as `k - n`, and
no axis occurs twice. -/
def AxesOf (n : ℕ) (axis : Option (List ℤ)) (ax : List ℕ) : Prop :=
  match axis with
  | none => ax = List.range n
  | some ks => List.Forall₂ (fun (k : ℤ) (a : ℕ) => a < n ∧ (k = a ∨ k = a - n)) ks ax ∧ ax.Nodup

/-- The members of a shape or of an index (given last axis first) whose axis is not listed, first axis
first. -/
def keptOf (ax : List ℕ) (l : List ℕ) : List ℕ :=
  (l.reverse.zipIdx.filter fun p => decide (p.2 ∉ ax)).map Prod.fst

/-- The entries `g'` (of reversed shape `rs'`) are the means of the entries `g` (of reversed shape
`rs`) over the listed axes: each is the sum of the entries of `g` at the indices that have its
coordinates, divided by their number, which is not zero. -/
def MeanOver {β : Type} [Semifield β] (ax : List ℕ) (rs rs' : List ℕ) (g g' : List ℕ → β) : Prop :=
  rs'.reverse = keptOf ax rs ∧ ∀ i, inB rs' i = true → ∃ S : Finset (List ℕ),
    (∀ j, j ∈ S ↔ inB rs j = true ∧ keptOf ax j = i.reverse) ∧ S.Nonempty ∧
      g' i = (∑ j ∈ S, g j) / (S.card : β)

/-- `v'` is the mean of `v` over the listed axes; booleans count as 0 and 1. -/
def IsMeanOver (ax : List ℕ) (v v' : Val) : Prop :=
  match v, v' with
  | .real a, .real a' => MeanOver ax a.rshape a'.rshape a.get a'.get
  | .complex a, .complex a' => MeanOver ax a.rshape a'.rshape a.get a'.get
  | .bool a, .real a' => MeanOver ax a.rshape a'.rshape (fun i => if a.get i then 1 else 0) a'.get
  | .int a, .real a' => MeanOver ax a.rshape a'.rshape (fun i => (a.get i : ℝ)) a'.get
  | _, _ => False

/-- `v'` is the mean of `v` over the axes meant by `axis`. -/
def IsMean (axis : Option (List ℤ)) (v v' : Val) : Prop :=
  ∃ ax, AxesOf v.rshape.length axis ax ∧ IsMeanOver ax v v'

end Efax.Spec
