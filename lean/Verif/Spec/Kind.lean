import Verif.Spec.Refines
import Verif.Spec.Dot
import Verif.Spec.Stat
import Verif.Model.Methods.Tree
import Verif.Props.Mappings

/-!
# Specification: what a batch of simple or joint distributions means

A `Kind` says which distribution objects represent a batch of distributions, and which exponential
family each entry of the batch belongs to.  The family of a joint distribution is the product of the
families of its parts.
-/

namespace Efax.Spec

open ClassTable Calc

variable {C : Type} [ClassTable C]

/-- Objects that represent a batch of distributions of one family.

* `P` holds the fixed parameters of one distribution, `N` and `E` its natural and expectation
  parameters, `X` an observation;
* `nat rs p q` and `exp rs p χ` are the objects that hold the batch of shape `rs` (last axis first)
  with these parameters;
* `obs rs x t`: the (nested) observation `t` holds the observations `x`;
* `F p` is the family for the fixed parameters `p`;
* `dom`: parameters for which `to_exp()` is claimed;
* `toNat p` is the conversion to natural parameters, claimed where `domE` holds;
* `ecm p` is the expected carrier measure; `ent`: the objects have this method. -/
structure Kind (C : Type) where
  P : Type
  N : Type
  E : Type
  X : Type
  sub : Sub N
  nat : List ℕ → (List ℕ → P) → (List ℕ → N) → Dist C
  exp : List ℕ → (List ℕ → P) → (List ℕ → E) → Dist C
  obs : List ℕ → (List ℕ → X) → Tree Val → Prop
  F : P → ExpFam N E X
  dom : P → N → Prop
  toNat : P → E → N
  domE : P → E → Prop
  ecm : P → E → ℝ
  ent : Prop

instance (K : Kind C) : Sub K.N := K.sub

/-- `Kind` for the parts of a joint distribution. -/
structure Parts (C : Type) where
  P : Type
  N : Type
  E : Type
  X : Type
  sub : Sub N
  nat : List ℕ → (List ℕ → P) → (List ℕ → N) → Subs C
  exp : List ℕ → (List ℕ → P) → (List ℕ → E) → Subs C
  obs : List ℕ → (List ℕ → X) → Forest Val → Prop
  F : P → ExpFam N E X
  dom : P → N → Prop
  toNat : P → E → N
  domE : P → E → Prop
  ecm : P → E → ℝ
  ent : Prop
  names : List String

instance (K : Parts C) : Sub K.N := K.sub

/-- The family with one observation and one parameter. -/
def unitFam : ExpFam Unit Unit Unit where
  dot _ _ := 0
  logNormalizer _ := 0
  toExp _ := ()
  stat _ := ()
  carrier _ := 0

/-- The product of two families: independent observations. -/
def prodFam {N N' E E' X X' : Type} (F : ExpFam N E X) (G : ExpFam N' E' X') :
    ExpFam (N × N') (E × E') (X × X') where
  dot q χ := F.dot q.1 χ.1 + G.dot q.2 χ.2
  logNormalizer q := F.logNormalizer q.1 + G.logNormalizer q.2
  toExp q := (F.toExp q.1, G.toExp q.2)
  stat x := (F.stat x.1, G.stat x.2)
  carrier x := F.carrier x.1 + G.carrier x.2

/-- No parts. -/
def Parts.nil : Parts C where
  P := Unit
  N := Unit
  E := Unit
  X := Unit
  sub := ⟨fun _ _ => ()⟩
  nat _ _ _ := .nil
  exp _ _ _ := .nil
  obs _ _ _ := True
  F _ := unitFam
  dom _ _ := True
  toNat _ _ := ()
  domE _ _ := True
  ecm _ _ := 0
  ent := True
  names := []

/-- A part called `n` and further parts.  The observation is a dictionary with an item for each part. -/
def Parts.cons (n : String) (K : Kind C) (R : Parts C) : Parts C where
  P := K.P × R.P
  N := K.N × R.N
  E := K.E × R.E
  X := K.X × R.X
  sub := ⟨fun a b => (a.1 - b.1, a.2 - b.2)⟩
  nat rs p q := .cons n (K.nat rs (fun i => (p i).1) fun i => (q i).1)
    (R.nat rs (fun i => (p i).2) fun i => (q i).2)
  exp rs p χ := .cons n (K.exp rs (fun i => (p i).1) fun i => (χ i).1)
    (R.exp rs (fun i => (p i).2) fun i => (χ i).2)
  obs rs x f := (∃ t, (n, t) ∈ f.toList ∧ K.obs rs (fun i => (x i).1) t) ∧ R.obs rs (fun i => (x i).2) f
  F p := prodFam (K.F p.1) (R.F p.2)
  dom p q := K.dom p.1 q.1 ∧ R.dom p.2 q.2
  toNat p χ := (K.toNat p.1 χ.1, R.toNat p.2 χ.2)
  domE p χ := K.domE p.1 χ.1 ∧ R.domE p.2 χ.2
  ecm p χ := K.ecm p.1 χ.1 + R.ecm p.2 χ.2
  ent := K.ent ∧ R.ent
  names := n :: R.names

/-- Parts with these names. -/
def Parts.ofList : List (String × Kind C) → Parts C
  | [] => .nil
  | nk :: l => .cons nk.1 nk.2 (ofList l)

/-- The joint distribution of these parts; `c` and `c'` are the natural and the expectation class of
joint distributions. -/
def Kind.joint (c c' : C) (R : Parts C) : Kind C where
  P := R.P
  N := R.N
  E := R.E
  X := R.X
  sub := R.sub
  nat rs p q := .mk c [] (R.nat rs p q)
  exp rs p χ := .mk c' [] (R.exp rs p χ)
  obs rs x t := ∃ f, t = .node f ∧ f.keys.Nodup ∧ R.obs rs x f ∧ ∀ n ∈ f.keys, n ∈ R.names
  F := R.F
  dom := R.dom
  toNat := R.toNat
  domE := R.domE
  ecm := R.ecm
  ent := R.ent

/-- A simple distribution of class `c` (expectation class `c'`) whose parameters are stored by `nat`
and `exp`. -/
def Kind.simple {P N E X : Type} [Sub N] (c c' : C) (nat : Layout P N) (exp : Layout P E)
    (obs : List ℕ → (List ℕ → X) → Val → Prop) (F : P → ExpFam N E X) (toNat : P → E → N)
    (ecm : P → E → ℝ) (ent : Prop := True) (dom : P → N → Prop := fun _ _ => True)
    (domE : P → E → Prop := fun _ _ => True) : Kind C where
  P := P
  N := N
  E := E
  X := X
  sub := inferInstance
  nat rs p q := .mk c (nat rs p q) .nil
  exp rs p χ := .mk c' (exp rs p χ) .nil
  obs rs x t := ∃ v, t = .leaf v ∧ obs rs x v
  F := F
  dom := dom
  toNat := toNat
  domE := domE
  ecm := ecm
  ent := ent

mutual
/-- Same objects up to the dtype: the values are equal as complex numbers. -/
def SameC : Dist C → Dist C → Prop
  | .mk c v s, .mk c' v' s' => c = c' ∧ v.map Val.toC = v'.map Val.toC ∧ SameCs s s'
/-- `SameC` for all sub-distributions. -/
def SameCs : Subs C → Subs C → Prop
  | .nil, .nil => True
  | .cons n d r, .cons n' d' r' => n = n' ∧ SameC d d' ∧ SameCs r r'
  | _, _ => False
end

/-- Both real or both complex, of the same shape. -/
def SameDtype : Val → Val → Prop
  | .real a, .real b => a.rshape = b.rshape
  | .complex a, .complex b => a.rshape = b.rshape
  | _, _ => False

/-- The objects of a kind are well-formed, the primitive methods of the library act on them entry by
entry as those of the family, and the dot product of the objects is the family's. -/
structure Kind.Ok (L : Library C) (K : Kind C) : Prop where
  wfN : ∀ rs p q, WF (K.nat rs p q)
  wfE : ∀ rs p χ, WF (K.exp rs p χ)
  infos : ∀ rs p q base, ∃ l, (K.nat rs p q).walk makeInfo base = .ok l ∧
    ∀ i ∈ l, (expCls i.cls).isSome
  shapeN : ∀ rs p q, (K.nat rs p q).shape L = .ok rs
  shapeE : ∀ rs p χ, (K.exp rs p χ).shape L = .ok rs
  logNormalizer : ∀ rs p q, (K.nat rs p q).logNormalizer L =
    ok (scalars rs fun i => (K.F (p i)).logNormalizer (q i))
  toExp : ∀ rs p q, (∀ i, inB rs i = true → K.dom (p i) (q i)) →
    (K.nat rs p q).toExp L.toExp = .ok (K.exp rs p fun i => (K.F (p i)).toExp (q i))
  toNat : ∀ rs p χ, (∀ i, inB rs i = true → K.domE (p i) (χ i)) →
    (K.exp rs p χ).toNat L.toNat = .ok (K.nat rs p fun i => K.toNat (p i) (χ i))
  entropic : K.ent → ∀ rs p χ,
    isJoint (K.exp rs p χ).cls = true ∨ L.hasEntropy (K.exp rs p χ).cls = true
  ecm : K.ent → ∀ rs p χ, (K.exp rs p χ).ecm L = ok (scalars rs fun i => K.ecm (p i) (χ i))
  carrier : ∀ rs p q x t, K.obs rs x t → (K.nat rs p q).carrier L t =
    ok (scalars rs fun i => (K.F (p i)).carrier (x i))
  distinct : ∀ rs x t, K.obs rs x t → Tree.Distinct t
  stat : ∀ rs p q x t, K.obs rs x t → ∃ w, StatTree expCls L.stat (K.nat rs p q) t w ∧
    SameC w (K.exp rs p fun i => (K.F (p i)).stat (x i))
  dotMatch : ∀ rs p q p' χ, DotMatch rs (K.nat rs p q) (K.exp rs p' χ)
  dot : ∀ rs p q p' χ i, inB rs i = true →
    treeDot (K.nat rs p q) (K.exp rs p' χ) i = (K.F (p i)).dot (q i) (χ i)
  same : ∀ rs p q p' q', SameTree (K.nat rs p q) (K.nat rs p' q') ∧ ∀ k f v w, f.fixed = false →
    ParamAt (K.nat rs p q) k f v → ParamAt (K.nat rs p' q') k f w → SameDtype v w
  dot_sub : ∀ p a b χ, (K.F p).dot (a - b) χ = (K.F p).dot a χ - (K.F p).dot b χ

end Efax.Spec
