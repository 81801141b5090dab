import Verif.Spec.Fits
import Verif.Spec.Tree

/-!
# Specification of flattening: admissible distributions, their size, and lawful class tables
-/

namespace Efax.Spec

open ClassTable

variable {C : Type} [ClassTable C]

/-- The declared parameters that are not fixed. -/
def varFields (c : C) : List Field := (fields c).filter fun f => !f.fixed

/-- The declared variable parameters of a node with their values. -/
def varPairs (c : C) (vals : List Val) : List (Field × Val) :=
  ((fields c).zip vals).filter fun fv => !fv.1.fixed

/-- `R s v` holds for every variable parameter `v` of a node, where `s` is the support that the
class declares for it given the values of the preceding variable parameters (`adjust_support`). -/
def EachField (R : Support → Val → Prop) (c : C) : List (Field × Val) → Dict String Val → Prop
  | [], _ => True
  | (f, v) :: rest, kw => (∃ s, adjust c f.name kw = .ok s ∧ R s v) ∧
      EachField R c rest (kw ++ [(f.name, v)])

mutual
/-- Every variable parameter of every sub-distribution is related by `R` (which also receives the
dimension of the sub-distribution) to its support. -/
def EachParam (R : ℕ → Support → Val → Prop) : Dist C → Prop
  | .mk c vals subs => (∃ d, dimensions c vals = .ok d ∧ EachField (R d) c (varPairs c vals) []) ∧
      EachParams R subs
/-- `EachParam` for all sub-distributions. -/
def EachParams (R : ℕ → Support → Val → Prop) : Subs C → Prop
  | .nil => True
  | .cons _ d rest => EachParam R d ∧ EachParams R rest
end

/-- All variable parameters have batch shape `batch` and are admissible for their supports
(if `mapped`, strictly inside the bounds). -/
def FitsAll (mapped : Bool) (batch : List ℕ) (p : Dist C) : Prop :=
  EachParam (fun d s v => Fits s mapped d batch v) p

/-- `FitsAll` without the symmetry of matrices. -/
def LiesAll (mapped : Bool) (batch : List ℕ) (p : Dist C) : Prop :=
  EachParam (fun d s v => Lies s mapped d batch v) p

mutual
/-- The number of real coordinates of a distribution: the sum over the variable parameters of the
size of their declared supports. -/
def flatSize : Dist C → ℕ
  | .mk c vals subs =>
    let d := match dimensions c vals with | .ok d => d | .error _ => 0
    flatSizes subs + ((varFields c).map fun f => coords f.support d).sum
/-- The number of real coordinates of all sub-distributions. -/
def flatSizes : Subs C → ℕ
  | .nil => 0
  | .cons _ d rest => flatSize d + flatSizes rest
end

/-- Supports whose plane map is undefined at the origin: complex rings and disks. -/
def Singular : Support → Prop
  | .circular _ => True
  | s => match s.ring with
    | .complex _ _ => True
    | _ => False

mutual
/-- Some variable parameter of the tree has a singular support. -/
def HasSingular : Dist C → Prop
  | .mk c _ subs => (∃ f ∈ varFields c, Singular f.support) ∨ HasSingulars subs
/-- `HasSingular` for some sub-distribution. -/
def HasSingulars : Subs C → Prop
  | .nil => False
  | .cons _ d rest => HasSingular d ∨ HasSingulars rest
end

mutual
/-- Every variable parameter is related by `R` (which also receives the dimension of the
sub-distribution) to the support with which it is declared. -/
def EachDeclared (R : ℕ → Support → Val → Prop) : Dist C → Prop
  | .mk c vals subs => (∃ d, dimensions c vals = .ok d ∧
      ∀ fv ∈ varPairs c vals, R d fv.1.support fv.2) ∧ EachDeclareds R subs
/-- `EachDeclared` for all sub-distributions. -/
def EachDeclareds (R : ℕ → Support → Val → Prop) : Subs C → Prop
  | .nil => True
  | .cons _ d rest => EachDeclared R d ∧ EachDeclareds R rest
end

/-- What is required of a table of classes beyond the dataclass rules.  The table of efax satisfies
it (`Verif/Lemmas/Classes.lean`). -/
class LawfulTable (C : Type) [ClassTable C] : Prop where
  /-- an adjusted support has the shape and size of the declared one -/
  adjust_size : ∀ (c : C) (f : Field) (kw : Dict String Val) (s : Support), f ∈ fields c →
    adjust c f.name kw = .ok s → ∀ d, coords s d = coords f.support d ∧
      s.rshape d = f.support.rshape d
  /-- given values of the preceding variable parameters, the adjusted support exists, its bounds are
  usable, and its elements lie in the declared support -/
  adjust_ok : ∀ (c : C) (pre : List Field) (f : Field) (post : List Field),
    varFields c = pre ++ f :: post → ∀ (mapped : Bool) (d : ℕ) (batch : List ℕ) (vs : List Val),
    List.Forall₂ (fun g v => Lies g.support mapped d batch v) pre vs →
    ∃ s, adjust c f.name ((pre.map Field.name).zip vs) = .ok s ∧ SupOk s mapped batch ∧
      (∀ v, Lies s mapped d batch v → Lies f.support mapped d batch v) ∧
      (∀ v, Fits f.support false d batch v → Fits s false d batch v) ∧
      (Singular s → Singular f.support)
  /-- the dimension is determined by the shape of the variable parameters -/
  dims_stable : ∀ (c : C) (d : ℕ) (batch : List ℕ) (vals vals' : List Val),
    dimensions c vals = .ok d → vals'.length = (fields c).length →
    (∀ fv ∈ varPairs c vals', fv.2.rshape = fv.1.support.rshape d ++ batch) →
    dimensions c vals' = .ok d

end Efax.Spec
