import Verif.Model.Support

/-!
# Distribution objects and their traversal

`efax/_src/parametrization.py`, `efax/_src/iteration.py`, and the part of
`efax/_src/transform/joint.py` that defines the tree of sub-distributions.

Everything is generic over a table of classes; `Verif/Model/Classes.lean` gives the table of the
classes that exist in efax.
-/

namespace Efax

/-- A dataclass field declared with `distribution_parameter(support, fixed=...)`
(parameter.py 463-469). -/
structure Field where
  name : String
  support : Support
  fixed : Bool

/-- What the structural code uses of a distribution class. -/
class ClassTable (C : Type) where
  /-- `fields(cls)`, restricted to the fields that are parameters, in declaration order -/
  fields : C → List Field
  /-- subclass of `JointDistribution` -/
  isJoint : C → Bool
  /-- `cls.adjust_support(name, **kwargs)` -/
  adjust : C → String → Dict String Val → Except Err Support
  /-- `q.dimensions() if isinstance(q, Multidimensional) else 1` as a function of the field values -/
  dimensions : C → List Val → Except Err ℕ
  /-- `cls.domain_support()`; `none` for joint classes, which are not `SimpleDistribution`s -/
  domainSupport : C → Option Support
  /-- `cls.expectation_parametrization_cls()`; `none` unless a `NaturalParametrization` -/
  expCls : C → Option C
  /-- `cls.natural_parametrization_cls()`; `none` unless an `ExpectationParametrization` -/
  natCls : C → Option C
  /-- dataclass field names are distinct -/
  names_nodup : ∀ c, ((fields c).map Field.name).Nodup
  /-- joint classes have no parameters of their own -/
  joint_fields : ∀ c, isJoint c = true → fields c = []
  /-- every simple class has a parameter that is not fixed -/
  has_variable : ∀ c, isJoint c = false → ∃ f ∈ fields c, f.fixed = false

mutual
/-- A distribution object: its class, the values of its parameters (aligned with
`ClassTable.fields`), and the dictionary `sub_distributions()` in insertion order. -/
inductive Dist (C : Type) : Type
  | mk (cls : C) (vals : List Val) (subs : Subs C) : Dist C
/-- The dictionary of sub-distributions. -/
inductive Subs (C : Type) : Type
  | nil : Subs C
  | cons (name : String) (d : Dist C) (rest : Subs C) : Subs C
end

namespace Subs

variable {C : Type}

/-- The items of the dictionary. -/
def toList : Subs C → List (String × Dist C)
  | nil => []
  | cons n d r => (n, d) :: r.toList

/-- The dictionary with the given items (already free of duplicate keys). -/
def ofList : List (String × Dist C) → Subs C
  | [] => nil
  | (n, d) :: r => cons n d (ofList r)

/-- `list(q.sub_distributions())`. -/
def names : Subs C → List String
  | nil => []
  | cons n _ r => n :: r.names

end Subs

section

variable {C : Type} [ClassTable C]

open ClassTable

/-- `type(q)`. -/
def Dist.cls : Dist C → C
  | .mk c _ _ => c

/-- The parameter values of `q` itself. -/
def Dist.vals : Dist C → List Val
  | .mk _ v _ => v

/-- `q.sub_distributions()` (parametrization.py 49-50, transform/joint.py 22-24). -/
def Dist.subs : Dist C → Subs C
  | .mk _ _ s => s

/-- The test `fixed is not None and is_fixed != fixed: continue` (iteration.py 134-135). -/
def keep (fixed : Option Bool) (f : Field) : Bool := fixed.all (· == f.fixed)

/-- `support(cls, fixed=fixed)` (iteration.py 151-183). -/
def supportOf (c : C) (fixed : Option Bool) : Dict String Support :=
  Dict.ofList (((fields c).filter (keep fixed)).map fun f => (f.name, f.support))

/-- The non-recursive part of `_parameters`: one node (iteration.py 125-142). -/
def nodeParams (fixed : Option Bool) (c : C) (vals : List Val) :
    List (String × Val × Support) :=
  (((fields c).zip vals).filter fun fv => keep fixed fv.1).map
    fun fv => (fv.1.name, fv.2, fv.1.support)

mutual
/-- `_parameters(q, base_path)` with `recurse=True`: this node's parameters, then those of the
sub-distributions in order (iteration.py 122-145). -/
def Dist.paramList (fixed : Option Bool) (base : Path) : Dist C → List (Path × Val × Support)
  | .mk c vals subs =>
    ((nodeParams fixed c vals).map fun nv => (base ++ [nv.1], nv.2)) ++
      Subs.paramList fixed base subs
def Subs.paramList (fixed : Option Bool) (base : Path) : Subs C → List (Path × Val × Support)
  | .nil => []
  | .cons n d rest => Dist.paramList fixed (base ++ [n]) d ++ Subs.paramList fixed base rest
end

/-- `parameters(p, fixed=fixed, support=True)` (iteration.py 104-147). -/
def parametersS (p : Dist C) (fixed : Option Bool) : Dict Path (Val × Support) :=
  Dict.ofList (p.paramList fixed [])

/-- `parameters(p, fixed=fixed)` (iteration.py 104-148). -/
def parameters (p : Dist C) (fixed : Option Bool) : Dict Path Val :=
  Dict.ofList ((p.paramList fixed []).map fun kv => (kv.1, kv.2.1))

/-- `parameters(p, fixed=fixed, recurse=False)` (iteration.py 136, 141-142, 148). -/
def parametersFlat (p : Dist C) (fixed : Option Bool) : Dict String Val :=
  Dict.ofList ((nodeParams fixed p.cls p.vals).map fun kv => (kv.1, kv.2.1))

end

end Efax
