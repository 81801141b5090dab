import Verif.Model.Err

/-!
# Nested dictionaries (`efax/_src/iteration.py` 12-36)
-/

namespace Efax

mutual
/-- An item of a nested mapping: a value that is not a `Mapping`, or a `Mapping`. -/
inductive Tree (A : Type) : Type
  | leaf (a : A) : Tree A
  | node (f : Forest A) : Tree A
/-- A dictionary with string keys, in insertion order. -/
inductive Forest (A : Type) : Type
  | nil : Forest A
  | cons (k : String) (t : Tree A) (rest : Forest A) : Forest A
end

section

variable {A : Type}

/-- The items of a nested dictionary. -/
def Forest.toList : Forest A → List (String × Tree A)
  | .nil => []
  | .cons k t r => (k, t) :: r.toList

/-- The keys of a nested dictionary. -/
def Forest.keys : Forest A → List String
  | .nil => []
  | .cons k _ r => k :: r.keys

mutual
/-- The assignments `result[path] = value` performed by `_flatten(m, prefix)`, in order
(iteration.py 16-22). -/
def Tree.leaves (pre : Path) : Tree A → List (Path × A)
  | .leaf a => [(pre, a)]
  | .node f => Forest.leaves pre f
def Forest.leaves (pre : Path) : Forest A → List (Path × A)
  | .nil => []
  | .cons k t r => Tree.leaves (pre ++ [k]) t ++ Forest.leaves pre r
end

/-- `flatten_mapping(m)` (iteration.py 12-25). -/
def flattenMapping (m : Forest A) : Dict Path A := Dict.ofList (m.leaves [])

/-- `cursor[key] = value` on a dictionary. -/
def Forest.set (k : String) (t : Tree A) : Forest A → Forest A
  | .nil => .cons k t .nil
  | .cons k' t' r => if k' = k then .cons k' t r else .cons k' t' (r.set k t)

/-- `cursor.get(key)`. -/
def Forest.get? (k : String) : Forest A → Option (Tree A)
  | .nil => none
  | .cons k' t' r => if k' = k then some t' else r.get? k

/-- One iteration of the loop of `unflatten_mapping` (iteration.py 31-35): walk down with
`setdefault(key, {})`, then assign.  The empty path has no last key (`IndexError`); walking into a
value that is not a dictionary fails (here `TypeError`: the value has no `setdefault`, or does not
support item assignment). -/
def insertPath (m : Forest A) : Path → A → Except Err (Forest A)
  | [], _ => .error .indexError
  | [k], a => .ok (m.set k (.leaf a))
  | k :: k' :: ks, a =>
    match m.get? k with
    | none => do
      let sub ← insertPath .nil (k' :: ks) a
      .ok (m.set k (.node sub))
    | some (.node f) => do
      let sub ← insertPath f (k' :: ks) a
      .ok (m.set k (.node sub))
    | some (.leaf _) => .error .typeError

/-- `unflatten_mapping(m)` (iteration.py 28-36). -/
def unflattenMapping (m : Dict Path A) : Except Err (Forest A) :=
  m.foldlM (fun f kv => insertPath f kv.1 kv.2) .nil

end

end Efax
