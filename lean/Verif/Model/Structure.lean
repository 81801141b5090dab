import Verif.Model.Dist

/-!
# `Structure` and `Flattener` (`efax/_src/structure.py`), `Distribution.__getitem__`
(`efax/_src/parametrization.py` 17-21)
-/

namespace Efax

open ClassTable

variable {C : Type} [ClassTable C]

/-- `SubDistributionInfo` (structure.py 20-26). -/
structure Info (C : Type) where
  path : Path
  cls : C
  dims : ℕ
  subNames : List String

/-- `Structure._make_info` (structure.py 130-135). -/
def makeInfo (q : Dist C) (path : Path) : Except Err (Info C) := do
  let d ← dimensions q.cls q.vals
  .ok ⟨path, q.cls, d, q.subs.names⟩

mutual
/-- `Structure._walk(f, q, base_path)`: post-order traversal (structure.py 118-128), for a function
`f` that may raise. -/
def Dist.walk {T : Type} (f : Dist C → Path → Except Err T) (base : Path) :
    Dist C → Except Err (List T)
  | .mk c vals subs => do
    let a ← Subs.walk f base subs
    let b ← f (.mk c vals subs) base
    .ok (a ++ [b])
def Subs.walk {T : Type} (f : Dist C → Path → Except Err T) (base : Path) :
    Subs C → Except Err (List T)
  | .nil => .ok []
  | .cons n d rest => do
    let a ← Dist.walk f (base ++ [n]) d
    let b ← Subs.walk f base rest
    .ok (a ++ b)
end

/-- `Structure._extract_distributions(p)`, i.e. `Structure.create(p).infos` (structure.py 49-51,
114-116). -/
def infosOf (p : Dist C) : Except Err (List (Info C)) := p.walk makeInfo []

/-- The argument for the field `f`; a missing argument raises `TypeError`. -/
def argOf (kwargs : Dict String Val) (f : Field) : Except Err Val :=
  match kwargs.get? f.name with
  | some v => .ok v
  | none => .error .typeError

/-- The dataclass constructor call `type_(**kwargs)`, with `_sub_distributions` passed when the
dictionary is non-empty (structure.py 79-82, 258-261).  Missing or unexpected arguments raise
`TypeError`. -/
def construct (c : C) (kwargs : Dict String Val) (subs : Dict String (Dist C)) :
    Except Err (Dist C) :=
  if isJoint c then
    if subs.isEmpty || !kwargs.isEmpty then .error .typeError
    else .ok (.mk c [] (Subs.ofList subs))
  else if subs.isEmpty && kwargs.all (fun kv => (fields c).any (·.name == kv.1)) then do
    let vals ← (fields c).mapM (argOf kwargs)
    .ok (.mk c vals .nil)
  else .error .typeError

/-- An entry of the dictionary `constructed` in `assemble`: an array or a distribution. -/
abbrev Obj (C : Type) := Val ⊕ Dist C

/-- `constructed[*info.path, name]` used as an array.  (A distribution stored there would make the
code build an ill-typed object; modelled as an error.) -/
def getVal (con : Dict Path (Obj C)) (k : Path) : Except Err Val := do
  match ← con.get k with
  | .inl v => .ok v
  | .inr _ => .error .typeError

/-- `constructed[*info.path, name]` used as a distribution. -/
def getDist (con : Dict Path (Obj C)) (k : Path) : Except Err (Dist C) := do
  match ← con.get k with
  | .inl _ => .error .typeError
  | .inr d => .ok d

/-- The dictionary `sub_distributions` (structure.py 79-80, 256-257). -/
def gatherSubs (con : Dict Path (Obj C)) (info : Info C) : Except Err (Dict String (Dist C)) := do
  let l ← info.subNames.mapM fun n => do .ok (n, ← getDist con (info.path ++ [n]))
  .ok (Dict.ofList l)

/-- One iteration of the loop of `Structure.assemble` (structure.py 75-83). -/
def assembleStep (con : Dict Path (Obj C)) (info : Info C) : Except Err (Dict Path (Obj C)) := do
  let kw ← (supportOf info.cls none).keys.mapM fun n => do
    .ok (n, ← getVal con (info.path ++ [n]))
  let subs ← gatherSubs con info
  let d ← construct info.cls (Dict.ofList kw) subs
  .ok (con.set info.path (.inr d))

/-- `Structure.assemble` (structure.py 72-86). -/
def assemble (infos : List (Info C)) (p : Dict Path Val) : Except Err (Dist C) := do
  let con ← infos.foldlM assembleStep (p.map fun kv => (kv.1, Sum.inl kv.2))
  match ← con.get [] with
  | .inl _ => .error .assertionError
  | .inr d => .ok d

/-- `Distribution.__getitem__` with a tuple of integers (parametrization.py 17-21). -/
def Dist.getitem (p : Dist C) (key : List ℕ) : Except Err (Dist C) := do
  let ps ← (parameters p none).mapM fun kv => do .ok (kv.1, ← kv.2.index key)
  assemble (← infosOf p) ps

/-- `Distribution.__getitem__` with `k` times `newaxis` and an ellipsis (parametrization.py 17-21). -/
def Dist.expand (p : Dist C) (k : ℕ) : Except Err (Dist C) := do
  let ps ← (parameters p none).mapM fun kv => do .ok (kv.1, kv.2.expand k)
  assemble (← infosOf p) ps

/-- `Structure.to_exp` (structure.py 62-70). -/
def infosToExp (infos : List (Info C)) : Except Err (List (Info C)) :=
  infos.mapM fun i =>
    match expCls i.cls with
    | some c => .ok { i with cls := c }
    | none => .error .assertionError

/-- `Structure.to_nat` (structure.py 53-60). -/
def infosToNat (infos : List (Info C)) : Except Err (List (Info C)) :=
  infos.mapM fun i =>
    match natCls i.cls with
    | some c => .ok { i with cls := c }
    | none => .error .assertionError

/-- `zip(a, b, strict=True)`. -/
def zipStrict {A B : Type} : List A → List B → Except Err (List (A × B))
  | [], [] => .ok []
  | a :: as, b :: bs => do .ok ((a, b) :: (← zipStrict as bs))
  | _, _ => .error .valueError

/-- `Structure.reinterpret(q)` (structure.py 88-95). -/
def reinterpret (infos : List (Info C)) (q : Dist C) : Except Err (Dist C) := do
  let paths := infos.flatMap fun i => (supportOf i.cls none).keys.map fun n => i.path ++ [n]
  let z ← zipStrict paths (parameters q none).values
  assemble infos (Dict.ofList z)

/-- `Structure.domain_support` (structure.py 97-101). -/
def domainSupports (infos : List (Info C)) : Dict Path Support :=
  Dict.ofList (infos.filterMap fun i => (domainSupport i.cls).map fun s => (i.path, s))

/-! ## Flattener -/

/-- `Flattener` objects (structure.py 218-232). -/
structure Flattener (C : Type) where
  infos : List (Info C)
  fixedParameters : Dict Path Val
  mappedToPlane : Bool

/-- The loop over the variable parameters of one distribution in `Flattener.unflatten`
(structure.py 244-254): returns `regular_kwargs` and `consumed`. -/
noncomputable def unflattenFields (y : Arr ℝ) (available : ℕ) (mapped : Bool) (c : C) (dims : ℕ) :
    List String → Dict String Val → ℕ → Except Err (Dict String Val × ℕ)
  | [], kw, consumed => .ok (kw, consumed)
  | n :: ns, kw, consumed => do
    let s ← adjust c n kw
    let k := s.numElements dims
    if consumed + k > available then .error .valueError else
    let x ← s.unflattened mapped (← y.slice consumed (consumed + k)) dims
    unflattenFields y available mapped c dims ns (kw.set n x) (consumed + k)

/-- One iteration of the main loop of `Flattener.unflatten` (structure.py 243-261). -/
noncomputable def unflattenStep (fl : Flattener C) (y : Arr ℝ) (available : ℕ)
    (st : ℕ × Dict Path (Obj C)) (info : Info C) : Except Err (ℕ × Dict Path (Obj C)) := do
  let (kw, consumed) ← unflattenFields y available fl.mappedToPlane info.cls info.dims
    (supportOf info.cls (some false)).keys [] st.1
  let fx ← (supportOf info.cls (some true)).keys.mapM fun n => do
    .ok (n, ← fl.fixedParameters.get (info.path ++ [n]))
  let subs ← gatherSubs st.2 info
  let d ← construct info.cls (Dict.merge kw fx) subs
  .ok (consumed, st.2.set info.path (.inr d))

/-- `Flattener.unflatten` (structure.py 234-266). -/
noncomputable def Flattener.unflatten (fl : Flattener C) (y : Arr ℝ) : Except Err (Dist C) := do
  let available ← y.lastDim
  let (consumed, con) ← fl.infos.foldlM (unflattenStep fl y available) (0, [])
  if consumed ≠ available then .error .valueError else
  getDist con []

/-- The loop of `Flattener._make_flat` (structure.py 315-323). -/
noncomputable def makeFlatFields (mapped : Bool) (c : C) :
    List (String × Val) → Dict String Val → Except Err (List (Arr ℝ))
  | [], _ => .ok []
  | (n, v) :: rest, kw => do
    let s ← adjust c n kw
    let a ← s.flattened mapped v
    .ok (a :: (← makeFlatFields mapped c rest (kw.set n v)))

/-- `Flattener._make_flat` (structure.py 314-323). -/
noncomputable def makeFlat (mapped : Bool) (q : Dist C) (_ : Path) : Except Err (List (Arr ℝ)) :=
  makeFlatFields mapped q.cls (parametersFlat q (some false)) []

/-- `reduce(partial(jnp.append, axis=-1), arrays)`; `reduce` of an empty list raises `TypeError`
(structure.py 285). -/
def reduceAppend : List (Arr ℝ) → Except Err (Arr ℝ)
  | [] => .error .typeError
  | a :: as => as.foldlM (fun acc x => acc.append x) a

/-- `Flattener.flatten` (structure.py 268-290). -/
noncomputable def flatten (p : Dist C) (mapToPlane : Bool) :
    Except Err (Flattener C × Arr ℝ) := do
  let arrays ← p.walk (makeFlat mapToPlane) []
  let y ← reduceAppend arrays.flatten
  .ok (⟨← infosOf p, parameters p (some true), mapToPlane⟩, y)

/-- `Flattener.create_flattener(p, q_cls, mapped_to_plane=...)` (structure.py 292-312). -/
def createFlattener (p : Dist C) (qCls : C) (mapped : Bool) : Except Err (Flattener C) := do
  match p.subs with
  | .cons _ _ _ => .error .valueError
  | .nil =>
    let info ← makeInfo p []
    .ok ⟨[{ info with cls := qCls }], parameters p (some true), mapped⟩

end Efax
