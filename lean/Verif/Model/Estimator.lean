import Verif.Model.Structure
import Verif.Model.Mapping

/-!
# `MaximumLikelihoodEstimator` (`efax/_src/structure.py` 138-215)
-/

namespace Efax

open ClassTable

variable {C : Type} [ClassTable C]

/-- `MaximumLikelihoodEstimator` objects (structure.py 138-144). -/
structure Estimator (C : Type) where
  infos : List (Info C)
  fixedParameters : Dict Path Val

/-- `create_simple_estimator(type_p, **fixed_parameters)` (structure.py 146-160). -/
def createSimpleEstimator (c : C) (fixed : Dict String Val) : Except Err (Estimator C) :=
  match natCls c with
  | none => .error .assertionError
  | some _ => .ok ⟨[⟨[], c, 0, []⟩], fixed.map fun kv => ([kv.1], kv.2)⟩

/-- `create_estimator(p)` (structure.py 162-169). -/
def createEstimator (p : Dist C) : Except Err (Estimator C) := do
  let infos ← infosOf p
  match natCls p.cls with
  | none => .error .assertionError
  | some _ => .ok ⟨infos, parameters p (some true)⟩

/-- `create_estimator_from_natural(p)` (structure.py 171-177). -/
def createEstimatorFromNatural (p : Dist C) : Except Err (Estimator C) := do
  let infos ← infosToExp (← infosOf p)
  .ok ⟨infos, parameters p (some true)⟩

/-- `stat nc x fixed` is `nc.sufficient_statistics(x, **fixed)`. -/
abbrev StatFn (C : Type) := C → Val → Dict String Val → Except Err (Dist C)

/-- The inner function `g` of `sufficient_statistics` (structure.py 184-196). -/
def statLeaf (stat : StatFn C) (fixedParameters : Dict Path Val) (con : Dict Path (Dist C))
    (info : Info C) (x : Val) : Except Err (Dict Path (Dist C)) :=
  if info.subNames ≠ [] then .error .assertionError else
  match natCls info.cls with
  | none => .error .assertionError
  | some nc => do
    let fx ← (supportOf nc (some true)).keys.mapM fun n => do
      .ok (n, ← fixedParameters.get (info.path ++ [n]))
    let p ← stat nc x (Dict.ofList fx)
    match natCls p.cls with
    | none => .error .assertionError
    | some _ => .ok (con.set info.path p)

/-- The inner function `h` of `sufficient_statistics` (structure.py 198-203). -/
def statJoint (con : Dict Path (Dist C)) (info : Info C) : Except Err (Dict Path (Dist C)) :=
  if isJoint info.cls && (natCls info.cls).isSome then do
    let l ← info.subNames.mapM fun n => do .ok (n, ← con.get (info.path ++ [n]))
    .ok (con.set info.path (.mk info.cls [] (Subs.ofList (Dict.ofList l))))
  else .error .assertionError

/-- One iteration of the loop of `sufficient_statistics` (structure.py 207-211). -/
def statStep (stat : StatFn C) (fixedParameters : Dict Path Val) (flatX : Dict Path Val)
    (con : Dict Path (Dist C)) (info : Info C) : Except Err (Dict Path (Dist C)) :=
  match flatX.get? info.path with
  | some x => statLeaf stat fixedParameters con info x
  | none => statJoint con info

/-- `MaximumLikelihoodEstimator.sufficient_statistics(x)` (structure.py 179-215); the observation is
an array (`Tree.leaf`) or a nested dictionary of arrays (`Tree.node`). -/
def Estimator.sufficientStatistics (est : Estimator C) (stat : StatFn C) :
    Tree Val → Except Err (Dist C)
  | .node x => do
    let con ← est.infos.foldlM (statStep stat est.fixedParameters (flattenMapping x)) []
    con.get []
  | .leaf x =>
    match est.infos with
    | [info] => do
      let con ← statLeaf stat est.fixedParameters [] info x
      con.get []
    | _ => .error .valueError

end Efax
