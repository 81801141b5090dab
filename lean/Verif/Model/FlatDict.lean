import Verif.Model.Joint

/-!
# Distributions and observations by path (`efax/_src/iteration.py` 186-196)
-/

namespace Efax

open ClassTable

variable {C : Type} [ClassTable C]

/-- `flat_dict_of_parameters(d)` (iteration.py 186-191).  Every distribution is joint or simple, so the
assertion does not fail. -/
def flatDictOfParameters : Dist C → Except Err (Dict Path (Dist C))
  | .mk c vals subs =>
    if isJoint c then do
      .ok (flattenMapping (← asDict subs))
    else .ok [([], .mk c vals subs)]

/-- `flat_dict_of_observations(x)` (iteration.py 194-196). -/
def flatDictOfObservations {A : Type} : Tree A → Dict Path A
  | .leaf a => [([], a)]
  | .node f => flattenMapping f

/-- `flat_parameters[path].domain_support().clamp(value)` (tests/test_match_scipy.py 130); `e` is the
epsilon of the dtype. -/
noncomputable def clampAt (e : ℝ) (d : Dict Path (Dist C)) (path : Path) (v : Val) : Except Err Val := do
  let q ← d.get path
  match domainSupport q.cls with
  | some s => s.clamp e v
  | none => .error .typeError

/-- How the tests clamp an observation to the domains of the parts of a distribution
(tests/test_match_scipy.py 128-134). -/
noncomputable def clampObservation (e : ℝ) (p : Dist C) (x : Tree Val) : Except Err (Tree Val) := do
  let flat := flatDictOfObservations x
  let ps ← flatDictOfParameters p
  let clamped ← flat.mapM fun kv => do .ok (kv.1, ← clampAt e ps kv.1 kv.2)
  if (∀ k ∈ Dict.keys clamped, k = []) ∧ ([] : Path) ∈ Dict.keys clamped then do
    .ok (.leaf (← Dict.get clamped []))
  else do
    .ok (.node (← unflattenMapping clamped))

end Efax
