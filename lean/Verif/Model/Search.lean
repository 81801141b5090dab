import Verif.Model.Tools

/-!
# The default search of `ExpToNat` on whole (batched) distributions
(`efax/_src/mixins/exp_to_nat/exp_to_nat.py`)
-/

namespace Efax

open ClassTable

variable {C : Type} [ClassTable C]

/-- `jnp.subtract` of two arrays of the same shape (different shapes are an error here). -/
noncomputable def subArr (a b : Arr ℝ) : Except Err (Arr ℝ) :=
  if a.rshape = b.rshape then .ok (Arr.ofFn a.rshape fun i => a.get i - b.get i)
  else .error .valueError

/-- `ExpToNat.search_to_natural` (exp_to_nat.py 69-80). -/
noncomputable def Dist.searchToNatural (p : Dist C) (s : Arr ℝ) : Except Err (Dist C) :=
  match natCls p.cls with
  | none => .error .typeError
  | some c => do
    let fl ← createFlattener p c true
    fl.unflatten s

/-- `ExpToNat.search_gradient` (exp_to_nat.py 82-96); `toExp` is the `to_exp` of the natural class. -/
noncomputable def Dist.searchGradient (toExp : Dist C → Except Err (Dist C)) (p : Dist C)
    (s : Arr ℝ) : Except Err (Arr ℝ) := do
  let n ← p.searchToNatural s
  let e ← toExp n
  let (_, selfFlat) ← flatten p false
  let (_, searchFlat) ← flatten e false
  subArr searchFlat selfFlat

end Efax
