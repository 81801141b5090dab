import Verif.Model.Methods.Table
import Verif.Model.Vjp

/-!
# The example `examples/optimization.py`

Numbers are real numbers; `jit` is not modelled.
-/

namespace Efax

open Calc

variable {C : Type} [ClassTable C]

/-- `jnp.sum(a)`: the sum over all entries. -/
noncomputable def sumAll (x : Calc ℝ) : Except Err ℝ := do
  let a ← x.run
  .ok (sumBox a.rshape a.get)

/-- `cross_entropy_loss(p, q)` (examples/optimization.py 10-11). -/
noncomputable def crossEntropyLoss (L : Library C) (p q : Dist C) : Except Err ℝ :=
  sumAll (p.crossEntropy L q)

/-- A loss that may raise, as a number. -/
noncomputable def lossValue : Except Err ℝ → ℝ
  | .ok x => x
  | .error _ => 0

/-- `gce = jit(grad(cross_entropy_loss, 1))` (examples/optimization.py 14): the derivatives of the loss
with respect to every entry of every parameter of `q`, as a distribution of the class of `q`.  It raises
if the loss does. -/
noncomputable def gce (L : Library C) (p q : Dist C) : Except Err (Dist C) := do
  let _ ← crossEntropyLoss L p q
  .ok (q.cotangent fun path k i z =>
    deriv (fun t : ℝ => lossValue (crossEntropyLoss L p (q.nudge k i (t * z) path))) 0)

/-- `apply(x, x_bar)` (examples/optimization.py 17-18). -/
noncomputable def applyStep : List Val → Except Err Val
  | [.real x, .real xBar] => Val.ofR (ok x - const 1e-4 * ok xBar)
  | _ => .error .typeError

/-- `body_fun(q)` (examples/optimization.py 21-23). -/
noncomputable def bodyFun (L : Library C) (someP q : Dist C) : Except Err (Dist C) := do
  let qBar ← gce L someP q
  paramMap applyStep q [qBar]

open Classical in
/-- `cond_fun(q)` (examples/optimization.py 26-29). -/
noncomputable def condFun (L : Library C) (someP q : Dist C) : Except Err Bool := do
  let qBar ← gce L someP q
  let total ← sumAll (dotCalc qBar qBar)
  .ok (decide (1e-6 < total))

/-- `lax.while_loop(cond_fun, body_fun, init)` ends with `r` after `n` steps. -/
inductive WhileLoop {σ : Type} (cond : σ → Except Err Bool) (body : σ → Except Err σ) :
    σ → ℕ → σ → Prop
  | stop {s} : cond s = .ok false → WhileLoop cond body s 0 s
  | step {s s' r n} : cond s = .ok true → body s = .ok s' → WhileLoop cond body s' n r →
      WhileLoop cond body s (n + 1) r

end Efax
