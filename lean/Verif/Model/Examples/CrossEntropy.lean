import Verif.Model.Methods.Table

/-!
# The example `examples/cross_entropy.py`

Numbers are real numbers; the two `print` statements return what is printed.
-/

namespace Efax

open Calc

variable [MachEps]

/-- `jnp.asarray([x, y, z])`. -/
def asarray3 (x y z : ℝ) : Arr ℝ := Arr.ofFn [3] fun i => ([x, y, z] : List ℝ).getD i.sum 0

/-- The whole example (examples/cross_entropy.py 7-24). -/
noncomputable def crossEntropyExample (L : Library Cls) : Except Err (Arr ℝ × Arr ℝ) := do
  let p : Dist Cls := .mk .bernoulliEP [.real (asarray3 0.4 0.5 0.6)] .nil
  let q : Dist Cls := .mk .bernoulliNP [.real (Arr.ofFn [3] fun _ => 0)] .nil
  let first ← (p.crossEntropy L q).run
  let v ← Val.ofR (const 0.3 * ok (Arr.ofFn [3] fun _ => 1))
  let p2 : Dist Cls := .mk .bernoulliEP [v] .nil
  let q2 ← p2.toNat L.toNat
  let second ← (p.crossEntropy L q2).run
  .ok (first, second)

end Efax
