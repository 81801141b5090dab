import Verif.Model.Tests.Bodies
import Verif.Model.Fisher
import Verif.Model.Vjp

/-!
# The test of the gradients of entropies of natural parameters (`tests/test_entropy_gradient.py` 1-51)
-/

namespace Efax.Tests

variable {C : Type} [ClassTable C]

/-- `sum_entropy(flattened, flattener)` (test_entropy_gradient.py 21-23) for natural parameters. -/
noncomputable def sumEntropy (L : Library C) (fl : Flattener C) (y : Arr ℝ) : Except Err ℝ := do
  let x ← fl.unflatten y
  let e ← x.entropyN L
  .ok (sumBox e.rshape e.get)

/-- The array `y + t v`. -/
def movedBy (y v : Arr ℝ) (t : ℝ) : Arr ℝ := Arr.ofFn y.rshape fun i => y.get i + t * v.get i

/-- The central difference of `check_grads` of JAX: `(f(y + ε v) - f(y - ε v)) / (2 ε)`. -/
noncomputable def numericalDerivative (f : Arr ℝ → Except Err ℝ) (y v : Arr ℝ) (ε : ℝ) : Except Err ℝ := do
  let a ← f (movedBy y v ε)
  let b ← f (movedBy y v (-ε))
  .ok ((a - b) / (2 * ε))

/-- `check_entropy_gradient(distribution)` (test_entropy_gradient.py 30-41), for the function `f` that is
differentiated, which takes a flattener and an array, and the derivative `D` of it in a direction that automatic
differentiation computes.

Simplifications: the gradient is finite (31-39).  `check_grads`, which belongs to JAX, compares the derivative in
a random direction `v` with the central difference for a step of `ε` (`ε` is 0.0001 if it is not passed), with the
absolute tolerance 0.0001 and the relative tolerance 0.01 of line 41.  It does so for forward-mode
differentiation, and again, paired with a random number, for reverse-mode differentiation; these compute the
same derivative.  `check_grads` also moves the fixed parameters that the flattener holds; here they stay. -/
noncomputable def checkEntropyGradient (f : Flattener C → Arr ℝ → Except Err ℝ)
    (D : Flattener C → Arr ℝ → Arr ℝ → ℝ) (ε : ℝ) (p : Dist C) (v : Arr ℝ) : Except Err Unit := do
  let (fl, y) ← flatten p false
  let _ ← f fl y
  let numerical ← numericalDerivative (f fl) y v ε
  check (|D fl y v - numerical| ≤ 1e-4 + 1e-2 * |numerical|)

/-- Automatic differentiation of `f` in a direction, modelled by the mathematical derivative. -/
noncomputable def derivativeAlong (f : Flattener C → Arr ℝ → Except Err ℝ) (fl : Flattener C) (y v : Arr ℝ) : ℝ :=
  deriv (fun t => match f fl (movedBy y v t) with
    | .ok a => a
    | .error _ => 0) 0

end Efax.Tests
