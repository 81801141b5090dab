import Mathlib.Analysis.Calculus.IteratedDeriv.Defs
import Verif.Model.Sampling.Samplers
import Verif.Model.Tests.Bodies8

/-!
# The test of the derivatives of samples (`tests/test_hessian.py`)
-/

namespace Efax.Tests

variable [MachEps] (search : Cls → List Val → Except Err (List Val)) {K : Type} (rng : Random K)

/-- `sample_using_flattened(flattened_parameters, flattener, key)` (test_hessian.py 17-33), for a simple
distribution; conftest.py 103-104 excludes joint distributions. -/
noncomputable def sampleUsingFlattened (fl : Flattener Cls) (key : K) (y : Arr ℝ) : Except Err (Arr ℝ) := do
  let p ← fl.unflatten y
  let ordinary_sample ← p.sample search rng none key
  match Cls.domainSupport p.cls with
  | some support => support.flattened false ordinary_sample
  | none => .error .typeError

/-- The direction of the parameter `j` in a flat vector of the shape of `y`. -/
def unitAt (y : Arr ℝ) (j : ℕ) : Arr ℝ := Arr.ofFn y.rshape fun i => if i = [j] then 1 else 0

/-- The entry `k` of a vector that may have raised. -/
def entryOf (x : Except Err (Arr ℝ)) (k : ℕ) : ℝ :=
  match x with
  | .ok a => a.get [k]
  | .error _ => 0

/-- One distribution of `calculate_jacobian` for `order = 1` (test_hessian.py 36-44), and of `calculate_curvature`
for `order = 2` (47-63): the derivatives of the entries of the sample with respect to the parameter `j` of the flat
vector (on the plane, the default of `Flattener.flatten`), summed over the entries.  Automatic differentiation is
the mathematical derivative. -/
noncomputable def sampleDerivative (order j : ℕ) (p : Dist Cls) (key : K) : Except Err ℝ := do
  let (fl, y) ← flatten p true
  let s ← sampleUsingFlattened search rng fl key y
  .ok (∑ k ∈ Finset.range (s.rshape.headD 0), iteratedDeriv order
    (fun t => entryOf (sampleUsingFlattened search rng fl key (movedBy y (unitAt y j) t)) k) 0)

/-- `calculate_jacobian` and `calculate_curvature` for the batch (test_hessian.py 36-63): the sum over the
distributions.  `vmap` gives every distribution its own key; here these are pairs. -/
noncomputable def sampleDerivatives (order j : ℕ) (ps : List (Dist Cls × K)) : Except Err ℝ := do
  let ds ← ps.mapM fun pk => sampleDerivative search rng order j pk.1 pk.2
  .ok ds.sum

/-- `test_sampling_cotangents` (test_hessian.py 66-84) for the distributions of the batch with the keys that
`split` makes.  The shapes of the two results agree (83) since both have one entry for each parameter. -/
noncomputable def testSamplingCotangents (ps : List (Dist Cls × K)) : Except Err Unit :=
  match ps with
  | [] => .ok ()
  | (p, _) :: _ => do
    let (_, y) ← flatten p true
    (List.range (y.rshape.headD 0)).forM fun j => do
      let jacobian ← sampleDerivatives search rng 1 j ps
      let curvature ← sampleDerivatives search rng 2 j ps
      check (jacobian ≠ 0 ∨ curvature ≠ 0)

end Efax.Tests
