import Verif.Model.Tests.Bodies8
import Verif.Model.Methods.Tree

/-!
# The tests of the gradients of entropies of expectation parameters (`tests/test_entropy_gradient.py` 53-80)
-/

namespace Efax.Tests

variable {C : Type} [ClassTable C]

/-- `sum_entropy(flattened, flattener)` (test_entropy_gradient.py 21-23) for expectation parameters. -/
noncomputable def sumEntropyE (L : Library C) (fl : Flattener C) (y : Arr ℝ) : Except Err ℝ := do
  let x ← fl.unflatten y
  let e ← x.entropyE L
  .ok (sumBox e.rshape e.get)

/-- The function whose derivative at `y = y₀` automatic differentiation computes for `sum_entropy`
(test_entropy_gradient.py 21-23): in `entropy()` (mixins/has_entropy.py 49-56), `lax.stop_gradient` makes the
natural parameters constants. -/
noncomputable def frozenEntropy (L : Library C) (fl : Flattener C) (y₀ y : Arr ℝ) : Except Err ℝ := do
  let x ← fl.unflatten y
  let x₀ ← fl.unflatten y₀
  let q ← x₀.toNat L.toNat
  let e ← x.crossEntropy L q
  .ok (sumBox e.rshape e.get)

/-- What automatic differentiation of `sum_entropy` computes in the direction `v`. -/
noncomputable def frozenDerivative (L : Library C) (fl : Flattener C) (y v : Arr ℝ) : ℝ :=
  derivativeAlong (fun fl => frozenEntropy L fl y) fl y v

/-- `test_exp_entropy_gradient` (test_entropy_gradient.py 53-60) for the generated distribution `p`, the direction
`v` and the step `ε` of the central difference (see `checkEntropyGradient`). -/
noncomputable def testExpEntropyGradient (L : Library C) (ε : ℝ) (p : Dist C) (v : Arr ℝ) : Except Err Unit :=
  checkEntropyGradient (sumEntropyE L) (frozenDerivative L) ε p v

/-- The function `g` of `test_gamma_vp_entropy_gradient` (test_entropy_gradient.py 68-71).  The result is a number
since the distribution has the shape `()`. -/
noncomputable def entropyThroughNat (L : Library C) (fl : Flattener C) (y : Arr ℝ) : Except Err ℝ := do
  let x ← fl.unflatten y
  let q ← x.toNat L.toNat
  let e ← q.entropyN L
  .ok (e.get [])

/-- `assert_tree_allclose(a, b)` of tjax for numbers, with the tolerances `rtol` and `atol` that it uses. -/
noncomputable def assertClose (rtol atol a b : ℝ) : Except Err Unit := check (|a - b| ≤ atol + rtol * |b|)

/-- The direction of the coordinate `k` of an array of the shape of `y`. -/
def coordinate (y : Arr ℝ) (k : ℕ) : Arr ℝ := Arr.ofFn y.rshape fun i => if i = [k] then 1 else 0

/-- The lines 77-80 of `test_gamma_vp_entropy_gradient` for the distribution `x_e`
(test_entropy_gradient.py 63-80).  The gradient of the first function is computed with constant natural
parameters (`frozenDerivative`); `to_nat()` in the second function is differentiated (by the implicit function
theorem, which is the mathematical derivative). -/
noncomputable def testGammaEntropyGradient (L : Library C) (rtol atol : ℝ) (x : Dist C) : Except Err Unit := do
  let (fl, y) ← flatten x false
  let f ← sumEntropyE L fl y
  let g ← entropyThroughNat L fl y
  assertClose rtol atol f g
  (List.range (y.rshape.headD 0)).forM fun k =>
    assertClose rtol atol (frozenDerivative L fl y (coordinate y k))
      (derivativeAlong (entropyThroughNat L) fl y (coordinate y k))

end Efax.Tests
