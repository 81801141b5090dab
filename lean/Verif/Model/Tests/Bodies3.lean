import Verif.Model.Tests.Bodies
import Verif.Model.Vjp

/-!
# The bodies of the tests of the gradient of the log-normalizer
-/

namespace Efax.Tests

open ClassTable Calc

variable [MachEps]

/-- The pairing of a cotangent with the value of a function that may raise: the sum of the products of the
entries. -/
noncomputable def weigh (ct : Arr ℝ) : Calc ℝ → ℝ
  | .ok a => sumBox ct.rshape fun i => ct.get i * a.get i
  | .error _ => 0

/-- The tangent with all parameters zero: a distribution of the same class, with the same types. -/
noncomputable def zeroTangent (p : Dist Cls) : Dist Cls := p.cotangent fun _ _ _ _ => 0

/-- `vjp(original_ln, p)`, where `original_ln` is `_original_log_normalizer`, the method without the custom
rule (natural_parametrization.py 42-47): the value, and the function that takes a cotangent of the value to the derivatives
of the pairing with respect to every entry of every parameter of `p`, including the fixed parameters.
Automatic differentiation is modelled by the mathematical derivative.  (The parts of a joint distribution
keep their custom rules, which are the derivatives.) -/
noncomputable def originalVjp (L : Library Cls) (p : Dist Cls) : Except Err (Arr ℝ × (Arr ℝ → Dist Cls)) := do
  let a ← (p.logNormalizer L).run
  .ok (a, fun ct => p.cotangent fun path k i z =>
    deriv (fun t : ℝ => weigh ct ((p.nudge k i (t * z) path).logNormalizer L)) 0)

/-- `vjp(optimized_ln, p)`: the transpose of the linear map `q_dot ↦ parameter_dot_product(q_dot, p)` of the
custom rule `log_normalizer_jvp` (natural_parametrization.py 26-36), at the tangents that are `z` in one entry. -/
noncomputable def optimizedVjp (L : Library Cls) (p : Dist Cls) : Except Err (Arr ℝ × (Arr ℝ → Dist Cls)) := do
  let a ← (p.logNormalizer L).run
  let e ← p.toExp L.toExp
  .ok (a, fun ct => p.cotangent fun path k i z => weigh ct (dotCalc ((zeroTangent p).nudge k i z path) e))

/-- `grad(f, allow_int=True)`, from `vjp`: only scalar functions have gradients (`TypeError`). -/
noncomputable def gradOf (r : Except Err (Arr ℝ × (Arr ℝ → Dist Cls))) : Except Err (Dist Cls) := do
  let (a, pull) ← r
  if a.rshape = [] then .ok (pull (Arr.full [] 1)) else .error .typeError

/-- The body of the loop in `test_gradient_log_normalizer_primals` (test_distributions.py 64-82). -/
noncomputable def primalsBody (L : Library Cls) (info : TestInfo) (g : Rng) (s : g.State) :
    Except Err g.State := do
  let (generatedNp, s) ← info.natParameters g [] s
  let generatedEp ← generatedNp.toExp L.toExp
  let generatedParameters := parameters generatedEp (some false)
  let structureEp ← infosOf generatedEp
  let originalGlnNp ← gradOf (originalVjp L generatedNp)
  let originalGlnEp ← reinterpret structureEp originalGlnNp
  let originalGlnParameters := parameters originalGlnEp (some false)
  let optimizedGlnNp ← gradOf (optimizedVjp L generatedNp)
  let optimizedGlnEp ← reinterpret structureEp optimizedGlnNp
  let optimizedGlnParameters := parameters optimizedGlnEp (some false)
  check (generatedParameters = originalGlnParameters)
  check (generatedParameters = optimizedGlnParameters)
  .ok s

/-- `test_gradient_log_normalizer_primals` (test_distributions.py 56-82); `prelude` (47-53) generates
parameters first. -/
noncomputable def testPrimals (L : Library Cls) (info : TestInfo) (g : Rng) (s : g.State) :
    Except Err g.State := do
  let (_, s) ← info.natParameters g [] s
  times (primalsBody L info g) 20 s

/-- The body of the loop in `test_gradient_log_normalizer_vjp` (test_distributions.py 115-129). -/
noncomputable def vjpBody (L : Library Cls) (info : TestInfo) (g : Rng) (s : g.State) :
    Except Err g.State := do
  let (natParameters, s) ← info.natParameters g [] s
  let natTangent ← unitTangent natParameters
  let (originalLn, _) ← originalJvp L natParameters natTangent
  let (originalLnB, originalPull) ← originalVjp L natParameters
  let originalGln := originalPull (Arr.full [] 1)
  let (optimizedLnB, optimizedPull) ← optimizedVjp L natParameters
  let optimizedGln := optimizedPull (Arr.full [] 1)
  check (originalLnB = optimizedLnB)
  check (originalLn = originalLnB)
  check (parameters originalGln (some false) = parameters optimizedGln (some false))
  .ok s

/-- `test_gradient_log_normalizer_vjp` (test_distributions.py 111-129); `prelude` (47-53) generates
parameters first. -/
noncomputable def testVjp (L : Library Cls) (info : TestInfo) (g : Rng) (s : g.State) : Except Err g.State := do
  let (_, s) ← info.natParameters g [] s
  times (vjpBody L info g) 20 s

end Efax.Tests
