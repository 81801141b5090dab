import Verif.Model.Tests.Parameters
import Verif.Model.Tests.Fixtures
import Verif.Model.Fisher

/-!
# The bodies of the tests

The assertions that the test-suite makes about all distributions.  Computations are exact: the functions
`assert_tree_allclose` and `assert_allclose`, whose tolerances are there for rounding errors, and for the
searches that stop early, are modelled by equality.  A test that passes returns the state of the random
generator after it, so that a test that fails is an error.
-/

namespace Efax.Tests

open ClassTable Calc

open Classical in
/-- `assert c`. -/
noncomputable def check (c : Prop) : Except Err Unit := if c then .ok () else .error .assertionError

/-- `for _ in range(n)` around a body that uses the random generator. -/
def times {σ : Type} (body : σ → Except Err σ) : ℕ → σ → Except Err σ
  | 0, s => .ok s
  | n + 1, s => do times body n (← body s)

variable [MachEps]

/-- The body of the loop in `test_conversion` (test_distributions.py 30-44). -/
noncomputable def conversionBody (L : Library Cls) (info : TestInfo) (g : Rng) (shape : List ℕ) (s : g.State) :
    Except Err g.State := do
  let (originalEp, s) ← info.expParameters L g shape s
  let intermediateNp ← originalEp.toNat L.toNat
  let finalEp ← intermediateNp.toExp L.toExp
  check (finalEp = originalEp)
  let originalFixed := parameters originalEp (some true)
  let intermediateFixed := parameters intermediateNp (some true)
  let finalFixed := parameters finalEp (some true)
  check (originalFixed = intermediateFixed)
  check (originalFixed = finalFixed)
  .ok s

/-- `test_conversion` (test_distributions.py 20-44). -/
noncomputable def testConversion (L : Library Cls) (info : TestInfo) (g : Rng) (s : g.State) :
    Except Err g.State :=
  times (conversionBody L info g [4, 3]) 10 s

/-- `ones_like` for the variable parameters and `zero_tangent_like` for the fixed parameters
(test_distributions.py 87-90).  The tangents of integers are of type `float0`, here zeros of the same type. -/
def tangentOf (fixed : Bool) : Val → Val
  | .real a => .real (Arr.full a.rshape (if fixed then 0 else 1))
  | .complex a => .complex (Arr.full a.rshape (if fixed then 0 else 1))
  | .bool a => .bool (Arr.full a.rshape false)
  | .int a => .int (Arr.full a.rshape 0)

/-- `unit_tangent(nat_parameters)` (test_distributions.py 85-92). -/
noncomputable def unitTangent (p : Dist Cls) : Except Err (Dist Cls) := do
  let newVariable := (parameters p (some false)).map fun kv => (kv.1, tangentOf false kv.2)
  let newFixed := (parameters p (some true)).map fun kv => (kv.1, tangentOf true kv.2)
  assemble (← infosOf p) (newVariable ++ newFixed)

/-- The array `a + t * b`; integers and Booleans do not vary. -/
noncomputable def valAlong (t : ℝ) : Val → Val → Val
  | .real a, .real b => .real (Arr.ofFn a.rshape fun i => a.get i + t * b.get i)
  | .complex a, .complex b => .complex (Arr.ofFn a.rshape fun i => a.get i + t * b.get i)
  | a, _ => a

mutual
/-- The distribution `p + t * v`, entry by entry. -/
noncomputable def along (t : ℝ) : Dist Cls → Dist Cls → Dist Cls
  | .mk c vals subs, .mk _ vals' subs' => .mk c (List.zipWith (valAlong t) vals vals') (alongs t subs subs')
/-- `along` for all parts. -/
noncomputable def alongs (t : ℝ) : Subs Cls → Subs Cls → Subs Cls
  | .cons n d r, .cons _ d' r' => .cons n (along t d d') (alongs t r r')
  | r, _ => r
end

/-- `jvp(original_ln, (p,), (v,))`, where `original_ln` is `_original_log_normalizer`, the method without the
custom rule (natural_parametrization.py 42-47).  Automatic differentiation is modelled by the mathematical
derivative. -/
noncomputable def originalJvp (L : Library Cls) (p v : Dist Cls) : Except Err (Arr ℝ × ℝ) := do
  let a ← (p.logNormalizer L).run
  .ok (a, deriv (fun t : ℝ => scalarOf ((along t p v).logNormalizer L)) 0)

/-- `jvp(optimized_ln, (p,), (v,))`: the custom rule `log_normalizer_jvp` (natural_parametrization.py
26-36). -/
noncomputable def optimizedJvp (L : Library Cls) (p v : Dist Cls) : Except Err (Arr ℝ × ℝ) := do
  let a ← (p.logNormalizer L).run
  .ok (a, scalarOf (dotCalc v (← p.toExp L.toExp)))

/-- The body of the loop in `test_gradient_log_normalizer_jvp` (test_distributions.py 100-108). -/
noncomputable def jvpBody (L : Library Cls) (info : TestInfo) (g : Rng) (s : g.State) :
    Except Err g.State := do
  let (natParameters, s) ← info.natParameters g [] s
  let natTangent ← unitTangent natParameters
  let (originalLn, originalTangent) ← originalJvp L natParameters natTangent
  let (optimizedLn, optimizedTangent) ← optimizedJvp L natParameters natTangent
  check (originalLn = optimizedLn)
  check (originalTangent = optimizedTangent)
  .ok s

/-- `test_gradient_log_normalizer_jvp` (test_distributions.py 95-108); `prelude` (47-53) generates
parameters first. -/
noncomputable def testJvp (L : Library Cls) (info : TestInfo) (g : Rng) (s : g.State) : Except Err g.State := do
  let (_, s) ← info.natParameters g [] s
  times (jvpBody L info g) 20 s

/-- `assert a.shape == shape`. -/
noncomputable def checkShape (a : Calc ℝ) (shape : List ℕ) : Except Err Unit := do
  let a ← a.run
  check (a.rshape = shape)

/-- `check(z)` in `test_shapes` (test_shapes.py 23-25). -/
noncomputable def checkParameters (z : Dist Cls) (shape : List ℕ) : Except Err Unit :=
  check (∀ kv ∈ parametersS z none, kv.2.1.rshape.drop kv.2.2.axes = shape)

/-- `test_shapes` (test_shapes.py 13-41), where `scipyX` is what `scipy_dist.rvs()` returns. -/
noncomputable def testShapes (L : Library Cls) (info : TestInfo) (g : Rng) (scipyX : Tree Val) (s : g.State) :
    Except Err g.State := do
  let shape := [4, 3]
  let (p, s) ← info.expParameters L g shape s
  let (q, s) ← info.natParameters g shape s
  let _ ← info.expToScipy L p
  let x ← info.observation scipyX
  check ((← p.shape L) = shape)
  check ((← q.shape L) = shape)
  checkParameters p shape
  checkParameters q shape
  checkShape (q.logNormalizer L) shape
  if L.hasEntropy p.cls then checkShape (p.crossEntropy L q) shape
  if hasEntropyNP q.cls then checkShape (q.entropyN L) shape
  checkShape (q.carrier L x) shape
  if L.hasEntropy p.cls then checkShape (p.ecm L) shape
  checkShape (q.pdf L x) shape
  .ok s

/-- `test_raises` (test_flatten.py 32-40). -/
noncomputable def testRaises : Except Err Unit := do
  let m : Dist Cls := .mk .mvUnitNormalNP [.real (Arr.full [10] 0)] .nil
  let (flattener, flattened) ← flatten m true
  check (flattened.rshape = [10])
  check (flattener.unflatten (Arr.full [5] 0) = .error .valueError)
  check (flattener.unflatten (Arr.full [12] 0) = .error .valueError)

/-- `test_flatten` (test_flatten.py 16-29); the flat vector is real in the model, so that the
assertion about its type is not needed. -/
noncomputable def testFlatten (L : Library Cls) (info : TestInfo) (g : Rng) (natural : Bool) (s : g.State) :
    Except Err g.State := do
  let shape := [4, 3]
  let (p, s) ← if natural then info.expParameters L g shape s else info.natParameters g shape s
  let (flattener, flattened) ← flatten p true
  check (flattener.unflatten flattened = .ok p)
  .ok s

/-- `test_fisher_information_is_convex` (test_fisher_information.py 56-76).  `eigvals` returns complex
numbers, which are compared by their real parts first. -/
noncomputable def testConvex (L : Library Cls) (info : TestInfo) (g : Rng) (s : g.State) :
    Except Err g.State := do
  let shape := [2, 3]
  let (natParameters, s) ← info.natParameters g shape s
  let fisherInformation ← fisherMatrix L natParameters
  check (∃ n, fisherInformation.rshape = n :: n :: shape ∧ ∀ i, inB shape i = true →
    ∀ z ∈ spectrum ℂ (Matrix.of fun r c : Fin n => (fisherInformation.get (c.1 :: r.1 :: i) : ℂ)),
      0 < z.re ∨ z.re = 0 ∧ 0 ≤ z.im)
  let determinant ← (Calc.det (ok fisherInformation)).run
  check (determinant.rshape = shape)
  check (∀ i, inB shape i = true → 0 ≤ determinant.get i)
  .ok s

end Efax.Tests
