import Verif.Model.Tests.Bodies5
import Verif.Model.Scipy.Arrays
import Verif.Model.Scipy.DirichletArrays

/-!
# The bodies of `tests/test_complex_normal.py` and `tests/test_scipy_distributions.py`
-/

namespace Efax.Tests

open Scipy

variable {g : Rng}

/-! ### Tools -/

/-- `random_complex_array` (test_complex_normal.py 13-14). -/
noncomputable def randomComplexArray (g : Rng) (rs : List ℕ) (s : g.State) : Arr ℂ × g.State :=
  let a := g.normal rs s
  let b := g.normal rs a.2
  (Arr.ofFn rs fun i => 0.5 * (a.1.get i : ℂ) + 0.5 * Complex.I * (b.1.get i : ℂ), b.2)

/-- `build_uvcn` (test_complex_normal.py 17-23); `beta` draws from the beta distribution with both parameters
equal to two. -/
noncomputable def buildUvcn (g : Rng) (beta : List ℕ → g.State → Arr ℝ × g.State) (rs : List ℕ) (s : g.State) :
    Except Err (Shaped ComplexNormalData × g.State) := do
  let (mean, s) := randomComplexArray g rs s
  let (variance, s) := g.exponential rs s
  let (b, s) := beta rs s
  let (u, s) := g.uniform rs s
  let pseudoVariance := Arr.ofFn rs fun i =>
    (variance.get i : ℂ) * (b.get i : ℂ) * Complex.exp (Complex.I * ((2 * Real.pi * u.get i : ℝ) : ℂ))
  let dist ← complexNormalNew (some mean) (some variance) (some pseudoVariance)
  .ok (dist, s)

/-- The number of directions (test_complex_normal.py 31). -/
def directions : ℕ := 3

/-- `weights` (test_complex_normal.py 32). -/
noncomputable def weight (k : ℕ) : ℝ := k + 1.5

/-- `np.average(..., weights=weights, axis=-1)` of one entry. -/
noncomputable def weighted (f : ℕ → ℂ) : ℂ :=
  (∑ k ∈ Finset.range directions, (weight k : ℂ) * f k) / ((∑ k ∈ Finset.range directions, weight k : ℝ) : ℂ)

/-- `variance` in `build_mvcn` (test_complex_normal.py 36-40), of the directions `z`. -/
noncomputable def mvcnVariance (rs : List ℕ) (dimensions : ℕ) (z : Arr ℂ) : Arr ℂ :=
  Arr.ofFn (dimensions :: dimensions :: rs) fun i =>
    let c := i.headD 0
    let r := i.tail.headD 0
    let b := i.tail.tail
    weighted (fun k => (starRingEnd ℂ) (z.get (k :: c :: b)) * z.get (k :: r :: b)) + if r = c then 1 else 0

/-- `pseudo_variance` in `build_mvcn` (test_complex_normal.py 41-43). -/
noncomputable def mvcnPseudoVariance (rs : List ℕ) (dimensions : ℕ) (z : Arr ℂ) (polarization : ℝ) : Arr ℂ :=
  Arr.ofFn (dimensions :: dimensions :: rs) fun i =>
    let c := i.headD 0
    let r := i.tail.headD 0
    let b := i.tail.tail
    weighted (fun k => z.get (k :: c :: b) * z.get (k :: r :: b)) * (polarization : ℂ)

/-- `build_mvcn` (test_complex_normal.py 26-44). -/
noncomputable def buildMvcn (g : Rng) (rs : List ℕ) (dimensions : ℕ) (polarization : ℝ) (s : g.State) :
    Except Err ((Σ d, Shaped (ComplexMvNormalData d)) × g.State) := do
  let (mean, s) := randomComplexArray g (dimensions :: rs) s
  let (z, s) := randomComplexArray g (directions :: dimensions :: rs) s
  let dist ← complexMvNormalNew (some mean) (some (mvcnVariance rs dimensions z))
    (some (mvcnPseudoVariance rs dimensions z polarization))
  .ok (dist, s)

/-- `np.average` over two axes of the lengths `m` and `n`, of one entry. -/
noncomputable def average2 (m n : ℕ) (f : ℕ → ℕ → ℂ) : ℂ :=
  (∑ a ∈ Finset.range m, ∑ b ∈ Finset.range n, f a b) / ((m * n : ℕ) : ℂ)

/-- `np.testing.assert_allclose` of arrays (as in `allcloseVal`). -/
noncomputable def assertAllclose (rtol atol : ℝ) (a b : Arr ℂ) : Except Err Unit :=
  check (allcloseVal rtol atol (.complex a) (.complex b))

/-! ### Tests -/

/-- `test_univariate_rvs` (test_complex_normal.py 48-65); `draw i` are the draws of numpy's
`multivariate_normal` for the distribution number `i`. -/
noncomputable def testUnivariateRvs (g : Rng) (beta : List ℕ → g.State → Arr ℝ × g.State)
    (draw : List ℕ → List ℕ → g.State → Arr ℝ × g.State) (s : g.State) : Except Err g.State := do
  let (dist, s) ← buildUvcn g beta [2, 3] s
  let (rvs, s) ← (complexNormalShaped dist draw).rvs (some (.inr [50, 100])) s
  check (rvs.rshape = [100, 50] ++ [2, 3])
  let mean ← complexNormalMeans dist
  let variance ← complexNormalVariances dist
  let pseudoVariance ← complexNormalPseudoVariances dist
  let centered := fun i a b => rvs.get (b :: a :: i) - mean.get i
  let estimatedMean := Arr.ofFn [2, 3] fun i => average2 50 100 fun a b => rvs.get (b :: a :: i)
  let estimatedVariance := Arr.ofFn [2, 3] fun i =>
    ((average2 50 100 fun a b => (starRingEnd ℂ) (centered i a b) * centered i a b).re : ℂ)
  let estimatedPseudoVariance := Arr.ofFn [2, 3] fun i => average2 50 100 fun a b => centered i a b ^ 2
  assertAllclose 0 2e-2 estimatedMean mean
  assertAllclose 3e-2 2e-2 estimatedVariance (variance.map fun x : ℝ => (x : ℂ))
  assertAllclose 3e-2 2e-2 estimatedPseudoVariance pseudoVariance
  .ok s

/-- `test_multivariate_rvs` (test_complex_normal.py 68-89). -/
noncomputable def testMultivariateRvs (g : Rng) (draw : List ℕ → List ℕ → g.State → Arr ℝ × g.State)
    (s : g.State) : Except Err g.State := do
  let (⟨_, dist⟩, s) ← buildMvcn g [5, 3] 2 0.98 s
  let (rvs, s) ← (complexMvNormalShaped dist draw).rvs (some (.inr [1800, 1700])) s
  check (rvs.rshape = [2, 1700, 1800] ++ [5, 3])
  let mean ← complexMvNormalMeans dist
  let variance ← complexMvNormalVariances dist
  let pseudoVariance ← complexMvNormalPseudoVariances dist
  let centered := fun i a b k => rvs.get (k :: b :: a :: i) - mean.get (k :: i)
  let estimatedMean := Arr.ofFn [2, 5, 3] fun i =>
    average2 1800 1700 fun a b => rvs.get (i.headD 0 :: b :: a :: i.tail)
  let estimatedVariance := Arr.ofFn [2, 2, 5, 3] fun i =>
    ((average2 1800 1700 fun a b => centered i.tail.tail a b (i.tail.headD 0) *
      (starRingEnd ℂ) (centered i.tail.tail a b (i.headD 0))).re : ℂ)
  let estimatedPseudoVariance := Arr.ofFn [2, 2, 5, 3] fun i =>
    average2 1800 1700 fun a b => centered i.tail.tail a b (i.tail.headD 0) * centered i.tail.tail a b (i.headD 0)
  assertAllclose 1e-2 1e-2 estimatedMean mean
  assertAllclose 2e-1 5e-1 estimatedVariance variance
  assertAllclose 2e-1 5e-1 estimatedPseudoVariance pseudoVariance
  .ok s

/-- The first entry of a vector and of a matrix (test_complex_normal.py 96-98). -/
def first {d : ℕ} (data : ComplexMvNormalData d) : Except Err (ℂ × ℂ × ℂ) :=
  if h : 0 < d then .ok (data.mean ⟨0, h⟩, data.variance ⟨0, h⟩ ⟨0, h⟩, data.pseudoVariance ⟨0, h⟩ ⟨0, h⟩)
  else .error .indexError

/-- `test_univariate_multivariate_consistency` (test_complex_normal.py 92-101).  `access_object(())`
(shaped_distribution.py 58-59) is the object of a distribution without axes. -/
noncomputable def testConsistency (g : Rng) (draw : List ℕ → List ℕ → g.State → Arr ℝ × g.State) (s : g.State) :
    Except Err g.State := do
  let (⟨_, mv⟩, s) ← buildMvcn g [] 1 0.5 s
  let (mean, variance, pseudoVariance) ← first (mv.objects [])
  let uv ← complexNormalNew (some (Arr.full [] mean)) (some (Arr.full [] variance.re))
    (some (Arr.full [] pseudoVariance))
  let (x, s) := randomComplexArray g [] s
  let a ← (complexMvNormalShaped mv draw).pdf (Arr.ofFn [1] fun _ => x.get [])
  let b ← (complexNormalShaped uv draw).pdf x
  check (allcloseVal 1e-7 0 (.real a) (.real b))
  .ok s

/-- One line of `test_shaped`. -/
noncomputable def checkRvs {α G : Type} [Inhabited α] (d : Shaped (Frozen α G)) (size : Option (ℕ ⊕ List ℕ)) (s : G)
    (shape : List ℕ) : Except Err Unit := do
  let (rvs, _) ← d.rvs size s
  check (rvs.rshape = shape.reverse)

/-- `test_shaped` (test_scipy_distributions.py 13-26).  Each call makes its own generator, as no
`random_state` is given: the states are the argument `s`. -/
noncomputable def testShaped {α G : Type} [Inhabited α] (d : Shaped (Frozen α G)) (m : List ℕ) (n : ℕ) (s : ℕ → G) :
    Except Err Unit := do
  checkRvs d none (s 0) (m ++ [n])
  checkRvs d (some (.inl 1)) (s 1) (m ++ [1, n])
  checkRvs d (some (.inr [1])) (s 2) (m ++ [1, n])
  checkRvs d (some (.inr [1, 1, 1])) (s 3) (m ++ [1, 1, 1, n])
  checkRvs d (some (.inr [1, 2, 3])) (s 4) (m ++ [1, 2, 3, n])

end Efax.Tests
