import Verif.Model.Tests.Bodies
import Verif.Model.Sampling.Samplers
import Verif.Model.FlatDict
import Verif.Model.Estimator

/-!
# The body of `tests/test_sampling.py`
-/

namespace Efax.Tests

open ClassTable

variable [MachEps] {K : Type}

/-- The entry of an array that is broadcast to an index, for arrays without axes. -/
noncomputable def _root_.Efax.Val.broadcastAt (v : Val) (i : List ℕ) : ℂ := v.toC.get (if v.rshape = [] then [] else i)

/-- `np.testing.assert_allclose(v, w, rtol, atol)` for one parameter: `|v - w| <= atol + rtol * |w|` in every
entry.  NumPy demands equal shapes, unless one of the arrays has no axes; this one is then compared with all
entries of the other. -/
def allcloseVal (rtol atol : ℝ) (v w : Val) : Prop :=
  (v.rshape = w.rshape ∨ v.rshape = [] ∨ w.rshape = []) ∧
  ∀ i, inB (if w.rshape = [] then v.rshape else w.rshape) i = true →
    ‖v.broadcastAt i - w.broadcastAt i‖ ≤ atol + rtol * ‖w.broadcastAt i‖

mutual
/-- `assert_tree_allclose(p, q, rtol=rtol, atol=atol)` of tjax: the same classes and names, and parameters
that are close. -/
def treeAllclose (rtol atol : ℝ) : Dist Cls → Dist Cls → Prop
  | .mk c v s, .mk c' v' s' => c = c' ∧ List.Forall₂ (allcloseVal rtol atol) v v' ∧ treesAllclose rtol atol s s'
/-- `treeAllclose` for all parts. -/
def treesAllclose (rtol atol : ℝ) : Subs Cls → Subs Cls → Prop
  | .nil, .nil => True
  | .cons n d r, .cons n' d' r' => n = n' ∧ treeAllclose rtol atol d d' ∧ treesAllclose rtol atol r r'
  | _, _ => False
end

/-- The closure `f` of `produce_samples` (test_sampling.py 49-52), which is also what happens to a samplable
object (44-45); `e` is the epsilon of the dtype. -/
noncomputable def clampedSample (search : Cls → List Val → Except Err (List Val)) (rng : Random K) (e : ℝ)
    (key : K) (sampleShape : List ℕ) (x : Dist Cls) : Except Err Val := do
  check (Cls.isSamplable x.cls = true)
  let sample ← x.sample search rng (some sampleShape) key
  match Cls.domainSupport x.cls with
  | some s => s.clamp e sample
  | none => .error .typeError

/-- The closure as an argument of `general_method`; it has no state. -/
noncomputable def samplePart (search : Cls → List Val → Except Err (List Val)) (rng : Random K) (e : ℝ)
    (key : K) (sampleShape : List ℕ) (x : Dist Cls) (u : Unit) : Except Err (Val × Unit) := do
  .ok (← clampedSample search rng e key sampleShape x, u)

/-- The samples of `produce_samples` (test_sampling.py 43-54): all parts of a joint distribution are sampled
with the same key. -/
noncomputable def samplesOf (search : Cls → List Val → Except Err (List Val)) (rng : Random K) (e : ℝ)
    (key : K) (sampleShape : List ℕ) (x : Dist Cls) : Except Err (Tree Val) :=
  if Cls.isSamplable x.cls then do
    .ok (.leaf (← clampedSample search rng e key sampleShape x))
  else do
    check (isJoint x.cls = true)
    let (r, _) ← generalMethod (fun _ => true) (samplePart search rng e key sampleShape) x.subs ()
    .ok (.node r)

/-- `produce_samples` (test_sampling.py 24-55).  Parameters that are generated use the random generator
`g`, samples the key. -/
noncomputable def produceSamples (L : Library Cls) (search : Cls → List Val → Except Err (List Val))
    (rng : Random K) (e : ℝ) (info : TestInfo) (g : Rng) (key : K) (shape sampleShape : List ℕ)
    (natural : Bool) (s : g.State) : Except Err ((Dist Cls × Tree Val) × g.State) :=
  if natural then do
    let (q, s) ← info.natParameters g shape s
    let p ← q.toExp L.toExp
    .ok ((p, ← samplesOf search rng e key sampleShape q), s)
  else do
    let (p, s) ← info.expParameters L g shape s
    .ok ((p, ← samplesOf search rng e key sampleShape p), s)

/-- `ideal_samples_shape` (test_sampling.py 63-66). -/
noncomputable def idealShapes (shape sampleShape : List ℕ) (infos : List (Info Cls)) : List (Path × List ℕ) :=
  infos.filterMap fun i => if isJoint i.cls then none else
    (Cls.domainSupport i.cls).map fun s => (i.path, s.rshape i.dims ++ (shape ++ sampleShape))

/-- `verify_sample_shape` (test_sampling.py 58-68).  Dictionaries are equal if they have the same items, in
any order. -/
noncomputable def verifySampleShape (shape sampleShape : List ℕ) (infos : List (Info Cls))
    (flat : Dict Path Val) : Except Err Unit :=
  check (∀ k, (flat.get? k).map Val.rshape = (Dict.ofList (idealShapes shape sampleShape infos)).get? k)

/-- The absolute tolerance (test_sampling.py 80-92).  Joint distributions are listed twice, so that the
tolerance 1e-3 is never chosen. -/
noncomputable def samplingAtol : TestInfo → ℝ
  | .simple .cmvCircular _ | .simple .mvFixed _ => 1e-1
  | .simple .complexNormal _ | .simple .cmvUnit _ | .simple .mvDiagonal _ | .simple .mvNormal _
  | .simple .mvUnit _ | .simple .isotropic _ | .simple .poisson _ | .joint _ => 1e-2
  | _ => 1e-6

/-- The relative tolerance (test_sampling.py 93-95). -/
noncomputable def samplingRtol : TestInfo → ℝ
  | .simple .gamma _ | .simple .dirichlet _ | .simple .beta _ => 5e-2
  | _ => 4e-2

/-- `verify_maximum_likelihood_estimate` (test_sampling.py 71-102). -/
noncomputable def verifyEstimate (L : Library Cls) (info : TestInfo) (sampleShape : List ℕ) (p : Dist Cls)
    (samples : Tree Val) : Except Err Unit := do
  let estimator ← createEstimator (← p.expand sampleShape.length)
  let sampleAxes := (List.range sampleShape.length).map fun k : ℕ => (k : ℤ)
  let sampled ← estimator.sufficientStatistics L.stat samples
  let estimate ← paramMean sampled (some sampleAxes)
  check (treeAllclose (samplingRtol info) (samplingAtol info) estimate p)

/-- `test_sampling_and_estimation` (test_sampling.py 105-126), with the shapes (4,) and (1024, 64). -/
noncomputable def testSampling (L : Library Cls) (search : Cls → List Val → Except Err (List Val))
    (rng : Random K) (e : ℝ) (info : TestInfo) (g : Rng) (key : K) (natural : Bool) (s : g.State) :
    Except Err g.State := do
  let shape := [4]
  let sampleShape := [64, 1024]
  let ((p, samples), s) ← produceSamples L search rng e info g key shape sampleShape natural s
  let infos ← infosOf p
  verifySampleShape shape sampleShape infos (flatDictOfObservations samples)
  verifyEstimate L info sampleShape p samples
  .ok s

end Efax.Tests
