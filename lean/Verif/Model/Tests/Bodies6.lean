import Verif.Model.Tests.Bodies5

/-!
# The body of the test of maximum likelihood estimation in `tests/test_match_scipy.py`
-/

namespace Efax.Tests

open ClassTable

variable [MachEps]

/-- `partial(np.mean, axis=0)` (test_match_scipy.py 139). -/
noncomputable def meanFirst : List Val → Except Err Val
  | [v] => v.mean (some [0])
  | _ => .error .typeError

/-- The absolute tolerance (test_match_scipy.py 109-119). -/
noncomputable def estimationAtol : TestInfo → ℝ
  | .simple .cmvCircular _ | .simple .mvNormal _ | .simple .vonMisesFisher _
  | .simple .mvFixed _ => 2e-2
  | .simple .complexNormal _ | .simple .isotropic _ => 1e-3
  | _ => 1e-4

/-- The number of variates (test_match_scipy.py 120). -/
def variates : ℕ := 70000

/-- What the test does with `n` variates (test_match_scipy.py 126-141); `e` is the epsilon of the dtype.  The
fixed parameters are those of `exp_parameters`, without a new axis for the variates. -/
noncomputable def checkVariates (L : Library Cls) (e : ℝ) (info : TestInfo) (expParameters : Dist Cls)
    (scipyX : Tree Val) : Except Err Unit := do
  let efaxX ← info.observation scipyX
  let clamped ← clampObservation e expParameters efaxX
  let estimator ← createEstimator expParameters
  let stats ← estimator.sufficientStatistics L.stat clamped
  let calculated ← paramMap meanFirst stats []
  check (treeAllclose 2e-2 (estimationAtol info) expParameters calculated)

/-- `test_maximum_likelihood_estimation` (test_match_scipy.py 100-141), where `draw o n` are `n` variates of
a distribution of `scipy.stats`. -/
noncomputable def testEstimation (L : Library Cls) (e : ℝ) (info : TestInfo) (g : Rng)
    (draw : Oracle → ℕ → g.State → Tree Val × g.State) (s : g.State) : Except Err g.State := do
  let (expParameters, s) ← info.expParameters L g [] s
  let scipyDistribution ← info.expToScipy L expParameters
  let (scipyX, s) := draw scipyDistribution variates s
  checkVariates L e info expParameters scipyX
  .ok s

end Efax.Tests
