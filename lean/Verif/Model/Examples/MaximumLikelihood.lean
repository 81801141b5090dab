import Verif.Model.Sampling.Samplers
import Verif.Model.Estimator
import Verif.Model.Tools
import Verif.Model.Methods.Table

/-!
# The example `examples/maximum_likelihood_estimation.py`

Numbers are real numbers; `print` returns what is printed.
-/

namespace Efax

open Calc

variable [MachEps]

/-- `x.alpha_minus_one` of a `DirichletNP` object (examples/maximum_likelihood_estimation.py 28). -/
def alphaMinusOne : Dist Cls → Except Err Val
  | .mk .dirichletNP [v] .nil => .ok v
  | _ => .error .typeError

/-- The example with `alpha`, the key and `n_samples` as arguments
(examples/maximum_likelihood_estimation.py 8-28). -/
noncomputable def maximumLikelihoodExample (search : Cls → List Val → Except Err (List Val)) {K : Type}
    (rng : Random K) (keyA : K) (alpha : Arr ℝ) (nSamples : ℕ) : Except Err (Arr ℝ) := do
  let sourceParameter ← Val.ofR (ok alpha - const 1)
  let samples ← Cls.sample search rng .dirichletNP [sourceParameter] keyA (some [nSamples])
  let estimator ← createSimpleEstimator Cls.dirichletEP []
  let ss ← estimator.sufficientStatistics (library search).stat (.leaf samples)
  let ssMean ← paramMean ss (some [0])
  let estimatedDistribution ← ssMean.toNat (library search).toNat
  ((← alphaMinusOne estimatedDistribution).toR + const 1).run

end Efax
