import Verif.Spec.Box
import Verif.Model.Estimator
import Verif.Model.Tools
import Verif.Model.Methods.Tree

/-!
# Specification: the recipe for maximum likelihood estimation
-/

namespace Efax.Spec

variable {C : Type} [ClassTable C]

/-- `m` is computed from the observations `t`, which have `k` axes before the batch axes of the
expectation parameters `e`, as in tests/test_sampling.py 96-100:
```
newaxes = (jnp.newaxis,) * k
estimator = MaximumLikelihoodEstimator.create_estimator(e[*newaxes, ...])
m = parameter_mean(estimator.sufficient_statistics(t), axis=tuple(range(k)))
```
-/
def Estimates (L : Library C) (e : Dist C) (k : ℕ) (t : Tree Val) (m : Dist C) : Prop :=
  ∃ e' est w, e.expand k = .ok e' ∧ createEstimator e' = .ok est ∧
    est.sufficientStatistics L.stat t = .ok w ∧ paramMean w (some (firstAxes k)) = .ok m

end Efax.Spec
