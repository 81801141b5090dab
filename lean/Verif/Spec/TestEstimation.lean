import Verif.Spec.Oracle
import Verif.Spec.Tree
import Verif.Spec.Dot
import Mathlib.Analysis.Complex.Norm
import Verif.Model.Tests.Parameters

/-!
# Specification: what the test of maximum likelihood estimation decides
-/

namespace Efax.Spec

open Tests

variable [MachEps]

/-- The parameters of `E` are within the tolerances of the means over the `n` variates of the parameters of
`S`, for all parameters that are not fixed.  The relative tolerance is that of the means. -/
def NearMeans (rtol atol : ℝ) (n : ℕ) (E S : Dist Cls) : Prop :=
  ∀ k f v w, f.fixed = false → ParamAt S k f v → ParamAt E k f w → ∀ i, inB w.rshape i = true →
    let m := (∑ j ∈ Finset.range n, entry v (i ++ [j])) / (n : ℂ)
    ‖entry w i - m‖ ≤ atol + rtol * ‖m‖

/-- What the generator of `scipy.stats` draws has the form of `n` variates. -/
def DrawsMany (info : TestInfo) {g : Rng} (draw : Oracle → ℕ → g.State → Tree Val × g.State) : Prop :=
  ∀ o n s, Drawn [n] info (draw o n s).1

end Efax.Spec
