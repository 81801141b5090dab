import Verif.Model.ExpFam
import Verif.Model.Families.Search
import Verif.Model.Special
import Mathlib.Analysis.InnerProductSpace.PiL2
import Mathlib.Analysis.SpecialFunctions.Complex.Arg

/-!
# The von Mises-Fisher family

`efax/_src/distributions/von_mises.py`.  Vectors are elements of the Euclidean space, whose norm is
`jnp.linalg.norm(., 2, axis=-1)`; observations are points of the unit sphere.
-/

namespace Efax

open Real

/-- `_a_k` (von_mises.py 147-148). -/
noncomputable def vmfAK (k kappa : ℝ) : ℝ := ivRatio (k * 0.5) kappa

/-- The von Mises-Fisher family in `d` dimensions with the parameter `mean_times_concentration`
(von_mises.py 42-72).  `log_normalizer` is 42-49, `to_exp` 51-58, `carrier_measure` 60-62 and
`sufficient_statistics` 64-68. -/
noncomputable def vonMisesFisher (d : ℕ) : ExpFam (EuclideanSpace ℝ (Fin d)) (EuclideanSpace ℝ (Fin d))
    (Metric.sphere (0 : EuclideanSpace ℝ (Fin d)) 1) where
  dot q p := ∑ i, q i * p i
  logNormalizer q :=
    let halfK := (d : ℝ) * 0.5
    let kappa := ‖q‖
    kappa - (halfK - 1) * log kappa + halfK * log (2 * π) + logIve (halfK - 1) kappa
  toExp q :=
    let kappa := ‖q‖
    if kappa = 0 then q else (vmfAK d kappa / kappa) • q
  stat x := x.1
  carrier _ := 0

/-- `VonMisesFisherEP.expected_carrier_measure` (von_mises.py 115-117). -/
def vonMisesFisherEcm {d : ℕ} (_ : EuclideanSpace ℝ (Fin d)) : ℝ := 0

/-- `VonMisesFisherEP.search_to_natural` (von_mises.py 128-133). -/
noncomputable def vmfSearchToNatural {d : ℕ} (mean : EuclideanSpace ℝ (Fin d)) (s : ℝ) :
    EuclideanSpace ℝ (Fin d) :=
  let kappa := softplus s
  let mu := ‖mean‖
  (kappa / mu) • mean

/-- `VonMisesFisherEP.search_gradient` (von_mises.py 135-139). -/
noncomputable def vmfSearchGradient {d : ℕ} (mean : EuclideanSpace ℝ (Fin d)) (s : ℝ) : ℝ :=
  let kappa := softplus s
  let mu := ‖mean‖
  vmfAK d kappa - mu

/-- `VonMisesFisherEP.initial_search_parameters` (von_mises.py 119-126); `none` is a non-finite
start. -/
noncomputable def vmfInitialSearch {d : ℕ} (mean : EuclideanSpace ℝ (Fin d)) : Option ℝ :=
  let mu := ‖mean‖
  if mu = 1 then none else invSoftplus? ((mu * d - mu ^ 3) / (1 - mu ^ 2))

/-- `VonMisesFisherNP.kappa` (von_mises.py 74-75). -/
noncomputable def vmfKappa {d : ℕ} (q : EuclideanSpace ℝ (Fin d)) : ℝ := ‖q‖

/-- `VonMisesFisherNP.to_kappa_angle` (von_mises.py 77-85): an error unless there are two
dimensions.  `arctan2(y, x)` is the argument of the complex number `x + iy`. -/
noncomputable def vmfToKappaAngle {d : ℕ} (q : EuclideanSpace ℝ (Fin d)) : Option (ℝ × ℝ) :=
  if h : d = 2 then
    let kappa := vmfKappa q
    let angle := if kappa = 0 then 0 else Complex.arg ⟨q ⟨0, by omega⟩, q ⟨1, by omega⟩⟩
    some (kappa, angle)
  else none

end Efax
