import Verif.Model.Err
import Verif.Model.Primitives
import Mathlib.Analysis.Matrix.PosDef
import Mathlib.Analysis.Complex.Basic
import Mathlib.Algebra.Order.Star.Real
import Mathlib.MeasureTheory.Constructions.BorelSpace.Complex
import Mathlib.Analysis.SpecialFunctions.Trigonometric.Basic

/-!
# Replacements for `scipy.stats`: normal distributions

`efax/_src/scipy_replacement/multivariate_normal.py`, `complex_normal.py` and
`complex_multivariate_normal.py`, for one distribution (the `...Unvectorized` classes).  The first and
the second half of `2 * size` coordinates are the summands of `Fin d ⊕ Fin d`.
-/

namespace Efax.Scipy

open Matrix MeasureTheory

variable {ι : Type} [Fintype ι] [DecidableEq ι]

open Classical in
/-- `scipy.stats.multivariate_normal(mean, cov).pdf(x)`, the base class of
`ScipyMultivariateNormalUnvectorized` (multivariate_normal.py 12-15), as SciPy computes it:
`exp(-0.5 * (rank * log(2 * pi) + log_det_cov + maha))`.  With `allow_singular=False`, the default, the
constructor raises unless the covariance is positive definite. -/
noncomputable def mvnPdf (mean : ι → ℝ) (cov : Matrix ι ι ℝ) (x : ι → ℝ) : Except Err ℝ :=
  if cov.PosDef then
    let maha := (x - mean) ⬝ᵥ cov⁻¹ *ᵥ (x - mean)
    .ok (Real.exp (-0.5 * (Fintype.card ι * Real.log (2 * Real.pi) + Real.log cov.det + maha)))
  else .error .valueError

open Classical in
/-- `scipy.stats.multivariate_normal(mean, cov).entropy()`, as SciPy computes it:
`0.5 * (rank * (log(2 * pi) + 1) + log_pdet)`. -/
noncomputable def mvnEntropy (cov : Matrix ι ι ℝ) : Except Err ℝ :=
  if cov.PosDef then
    .ok (0.5 * (Fintype.card ι * (Real.log (2 * Real.pi) + 1) + Real.log cov.det))
  else .error .valueError

/-! ### One complex normal variable -/

/-- The check of `ScipyComplexNormalUnvectorized.__init__` (complex_normal.py 27-29).  The types and
shapes of the three numbers (24-26, 30-33) are those of the arguments here. -/
noncomputable def complexNormalInit (variance : ℝ) (pseudoVariance : ℂ) : Except Err Unit :=
  if variance < ‖pseudoVariance‖ then .error .valueError else .ok ()

/-- `ScipyComplexNormalUnvectorized._multivariate_normal_mean` (complex_normal.py 57-58). -/
def complexNormalMean (mean : ℂ) : Fin 2 → ℝ := ![mean.re, mean.im]

/-- `ScipyComplexNormalUnvectorized._multivariate_normal_cov` (complex_normal.py 60-66). -/
noncomputable def complexNormalCov (variance : ℝ) (pseudoVariance : ℂ) : Matrix (Fin 2) (Fin 2) ℝ :=
  let xx := variance + pseudoVariance.re
  let xy := pseudoVariance.im
  let yy := variance - pseudoVariance.re
  (0.5 : ℝ) • !![xx, xy; xy, yy]

/-- Constructing `ScipyComplexNormalUnvectorized` and calling `pdf(z)` (complex_normal.py 35-37,
52-55). -/
noncomputable def complexNormalPdf (mean : ℂ) (variance : ℝ) (pseudoVariance z : ℂ) : Except Err ℝ := do
  complexNormalInit variance pseudoVariance
  mvnPdf (complexNormalMean mean) (complexNormalCov variance pseudoVariance) ![z.re, z.im]

/-- Constructing `ScipyComplexNormalUnvectorized` and calling `entropy()` (complex_normal.py 49-55). -/
noncomputable def complexNormalEntropy (variance : ℝ) (pseudoVariance : ℂ) : Except Err ℝ := do
  complexNormalInit variance pseudoVariance
  mvnEntropy (complexNormalCov variance pseudoVariance)

/-- The law of one draw of `ScipyComplexNormalUnvectorized.rvs` (complex_normal.py 39-47).  NumPy's
`Generator.multivariate_normal` adds the mean to a factor of the covariance times standard normal
variables, as that of JAX. -/
noncomputable def complexNormalRvs (factor : Matrix (Fin 2) (Fin 2) ℝ → Matrix (Fin 2) (Fin 2) ℝ)
    (mean : ℂ) (variance : ℝ) (pseudoVariance : ℂ) : Measure ℂ :=
  (randomMultivariateNormal factor (complexNormalMean mean) (complexNormalCov variance pseudoVariance)).map
    fun xy => (xy 0 : ℂ) + Complex.I * (xy 1 : ℂ)

/-- The pseudo-variance that `ScipyComplexNormal.init_using_angle` passes on
(complex_normal.py 106-110). -/
noncomputable def angleToPseudoVariance (variance angle : ℝ) (polarization : ℂ) : ℂ :=
  let r := polarization * Complex.exp (Complex.I * 2 * Real.pi * angle * 2)
  r * variance

/-! ### Several complex normal variables -/

variable {d : ℕ}

open Classical in
open scoped ComplexOrder in
/-- The checks of `ScipyComplexMultivariateNormalUnvectorized.__init__`
(complex_multivariate_normal.py 36-44): a Hermitian variance with non-negative eigenvalues, and a
symmetric pseudo-variance.  The shapes (26-35) are those of the arguments here; `np.isclose` is
equality. -/
noncomputable def complexMvNormalInit (variance pseudoVariance : Matrix (Fin d) (Fin d) ℂ) :
    Except Err Unit :=
  if variance.PosSemidef ∧ pseudoVariance.IsSymm then .ok () else .error .valueError

/-- `ScipyComplexMultivariateNormalUnvectorized._multivariate_normal_mean`
(complex_multivariate_normal.py 68-70). -/
def complexMvNormalMean (mean : Fin d → ℂ) : Fin d ⊕ Fin d → ℝ :=
  Sum.elim (fun i => (mean i).re) fun i => (mean i).im

/-- `ScipyComplexMultivariateNormalUnvectorized._multivariate_normal_cov`
(complex_multivariate_normal.py 72-80). -/
noncomputable def complexMvNormalCov (variance pseudoVariance : Matrix (Fin d) (Fin d) ℂ) :
    Matrix (Fin d ⊕ Fin d) (Fin d ⊕ Fin d) ℝ :=
  let covSum := variance + pseudoVariance
  let covDiff := variance - pseudoVariance
  let xx := (0.5 : ℝ) • covSum.map Complex.re
  let xy := (0.5 : ℝ) • -(covDiff.map Complex.im)
  let yx := (0.5 : ℝ) • covSum.map Complex.im
  let yy := (0.5 : ℝ) • covDiff.map Complex.re
  fromBlocks xx xy yx yy

/-- Constructing `ScipyComplexMultivariateNormalUnvectorized` and calling `pdf(z)`
(complex_multivariate_normal.py 46-48, 63-66). -/
noncomputable def complexMvNormalPdf (mean : Fin d → ℂ) (variance pseudoVariance : Matrix (Fin d) (Fin d) ℂ)
    (z : Fin d → ℂ) : Except Err ℝ := do
  complexMvNormalInit variance pseudoVariance
  mvnPdf (complexMvNormalMean mean) (complexMvNormalCov variance pseudoVariance)
    (Sum.elim (fun i => (z i).re) fun i => (z i).im)

/-- Constructing `ScipyComplexMultivariateNormalUnvectorized` and calling `entropy()`
(complex_multivariate_normal.py 60-66). -/
noncomputable def complexMvNormalEntropy (variance pseudoVariance : Matrix (Fin d) (Fin d) ℂ) :
    Except Err ℝ := do
  complexMvNormalInit variance pseudoVariance
  mvnEntropy (complexMvNormalCov variance pseudoVariance)

/-- The law of one draw of `ScipyComplexMultivariateNormalUnvectorized.rvs`
(complex_multivariate_normal.py 50-58). -/
noncomputable def complexMvNormalRvs
    (factor : Matrix (Fin d ⊕ Fin d) (Fin d ⊕ Fin d) ℝ → Matrix (Fin d ⊕ Fin d) (Fin d ⊕ Fin d) ℝ)
    (mean : Fin d → ℂ) (variance pseudoVariance : Matrix (Fin d) (Fin d) ℂ) : Measure (Fin d → ℂ) :=
  (randomMultivariateNormal factor (complexMvNormalMean mean)
    (complexMvNormalCov variance pseudoVariance)).map
    fun xy i => (xy (Sum.inl i) : ℂ) + Complex.I * (xy (Sum.inr i) : ℂ)

end Efax.Scipy
