import Verif.Model.ExpFam
import Mathlib.Analysis.Complex.Basic
import Mathlib.Analysis.SpecialFunctions.Trigonometric.Basic
import Mathlib.LinearAlgebra.Matrix.NonsingularInverse
import Mathlib.LinearAlgebra.Matrix.ConjTranspose

/-!
# Complex normal families

`efax/_src/distributions/complex_normal/` and `efax/_src/distributions/cmvn/`.  The pairing is the
real part of the sum of products (tools.py 83-86); `abs_square` is `Complex.normSq`.
-/

namespace Efax

open Complex

/-- The parameters of `ComplexNormalNP`: `mean_times_precision`, `negative_precision` and
`pseudo_precision` (complex_normal/complex_normal.py 38-42). -/
abbrev ComplexNormalParams := ℂ × ℝ × ℂ

/-- `ComplexNormalNP._r_s_mu` (complex_normal/complex_normal.py 81-88). -/
noncomputable def complexNormalRSMu (q : ComplexNormalParams) : ℂ × ℝ × ℂ :=
  let r := -q.2.2 / q.2.1
  let s := 1 / ((normSq r - 1) * q.2.1)
  let k := q.2.2 / q.2.1
  let lEta := 0.5 * q.1 / ((normSq k - 1) * q.2.1 : ℝ)
  let mu := starRingEnd ℂ lEta - starRingEnd ℂ (q.2.2 / q.2.1) * lEta
  (r, s, mu)

/-- The complex normal family (complex_normal/complex_normal.py 54-79).  The expectation class holds
`mean`, `second_moment` and `pseudo_second_moment`. -/
noncomputable def complexNormal : ExpFam ComplexNormalParams ComplexNormalParams ℂ where
  dot q p := (q.1 * p.1).re + q.2.1 * p.2.1 + (q.2.2 * p.2.2).re
  logNormalizer q :=
    let s := (complexNormalRSMu q).2.1
    let mu := (complexNormalRSMu q).2.2
    let detS := s
    let detH := -q.2.1;
    -normSq mu * q.2.1 - (mu ^ 2 * q.2.2).re + 0.5 * Real.log detS - 0.5 * Real.log detH
      + Real.log Real.pi
  toExp q :=
    let r := (complexNormalRSMu q).1
    let s := (complexNormalRSMu q).2.1
    let mu := (complexNormalRSMu q).2.2
    let u := starRingEnd ℂ (r * s)
    (mu, s + normSq mu, u + mu ^ 2)
  stat x := (x, normSq x, x ^ 2)
  carrier _ := 0

/-- `ComplexNormalEP.to_nat` (complex_normal/complex_normal.py 135-147). -/
noncomputable def complexNormalToNat (χ : ComplexNormalParams) : ComplexNormalParams :=
  let variance := χ.2.1 - normSq χ.1
  let pseudoVariance := χ.2.2 - χ.1 ^ 2
  let r := starRingEnd ℂ pseudoVariance / variance
  let pC := variance - starRingEnd ℂ (r * pseudoVariance)
  let pInvC := 1 / pC
  let precision := -pInvC.re
  let pseudoPrecision := r * pInvC
  let meanTimesPrecision := -2 * (precision * starRingEnd ℂ χ.1 + pseudoPrecision * χ.1)
  (meanTimesPrecision, precision, pseudoPrecision)

/-- `ComplexNormalEP.expected_carrier_measure` (complex_normal/complex_normal.py 149-151). -/
def complexNormalEcm (_ : ComplexNormalParams) : ℝ := 0

/-- Unit variance and zero pseudo-variance; the parameter is `two_mean_conjugate`
(complex_normal/unit.py 47-64). -/
noncomputable def complexUnit : ExpFam ℂ ℂ ℂ where
  dot q p := (q * p).re
  logNormalizer q :=
    let meanConjugate := q * 0.5
    normSq meanConjugate + Real.log Real.pi
  toExp q := starRingEnd ℂ q * 0.5
  stat x := x
  carrier x := -normSq x

/-- `ComplexUnitNormalEP.to_nat` (complex_normal/unit.py 99-101). -/
noncomputable def complexUnitToNat (m : ℂ) : ℂ := starRingEnd ℂ m * 2

/-- `ComplexUnitNormalEP.expected_carrier_measure` (complex_normal/unit.py 103-106). -/
noncomputable def complexUnitEcm (m : ℂ) : ℝ := -(normSq m + 1)

/-- Several complex components with unit variance and zero pseudo-variance (cmvn/unit.py 51-68). -/
noncomputable def cmvUnit (d : ℕ) : ExpFam (Fin d → ℂ) (Fin d → ℂ) (Fin d → ℂ) where
  dot q p := (∑ i, q i * p i).re
  logNormalizer q :=
    let meanConjugate := fun i => q i * 0.5
    ∑ i, normSq (meanConjugate i) + d * Real.log Real.pi
  toExp q i := starRingEnd ℂ (q i) * 0.5
  stat x := x
  carrier x := -∑ i, normSq (x i)

/-- `ComplexMultivariateUnitNormalEP.to_nat` (cmvn/unit.py 108-110). -/
noncomputable def cmvUnitToNat {d : ℕ} (m : Fin d → ℂ) : Fin d → ℂ :=
  fun i => starRingEnd ℂ (m i) * 2

/-- `ComplexMultivariateUnitNormalEP.expected_carrier_measure` (cmvn/unit.py 112-115). -/
noncomputable def cmvUnitEcm {d : ℕ} (m : Fin d → ℂ) : ℝ := -(∑ i, normSq (m i) + d)

open Matrix in
/-- Zero mean and zero pseudo-variance; the parameter is the Hermitian matrix `negative_precision`
(cmvn/circularly_symmetric.py 53-71).  `outer_product(x, x)` of the library `tjax` is the matrix of
the products of `x i` and the conjugate of `x j`. -/
noncomputable def cmvCircular (d : ℕ) :
    ExpFam (Matrix (Fin d) (Fin d) ℂ) (Matrix (Fin d) (Fin d) ℂ) (Fin d → ℂ) where
  dot q p := (∑ i, ∑ j, q i j * p i j).re
  logNormalizer q :=
    let logDetS := Real.log (-q).det.re;
    -logDetS + d * Real.log Real.pi
  toExp q := (-q)⁻¹.map (starRingEnd ℂ)
  stat x := vecMulVec x (star x)
  carrier _ := 0

/-- `ComplexCircularlySymmetricNormalEP.to_nat` (cmvn/circularly_symmetric.py 113-116). -/
noncomputable def cmvCircularToNat {d : ℕ} (χ : Matrix (Fin d) (Fin d) ℂ) :
    Matrix (Fin d) (Fin d) ℂ := -(χ⁻¹.map (starRingEnd ℂ))

/-- `ComplexCircularlySymmetricNormalEP.expected_carrier_measure`
(cmvn/circularly_symmetric.py 118-120). -/
def cmvCircularEcm {d : ℕ} (_ : Matrix (Fin d) (Fin d) ℂ) : ℝ := 0

end Efax
