import Verif.Model.ExpFam
import Mathlib.Analysis.SpecialFunctions.Trigonometric.Basic
import Mathlib.LinearAlgebra.Matrix.NonsingularInverse

/-!
# Multivariate normal families

`efax/_src/distributions/multivariate_normal/`.  `d` is `dimensions()`; a vector parameter of one
distribution is a function on `Fin d`, and sums with `axis=-1` are sums over `Fin d`.
-/

namespace Efax

/-- Unit variance (unit.py 47-65). -/
noncomputable def mvUnit (d : ℕ) : ExpFam (Fin d → ℝ) (Fin d → ℝ) (Fin d → ℝ) where
  dot q p := ∑ i, q i * p i
  logNormalizer q := 0.5 * (∑ i, q i ^ 2 + d * Real.log (Real.pi * 2))
  toExp q := q
  stat x := x
  carrier x := -0.5 * ∑ i, x i ^ 2

/-- `MultivariateUnitNormalEP.to_nat` (unit.py 111-113). -/
def mvUnitToNat {d : ℕ} (m : Fin d → ℝ) : Fin d → ℝ := m

/-- `MultivariateUnitNormalEP.expected_carrier_measure` (unit.py 115-118). -/
noncomputable def mvUnitEcm {d : ℕ} (m : Fin d → ℝ) : ℝ := -0.5 * (∑ i, m i ^ 2 + d)

/-- Fixed variance `v`, one number (fixed_variance.py 51-71). -/
noncomputable def mvFixed (d : ℕ) (v : ℝ) : ExpFam (Fin d → ℝ) (Fin d → ℝ) (Fin d → ℝ) where
  dot q p := ∑ i, q i * p i
  logNormalizer q := 0.5 * ((∑ i, q i ^ 2) * v + d * Real.log (Real.pi * 2 * v))
  toExp q := fun i => q i * v
  stat x := x
  carrier x := -0.5 * (∑ i, x i ^ 2) / v

/-- `MultivariateFixedVarianceNormalEP.to_nat` (fixed_variance.py 116-119). -/
noncomputable def mvFixedToNat {d : ℕ} (v : ℝ) (m : Fin d → ℝ) : Fin d → ℝ := fun i => m i / v

/-- `MultivariateFixedVarianceNormalEP.expected_carrier_measure` (fixed_variance.py 121-123). -/
noncomputable def mvFixedEcm {d : ℕ} (v : ℝ) (m : Fin d → ℝ) : ℝ :=
  -0.5 * ((∑ i, m i ^ 2) / v + d)

/-- Diagonal variance: `mean_times_precision` and `negative_half_precision` (diagonal.py 46-66). -/
noncomputable def mvDiagonal (d : ℕ) :
    ExpFam ((Fin d → ℝ) × (Fin d → ℝ)) ((Fin d → ℝ) × (Fin d → ℝ)) (Fin d → ℝ) where
  dot q p := ∑ i, q.1 i * p.1 i + ∑ i, q.2 i * p.2 i
  logNormalizer q :=
    ∑ i, (-q.1 i ^ 2 / (4 * q.2 i) + 0.5 * Real.log (-Real.pi / q.2 i))
  toExp q :=
    let mean := fun i => -q.1 i / (2 * q.2 i)
    (mean, fun i => mean i ^ 2 - 0.5 / q.2 i)
  stat x := (x, fun i => x i ^ 2)
  carrier _ := 0

/-- `MultivariateDiagonalNormalEP.variance` (diagonal.py 122-123). -/
def mvDiagonalVariance {d : ℕ} (χ : (Fin d → ℝ) × (Fin d → ℝ)) : Fin d → ℝ :=
  fun i => χ.2 i - χ.1 i ^ 2

/-- `MultivariateDiagonalNormalEP.to_nat` (diagonal.py 106-108). -/
noncomputable def mvDiagonalToNat {d : ℕ} (χ : (Fin d → ℝ) × (Fin d → ℝ)) :
    (Fin d → ℝ) × (Fin d → ℝ) :=
  (fun i => χ.1 i / mvDiagonalVariance χ i, fun i => -0.5 / mvDiagonalVariance χ i)

/-- `MultivariateDiagonalNormalEP.expected_carrier_measure` (diagonal.py 110-112). -/
def mvDiagonalEcm {d : ℕ} (_ : (Fin d → ℝ) × (Fin d → ℝ)) : ℝ := 0

/-- `MultivariateDiagonalNormalEP.to_variance_parametrization` (diagonal.py 125-126). -/
def mvDiagonalToVar {d : ℕ} (χ : (Fin d → ℝ) × (Fin d → ℝ)) : (Fin d → ℝ) × (Fin d → ℝ) :=
  (χ.1, mvDiagonalVariance χ)

/-- `MultivariateDiagonalNormalVP.to_exp` (diagonal.py 166-168). -/
def mvDiagonalVarToExp {d : ℕ} (w : (Fin d → ℝ) × (Fin d → ℝ)) : (Fin d → ℝ) × (Fin d → ℝ) :=
  (w.1, fun i => w.2 i + w.1 i ^ 2)

/-- `MultivariateDiagonalNormalVP.to_nat` (diagonal.py 170-174). -/
noncomputable def mvDiagonalVarToNat {d : ℕ} (w : (Fin d → ℝ) × (Fin d → ℝ)) :
    (Fin d → ℝ) × (Fin d → ℝ) :=
  let precision := fun i => 1 / w.2 i
  (fun i => w.1 i * precision i, fun i => -0.5 * precision i)

/-- Variance `k I`: `mean_times_precision` and the number `negative_half_precision`
(isotropic.py 45-67). -/
noncomputable def mvIsotropic (d : ℕ) :
    ExpFam ((Fin d → ℝ) × ℝ) ((Fin d → ℝ) × ℝ) (Fin d → ℝ) where
  dot q p := ∑ i, q.1 i * p.1 i + q.2 * p.2
  logNormalizer q :=
    0.5 * (-0.5 * (∑ i, q.1 i ^ 2) / q.2 + d * Real.log (Real.pi / -q.2))
  toExp q :=
    let precision := -2 * q.2
    let mean := fun i => q.1 i / precision
    let totalVariance := d / precision
    (mean, ∑ i, mean i ^ 2 + totalVariance)
  stat x := (x, ∑ i, x i ^ 2)
  carrier _ := 0

/-- `IsotropicNormalEP.variance` (isotropic.py 131-133). -/
noncomputable def mvIsotropicVariance {d : ℕ} (χ : (Fin d → ℝ) × ℝ) : ℝ :=
  (χ.2 - ∑ i, χ.1 i ^ 2) / d

/-- `IsotropicNormalEP.to_nat` (isotropic.py 107-112). -/
noncomputable def mvIsotropicToNat {d : ℕ} (χ : (Fin d → ℝ) × ℝ) : (Fin d → ℝ) × ℝ :=
  let variance := mvIsotropicVariance χ
  (fun i => χ.1 i / variance, -0.5 / variance)

/-- `IsotropicNormalEP.expected_carrier_measure` (isotropic.py 114-116). -/
def mvIsotropicEcm {d : ℕ} (_ : (Fin d → ℝ) × ℝ) : ℝ := 0

open Matrix in
/-- Arbitrary variance: `mean_times_precision` and the matrix `negative_half_precision`
(arbitrary.py 44-68).  `jnp.linalg.inv` is the matrix inverse, and the second result of
`jnp.linalg.slogdet(m)` is the logarithm of the absolute value of the determinant, which is what
`Real.log (det m)` is. -/
noncomputable def mvNormal (d : ℕ) :
    ExpFam ((Fin d → ℝ) × Matrix (Fin d) (Fin d) ℝ) ((Fin d → ℝ) × Matrix (Fin d) (Fin d) ℝ)
      (Fin d → ℝ) where
  dot q p := ∑ i, q.1 i * p.1 i + ∑ i, ∑ j, q.2 i j * p.2 i j
  logNormalizer q :=
    let a := (∑ i, ∑ j, q.2⁻¹ i j * vecMulVec q.1 q.1 i j);
    -0.25 * a - 0.5 * Real.log (-q.2).det + 0.5 * d * Real.log Real.pi
  toExp q :=
    let hInvTimesEta := q.2⁻¹ *ᵥ q.1
    ((-0.5 : ℝ) • hInvTimesEta, (0.25 : ℝ) • vecMulVec hInvTimesEta hInvTimesEta - (0.5 : ℝ) • q.2⁻¹)
  stat x := (x, vecMulVec x x)
  carrier _ := 0

/-- `MultivariateNormalEP.variance` (arbitrary.py 116-117). -/
def mvNormalVariance {d : ℕ} (χ : (Fin d → ℝ) × Matrix (Fin d) (Fin d) ℝ) :
    Matrix (Fin d) (Fin d) ℝ :=
  χ.2 - Matrix.vecMulVec χ.1 χ.1

open Matrix in
/-- `MultivariateNormalEP.to_nat` (arbitrary.py 98-102). -/
noncomputable def mvNormalToNat {d : ℕ} (χ : (Fin d → ℝ) × Matrix (Fin d) (Fin d) ℝ) :
    (Fin d → ℝ) × Matrix (Fin d) (Fin d) ℝ :=
  let precision := (mvNormalVariance χ)⁻¹
  (precision *ᵥ χ.1, (-0.5 : ℝ) • precision)

/-- `MultivariateNormalEP.expected_carrier_measure` (arbitrary.py 104-106). -/
def mvNormalEcm {d : ℕ} (_ : (Fin d → ℝ) × Matrix (Fin d) (Fin d) ℝ) : ℝ := 0

/-- `MultivariateNormalEP.to_variance_parametrization` (arbitrary.py 119-120). -/
def mvNormalToVar {d : ℕ} (χ : (Fin d → ℝ) × Matrix (Fin d) (Fin d) ℝ) :
    (Fin d → ℝ) × Matrix (Fin d) (Fin d) ℝ := (χ.1, mvNormalVariance χ)

/-- `MultivariateNormalVP.to_exp` (arbitrary.py 156-158). -/
def mvNormalVarToExp {d : ℕ} (w : (Fin d → ℝ) × Matrix (Fin d) (Fin d) ℝ) :
    (Fin d → ℝ) × Matrix (Fin d) (Fin d) ℝ := (w.1, w.2 + Matrix.vecMulVec w.1 w.1)

end Efax
