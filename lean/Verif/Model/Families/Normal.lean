import Verif.Model.ExpFam
import Mathlib.Analysis.SpecialFunctions.Trigonometric.Basic

/-!
# Univariate normal families
-/

namespace Efax

/-- The normal family: `mean_times_precision` and `negative_half_precision` (normal/normal.py
45-64). -/
noncomputable def normal : ExpFam (ℝ × ℝ) (ℝ × ℝ) ℝ where
  dot q p := q.1 * p.1 + q.2 * p.2
  logNormalizer q := -q.1 ^ 2 / (4 * q.2) + 0.5 * Real.log (-Real.pi / q.2)
  toExp q :=
    let mean := -q.1 / (2 * q.2)
    (mean, mean ^ 2 - 0.5 / q.2)
  stat x := (x, x ^ 2)
  carrier _ := 0

/-- `NormalEP.variance` (normal/normal.py 120-121). -/
def normalVariance (χ : ℝ × ℝ) : ℝ := χ.2 - χ.1 ^ 2

/-- `NormalEP.to_nat` (normal/normal.py 103-105). -/
noncomputable def normalToNat (χ : ℝ × ℝ) : ℝ × ℝ :=
  (χ.1 / normalVariance χ, -0.5 / normalVariance χ)

/-- `NormalEP.expected_carrier_measure` (normal/normal.py 107-109). -/
def normalEcm (_ : ℝ × ℝ) : ℝ := 0

/-- `NormalEP.to_var` (normal/normal.py 123-124). -/
def normalToVar (χ : ℝ × ℝ) : ℝ × ℝ := (χ.1, normalVariance χ)

/-- `NormalNP.to_var` (normal/normal.py 66-67). -/
noncomputable def normalNatToVar (q : ℝ × ℝ) : ℝ × ℝ := normalToVar (normal.toExp q)

/-- `NormalVP.to_exp` (normal/normal.py 163-165). -/
def normalVarToExp (w : ℝ × ℝ) : ℝ × ℝ := (w.1, w.2 + w.1 ^ 2)

/-- `NormalVP.to_nat` (normal/normal.py 167-171). -/
noncomputable def normalVarToNat (w : ℝ × ℝ) : ℝ × ℝ :=
  let precision := 1 / w.2
  (w.1 * precision, -0.5 * precision)

/-- The normal family with unit variance (normal/unit.py 44-62). -/
noncomputable def unitNormal : ExpFam ℝ ℝ ℝ where
  dot q p := q * p
  logNormalizer q := 0.5 * (q ^ 2 + Real.log (Real.pi * 2))
  toExp q := q
  stat x := x
  carrier x := -0.5 * x ^ 2

/-- `UnitNormalEP.to_nat` (normal/unit.py 102-104). -/
def unitNormalToNat (m : ℝ) : ℝ := m

/-- `UnitNormalEP.expected_carrier_measure` (normal/unit.py 106-109). -/
noncomputable def unitNormalEcm (m : ℝ) : ℝ := -0.5 * (m ^ 2 + 1)

end Efax
