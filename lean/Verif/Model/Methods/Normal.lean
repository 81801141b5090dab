import Verif.Model.Methods.Basic

/-!
# Methods on arrays: normal classes
-/

namespace Efax.Methods

open Calc Val

/-- `NormalNP` (normal/normal.py 36-64). -/
noncomputable def normalNP : NatMethods where
  shape
    | [a, _] => .ok a.rshape
    | _ => .error .typeError
  logNormalizer
    | [a, b] => -square a.toR / (4 * b.toR) + 0.5 * log (-(Real.pi : Calc ℝ) / b.toR)
    | _ => fail .typeError
  toExp
    | [a, b] =>
      let mean := -a.toR / (2 * b.toR)
      let second_moment := square mean - 0.5 / b.toR
      vals [ofR mean, ofR second_moment]
    | _ => .error .typeError
  carrier _ x := zeros 0 x.toR
  stat x _ := vals [.ok x, ofR (square x.toR)]

/-- `NormalEP.variance` (normal/normal.py 120-121). -/
noncomputable def normalVariance (m s : Val) : Calc ℝ := s.toR - square m.toR

/-- `NormalEP` (normal/normal.py 89-91, 103-109). -/
noncomputable def normalEP : ExpMethods where
  shape
    | [a, _] => .ok a.rshape
    | _ => .error .typeError
  toNat _
    | [m, s] => vals [ofR (m.toR / normalVariance m s), ofR (-0.5 / normalVariance m s)]
    | _ => .error .typeError
  ecm _
    | [a, _] => zeros 0 a.toR
    | _ => fail .typeError

/-- `NormalEP.to_var` (normal/normal.py 123-124). -/
noncomputable def normalToVar : List Val → Except Err (List Val)
  | [m, s] => vals [.ok m, ofR (normalVariance m s)]
  | _ => .error .typeError

/-- `NormalVP.shape` (normal/normal.py 139-141). -/
def normalVPShape : List Val → Except Err (List ℕ)
  | [a, _] => .ok a.rshape
  | _ => .error .typeError

/-- `NormalVP.to_exp` (normal/normal.py 163-165). -/
noncomputable def normalVarToExp : List Val → Except Err (List Val)
  | [m, v] => vals [.ok m, ofR (v.toR + square m.toR)]
  | _ => .error .typeError

/-- `NormalVP.to_nat` (normal/normal.py 167-171). -/
noncomputable def normalVarToNat : List Val → Except Err (List Val)
  | [m, v] =>
    let precision := 1 / v.toR
    let mean_times_precision := m.toR * precision
    let negative_half_precision := -0.5 * precision
    vals [ofR mean_times_precision, ofR negative_half_precision]
  | _ => .error .typeError

/-- `UnitNormalNP` (normal/unit.py 35-62). -/
noncomputable def unitNormalNP : NatMethods where
  shape
    | [a] => .ok a.rshape
    | _ => .error .typeError
  logNormalizer
    | [a] => 0.5 * (square a.toR + log ((Real.pi : Calc ℝ) * 2))
    | _ => fail .typeError
  toExp
    | [a] => .ok [a]
    | _ => .error .typeError
  carrier _ x := -0.5 * square x.toR
  stat x _ := .ok [x]

/-- `UnitNormalEP` (normal/unit.py 88-90, 102-109). -/
noncomputable def unitNormalEP : ExpMethods where
  shape
    | [a] => .ok a.rshape
    | _ => .error .typeError
  toNat _
    | [a] => .ok [a]
    | _ => .error .typeError
  ecm _
    | [a] => -0.5 * (square a.toR + 1)
    | _ => fail .typeError

/-- `MultivariateUnitNormalNP` (multivariate_normal/unit.py 38-77). -/
noncomputable def mvUnitNormalNP : NatMethods where
  shape
    | [a] => .ok (a.rshape.drop 1)
    | _ => .error .typeError
  logNormalizer
    | [a] => 0.5 * ((square a.toR).sumLast + dim a.toR * log ((Real.pi : Calc ℝ) * 2))
    | _ => fail .typeError
  toExp
    | [a] => .ok [a]
    | _ => .error .typeError
  carrier _ x := -0.5 * (square x.toR).sumLast
  stat x _ := .ok [x]

/-- `MultivariateUnitNormalEP` (multivariate_normal/unit.py 97-99, 111-118, 139-141). -/
noncomputable def mvUnitNormalEP : ExpMethods where
  shape
    | [a] => .ok (a.rshape.drop 1)
    | _ => .error .typeError
  toNat _
    | [a] => .ok [a]
    | _ => .error .typeError
  ecm _
    | [a] => -0.5 * ((square a.toR).sumLast + dim a.toR)
    | _ => fail .typeError

/-- `MultivariateFixedVarianceNormalNP` (multivariate_normal/fixed_variance.py 42-79). -/
noncomputable def fixedVarianceNormalNP : NatMethods where
  shape
    | [a, _] => .ok (a.rshape.drop 1)
    | _ => .error .typeError
  logNormalizer
    | [a, v] => 0.5 * ((square a.toR).sumLast * v.toR
        + dim a.toR * log ((Real.pi : Calc ℝ) * 2 * v.toR))
    | _ => fail .typeError
  toExp
    | [a, v] => vals [ofR (a.toR * v.toR.newaxis), .ok v]
    | _ => .error .typeError
  carrier
    | [_, v], x => -0.5 * (square x.toR).sumLast / v.toR
    | _, _ => fail .typeError
  stat x fixed := do
    let v ← fixed.get "variance"
    .ok [x, v]

/-- `MultivariateFixedVarianceNormalEP` (multivariate_normal/fixed_variance.py 102-104, 116-123,
153-155). -/
noncomputable def fixedVarianceNormalEP : ExpMethods where
  shape
    | [a, _] => .ok (a.rshape.drop 1)
    | _ => .error .typeError
  toNat _
    | [m, v] => vals [ofR (m.toR / v.toR.newaxis), .ok v]
    | _ => .error .typeError
  ecm _
    | [m, v] => -0.5 * ((square m.toR).sumLast / v.toR + dim m.toR)
    | _ => fail .typeError

/-- `MultivariateDiagonalNormalNP` (multivariate_normal/diagonal.py 37-66). -/
noncomputable def diagonalNormalNP : NatMethods where
  shape
    | [a, _] => .ok (a.rshape.drop 1)
    | _ => .error .typeError
  logNormalizer
    | [a, b] =>
      let components := -square a.toR / (4 * b.toR) + 0.5 * log (-(Real.pi : Calc ℝ) / b.toR)
      components.sumLast
    | _ => fail .typeError
  toExp
    | [a, b] =>
      let mean := -a.toR / (2 * b.toR)
      let second_moment := square mean - 0.5 / b.toR
      vals [ofR mean, ofR second_moment]
    | _ => .error .typeError
  carrier _ x := zeros 1 x.toR
  stat x _ := vals [.ok x, ofR (square x.toR)]

/-- `MultivariateDiagonalNormalEP.variance` (multivariate_normal/diagonal.py 122-123). -/
noncomputable def diagonalVariance (m s : Val) : Calc ℝ := s.toR - square m.toR

/-- `MultivariateDiagonalNormalEP` (multivariate_normal/diagonal.py 92-94, 106-112). -/
noncomputable def diagonalNormalEP : ExpMethods where
  shape
    | [a, _] => .ok (a.rshape.drop 1)
    | _ => .error .typeError
  toNat _
    | [m, s] => vals [ofR (m.toR / diagonalVariance m s), ofR (-0.5 / diagonalVariance m s)]
    | _ => .error .typeError
  ecm _
    | [a, _] => zeros 1 a.toR
    | _ => fail .typeError

/-- `MultivariateDiagonalNormalEP.to_variance_parametrization` (multivariate_normal/diagonal.py
125-126). -/
noncomputable def diagonalToVar : List Val → Except Err (List Val)
  | [m, s] => vals [.ok m, ofR (diagonalVariance m s)]
  | _ => .error .typeError

/-- `MultivariateDiagonalNormalVP.shape` (multivariate_normal/diagonal.py 141-143). -/
def diagonalVPShape : List Val → Except Err (List ℕ)
  | [a, _] => .ok (a.rshape.drop 1)
  | _ => .error .typeError

/-- `MultivariateDiagonalNormalVP.to_exp` (multivariate_normal/diagonal.py 166-168). -/
noncomputable def diagonalVarToExp : List Val → Except Err (List Val)
  | [m, v] => vals [.ok m, ofR (v.toR + square m.toR)]
  | _ => .error .typeError

/-- `MultivariateDiagonalNormalVP.to_nat` (multivariate_normal/diagonal.py 170-174). -/
noncomputable def diagonalVarToNat : List Val → Except Err (List Val)
  | [m, v] =>
    let precision := 1 / v.toR
    let mean_times_precision := m.toR * precision
    let negative_half_precision := -0.5 * precision
    vals [ofR mean_times_precision, ofR negative_half_precision]
  | _ => .error .typeError

/-- `IsotropicNormalNP` (multivariate_normal/isotropic.py 36-71). -/
noncomputable def isotropicNormalNP : NatMethods where
  shape
    | [_, b] => .ok b.rshape
    | _ => .error .typeError
  logNormalizer
    | [a, b] => 0.5 * (-0.5 * (square a.toR).sumLast / b.toR
        + dim a.toR * log ((Real.pi : Calc ℝ) / -b.toR))
    | _ => fail .typeError
  toExp
    | [a, b] =>
      let precision := -2 * b.toR
      let mean := a.toR / precision.newaxis
      let total_variance := dim a.toR / precision
      let total_second_moment := (square mean).sumLast + total_variance
      vals [ofR mean, ofR total_second_moment]
    | _ => .error .typeError
  carrier _ x := zeros 1 x.toR
  stat x _ := vals [.ok x, ofR (square x.toR).sumLast]

/-- `IsotropicNormalEP.variance` (multivariate_normal/isotropic.py 131-133). -/
noncomputable def isotropicVariance (m s : Val) : Calc ℝ :=
  (s.toR - (square m.toR).sumLast) / dim m.toR

/-- `IsotropicNormalEP` (multivariate_normal/isotropic.py 93-95, 107-116, 127-129). -/
noncomputable def isotropicNormalEP : ExpMethods where
  shape
    | [a, _] => .ok (a.rshape.drop 1)
    | _ => .error .typeError
  toNat _
    | [m, s] =>
      let variance := isotropicVariance m s
      let negative_half_precision := -0.5 / variance
      let mean_times_precision := m.toR / variance.newaxis
      vals [ofR mean_times_precision, ofR negative_half_precision]
    | _ => .error .typeError
  ecm _
    | [a, _] => zeros 1 a.toR
    | _ => fail .typeError

/-- `MultivariateNormalNP` (multivariate_normal/arbitrary.py 35-72). -/
noncomputable def mvNormalNP : NatMethods where
  shape
    | [a, _] => .ok (a.rshape.drop 1)
    | _ => .error .typeError
  logNormalizer
    | [a, b] =>
      let eta := a.toR
      let h_inv := inv b.toR
      let q := matDot h_inv (outer eta eta)
      let ld := slogdet (-b.toR);
      -0.25 * q - 0.5 * ld + 0.5 * dim a.toR * log (Real.pi : Calc ℝ)
    | _ => fail .typeError
  toExp
    | [a, b] =>
      let h_inv := inv b.toR
      let h_inv_times_eta := matVec h_inv a.toR
      let mean := -0.5 * h_inv_times_eta
      let second_moment := 0.25 * outer h_inv_times_eta h_inv_times_eta - 0.5 * h_inv
      vals [ofR mean, ofR second_moment]
    | _ => .error .typeError
  carrier _ x := zeros 1 x.toR
  stat x _ := vals [.ok x, ofR (outer x.toR x.toR)]

/-- `MultivariateNormalEP.variance` (multivariate_normal/arbitrary.py 116-117). -/
noncomputable def mvVariance (m s : Val) : Calc ℝ := s.toR - outer m.toR m.toR

/-- `MultivariateNormalEP` (multivariate_normal/arbitrary.py 84-86, 98-106). -/
noncomputable def mvNormalEP : ExpMethods where
  shape
    | [a, _] => .ok (a.rshape.drop 1)
    | _ => .error .typeError
  toNat _
    | [m, s] =>
      let precision := inv (mvVariance m s)
      let mean_times_precision := matVec precision m.toR
      vals [ofR mean_times_precision, ofR (-0.5 * precision)]
    | _ => .error .typeError
  ecm _
    | [a, _] => zeros 1 a.toR
    | _ => fail .typeError

/-- `MultivariateNormalEP.to_variance_parametrization` (multivariate_normal/arbitrary.py 119-120). -/
noncomputable def mvToVar : List Val → Except Err (List Val)
  | [m, s] => vals [.ok m, ofR (mvVariance m s)]
  | _ => .error .typeError

/-- `MultivariateNormalVP.shape` (multivariate_normal/arbitrary.py 135-137). -/
def mvVPShape : List Val → Except Err (List ℕ)
  | [a, _] => .ok (a.rshape.drop 1)
  | _ => .error .typeError

/-- `MultivariateNormalVP.to_exp` (multivariate_normal/arbitrary.py 156-158). -/
noncomputable def mvVarToExp : List Val → Except Err (List Val)
  | [m, v] => vals [.ok m, ofR (v.toR + outer m.toR m.toR)]
  | _ => .error .typeError

end Efax.Methods
