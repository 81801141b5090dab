import Verif.Model.Methods.Basic

/-!
# Methods on arrays: complex normal classes
-/

namespace Efax.Methods

open Calc Val

/-- `ComplexNormalNP._r_s_mu` (complex_normal/complex_normal.py 81-88). -/
noncomputable def rSMu (a b c : Val) : Calc ℂ × Calc ℝ × Calc ℂ :=
  let r := -c.toCalcC / b.toR.toComplex
  let s := 1 / ((absSquare r - 1) * b.toR)
  let k := c.toCalcC / b.toR.toComplex
  let l_eta := 0.5 * a.toCalcC / ((absSquare k - 1) * b.toR).toComplex
  let mu := conj l_eta - conj (c.toCalcC / b.toR.toComplex) * l_eta
  (r, s, mu)

/-- `ComplexNormalNP` (complex_normal/complex_normal.py 45-79). -/
noncomputable def complexNormalNP : NatMethods where
  shape
    | [a, _, _] => .ok a.rshape
    | _ => .error .typeError
  logNormalizer
    | [a, b, c] =>
      let s := (rSMu a b c).2.1
      let mu := (rSMu a b c).2.2
      let det_s := s
      let det_h := -b.toR;
      -absSquare mu * b.toR - re (square mu * c.toCalcC) + 0.5 * log det_s - 0.5 * log det_h
        + log (Real.pi : Calc ℝ)
    | _ => fail .typeError
  toExp
    | [a, b, c] =>
      let r := (rSMu a b c).1
      let s := (rSMu a b c).2.1
      let mu := (rSMu a b c).2.2
      let u := conj (r * s.toComplex)
      vals [ofC mu, ofR (s + absSquare mu), ofC (u + square mu)]
    | _ => .error .typeError
  carrier _ x := zeros 0 x.toCalcC
  stat x _ := vals [.ok x, ofR (absSquare x.toCalcC), ofC (square x.toCalcC)]

/-- `ComplexNormalEP` (complex_normal/complex_normal.py 121-123, 135-151). -/
noncomputable def complexNormalEP : ExpMethods where
  shape
    | [a, _, _] => .ok a.rshape
    | _ => .error .typeError
  toNat _
    | [a, b, c] =>
      let variance := b.toR - absSquare a.toCalcC
      let pseudo_variance := c.toCalcC - square a.toCalcC
      let r := conj pseudo_variance / variance.toComplex
      let p_c := variance.toComplex - conj (r * pseudo_variance)
      let p_inv_c := 1 / p_c
      let precision := -re p_inv_c
      let pseudo_precision := r * p_inv_c
      let mean_times_precision :=
        -2 * (precision.toComplex * conj a.toCalcC + pseudo_precision * a.toCalcC)
      vals [ofC mean_times_precision, ofR precision, ofC pseudo_precision]
    | _ => .error .typeError
  ecm _
    | [a, _, _] => zeros 0 a.toCalcC
    | _ => fail .typeError

/-- `ComplexUnitNormalNP` (complex_normal/unit.py 38-64). -/
noncomputable def complexUnitNormalNP : NatMethods where
  shape
    | [a] => .ok a.rshape
    | _ => .error .typeError
  logNormalizer
    | [a] =>
      let mean_conjugate := a.toCalcC * 0.5
      absSquare mean_conjugate + log (Real.pi : Calc ℝ)
    | _ => fail .typeError
  toExp
    | [a] => vals [ofC (conj a.toCalcC * 0.5)]
    | _ => .error .typeError
  carrier _ x := -absSquare x.toCalcC
  stat x _ := .ok [x]

/-- `ComplexUnitNormalEP` (complex_normal/unit.py 85-87, 99-106). -/
noncomputable def complexUnitNormalEP : ExpMethods where
  shape
    | [a] => .ok a.rshape
    | _ => .error .typeError
  toNat _
    | [a] => vals [ofC (conj a.toCalcC * 2)]
    | _ => .error .typeError
  ecm _
    | [a] => -(absSquare a.toCalcC + 1)
    | _ => fail .typeError

/-- `ComplexMultivariateUnitNormalNP` (cmvn/unit.py 42-76). -/
noncomputable def cmvUnitNormalNP : NatMethods where
  shape
    | [a] => .ok (a.rshape.drop 1)
    | _ => .error .typeError
  logNormalizer
    | [a] =>
      let mean_conjugate := a.toCalcC * 0.5
      (absSquare mean_conjugate).sumLast + dim a.toCalcC * log (Real.pi : Calc ℝ)
    | _ => fail .typeError
  toExp
    | [a] => vals [ofC (conj a.toCalcC * 0.5)]
    | _ => .error .typeError
  carrier _ x := -(absSquare x.toCalcC).sumLast
  stat x _ := .ok [x]

/-- `ComplexMultivariateUnitNormalEP` (cmvn/unit.py 94-96, 108-115, 134-136). -/
noncomputable def cmvUnitNormalEP : ExpMethods where
  shape
    | [a] => .ok (a.rshape.drop 1)
    | _ => .error .typeError
  toNat _
    | [a] => vals [ofC (conj a.toCalcC * 2)]
    | _ => .error .typeError
  ecm _
    | [a] => -((absSquare a.toCalcC).sumLast + dim a.toCalcC)
    | _ => fail .typeError

/-- `ComplexCircularlySymmetricNormalNP` (cmvn/circularly_symmetric.py 44-79). -/
noncomputable def ccsnNP : NatMethods where
  shape
    | [a] => .ok (a.rshape.drop 2)
    | _ => .error .typeError
  logNormalizer
    | [a] =>
      let log_det_s := log (re (det (-a.toCalcC)));
      -log_det_s + dim a.toCalcC * log (Real.pi : Calc ℝ)
    | _ => fail .typeError
  toExp
    | [a] => vals [ofC (conj (inv (-a.toCalcC)))]
    | _ => .error .typeError
  carrier _ x := zeros 1 x.toCalcC
  stat x _ := vals [ofC (outer x.toCalcC x.toCalcC)]

/-- `ComplexCircularlySymmetricNormalEP` (cmvn/circularly_symmetric.py 99-101, 113-120). -/
noncomputable def ccsnEP : ExpMethods where
  shape
    | [a] => .ok (a.rshape.drop 2)
    | _ => .error .typeError
  toNat _
    | [a] => vals [ofC (-conj (inv a.toCalcC))]
    | _ => .error .typeError
  ecm _
    | [a] => zeros 2 a.toCalcC
    | _ => fail .typeError

end Efax.Methods
