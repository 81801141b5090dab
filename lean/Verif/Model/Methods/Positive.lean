import Verif.Model.Methods.Basic
import Verif.Model.Families.Positive

/-!
# Methods on arrays: classes on the positive numbers
-/

namespace Efax.Methods

open Calc Val

/-- `ExponentialNP` (exponential.py 32-57). -/
noncomputable def exponentialNP : NatMethods where
  shape
    | [a] => .ok a.rshape
    | _ => .error .typeError
  logNormalizer
    | [a] => -log (-a.toR)
    | _ => fail .typeError
  toExp
    | [a] => vals [ofR (-1 / a.toR)]
    | _ => .error .typeError
  carrier _ x := zeros 0 x.toR
  stat x _ := .ok [x]

/-- `ExponentialEP` (exponential.py 81-83, 95-101). -/
noncomputable def exponentialEP : ExpMethods where
  shape
    | [a] => .ok a.rshape
    | _ => .error .typeError
  toNat _
    | [a] => vals [ofR (-1 / a.toR)]
    | _ => .error .typeError
  ecm _
    | [a] => zeros 0 a.toR
    | _ => fail .typeError

/-- `GammaNP` (gamma.py 39-67). -/
noncomputable def gammaNP : NatMethods where
  shape
    | [a, _] => .ok a.rshape
    | _ => .error .typeError
  logNormalizer
    | [a, b] =>
      let shape := b.toR + 1
      shape.map gammaln - shape * log (-a.toR)
    | _ => fail .typeError
  toExp
    | [a, b] =>
      let shape := b.toR + 1
      vals [ofR (-shape / a.toR), ofR (shape.map digamma - log (-a.toR))]
    | _ => .error .typeError
  carrier _ x := zeros 0 x.toR
  stat x _ := vals [.ok x, ofR (log x.toR)]

/-- `GammaEP` (gamma.py 99-101, 113-115); `to_nat` is `ExpToNat.to_nat`. -/
noncomputable def gammaEP : ExpMethods where
  shape
    | [a, _] => .ok a.rshape
    | _ => .error .typeError
  toNat search := search
  ecm _
    | [a, _] => zeros 0 a.toR
    | _ => fail .typeError

/-- `GammaNP.to_var` (gamma.py 75-80). -/
noncomputable def gammaToVar : List Val → Except Err (List Val)
  | [a, b] =>
    let rate := -a.toR
    let shape := b.toR + 1
    let mean := shape / rate
    let variance := mean / rate
    vals [ofR mean, ofR variance]
  | _ => .error .typeError

/-- `GammaVP.shape` (gamma.py 156-159). -/
def gammaVPShape : List Val → Except Err (List ℕ)
  | [a, _] => .ok (a.rshape.drop 1)
  | _ => .error .typeError

/-- `GammaVP.to_nat` (gamma.py 166-171). -/
noncomputable def gammaVarToNat : List Val → Except Err (List Val)
  | [m, v] =>
    let rate := m.toR / v.toR
    let shape := m.toR * rate
    vals [ofR (-rate), ofR (shape - 1)]
  | _ => .error .typeError

/-- `ChiSquareNP` (chi_square.py 36-63). -/
noncomputable def chiSquareNP : NatMethods where
  shape
    | [a] => .ok a.rshape
    | _ => .error .typeError
  logNormalizer
    | [a] =>
      let k_over_two := a.toR + 1
      k_over_two.map gammaln - k_over_two * log 0.5
    | _ => fail .typeError
  toExp
    | [a] =>
      let k_over_two := a.toR + 1
      vals [ofR (k_over_two.map digamma - log 0.5)]
    | _ => .error .typeError
  carrier _ x := -x.toR * 0.5
  stat x _ := vals [ofR (log x.toR)]

/-- `ChiSquareEP` (chi_square.py 95-97, 104-108); `to_nat` is `ExpToNat.to_nat`. -/
noncomputable def chiSquareEP : ExpMethods where
  shape
    | [a] => .ok a.rshape
    | _ => .error .typeError
  toNat search := search
  ecm search p :=
    match search p with
    | .ok [k_over_two_minus_one] => -(k_over_two_minus_one.toR + 1)
    | .ok _ => fail .typeError
    | .error e => fail e

/-- `ChiNP` (chi.py 46-62, mixins/transformed_parametrization.py 40-59): the methods of the base
distribution, which has the same parameter under another name. -/
noncomputable def chiNP : NatMethods where
  shape := chiSquareNP.shape
  logNormalizer := chiSquareNP.logNormalizer
  toExp := chiSquareNP.toExp
  carrier _ x := log (2 * x.toR) - square x.toR * 0.5
  stat x fixed := do
    let y ← ofR (square x.toR)
    chiSquareNP.stat y fixed

/-- `ChiEP` (chi.py 91-103, mixins/transformed_parametrization.py 82-89). -/
noncomputable def chiEP : ExpMethods where
  shape := chiSquareEP.shape
  toNat := chiSquareEP.toNat
  ecm search p :=
    match chiSquareEP.toNat search p with
    | .ok [k_over_two_minus_one] =>
      let k_over_two := k_over_two_minus_one.toR + 1;
      (-1) * k_over_two + 0.5 * k_over_two.map digamma + 1.5 * log 2
    | .ok _ => fail .typeError
    | .error e => fail e

/-- `RayleighNP` (rayleigh.py 46-63, mixins/transformed_parametrization.py 40-59). -/
noncomputable def rayleighNP : NatMethods where
  shape := exponentialNP.shape
  logNormalizer := exponentialNP.logNormalizer
  toExp := exponentialNP.toExp
  carrier _ x := log x.toR + log 2
  stat x fixed := do
    let y ← ofR (square x.toR)
    exponentialNP.stat y fixed

/-- `RayleighEP` (rayleigh.py 99-109, mixins/transformed_parametrization.py 82-89). -/
noncomputable def rayleighEP : ExpMethods where
  shape := exponentialEP.shape
  toNat := exponentialEP.toNat
  ecm _
    | [a] => 0.5 * log (a.toR * 0.5)
        + (1.5 * log 2 - 0.5 * (Real.eulerMascheroniConstant : Calc ℝ))
    | _ => fail .typeError

/-- `WeibullNP` (weibull.py 35-63). -/
noncomputable def weibullNP : NatMethods where
  shape
    | [_, b] => .ok b.rshape
    | _ => .error .typeError
  logNormalizer
    | [k, b] => -log (-b.toR) - log k.toR
    | _ => fail .typeError
  toExp
    | [k, b] => vals [.ok k, ofR (-1 / b.toR)]
    | _ => .error .typeError
  carrier
    | [k, _], x => (k.toR - 1) * log x.toR
    | _, _ => fail .typeError
  stat x fixed := do
    let concentration ← fixed.get "concentration"
    vals [ofR (broadcastLike concentration.toR x.toR),
      ofR (bin (fun a k : ℝ => a ^ k) x.toR concentration.toR)]

/-- `WeibullEP` (weibull.py 86-88, 100-108). -/
noncomputable def weibullEP : ExpMethods where
  shape
    | [_, b] => .ok b.rshape
    | _ => .error .typeError
  toNat _
    | [k, b] => vals [.ok k, ofR (-1 / b.toR)]
    | _ => .error .typeError
  ecm _
    | [k, b] =>
      let one_minus_one_over_k := 1 - 1 / k.toR
      one_minus_one_over_k * log b.toR
        - (Real.eulerMascheroniConstant : Calc ℝ) * one_minus_one_over_k
    | _ => fail .typeError

end Efax.Methods
