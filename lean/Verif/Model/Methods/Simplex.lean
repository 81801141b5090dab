import Verif.Model.Methods.Basic
import Verif.Model.Families.Simplex
import Verif.Model.Families.VonMises

/-!
# Methods on arrays: Dirichlet, beta, generalized Dirichlet and von Mises-Fisher classes
-/

namespace Efax.Methods

open Calc Val

/-- `DirichletCommonNP.shape` (dirichlet_common.py 32-34). -/
def dirichletShape : List Val → Except Err (List ℕ)
  | [a] => .ok (a.rshape.drop 1)
  | _ => .error .typeError

/-- `DirichletCommonNP.log_normalizer` (dirichlet_common.py 36-40). -/
noncomputable def dirichletLogNormalizer : List Val → Calc ℝ
  | [a] =>
    let q := a.toR
    ((q + 1).map gammaln).sumLast - (q.sumLast + dim q).map gammaln
  | _ => fail .typeError

/-- `DirichletCommonNP._exp_helper` (dirichlet_common.py 52-54). -/
noncomputable def dirichletExpHelper : List Val → Except Err (List Val)
  | [a] =>
    let q := a.toR
    vals [ofR ((q + 1).map digamma - (q.sumLast.newaxis + dim q).map digamma)]
  | _ => .error .typeError

/-- `DirichletNP` (dirichlet.py 29-42). -/
noncomputable def dirichletNP : NatMethods where
  shape := dirichletShape
  logNormalizer := dirichletLogNormalizer
  toExp := dirichletExpHelper
  carrier _ x := zeros 1 x.toR
  stat x _ :=
    let one_minus_total_x := 1 - x.toR.sumLast.newaxis
    vals [ofR (append (log x.toR) (log one_minus_total_x))]

/-- `BetaNP` (beta.py 35-47). -/
noncomputable def betaNP : NatMethods where
  shape := dirichletShape
  logNormalizer := dirichletLogNormalizer
  toExp := dirichletExpHelper
  carrier _ x := zeros 0 x.toR
  stat x _ := vals [ofR (stack2 (log x.toR) ((-x.toR).map log1p))]

/-- `DirichletCommonEP` (dirichlet_common.py 69-79): `DirichletEP` and `BetaEP`; `to_nat` is
`ExpToNat.to_nat`. -/
noncomputable def dirichletEP : ExpMethods where
  shape
    | [a] => .ok (a.rshape.drop 1)
    | _ => .error .typeError
  toNat search := search
  ecm _
    | [a] => zeros 1 a.toR
    | _ => fail .typeError

/-- `GeneralizedDirichletNP.alpha_beta` (gen_dirichlet.py 83-90). -/
noncomputable def genDirichletAlphaBeta (a g : Val) : Calc ℝ × Calc ℝ :=
  let alpha := a.toR + 1
  let cs_alpha := alpha.flip.cumsum0.init
  let cs_gamma := g.toR.flip.cumsum
  let beta := (cs_gamma + cs_alpha + 1).flip
  (alpha, beta)

/-- `GeneralizedDirichletNP` (gen_dirichlet.py 37-81). -/
noncomputable def genDirichletNP : NatMethods where
  shape
    | [a, _] => .ok (a.rshape.drop 1)
    | _ => .error .typeError
  logNormalizer
    | [a, g] =>
      let alpha := (genDirichletAlphaBeta a g).1
      let beta := (genDirichletAlphaBeta a g).2
      (bin betaln alpha beta).sumLast
    | _ => fail .typeError
  toExp
    | [a, g] =>
      let alpha := (genDirichletAlphaBeta a g).1
      let beta := (genDirichletAlphaBeta a g).2
      let digamma_sum := (alpha + beta).map digamma
      let alpha_bar_direct := alpha.map digamma - digamma_sum
      let beta_bar := beta.map digamma - digamma_sum
      let cs_beta_bar := beta_bar.cumsum0
      let gamma_bar := cs_beta_bar.tail
      let alpha_bar_indirect := cs_beta_bar.init
      let alpha_bar := alpha_bar_direct + alpha_bar_indirect
      vals [ofR alpha_bar, ofR gamma_bar]
    | _ => .error .typeError
  carrier _ x := zeros 1 x.toR
  stat x _ :=
    let cs_x := x.toR.cumsum
    vals [ofR (log x.toR), ofR ((-cs_x).map log1p)]

/-- `GeneralizedDirichletEP` (gen_dirichlet.py 106-108, 128-134); `to_nat` is `ExpToNat.to_nat`. -/
noncomputable def genDirichletEP : ExpMethods where
  shape
    | [a, _] => .ok (a.rshape.drop 1)
    | _ => .error .typeError
  toNat search := search
  ecm _
    | [a, _] => zeros 1 a.toR
    | _ => fail .typeError

open Classical in
/-- `VonMisesFisherNP` (von_mises.py 33-72).  `carrier_measure` has the shape of the distribution,
not of the observation (61-62). -/
noncomputable def vonMisesFisherNP : NatMethods where
  shape
    | [a] => .ok (a.rshape.drop 1)
    | _ => .error .typeError
  logNormalizer
    | [a] =>
      let half_k := dim a.toR * 0.5
      let kappa := norm a.toR
      kappa - (half_k - 1) * log kappa + half_k * log (2 * (Real.pi : Calc ℝ))
        + bin logIve (half_k - 1) kappa
    | _ => fail .typeError
  toExp
    | [a] =>
      let q := a.toR
      let kappa := (norm q).newaxis
      let ratio := bin vmfAK (dim q) kappa
      vals [ofR (whereE (· = (0 : ℝ)) kappa q (q * (ratio / kappa)))]
    | _ => .error .typeError
  carrier
    | [a], _ => zeros 1 a.toR
    | _, _ => fail .typeError
  stat x _ := .ok [x]

/-- `VonMisesFisherEP` (von_mises.py 101-103, 115-117, 141-143); `to_nat` is `ExpToNat.to_nat`. -/
noncomputable def vonMisesFisherEP : ExpMethods where
  shape
    | [a] => .ok (a.rshape.drop 1)
    | _ => .error .typeError
  toNat search := search
  ecm _
    | [a] => zeros 1 a.toR
    | _ => fail .typeError

/-- `VonMisesFisherNP.kappa` (von_mises.py 74-75). -/
noncomputable def vmfKappa (a : Val) : Calc ℝ := norm a.toR

open Classical in
/-- `VonMisesFisherNP.to_kappa_angle` (von_mises.py 77-85); `arctan2(y, x)` is the argument of
`x + iy`. -/
noncomputable def vmfToKappaAngle (a : Val) : Except Err (Calc ℝ × Calc ℝ) :=
  match a.rshape with
  | [] => .error .indexError
  | d :: _ =>
    if d ≠ 2 then .error .valueError
    else
      let kappa := vmfKappa a
      .ok (kappa, whereE (· = (0 : ℝ)) kappa 0
        (bin (fun y x => Complex.arg ⟨x, y⟩) (at_ 1 a.toR) (at_ 0 a.toR)))

end Efax.Methods
