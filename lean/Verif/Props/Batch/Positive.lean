import Verif.Lemmas.Refines
import Verif.Model.Methods.Positive

/-! # C50, C51: classes on the positive numbers on batches -/

namespace Efax

open Calc Spec Val

theorem C51_exponential : Refines Methods.exponentialNP layS layS noFixed
    HoldsR fun _ => exponential where
  shape _ _ _ := rfl
  logNormalizer rs p q := by
    simp only [Methods.exponentialNP, layS, toR_real, toR_int_scalars, toCalcC_complex]
    calc_simp
    rfl
  toExp rs p q _ := by
    simp only [Methods.exponentialNP, layS, toR_real, toR_int_scalars, toCalcC_complex]
    calc_simp
    rfl
  carrier rs p q x v h := by
    simp only [Methods.exponentialNP, layS, show v.toR = _ from h, toR_real, toR_int_scalars]
    calc_simp
    rfl
  stat rs p x v h := ⟨_, rfl, by simp only [List.map, toC_of_toR h]; rfl⟩

theorem C51_exponential_exp : RefinesE Methods.exponentialEP layS layS
    (fun _ => exponentialToNat) fun _ => exponentialEcm where
  shape _ _ _ := rfl
  toNat search rs p χ := by
    simp only [Methods.exponentialEP, layS, toR_real, toR_int_scalars, toCalcC_complex]
    calc_simp
    rfl
  ecm search rs p χ := by
    simp only [Methods.exponentialEP, layS, toR_real, toR_int_scalars, toCalcC_complex]
    calc_simp
    rfl

theorem C51_gamma : Refines Methods.gammaNP laySS laySS noFixed
    HoldsR fun _ => gamma where
  shape _ _ _ := rfl
  logNormalizer rs p q := by
    simp only [Methods.gammaNP, laySS, toR_real, toR_int_scalars, toCalcC_complex]
    calc_simp
    rfl
  toExp rs p q _ := by
    simp only [Methods.gammaNP, laySS, toR_real, toR_int_scalars, toCalcC_complex]
    calc_simp
    rfl
  carrier rs p q x v h := by
    simp only [Methods.gammaNP, laySS, show v.toR = _ from h, toR_real, toR_int_scalars]
    calc_simp
    rfl
  stat rs p x v h := by
    simp only [Methods.gammaNP, show v.toR = _ from h]
    calc_simp
    vals_simp
    exact ⟨_, rfl, by simp only [List.map, toC_of_toR h]; rfl⟩

theorem C51_chi_square : Refines Methods.chiSquareNP layS layS noFixed
    HoldsR fun _ => chiSquare where
  shape _ _ _ := rfl
  logNormalizer rs p q := by
    simp only [Methods.chiSquareNP, layS, toR_real, toR_int_scalars, toCalcC_complex]
    calc_simp
    rfl
  toExp rs p q _ := by
    simp only [Methods.chiSquareNP, layS, toR_real, toR_int_scalars, toCalcC_complex]
    calc_simp
    rfl
  carrier rs p q x v h := by
    simp only [Methods.chiSquareNP, layS, show v.toR = _ from h, toR_real, toR_int_scalars]
    calc_simp
    rfl
  stat rs p x v h := by
    simp only [Methods.chiSquareNP, show v.toR = _ from h]
    calc_simp
    vals_simp
    exact ⟨_, rfl, rfl⟩

theorem C51_chi : Refines Methods.chiNP layS layS noFixed
    HoldsR fun _ => chi where
  shape _ _ _ := rfl
  logNormalizer rs p q := by
    simp only [Methods.chiNP, Methods.chiSquareNP, layS, toR_real, toR_int_scalars, toCalcC_complex]
    calc_simp
    rfl
  toExp rs p q _ := by
    simp only [Methods.chiNP, Methods.chiSquareNP, layS, toR_real, toR_int_scalars, toCalcC_complex]
    calc_simp
    rfl
  carrier rs p q x v h := by
    simp only [Methods.chiNP, Methods.chiSquareNP, layS, show v.toR = _ from h, toR_real, toR_int_scalars]
    calc_simp
    rfl
  stat rs p x v h := by
    simp only [Methods.chiNP, Methods.chiSquareNP, show v.toR = _ from h]
    calc_simp
    vals_simp
    simp only [Bind.bind, Except.bind, toR_real]
    calc_simp
    vals_simp
    exact ⟨_, rfl, rfl⟩

theorem C51_rayleigh : Refines Methods.rayleighNP layS layS noFixed
    HoldsR fun _ => rayleigh where
  shape _ _ _ := rfl
  logNormalizer rs p q := by
    simp only [Methods.rayleighNP, Methods.exponentialNP, layS, toR_real, toR_int_scalars, toCalcC_complex]
    calc_simp
    rfl
  toExp rs p q _ := by
    simp only [Methods.rayleighNP, Methods.exponentialNP, layS, toR_real, toR_int_scalars, toCalcC_complex]
    calc_simp
    rfl
  carrier rs p q x v h := by
    simp only [Methods.rayleighNP, Methods.exponentialNP, layS, show v.toR = _ from h, toR_real, toR_int_scalars]
    calc_simp
    rfl
  stat rs p x v h := by
    simp only [Methods.rayleighNP, Methods.exponentialNP, show v.toR = _ from h]
    calc_simp
    vals_simp
    exact ⟨_, rfl, rfl⟩

theorem C51_rayleigh_exp : RefinesE Methods.rayleighEP layS layS
    (fun _ => rayleighToNat) fun _ => rayleighEcm where
  shape _ _ _ := rfl
  toNat search rs p χ := by
    simp only [Methods.rayleighEP, Methods.exponentialEP, layS, toR_real, toR_int_scalars, toCalcC_complex]
    calc_simp
    rfl
  ecm search rs p χ := by
    simp only [Methods.rayleighEP, Methods.exponentialEP, layS, toR_real, toR_int_scalars, toCalcC_complex]
    calc_simp
    rfl

theorem C51_weibull : Refines Methods.weibullNP layFixedS layFixedS (fun rs p => [("concentration", .real (scalars rs p))])
    HoldsR weibull where
  shape _ _ _ := rfl
  logNormalizer rs p q := by
    simp only [Methods.weibullNP, layFixedS, toR_real, toR_int_scalars, toCalcC_complex]
    calc_simp
    rfl
  toExp rs p q _ := by
    simp only [Methods.weibullNP, layFixedS, toR_real, toR_int_scalars, toCalcC_complex]
    calc_simp
    rfl
  carrier rs p q x v h := by
    simp only [Methods.weibullNP, layFixedS, show v.toR = _ from h, toR_real, toR_int_scalars]
    calc_simp
    rfl
  stat rs p x v h := by
    have hg : Dict.get [("concentration", Val.real (scalars rs p))] "concentration" =
      .ok (Val.real (scalars rs p)) := rfl
    simp only [Methods.weibullNP, hg, Bind.bind, Except.bind, show v.toR = _ from h, toR_real,
      broadcastLike_scalars]
    calc_simp
    vals_simp
    exact ⟨_, rfl, rfl⟩

theorem C51_weibull_exp : RefinesE Methods.weibullEP layFixedS layFixedS
    (fun _ => weibullToNat) weibullEcm where
  shape _ _ _ := rfl
  toNat search rs p χ := by
    simp only [Methods.weibullEP, layFixedS, toR_real, toR_int_scalars, toCalcC_complex]
    calc_simp
    rfl
  ecm search rs p χ := by
    simp only [Methods.weibullEP, layFixedS, toR_real, toR_int_scalars, toCalcC_complex]
    calc_simp
    rfl

end Efax
