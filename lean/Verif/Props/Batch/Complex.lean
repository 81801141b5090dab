import Verif.Lemmas.Refines
import Verif.Model.Methods.Complex
import Verif.Model.Families.ComplexNormal

/-! # C50, C51: complex normal classes on batches -/

namespace Efax

open Calc Spec Val

theorem C51_complex_normal : Refines Methods.complexNormalNP layCSC layCSC noFixed
    HoldsC fun _ => complexNormal where
  shape _ _ _ := rfl
  logNormalizer rs p q := by
    simp only [Methods.complexNormalNP, Methods.rSMu, layCSC, toR_real, toR_int_scalars, toCalcC_complex]
    calc_simp
    rfl
  toExp rs p q _ := by
    simp only [Methods.complexNormalNP, Methods.rSMu, layCSC, toR_real, toR_int_scalars, toCalcC_complex]
    calc_simp
    rfl
  carrier rs p q x v h := by
    simp only [Methods.complexNormalNP, Methods.rSMu, layCSC, show v.toCalcC = ok _ from congrArg ok h, toR_real, toR_int_scalars]
    calc_simp
    rfl
  stat rs p x v h := by
    simp only [Methods.complexNormalNP, show v.toCalcC = ok _ from congrArg ok h]
    calc_simp
    vals_simp
    exact ⟨_, rfl, by simp only [List.map, show v.toC = _ from h]; rfl⟩

theorem C51_complex_normal_exp : RefinesE Methods.complexNormalEP layCSC layCSC
    (fun _ => complexNormalToNat) fun _ => complexNormalEcm where
  shape _ _ _ := rfl
  toNat search rs p χ := by
    simp only [Methods.complexNormalEP, layCSC, toR_real, toR_int_scalars, toCalcC_complex]
    calc_simp
    rfl
  ecm search rs p χ := by
    simp only [Methods.complexNormalEP, layCSC, toR_real, toR_int_scalars, toCalcC_complex]
    calc_simp
    rfl

theorem C51_complex_unit : Refines Methods.complexUnitNormalNP layC layC noFixed
    HoldsC fun _ => complexUnit where
  shape _ _ _ := rfl
  logNormalizer rs p q := by
    simp only [Methods.complexUnitNormalNP, layC, toR_real, toR_int_scalars, toCalcC_complex]
    calc_simp
    rfl
  toExp rs p q _ := by
    simp only [Methods.complexUnitNormalNP, layC, toR_real, toR_int_scalars, toCalcC_complex]
    calc_simp
    rfl
  carrier rs p q x v h := by
    simp only [Methods.complexUnitNormalNP, layC, show v.toCalcC = ok _ from congrArg ok h, toR_real, toR_int_scalars]
    calc_simp
    rfl
  stat rs p x v h := ⟨_, rfl, by simp only [List.map, show v.toC = _ from h]; rfl⟩

theorem C51_complex_unit_exp : RefinesE Methods.complexUnitNormalEP layC layC
    (fun _ => complexUnitToNat) fun _ => complexUnitEcm where
  shape _ _ _ := rfl
  toNat search rs p χ := by
    simp only [Methods.complexUnitNormalEP, layC, toR_real, toR_int_scalars, toCalcC_complex]
    calc_simp
    rfl
  ecm search rs p χ := by
    simp only [Methods.complexUnitNormalEP, layC, toR_real, toR_int_scalars, toCalcC_complex]
    calc_simp
    rfl

theorem C51_cmv_unit (d : ℕ) : Refines Methods.cmvUnitNormalNP (layCV d) (layCV d) noFixed
    HoldsCV fun _ => cmvUnit d where
  shape _ _ _ := rfl
  logNormalizer rs p q := by
    simp only [Methods.cmvUnitNormalNP, layCV, toR_real, toR_int_scalars, toCalcC_complex]
    calc_simp
    rfl
  toExp rs p q _ := by
    simp only [Methods.cmvUnitNormalNP, layCV, toR_real, toR_int_scalars, toCalcC_complex]
    calc_simp
    rfl
  carrier rs p q x v h := by
    simp only [Methods.cmvUnitNormalNP, layCV, show v.toCalcC = ok _ from congrArg ok h, toR_real, toR_int_scalars]
    calc_simp
    rfl
  stat rs p x v h := ⟨_, rfl, by simp only [List.map, show v.toC = _ from h]; rfl⟩

theorem C51_cmv_unit_exp (d : ℕ) : RefinesE Methods.cmvUnitNormalEP (layCV d) (layCV d)
    (fun _ => cmvUnitToNat) fun _ => cmvUnitEcm where
  shape _ _ _ := rfl
  toNat search rs p χ := by
    simp only [Methods.cmvUnitNormalEP, layCV, toR_real, toR_int_scalars, toCalcC_complex]
    calc_simp
    rfl
  ecm search rs p χ := by
    simp only [Methods.cmvUnitNormalEP, layCV, toR_real, toR_int_scalars, toCalcC_complex]
    calc_simp
    rfl

theorem C51_cmv_circular (d : ℕ) : Refines Methods.ccsnNP (layCM d) (layCM d) noFixed
    HoldsCV fun _ => cmvCircular d where
  shape _ _ _ := rfl
  logNormalizer rs p q := by
    simp only [Methods.ccsnNP, layCM, toR_real, toR_int_scalars, toCalcC_complex]
    calc_simp
    rfl
  toExp rs p q _ := by
    simp only [Methods.ccsnNP, layCM, toR_real, toR_int_scalars, toCalcC_complex]
    calc_simp
    rfl
  carrier rs p q x v h := by
    simp only [Methods.ccsnNP, layCM, show v.toCalcC = ok _ from congrArg ok h, toR_real, toR_int_scalars]
    calc_simp
    rfl
  stat rs p x v h := by
    simp only [Methods.ccsnNP, show v.toCalcC = ok _ from congrArg ok h]
    calc_simp
    vals_simp
    exact ⟨_, rfl, rfl⟩

theorem C51_cmv_circular_exp (d : ℕ) : RefinesE Methods.ccsnEP (layCM d) (layCM d)
    (fun _ => cmvCircularToNat) fun _ => cmvCircularEcm where
  shape _ _ _ := rfl
  toNat search rs p χ := by
    simp only [Methods.ccsnEP, layCM, toR_real, toR_int_scalars, toCalcC_complex]
    calc_simp
    rfl
  ecm search rs p χ := by
    simp only [Methods.ccsnEP, layCM, toR_real, toR_int_scalars, toCalcC_complex]
    calc_simp
    rfl

end Efax
