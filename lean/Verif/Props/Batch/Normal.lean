import Verif.Lemmas.Refines
import Verif.Model.Methods.Normal
import Verif.Model.Families.Normal
import Verif.Model.Families.MvNormal

/-! # C50, C51: normal classes on batches -/

namespace Efax

open Calc Spec Val

theorem C51_normal : Refines Methods.normalNP laySS laySS noFixed
    HoldsR fun _ => normal where
  shape _ _ _ := rfl
  logNormalizer rs p q := by
    simp only [Methods.normalNP, laySS, toR_real, toR_int_scalars, toCalcC_complex]
    calc_simp
    rfl
  toExp rs p q _ := by
    simp only [Methods.normalNP, laySS, toR_real, toR_int_scalars, toCalcC_complex]
    calc_simp
    rfl
  carrier rs p q x v h := by
    simp only [Methods.normalNP, laySS, show v.toR = _ from h, toR_real, toR_int_scalars]
    calc_simp
    rfl
  stat rs p x v h := by
    simp only [Methods.normalNP, show v.toR = _ from h]
    calc_simp
    vals_simp
    exact ⟨_, rfl, by simp only [List.map, toC_of_toR h]; rfl⟩

theorem C51_normal_exp : RefinesE Methods.normalEP laySS laySS
    (fun _ => normalToNat) fun _ => normalEcm where
  shape _ _ _ := rfl
  toNat search rs p χ := by
    simp only [Methods.normalEP, Methods.normalVariance, laySS, toR_real, toR_int_scalars, toCalcC_complex]
    calc_simp
    rfl
  ecm search rs p χ := by
    simp only [Methods.normalEP, Methods.normalVariance, laySS, toR_real, toR_int_scalars, toCalcC_complex]
    calc_simp
    rfl

theorem C51_unit_normal : Refines Methods.unitNormalNP layS layS noFixed
    HoldsR fun _ => unitNormal where
  shape _ _ _ := rfl
  logNormalizer rs p q := by
    simp only [Methods.unitNormalNP, layS, toR_real, toR_int_scalars, toCalcC_complex]
    calc_simp
    rfl
  toExp _ _ _ _ := rfl
  carrier rs p q x v h := by
    simp only [Methods.unitNormalNP, layS, show v.toR = _ from h, toR_real, toR_int_scalars]
    calc_simp
    rfl
  stat rs p x v h := ⟨_, rfl, by simp only [List.map, toC_of_toR h]; rfl⟩

theorem C51_unit_normal_exp : RefinesE Methods.unitNormalEP layS layS
    (fun _ => unitNormalToNat) fun _ => unitNormalEcm where
  shape _ _ _ := rfl
  toNat _ _ _ _ := rfl
  ecm search rs p χ := by
    simp only [Methods.unitNormalEP, layS, toR_real, toR_int_scalars, toCalcC_complex]
    calc_simp
    rfl

theorem C51_mv_unit (d : ℕ) : Refines Methods.mvUnitNormalNP (layV d) (layV d) noFixed
    HoldsV fun _ => mvUnit d where
  shape _ _ _ := rfl
  logNormalizer rs p q := by
    simp only [Methods.mvUnitNormalNP, layV, toR_real, toR_int_scalars, toCalcC_complex]
    calc_simp
    rfl
  toExp rs p q _ := by
    rfl
  carrier rs p q x v h := by
    simp only [Methods.mvUnitNormalNP, layV, show v.toR = _ from h, toR_real, toR_int_scalars]
    calc_simp
    rfl
  stat rs p x v h := ⟨_, rfl, by simp only [List.map, toC_of_toR h]; rfl⟩

theorem C51_mv_unit_exp (d : ℕ) : RefinesE Methods.mvUnitNormalEP (layV d) (layV d)
    (fun _ => mvUnitToNat) fun _ => mvUnitEcm where
  shape _ _ _ := rfl
  toNat search rs p χ := by
    rfl
  ecm search rs p χ := by
    simp only [Methods.mvUnitNormalEP, layV, toR_real, toR_int_scalars, toCalcC_complex]
    calc_simp
    rfl

theorem C51_mv_fixed (d : ℕ) : Refines Methods.fixedVarianceNormalNP (layVFixed d) (layVFixed d) (fun rs p => [("variance", .real (scalars rs p))])
    HoldsV (mvFixed d) where
  shape _ _ _ := rfl
  logNormalizer rs p q := by
    simp only [Methods.fixedVarianceNormalNP, layVFixed, toR_real, toR_int_scalars, toCalcC_complex]
    calc_simp
    rfl
  toExp rs p q _ := by
    simp only [Methods.fixedVarianceNormalNP, layVFixed, toR_real, toR_int_scalars, toCalcC_complex]
    calc_simp
    rfl
  carrier rs p q x v h := by
    simp only [Methods.fixedVarianceNormalNP, layVFixed, show v.toR = _ from h, toR_real, toR_int_scalars]
    calc_simp
    rfl
  stat rs p x v h := ⟨_, rfl, by simp only [List.map, toC_of_toR h]; rfl⟩

theorem C51_mv_fixed_exp (d : ℕ) : RefinesE Methods.fixedVarianceNormalEP (layVFixed d) (layVFixed d)
    (mvFixedToNat (d := d)) (mvFixedEcm (d := d)) where
  shape _ _ _ := rfl
  toNat search rs p χ := by
    simp only [Methods.fixedVarianceNormalEP, layVFixed, toR_real, toR_int_scalars, toCalcC_complex]
    calc_simp
    rfl
  ecm search rs p χ := by
    simp only [Methods.fixedVarianceNormalEP, layVFixed, toR_real, toR_int_scalars, toCalcC_complex]
    calc_simp
    rfl

theorem C51_mv_diagonal (d : ℕ) : Refines Methods.diagonalNormalNP (layVV d) (layVV d) noFixed
    HoldsV fun _ => mvDiagonal d where
  shape _ _ _ := rfl
  logNormalizer rs p q := by
    simp only [Methods.diagonalNormalNP, layVV, toR_real, toR_int_scalars, toCalcC_complex]
    calc_simp
    rfl
  toExp rs p q _ := by
    simp only [Methods.diagonalNormalNP, layVV, toR_real, toR_int_scalars, toCalcC_complex]
    calc_simp
    rfl
  carrier rs p q x v h := by
    simp only [Methods.diagonalNormalNP, layVV, show v.toR = _ from h, toR_real, toR_int_scalars]
    calc_simp
    rfl
  stat rs p x v h := by
    simp only [Methods.diagonalNormalNP, show v.toR = _ from h]
    calc_simp
    vals_simp
    exact ⟨_, rfl, by simp only [List.map, toC_of_toR h]; rfl⟩

theorem C51_mv_diagonal_exp (d : ℕ) : RefinesE Methods.diagonalNormalEP (layVV d) (layVV d)
    (fun _ => mvDiagonalToNat) fun _ => mvDiagonalEcm where
  shape _ _ _ := rfl
  toNat search rs p χ := by
    simp only [Methods.diagonalNormalEP, Methods.diagonalVariance, layVV, toR_real, toR_int_scalars, toCalcC_complex]
    calc_simp
    rfl
  ecm search rs p χ := by
    simp only [Methods.diagonalNormalEP, Methods.diagonalVariance, layVV, toR_real, toR_int_scalars, toCalcC_complex]
    calc_simp
    rfl

theorem C51_mv_isotropic (d : ℕ) : Refines Methods.isotropicNormalNP (layVS d) (layVS d) noFixed
    HoldsV fun _ => mvIsotropic d where
  shape _ _ _ := rfl
  logNormalizer rs p q := by
    simp only [Methods.isotropicNormalNP, layVS, toR_real, toR_int_scalars, toCalcC_complex]
    calc_simp
    rfl
  toExp rs p q _ := by
    simp only [Methods.isotropicNormalNP, layVS, toR_real, toR_int_scalars, toCalcC_complex]
    calc_simp
    rfl
  carrier rs p q x v h := by
    simp only [Methods.isotropicNormalNP, layVS, show v.toR = _ from h, toR_real, toR_int_scalars]
    calc_simp
    rfl
  stat rs p x v h := by
    simp only [Methods.isotropicNormalNP, show v.toR = _ from h]
    calc_simp
    vals_simp
    exact ⟨_, rfl, by simp only [List.map, toC_of_toR h]; rfl⟩

theorem C51_mv_isotropic_exp (d : ℕ) : RefinesE Methods.isotropicNormalEP (layVS d) (layVS d)
    (fun _ => mvIsotropicToNat) fun _ => mvIsotropicEcm where
  shape _ _ _ := rfl
  toNat search rs p χ := by
    simp only [Methods.isotropicNormalEP, Methods.isotropicVariance, layVS, toR_real, toR_int_scalars, toCalcC_complex]
    calc_simp
    rfl
  ecm search rs p χ := by
    simp only [Methods.isotropicNormalEP, Methods.isotropicVariance, layVS, toR_real, toR_int_scalars, toCalcC_complex]
    calc_simp
    rfl

theorem C51_mv_normal (d : ℕ) : Refines Methods.mvNormalNP (layVM d) (layVM d) noFixed
    HoldsV fun _ => mvNormal d where
  shape _ _ _ := rfl
  logNormalizer rs p q := by
    simp only [Methods.mvNormalNP, layVM, toR_real]
    calc_simp
    refine ok_ofFn_congr fun i _ => ?_
    simp only [Real.log_abs]
    rfl
  toExp rs p q _ := by
    simp only [Methods.mvNormalNP, layVM, toR_real, toR_int_scalars, toCalcC_complex]
    calc_simp
    rfl
  carrier rs p q x v h := by
    simp only [Methods.mvNormalNP, layVM, show v.toR = _ from h, toR_real, toR_int_scalars]
    calc_simp
    rfl
  stat rs p x v h := by
    simp only [Methods.mvNormalNP, show v.toR = _ from h]
    calc_simp
    vals_simp
    exact ⟨_, rfl, by simp only [List.map, toC_of_toR h]; rfl⟩

theorem C51_mv_normal_exp (d : ℕ) : RefinesE Methods.mvNormalEP (layVM d) (layVM d)
    (fun _ => mvNormalToNat) fun _ => mvNormalEcm where
  shape _ _ _ := rfl
  toNat search rs p χ := by
    simp only [Methods.mvNormalEP, Methods.mvVariance, layVM, toR_real, toR_int_scalars, toCalcC_complex]
    calc_simp
    rfl
  ecm search rs p χ := by
    simp only [Methods.mvNormalEP, Methods.mvVariance, layVM, toR_real, toR_int_scalars, toCalcC_complex]
    calc_simp
    rfl

end Efax
