import Verif.Lemmas.Refines
import Verif.Model.Methods.Simplex

/-! # C50, C51: Dirichlet and von Mises-Fisher classes on batches -/

namespace Efax

open Calc Spec Val

theorem append_one {n : ℕ} (a : Fin n → ℝ) (c : ℝ) :
    Fin.append a (fun _ : Fin 1 => c) = Fin.snoc (α := fun _ => ℝ) a c := by
  rw [Fin.append_right_eq_snoc]

theorem filter_castSucc {d : ℕ} (k : Fin d) :
    Finset.univ.filter (fun j : Fin d => j.val < k.castSucc.val) = Finset.Iio k := by
  ext j; simp

theorem filter_succ {d : ℕ} (k : Fin d) :
    Finset.univ.filter (fun j : Fin d => j.val < k.succ.val) = Finset.Iic k := by
  ext j; simp only [Finset.mem_filter, Finset.mem_univ, true_and, Fin.val_succ, Finset.mem_Iic, Fin.le_def]
  omega

theorem C51_dirichlet (d : ℕ) : Refines Methods.dirichletNP (layV (d + 1)) (layV (d + 1)) noFixed
    HoldsV fun _ => dirichlet d where
  shape _ _ _ := rfl
  logNormalizer rs p q := by
    simp only [Methods.dirichletNP, Methods.dirichletLogNormalizer, Methods.dirichletExpHelper, layV, toR_real, toR_int_scalars, toCalcC_complex]
    calc_simp
    rfl
  toExp rs p q _ := by
    simp only [Methods.dirichletNP, Methods.dirichletLogNormalizer, Methods.dirichletExpHelper, layV, toR_real, toR_int_scalars, toCalcC_complex]
    calc_simp
    rfl
  carrier rs p q x v h := by
    simp only [Methods.dirichletNP, Methods.dirichletLogNormalizer, Methods.dirichletExpHelper, layV, show v.toR = _ from h, toR_real, toR_int_scalars]
    calc_simp
    rfl
  stat rs p x v h := by
    simp only [Methods.dirichletNP, show v.toR = _ from h]
    calc_simp
    vals_simp
    simp only [append_one]
    exact ⟨_, rfl, rfl⟩

theorem C51_beta : Refines Methods.betaNP (layV 2) (layV 2) noFixed
    HoldsR fun _ => beta where
  shape _ _ _ := rfl
  logNormalizer rs p q := by
    simp only [Methods.betaNP, Methods.dirichletLogNormalizer, Methods.dirichletExpHelper, layV, toR_real, toR_int_scalars, toCalcC_complex]
    calc_simp
    rfl
  toExp rs p q _ := by
    simp only [Methods.betaNP, Methods.dirichletLogNormalizer, Methods.dirichletExpHelper, layV, toR_real, toR_int_scalars, toCalcC_complex]
    calc_simp
    rfl
  carrier rs p q x v h := by
    simp only [Methods.betaNP, Methods.dirichletLogNormalizer, Methods.dirichletExpHelper, layV, show v.toR = _ from h, toR_real, toR_int_scalars]
    calc_simp
    rfl
  stat rs p x v h := by
    simp only [Methods.betaNP, show v.toR = _ from h]
    calc_simp
    vals_simp
    exact ⟨_, rfl, rfl⟩

theorem C51_gen_dirichlet (d : ℕ) : Refines Methods.genDirichletNP (layVV d) (layVV d) noFixed
    HoldsV fun _ => genDirichlet d where
  shape _ _ _ := rfl
  logNormalizer rs p q := by
    simp only [Methods.genDirichletNP, Methods.genDirichletAlphaBeta, layVV, toR_real]
    calc_simp
    simp only [filter_castSucc, filter_succ]
    rfl
  toExp rs p q _ := by
    simp only [Methods.genDirichletNP, Methods.genDirichletAlphaBeta, layVV, toR_real]
    calc_simp
    simp only [filter_castSucc, filter_succ]
    rfl
  carrier rs p q x v h := by
    simp only [Methods.genDirichletNP, Methods.genDirichletAlphaBeta, layVV, show v.toR = _ from h, toR_real, toR_int_scalars]
    calc_simp
    rfl
  stat rs p x v h := by
    simp only [Methods.genDirichletNP, show v.toR = _ from h]
    calc_simp
    vals_simp
    exact ⟨_, rfl, rfl⟩

theorem C51_von_mises (d : ℕ) : Refines Methods.vonMisesFisherNP (layE d) (layE d) noFixed
    HoldsSphere fun _ => vonMisesFisher d where
  shape _ _ _ := rfl
  logNormalizer rs p q := by
    simp only [Methods.vonMisesFisherNP, layE, toR_real]
    calc_simp
    refine ok_ofFn_congr fun i _ => ?_
    simp only [vonMisesFisher, EuclideanSpace.norm_eq, Real.norm_eq_abs, sq_abs]
  toExp rs p q _ := by
    simp only [Methods.vonMisesFisherNP, layE, toR_real, whereE]
    calc_simp
    simp only [ofR_ok, vals_one]
    congr 4
    funext i k
    simp only [vonMisesFisher, EuclideanSpace.norm_eq, Real.norm_eq_abs, sq_abs]
    split_ifs
    · rfl
    · simp [mul_comm]
  carrier rs p q x v h := by
    simp only [Methods.vonMisesFisherNP, layE, toR_real]
    calc_simp
    rfl
  stat rs p x v h := ⟨_, rfl, by simp only [List.map, toC_of_toR h]; rfl⟩

end Efax
