import Verif.Lemmas.Refines
import Verif.Model.Methods.Scalar

/-! # C50, C51: discrete classes on batches -/

namespace Efax

open Calc Spec Val

theorem C51_bernoulli : Refines Methods.bernoulliNP layS layS noFixed
    (fun rs x => HoldsR rs fun i => ofBool (x i)) fun _ => bernoulli where
  shape _ _ _ := rfl
  logNormalizer rs p q := by
    simp only [Methods.bernoulliNP, layS, toR_real, toR_int_scalars, toCalcC_complex]
    calc_simp
    rfl
  toExp rs p q _ := by
    simp only [Methods.bernoulliNP, layS, toR_real, toR_int_scalars, toCalcC_complex]
    calc_simp
    rfl
  carrier rs p q x v h := by
    simp only [Methods.bernoulliNP, layS, show v.toR = _ from h, toR_real, toR_int_scalars]
    calc_simp
    rfl
  stat rs p x v h := ⟨_, rfl, by simp only [List.map, toC_of_toR h]; rfl⟩

theorem C51_bernoulli_exp : RefinesE Methods.bernoulliEP layS layS
    (fun _ => bernoulliToNat) fun _ => bernoulliEcm where
  shape _ _ _ := rfl
  toNat search rs p χ := by
    simp only [Methods.bernoulliEP, layS, toR_real, toR_int_scalars, toCalcC_complex]
    calc_simp
    rfl
  ecm search rs p χ := by
    simp only [Methods.bernoulliEP, layS, toR_real, toR_int_scalars, toCalcC_complex]
    calc_simp
    rfl

theorem C51_poisson : Refines Methods.poissonNP layS layS noFixed
    (fun rs (x : List ℕ → ℕ) => HoldsR rs fun i => (x i : ℝ)) fun _ => poisson where
  shape _ _ _ := rfl
  logNormalizer rs p q := by
    simp only [Methods.poissonNP, layS, toR_real, toR_int_scalars, toCalcC_complex]
    calc_simp
    rfl
  toExp rs p q _ := by
    simp only [Methods.poissonNP, layS, toR_real, toR_int_scalars, toCalcC_complex]
    calc_simp
    rfl
  carrier rs p q x v h := by
    simp only [Methods.poissonNP, layS, show v.toR = _ from h, toR_real, toR_int_scalars]
    calc_simp
    rfl
  stat rs p x v h := ⟨_, rfl, by simp only [List.map, toC_of_toR h]; rfl⟩

theorem C51_negative_binomial : Refines Methods.negativeBinomialNP laySFixedInt laySFixedInt (fun rs p => [("failures", .int (scalars rs fun i => (p i : ℤ)))])
    (fun rs (x : List ℕ → ℕ) => HoldsR rs fun i => (x i : ℝ)) negativeBinomial where
  shape _ _ _ := rfl
  logNormalizer rs p q := by
    simp only [Methods.negativeBinomialNP, Methods.nbLogNormalizer, laySFixedInt, toR_real,
      toR_int_scalars, Int.cast_natCast]
    calc_simp
    rfl
  toExp rs p q _ := by
    simp only [Methods.negativeBinomialNP, Methods.nbMean, laySFixedInt, toR_real, toR_int_scalars,
      Int.cast_natCast]
    calc_simp
    rfl
  carrier rs p q x v h := by
    simp only [Methods.negativeBinomialNP, Methods.nbCarrier, laySFixedInt, show v.toR = _ from h,
      toR_int_scalars, Int.cast_natCast]
    calc_simp
    rfl
  stat rs p x v h := by
    have hg : Dict.get [("failures", Val.int (scalars rs fun i => (p i : ℤ)))] "failures" =
      .ok (Val.int (scalars rs fun i => (p i : ℤ))) := rfl
    simp only [Methods.negativeBinomialNP, hg, Bind.bind, Except.bind, show v.toR = _ from h,
      broadcastLike_scalars, run_ok]
    exact ⟨_, rfl, by simp only [List.map, toC_of_toR h]; rfl⟩

theorem C51_geometric : Refines Methods.geometricNP layS layS noFixed
    (fun rs (x : List ℕ → ℕ) => HoldsR rs fun i => (x i : ℝ)) fun _ => geometric where
  shape _ _ _ := rfl
  logNormalizer rs p q := by
    simp only [Methods.geometricNP, Methods.nbLogNormalizer, layS, toR_real]
    calc_simp
    exact congrArg ok (congrArg (scalars rs) (funext fun i => by simp [geometric, negativeBinomial]))
  toExp rs p q _ := by
    simp only [Methods.geometricNP, Methods.nbMean, layS, toR_real]
    calc_simp
    vals_simp
    simp [geometric, negativeBinomial]
  carrier rs p q x v h := by
    simp only [Methods.geometricNP, Methods.nbCarrier, show v.toR = _ from h]
    calc_simp
    exact congrArg ok (congrArg (scalars rs) (funext fun i => by simp [geometric, negativeBinomial]))
  stat rs p x v h := ⟨_, rfl, by simp only [List.map, toC_of_toR h]; rfl⟩

theorem C51_geometric_exp : RefinesE Methods.geometricEP layS layS
    (fun _ => geometricToNat) fun _ => geometricEcm where
  shape _ _ _ := rfl
  toNat search rs p χ := by
    simp only [Methods.geometricEP, Methods.nbLogNotP, layS, toR_real]
    calc_simp
    vals_simp
    simp [geometricToNat, negativeBinomialToNat]
  ecm search rs p χ := by
    simp only [Methods.geometricEP, layS, toR_real, toR_int_scalars, toCalcC_complex]
    calc_simp
    rfl

theorem C51_multinomial (d : ℕ) : Refines Methods.multinomialNP (layV (d + 1)) (layV (d + 1)) noFixed
    HoldsV fun _ => multinomial d where
  shape _ _ _ := rfl
  logNormalizer rs p q := by
    simp only [Methods.multinomialNP, Methods.maxQ, Methods.qMinusMaxQ, Methods.logScaledA, layV, toR_real, toR_int_scalars, toCalcC_complex]
    calc_simp
    rfl
  toExp rs p q _ := by
    simp only [Methods.multinomialNP, Methods.maxQ, Methods.qMinusMaxQ, Methods.logScaledA, layV, toR_real, toR_int_scalars, toCalcC_complex]
    calc_simp
    rfl
  carrier rs p q x v h := by
    simp only [Methods.multinomialNP, Methods.maxQ, Methods.qMinusMaxQ, Methods.logScaledA, layV, show v.toR = _ from h, toR_real, toR_int_scalars]
    calc_simp
    rfl
  stat rs p x v h := ⟨_, rfl, by simp only [List.map, toC_of_toR h]; rfl⟩

theorem C51_multinomial_exp (d : ℕ) : RefinesE Methods.multinomialEP (layV (d + 1)) (layV (d + 1))
    (fun _ => multinomialToNat) fun _ => multinomialEcm where
  shape _ _ _ := rfl
  toNat search rs p χ := by
    simp only [Methods.multinomialEP, layV, toR_real, toR_int_scalars, toCalcC_complex]
    calc_simp
    rfl
  ecm search rs p χ := by
    simp only [Methods.multinomialEP, layV, toR_real, toR_int_scalars, toCalcC_complex]
    calc_simp
    rfl

end Efax
