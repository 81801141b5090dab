import Verif.Lemmas.Families.MvFull
import Verif.Props.Families.Inverse
import Verif.Props.Families.Variance

/-!
# Multivariate normal families: moments, carrier measures and conversions (C30, C31, C36, C40)
-/

namespace Efax

open MeasureTheory Spec Set Matrix

/-! ### C30: expectations of the statistics -/

theorem C30_mv_diagonal {d : ℕ} {q : (Fin d → ℝ) × (Fin d → ℝ)} (h : q ∈ mvDiagonalDom d)
    (i : Fin d) :
    HasMean volume ((mvDiagonal d).pdf q) (fun x => x i) (((mvDiagonal d).toExp q).1 i) ∧
    HasMean volume ((mvDiagonal d).pdf q) (fun x => x i ^ 2) (((mvDiagonal d).toExp q).2 i) :=
  ⟨((mvDiagonal_regular d).mean_dot h (v := (Pi.single i 1, 0)) trivial).congr
    (fun x => by simp [mvDiagonal, Pi.single_apply]) (by simp [mvDiagonal, Pi.single_apply]),
  ((mvDiagonal_regular d).mean_dot h (v := (0, Pi.single i 1)) trivial).congr
    (fun x => by simp [mvDiagonal, Pi.single_apply]) (by simp [mvDiagonal, Pi.single_apply])⟩

theorem C30_mv_isotropic {d : ℕ} {q : (Fin (d + 1) → ℝ) × ℝ} (h : q ∈ mvIsotropicDom (d + 1)) :
    (∀ i, HasMean volume ((mvIsotropic (d + 1)).pdf q) (fun x => x i)
      (((mvIsotropic (d + 1)).toExp q).1 i)) ∧
    HasMean volume ((mvIsotropic (d + 1)).pdf q) (fun x => ∑ i, x i ^ 2)
      ((mvIsotropic (d + 1)).toExp q).2 :=
  ⟨fun i => ((mvIsotropic_regular d).mean_dot h (v := (Pi.single i 1, 0)) trivial).congr
    (fun x => by simp [mvIsotropic, Pi.single_apply]) (by simp [mvIsotropic, Pi.single_apply]),
  ((mvIsotropic_regular d).mean_dot h (v := (0, 1)) trivial).congr
    (fun x => by simp [mvIsotropic]) (by simp [mvIsotropic])⟩

theorem C30_mv_fixed {d : ℕ} {v : ℝ} (hv : 0 < v) (q : Fin d → ℝ) (i : Fin d) :
    HasMean volume ((mvFixed d v).pdf q) (fun x => x i) ((mvFixed d v).toExp q i) :=
  ((mvFixed_regular d hv).mean_dot (η := q) trivial (v := Pi.single i 1) trivial).congr
    (fun x => by simp [mvFixed, Pi.single_apply]) (by simp [mvFixed, Pi.single_apply])

theorem C30_mv_unit {d : ℕ} (q : Fin d → ℝ) (i : Fin d) :
    HasMean volume ((mvUnit d).pdf q) (fun x => x i) ((mvUnit d).toExp q i) :=
  ((mvUnit_regular d).mean_dot (η := q) trivial (v := Pi.single i 1) trivial).congr
    (fun x => by simp [mvUnit, Pi.single_apply]) (by simp [mvUnit, Pi.single_apply])

theorem mvNormalDom_symm {d : ℕ} {q : (Fin d → ℝ) × Matrix (Fin d) (Fin d) ℝ}
    (h : q ∈ mvNormalDom d) : q.2.IsSymm := (mvNormal_regular d).mem_dirs q h

theorem mvNormalDom_unit {d : ℕ} {q : (Fin d → ℝ) × Matrix (Fin d) (Fin d) ℝ}
    (h : q ∈ mvNormalDom d) : IsUnit q.2.det := by
  have hun := (show (-q.2).PosDef from h).isUnit
  rw [← isUnit_iff_isUnit_det]
  simpa using hun.neg

theorem mvNormal_second_symm {d : ℕ} {q : (Fin d → ℝ) × Matrix (Fin d) (Fin d) ℝ}
    (h : q ∈ mvNormalDom d) : ((mvNormal d).toExp q).2.IsSymm := by
  have hi : (q.2⁻¹).IsSymm := by
    rw [IsSymm, transpose_nonsing_inv, (mvNormalDom_symm h).eq]
  refine IsSymm.sub (IsSymm.smul ?_ _) (hi.smul _)
  ext i j
  simp [vecMulVec_apply, mul_comm]

/-- The mean vector and the matrix of second moments. -/
theorem C30_mv_normal {d : ℕ} {q : (Fin d → ℝ) × Matrix (Fin d) (Fin d) ℝ} (h : q ∈ mvNormalDom d) :
    (∀ i, HasMean volume ((mvNormal d).pdf q) (fun x => x i) (((mvNormal d).toExp q).1 i)) ∧
    ∀ i j, HasMean volume ((mvNormal d).pdf q) (fun x => x i * x j)
      (((mvNormal d).toExp q).2 i j) := by
  refine ⟨fun i => ?_, fun i j => ?_⟩
  · refine ((mvNormal_regular d).mean_dot h (v := (Pi.single i 1, 0)) ?_).congr
      (fun x => by simp [mvNormal, Pi.single_apply]) (by simp [mvNormal, Pi.single_apply])
    exact Matrix.isSymm_zero
  · have hs := (mvNormal_second_symm h).apply i j
    refine (((mvNormal_regular d).mean_dot h
      (v := (0, Matrix.single i j 1 + Matrix.single j i 1)) ?_).const_mul 0.5).congr
      (fun x => ?_) ?_
    · show (Matrix.single i j (1 : ℝ) + Matrix.single j i 1).IsSymm
      rw [IsSymm, transpose_add, transpose_single, transpose_single, add_comm]
    · simp only [mvNormal, Matrix.add_apply, Matrix.single_apply, vecMulVec_apply, Pi.zero_apply,
        zero_mul, Finset.sum_const_zero, zero_add, add_mul, Finset.sum_add_distrib, ite_and, ite_mul,
        one_mul, Finset.sum_ite_eq, Finset.mem_univ, if_true, Finset.sum_ite_irrel]
      ring
    · have e : (mvNormal d).dot (0, Matrix.single i j 1 + Matrix.single j i 1)
          ((mvNormal d).toExp q) =
          ((mvNormal d).toExp q).2 i j + ((mvNormal d).toExp q).2 j i := by
        generalize (mvNormal d).toExp q = χ
        simp only [mvNormal, Matrix.add_apply, Matrix.single_apply, Pi.zero_apply,
          zero_mul, Finset.sum_const_zero, zero_add, add_mul, Finset.sum_add_distrib, ite_and, ite_mul,
          one_mul, Finset.sum_ite_eq, Finset.mem_univ, if_true, Finset.sum_ite_irrel]
      rw [e, hs]
      ring

/-! ### C36 -/

theorem C36_mv_diagonal {d : ℕ} {q : (Fin d → ℝ) × (Fin d → ℝ)} (h : q ∈ mvDiagonalDom d) :
    HasMean volume ((mvDiagonal d).pdf q) (mvDiagonal d).carrier
      (mvDiagonalEcm ((mvDiagonal d).toExp q)) :=
  .const ((mvDiagonal_regular d).density q h) 0

theorem C36_mv_isotropic {d : ℕ} {q : (Fin (d + 1) → ℝ) × ℝ} (h : q ∈ mvIsotropicDom (d + 1)) :
    HasMean volume ((mvIsotropic (d + 1)).pdf q) (mvIsotropic (d + 1)).carrier
      (mvIsotropicEcm ((mvIsotropic (d + 1)).toExp q)) :=
  .const ((mvIsotropic_regular d).density q h) 0

theorem C36_mv_fixed {d : ℕ} {v : ℝ} (hv : 0 < v) (q : Fin d → ℝ) :
    HasMean volume ((mvFixed d v).pdf q) (mvFixed d v).carrier
      (mvFixedEcm v ((mvFixed d v).toExp q)) := by
  have h := fun i => (C30_mv_diagonal (mvFixed_dom hv q) i).2
  rw [← funext (mvFixed_pdf hv q).2] at h
  refine ((HasMean.sum Finset.univ fun i _ => h i).const_mul (-0.5 / v)).congr (fun x => ?_) ?_
  · simp only [mvFixed]
    ring
  · simp only [mvFixed, mvFixedEcm, mvDiagonal, Finset.sum_sub_distrib, Finset.sum_const,
      Finset.card_univ, Fintype.card_fin, nsmul_eq_mul]
    have e : ∀ i, -q i / (2 * (-0.5 / v)) = q i * v := fun i => by
      field_simp
      norm_num
      ring
    simp only [e]
    field_simp
    norm_num
    rw [Finset.sum_congr rfl fun i _ => mul_comm (v ^ 2) (q i ^ 2)]

theorem mvUnitEcm_eq {d : ℕ} (m : Fin d → ℝ) : mvUnitEcm m = mvFixedEcm 1 m := by
  simp [mvUnitEcm, mvFixedEcm]

theorem C36_mv_unit {d : ℕ} (q : Fin d → ℝ) :
    HasMean volume ((mvUnit d).pdf q) (mvUnit d).carrier (mvUnitEcm ((mvUnit d).toExp q)) := by
  rw [mvUnit_eq, mvUnitEcm_eq]
  exact C36_mv_fixed one_pos q

theorem C36_mv_normal {d : ℕ} {q : (Fin d → ℝ) × Matrix (Fin d) (Fin d) ℝ} (h : q ∈ mvNormalDom d) :
    HasMean volume ((mvNormal d).pdf q) (mvNormal d).carrier (mvNormalEcm ((mvNormal d).toExp q)) :=
  .const ((mvNormal_regular d).density q h) 0

/-! ### C31 -/

theorem C31_mv_unit {d : ℕ} :
    Inverses (mvUnit d).toExp mvUnitToNat univ (univ : Set (Fin d → ℝ)) :=
  ⟨fun _ _ => ⟨trivial, rfl⟩, fun _ _ => ⟨trivial, rfl⟩⟩

theorem C31_mv_fixed {d : ℕ} {v : ℝ} (hv : 0 < v) :
    Inverses (mvFixed d v).toExp (mvFixedToNat v) univ (univ : Set (Fin d → ℝ)) := by
  have h := hv.ne'
  refine ⟨fun q _ => ⟨trivial, funext fun i => ?_⟩, fun m _ => ⟨trivial, funext fun i => ?_⟩⟩
  · exact mul_div_cancel_right₀ _ h
  · exact div_mul_cancel₀ _ h

theorem C31_mv_diagonal {d : ℕ} : Inverses (mvDiagonal d).toExp mvDiagonalToNat (mvDiagonalDom d)
    {χ | ∀ i, χ.1 i ^ 2 < χ.2 i} := by
  have h1 := C31_normal
  refine ⟨fun q h => ⟨fun i => (h1.1 (q.1 i, q.2 i) (h i)).1, ?_⟩,
    fun χ h => ⟨fun i => (h1.2 (χ.1 i, χ.2 i) (h i)).1, ?_⟩⟩
  · exact Prod.ext (funext fun i => congrArg Prod.fst (h1.1 (q.1 i, q.2 i) (h i)).2)
      (funext fun i => congrArg Prod.snd (h1.1 (q.1 i, q.2 i) (h i)).2)
  · exact Prod.ext (funext fun i => congrArg Prod.fst (h1.2 (χ.1 i, χ.2 i) (h i)).2)
      (funext fun i => congrArg Prod.snd (h1.2 (χ.1 i, χ.2 i) (h i)).2)

theorem C31_mv_isotropic {d : ℕ} : Inverses (mvIsotropic (d + 1)).toExp mvIsotropicToNat
    (mvIsotropicDom (d + 1)) {χ | ∑ i, χ.1 i ^ 2 < χ.2} := by
  have hd : (0 : ℝ) < (d + 1 : ℕ) := by positivity
  have hd' := hd.ne'
  refine ⟨fun q h => ⟨?_, ?_⟩, fun χ h => ⟨?_, ?_⟩⟩
  · have h : q.2 < 0 := h
    have : 0 < ((d + 1 : ℕ) : ℝ) / (-2 * q.2) := div_pos hd (by linarith)
    show ∑ i, (q.1 i / (-2 * q.2)) ^ 2 <
      ∑ i, (q.1 i / (-2 * q.2)) ^ 2 + ((d + 1 : ℕ) : ℝ) / (-2 * q.2)
    linarith
  · have h : q.2 ≠ 0 := (show q.2 < 0 from h).ne
    have e : mvIsotropicVariance ((mvIsotropic (d + 1)).toExp q) = 1 / (-2 * q.2) := by
      simp only [mvIsotropicVariance, mvIsotropic, add_sub_cancel_left]
      field_simp
    simp only [mvIsotropicToNat, e]
    ext
    · simp only [mvIsotropic]
      field_simp
    · simp only
      field_simp
      norm_num
  · have h : 0 < mvIsotropicVariance χ := div_pos (sub_pos.2 h) hd
    exact div_neg_of_neg_of_pos (by norm_num) h
  · have h : 0 < mvIsotropicVariance χ := div_pos (sub_pos.2 h) hd
    have h' := h.ne'
    have e : mvIsotropicVariance χ * (d + 1 : ℕ) = χ.2 - ∑ i, χ.1 i ^ 2 := by
      rw [mvIsotropicVariance, div_mul_cancel₀ _ hd']
    have e1 : ∀ i, χ.1 i / mvIsotropicVariance χ / (-2 * (-0.5 / mvIsotropicVariance χ)) = χ.1 i := by
      intro i
      field_simp
      norm_num
      ring
    simp only [mvIsotropicToNat, mvIsotropic, e1]
    ext
    · rfl
    · simp only
      have e2 : ((d + 1 : ℕ) : ℝ) / (-2 * (-0.5 / mvIsotropicVariance χ)) =
          mvIsotropicVariance χ * (d + 1 : ℕ) := by
        field_simp
        norm_num
      rw [e2, e]
      ring

/-- The variance of the expectation parameters. -/
theorem mvNormalVariance_toExp {d : ℕ} (q : (Fin d → ℝ) × Matrix (Fin d) (Fin d) ℝ) :
    mvNormalVariance ((mvNormal d).toExp q) = (-0.5 : ℝ) • q.2⁻¹ := by
  simp only [mvNormalVariance, mvNormal]
  ext i j
  simp only [Matrix.sub_apply, Matrix.smul_apply, vecMulVec_apply, Pi.smul_apply, smul_eq_mul]
  ring

theorem C31_mv_normal {d : ℕ} : Inverses (mvNormal d).toExp mvNormalToNat (mvNormalDom d)
    {χ | (χ.2 - vecMulVec χ.1 χ.1).PosDef} := by
  refine ⟨fun q h => ⟨?_, ?_⟩, fun χ h => ⟨?_, ?_⟩⟩
  · show (mvNormalVariance ((mvNormal d).toExp q)).PosDef
    rw [mvNormalVariance_toExp]
    have h2 := (show (-q.2).PosDef from h).inv.smul (show (0 : ℝ) < 0.5 by norm_num)
    rw [matrix_inv_neg (mvNormalDom_unit h)] at h2
    simpa using h2
  · have hu := mvNormalDom_unit h
    have e : ((-0.5 : ℝ) • q.2⁻¹)⁻¹ = (-2 : ℝ) • q.2 := by
      refine inv_eq_right_inv ?_
      rw [Matrix.smul_mul, Matrix.mul_smul, nonsing_inv_mul _ hu, smul_smul]
      norm_num
    simp only [mvNormalToNat, mvNormalVariance_toExp, e]
    refine Prod.ext ?_ ?_
    · simp only [mvNormal]
      rw [smul_mulVec, mulVec_smul, mulVec_mulVec, mul_nonsing_inv _ hu, one_mulVec, smul_smul]
      norm_num
    · simp only [smul_smul]
      norm_num
  · have h : (mvNormalVariance χ).PosDef := h
    show (-((-0.5 : ℝ) • (mvNormalVariance χ)⁻¹)).PosDef
    have h2 := h.inv.smul (show (0 : ℝ) < 0.5 by norm_num)
    simpa using h2
  · have h : (mvNormalVariance χ).PosDef := h
    have hu : IsUnit (mvNormalVariance χ).det := (isUnit_iff_isUnit_det _).1 h.isUnit
    have e : ((-0.5 : ℝ) • (mvNormalVariance χ)⁻¹)⁻¹ = (-2 : ℝ) • mvNormalVariance χ := by
      refine inv_eq_right_inv ?_
      rw [Matrix.smul_mul, Matrix.mul_smul, nonsing_inv_mul _ hu, smul_smul]
      norm_num
    have e1 : ((-2 : ℝ) • mvNormalVariance χ) *ᵥ ((mvNormalVariance χ)⁻¹ *ᵥ χ.1) =
        (-2 : ℝ) • χ.1 := by
      rw [smul_mulVec, mulVec_mulVec, mul_nonsing_inv _ hu, one_mulVec]
    simp only [mvNormalToNat, mvNormal, e, e1]
    refine Prod.ext ?_ (Matrix.ext fun i j => ?_)
    · simp only [smul_smul]
      norm_num
    · simp only [Matrix.sub_apply, Matrix.smul_apply, vecMulVec_apply, Pi.smul_apply, smul_eq_mul,
        mvNormalVariance]
      ring

/-! ### C40 -/

/-- The conversions of `MultivariateDiagonalNormalVP` agree with each other and undo each other. -/
theorem C40_mv_diagonal_conversions {d : ℕ} {w : (Fin d → ℝ) × (Fin d → ℝ)} (h : ∀ i, 0 < w.2 i) :
    (mvDiagonal d).toExp (mvDiagonalVarToNat w) = mvDiagonalVarToExp w ∧
    mvDiagonalToNat (mvDiagonalVarToExp w) = mvDiagonalVarToNat w ∧
    mvDiagonalToVar (mvDiagonalVarToExp w) = w := by
  have h1 := fun i => C40_normal_conversions (w := (w.1 i, w.2 i)) (h i)
  exact ⟨Prod.ext (funext fun i => congrArg Prod.fst (h1 i).1)
    (funext fun i => congrArg Prod.snd (h1 i).1),
    Prod.ext (funext fun i => congrArg Prod.fst (h1 i).2.1)
    (funext fun i => congrArg Prod.snd (h1 i).2.1),
    Prod.ext (funext fun i => congrArg Prod.fst (h1 i).2.2.1)
    (funext fun i => congrArg Prod.snd (h1 i).2.2.1)⟩

/-- Converting expectation parameters to the variance parametrization and back. -/
theorem C40_mv_diagonal_back {d : ℕ} (χ : (Fin d → ℝ) × (Fin d → ℝ)) :
    mvDiagonalVarToExp (mvDiagonalToVar χ) = χ ∧
    mvDiagonalVarToNat (mvDiagonalToVar χ) = mvDiagonalToNat χ := by
  refine ⟨?_, ?_⟩
  · simp [mvDiagonalVarToExp, mvDiagonalToVar, mvDiagonalVariance]
  · simp [mvDiagonalVarToNat, mvDiagonalToVar, mvDiagonalToNat, div_eq_mul_inv]

/-- The stored mean and variance are those of the density, and the components are uncorrelated. -/
theorem C40_mv_diagonal_moments {d : ℕ} {w : (Fin d → ℝ) × (Fin d → ℝ)} (h : ∀ i, 0 < w.2 i)
    (i : Fin d) :
    HasMean volume ((mvDiagonal d).pdf (mvDiagonalVarToNat w)) (fun x => x i) (w.1 i) ∧
    HasMean volume ((mvDiagonal d).pdf (mvDiagonalVarToNat w)) (fun x => (x i - w.1 i) ^ 2)
      (w.2 i) := by
  have hd : mvDiagonalVarToNat w ∈ mvDiagonalDom d := fun i => by
    show -0.5 * (1 / w.2 i) < 0
    have : 0 < 1 / w.2 i := one_div_pos.2 (h i)
    linarith
  obtain ⟨m1, m2⟩ := C30_mv_diagonal hd i
  rw [(C40_mv_diagonal_conversions h).1] at m1 m2
  exact ⟨m1, ((m2.sub (m1.const_mul (2 * w.1 i))).add
    (.const ((mvDiagonal_regular d).density _ hd) (w.1 i ^ 2))).congr (fun x => by ring)
    (by simp only [mvDiagonalVarToExp]; ring)⟩

/-- `MultivariateNormalVP.to_exp` and `to_variance_parametrization` undo each other. -/
theorem C40_mv_normal_conversions {d : ℕ} (w : (Fin d → ℝ) × Matrix (Fin d) (Fin d) ℝ) :
    mvNormalToVar (mvNormalVarToExp w) = w ∧ mvNormalVarToExp (mvNormalToVar w) = w := by
  simp [mvNormalToVar, mvNormalVarToExp, mvNormalVariance]

/-- The stored mean and covariance matrix are those of the density. -/
theorem C40_mv_normal_moments {d : ℕ} {w : (Fin d → ℝ) × Matrix (Fin d) (Fin d) ℝ}
    (h : w.2.PosDef) :
    (∀ i, HasMean volume ((mvNormal d).pdf (mvNormalToNat (mvNormalVarToExp w))) (fun x => x i)
      (w.1 i)) ∧
    ∀ i j, HasMean volume ((mvNormal d).pdf (mvNormalToNat (mvNormalVarToExp w)))
      (fun x => (x i - w.1 i) * (x j - w.1 j)) (w.2 i j) := by
  have hm : mvNormalVarToExp w ∈ {χ : (Fin d → ℝ) × Matrix (Fin d) (Fin d) ℝ |
      (χ.2 - vecMulVec χ.1 χ.1).PosDef} := by
    simpa [mvNormalVarToExp] using h
  obtain ⟨hd, e⟩ := C31_mv_normal.2 _ hm
  obtain ⟨m1, m2⟩ := C30_mv_normal hd
  rw [e] at m1 m2
  refine ⟨m1, fun i j => ((((m2 i j).sub ((m1 i).const_mul (w.1 j))).sub
    ((m1 j).const_mul (w.1 i))).add
    (.const ((mvNormal_regular d).density _ hd) (w.1 i * w.1 j))).congr (fun x => by ring) ?_⟩
  simp only [mvNormalVarToExp, Matrix.add_apply, vecMulVec_apply]
  ring

/-- The hypotheses are satisfiable. -/
example : ((fun _ => 3, fun _ => -2) : (Fin 4 → ℝ) × (Fin 4 → ℝ)) ∈ mvDiagonalDom 4 ∧
    ((fun _ => 3, -2) : (Fin 4 → ℝ) × ℝ) ∈ mvIsotropicDom 4 ∧
    ((fun _ => 3, -1) : (Fin 4 → ℝ) × Matrix (Fin 4) (Fin 4) ℝ) ∈ mvNormalDom 4 ∧
    (1 : Matrix (Fin 4) (Fin 4) ℝ).PosDef := by
  refine ⟨fun i => by norm_num, by norm_num [mvIsotropicDom], ?_, PosDef.one⟩
  show (-(-1 : Matrix (Fin 4) (Fin 4) ℝ)).PosDef
  rw [neg_neg]
  exact PosDef.one

end Efax
