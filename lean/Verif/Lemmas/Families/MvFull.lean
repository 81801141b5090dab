import Verif.Lemmas.Families.MvNormal
import Verif.Lemmas.Matrix

/-!
# The multivariate normal family is regular
-/

namespace Efax

open MeasureTheory Spec Set Matrix

theorem sum_sum_outer {d : ℕ} (M : Matrix (Fin d) (Fin d) ℝ) (x : Fin d → ℝ) :
    ∑ i, ∑ j, M i j * vecMulVec x x i j = x ⬝ᵥ M *ᵥ x := by
  simp only [dotProduct, mulVec, vecMulVec_apply, Finset.mul_sum]
  exact Finset.sum_congr rfl fun i _ => Finset.sum_congr rfl fun j _ => by ring

theorem sum_sum_trace {d : ℕ} {M V : Matrix (Fin d) (Fin d) ℝ} (h : V.IsSymm) :
    ∑ i, ∑ j, V i j * M i j = (M * V).trace := by
  simp only [trace, diag, mul_apply]
  exact Finset.sum_congr rfl fun i _ => Finset.sum_congr rfl fun j _ => by
    rw [h.apply i j, mul_comm]

theorem matrix_inv_neg {d : ℕ} {M : Matrix (Fin d) (Fin d) ℝ} (h : IsUnit M.det) :
    (-M)⁻¹ = -M⁻¹ :=
  inv_eq_right_inv (by rw [neg_mul_neg, mul_nonsing_inv _ h])

theorem mvNormal_logNormalizer {d : ℕ} (q : (Fin d → ℝ) × Matrix (Fin d) (Fin d) ℝ) :
    (mvNormal d).logNormalizer q = -0.25 * (q.1 ⬝ᵥ q.2⁻¹ *ᵥ q.1) - 0.5 * Real.log (-q.2).det +
      0.5 * d * Real.log Real.pi := by
  simp only [mvNormal, sum_sum_outer]

theorem mvNormal_logPdf {d : ℕ} (q : (Fin d → ℝ) × Matrix (Fin d) (Fin d) ℝ) (x : Fin d → ℝ) :
    (mvNormal d).logPdf q x = q.1 ⬝ᵥ x + x ⬝ᵥ q.2 *ᵥ x - (mvNormal d).logNormalizer q := by
  rw [ExpFam.logPdf]
  simp only [mvNormal, sum_sum_outer, add_zero, dotProduct]

/-- The integral of the exponential of a negative definite quadratic form. -/
theorem gauss_integral {d : ℕ} {B : Matrix (Fin d) (Fin d) ℝ} (hB : B.det ≠ 0) (c : Fin d → ℝ) :
    ∫ x : Fin d → ℝ, Real.exp (c ⬝ᵥ B *ᵥ x - B *ᵥ x ⬝ᵥ B *ᵥ x) =
      |B.det|⁻¹ * Real.exp (c ⬝ᵥ c / 4 + 0.5 * d * Real.log Real.pi) := by
  have hmap := Real.map_matrix_volume_pi_eq_smul_volume_pi hB
  have hm : AEMeasurable (fun x : Fin d → ℝ => toLin' B x) volume :=
    (LinearMap.continuous_on_pi (toLin' B)).aemeasurable
  have h1 : ∫ x : Fin d → ℝ, Real.exp (c ⬝ᵥ B *ᵥ x - B *ᵥ x ⬝ᵥ B *ᵥ x) =
      ∫ y, Real.exp (c ⬝ᵥ y - y ⬝ᵥ y) ∂(Measure.map (toLin' B) volume) := by
    rw [integral_map hm]
    · rfl
    · refine Continuous.aestronglyMeasurable ?_
      simp only [dotProduct]
      fun_prop
  rw [h1, hmap, integral_smul_measure, ENNReal.toReal_ofReal (abs_nonneg _), abs_inv, smul_eq_mul]
  congr 1
  have h2 : ∀ y : Fin d → ℝ, Real.exp (c ⬝ᵥ y - y ⬝ᵥ y) =
      Real.exp (c ⬝ᵥ c / 4 + 0.5 * d * Real.log Real.pi) *
        (normal.pow d).pdf (fun i => (c i, -1)) y := by
    intro y
    rw [ExpFam.pdf, ← Real.exp_add, ExpFam.logPdf]
    congr 1
    simp only [dotProduct, ExpFam.pow, normal, Finset.sum_add_distrib, Finset.sum_const,
      Finset.card_univ, Fintype.card_fin, nsmul_eq_mul, ← Finset.sum_div, Finset.sum_neg_distrib]
    norm_num
    simp only [← pow_two]
    ring
  simp only [h2]
  rw [integral_const_mul, ((mvNormals_regular d).density (fun i => (c i, -1)) fun i => by
    norm_num [normalDom]).2, mul_one]

theorem mvNormal_density {d : ℕ} {q : (Fin d → ℝ) × Matrix (Fin d) (Fin d) ℝ}
    (h : q ∈ mvNormalDom d) : IsDensity volume ((mvNormal d).pdf q) := by
  refine ⟨fun x => ((mvNormal d).pdf_pos q x).le, ?_⟩
  have h : (-q.2).PosDef := h
  obtain ⟨B, hB, hd⟩ := posDef_square h
  rw [conjTranspose_eq_transpose_of_trivial] at hB
  have hu : IsUnit B.det := isUnit_iff_ne_zero.2 hd
  have huT : IsUnit Bᵀ.det := by rwa [det_transpose]
  have hdet : (-q.2).det = |B.det| ^ 2 := by rw [hB, det_mul, det_transpose, sq_abs, pow_two]
  have hH : q.2 = -(Bᵀ * B) := by rw [← hB, neg_neg]
  have hinv : q.2⁻¹ = -(B⁻¹ * Bᵀ⁻¹) := by
    rw [hH, ← Matrix.mul_inv_rev, matrix_inv_neg]
    rw [det_mul]
    exact huT.mul hu
  have e : ∀ x, (mvNormal d).pdf q x = Real.exp (-(mvNormal d).logNormalizer q) *
      Real.exp ((Bᵀ⁻¹ *ᵥ q.1) ⬝ᵥ B *ᵥ x - B *ᵥ x ⬝ᵥ B *ᵥ x) := by
    intro x
    rw [ExpFam.pdf, ← Real.exp_add, mvNormal_logPdf]
    congr 1
    have e1 : (Bᵀ⁻¹ *ᵥ q.1) ⬝ᵥ B *ᵥ x = q.1 ⬝ᵥ x := by
      rw [dotProduct_mulVec, ← mulVec_transpose, mulVec_mulVec, mul_nonsing_inv _ huT, one_mulVec]
    have e2 : x ⬝ᵥ q.2 *ᵥ x = -(B *ᵥ x ⬝ᵥ B *ᵥ x) := by
      rw [hH, neg_mulVec, dotProduct_neg, ← mulVec_mulVec, dotProduct_mulVec, vecMul_transpose]
    rw [e1, e2]
    ring
  rw [funext e, integral_const_mul, gauss_integral hd, mvNormal_logNormalizer, hdet]
  have e3 : q.1 ⬝ᵥ q.2⁻¹ *ᵥ q.1 = -((Bᵀ⁻¹ *ᵥ q.1) ⬝ᵥ (Bᵀ⁻¹ *ᵥ q.1)) := by
    rw [hinv, neg_mulVec, dotProduct_neg, ← mulVec_mulVec, dotProduct_mulVec, ← mulVec_transpose,
      transpose_nonsing_inv]
  have hp : 0 < |B.det| := abs_pos.2 hd
  conv_lhs => enter [2, 1]; rw [← Real.exp_log hp, ← Real.exp_neg]
  rw [← Real.exp_add, ← Real.exp_add, Real.exp_eq_one_iff, e3, Real.log_pow]
  norm_num
  ring

theorem mvNormal_gradient {d : ℕ} {q v : (Fin d → ℝ) × Matrix (Fin d) (Fin d) ℝ}
    (h : q ∈ mvNormalDom d) (hv : v ∈ symmetricDirs d) :
    HasDerivAt (fun t : ℝ => (mvNormal d).logNormalizer (q + t • v))
      ((mvNormal d).dot v ((mvNormal d).toExp q)) 0 := by
  have h : (-q.2).PosDef := h
  have hv : v.2.IsSymm := hv
  have hs : q.2.IsSymm := by
    have := h.isHermitian.neg
    rwa [neg_neg, IsHermitian, conjTranspose_eq_transpose_of_trivial] at this
  have hun : IsUnit (-q.2).det := (isUnit_iff_isUnit_det _).1 h.isUnit
  have hu : IsUnit q.2.det := by
    rw [← isUnit_iff_isUnit_det] at hun ⊢
    simpa using hun.neg
  have h1 := (quad_perturb (V := v.2) hu hs q.1 v.1).const_mul (-0.25)
  have h2 := ((det_perturb (V := -v.2) hun).log (by simpa using hun.ne_zero)).const_mul 0.5
  have h3 := (h1.sub h2).add_const (0.5 * d * Real.log Real.pi)
  refine (h3.congr_deriv ?_).congr_of_eventuallyEq (Filter.Eventually.of_forall fun t => ?_)
  · have hd : (-q.2).det ≠ 0 := hun.ne_zero
    have hi : (-q.2)⁻¹ = -q.2⁻¹ := matrix_inv_neg hu
    simp only [zero_smul, add_zero, mvNormal]
    rw [mul_div_cancel_left₀ _ hd, hi, neg_mul_neg]
    have e1 : ∑ i, ∑ j, v.2 i j * ((0.25 : ℝ) • vecMulVec (q.2⁻¹ *ᵥ q.1) (q.2⁻¹ *ᵥ q.1) -
        (0.5 : ℝ) • q.2⁻¹) i j = 0.25 * ((q.2⁻¹ *ᵥ q.1) ⬝ᵥ v.2 *ᵥ (q.2⁻¹ *ᵥ q.1)) -
        0.5 * (q.2⁻¹ * v.2).trace := by
      rw [← sum_sum_outer, ← sum_sum_trace hv]
      simp only [Finset.mul_sum, ← Finset.sum_sub_distrib, Matrix.sub_apply, Matrix.smul_apply, smul_eq_mul]
      exact Finset.sum_congr rfl fun i _ => Finset.sum_congr rfl fun j _ => by ring
    rw [e1]
    have e2 : ∑ i, v.1 i * ((-0.5 : ℝ) • q.2⁻¹ *ᵥ q.1) i = -0.5 * (v.1 ⬝ᵥ q.2⁻¹ *ᵥ q.1) := by
      simp only [dotProduct, Finset.mul_sum, Pi.smul_apply, smul_eq_mul]
      exact Finset.sum_congr rfl fun i _ => by ring
    rw [e2]
    ring
  · simp only [mvNormal_logNormalizer, Prod.fst_add, Prod.snd_add, Prod.smul_fst, Prod.smul_snd,
      neg_add, smul_neg, Pi.sub_apply]

theorem mvNormal_regular (d : ℕ) :
    Regular (mvNormal d) volume (mvNormalDom d) (symmetricDirs d) where
  dot_add η v t w := by
    simp only [mvNormal, Prod.fst_add, Prod.snd_add, Prod.smul_fst, Prod.smul_snd, Pi.add_apply,
      Pi.smul_apply, smul_eq_mul, add_mul, Finset.sum_add_distrib, mul_add, Finset.mul_sum, mul_assoc,
      Matrix.add_apply, Matrix.smul_apply]
    ring
  convex := by
    intro x hx y hy a b ha hb hab
    have hx : (-x.2).PosDef := hx
    have hy : (-y.2).PosDef := hy
    change (-(a • x.2 + b • y.2)).PosDef
    rw [neg_add, ← smul_neg, ← smul_neg]
    rcases eq_or_lt_of_le ha with rfl | ha
    · obtain rfl : b = 1 := by linarith
      simpa using hy
    rcases eq_or_lt_of_le hb with rfl | hb
    · obtain rfl : a = 1 := by linarith
      simpa using hx
    exact (hx.smul ha).add (hy.smul hb)
  is_open η h v hv := by
    have hv : v.2.IsSymm := hv
    have hV : (-v.2).IsHermitian := by
      rw [IsHermitian, conjTranspose_eq_transpose_of_trivial]
      exact hv.neg
    filter_upwards [posDef_perturb (show (-η.2).PosDef from h) hV] with t ht
    change (-(η.2 + t • v.2)).PosDef
    rwa [neg_add, ← smul_neg]
  mem_dirs q h := by
    have := (show (-q.2).PosDef from h).isHermitian.neg
    rwa [neg_neg, IsHermitian, conjTranspose_eq_transpose_of_trivial] at this
  density _ h := mvNormal_density h
  gradient _ h _ hv := mvNormal_gradient h hv

theorem mvNormal_minimal (d : ℕ) : Minimal (mvNormal d) volume (symmetricDirs d) := by
  intro v hv c h
  have hv : v.2.IsSymm := hv
  have hc : ContinuousOn (fun x : Fin d → ℝ => v.1 ⬝ᵥ x + x ⬝ᵥ v.2 *ᵥ x) univ := by
    simp only [dotProduct, mulVec]
    fun_prop
  rw [← Measure.restrict_univ (μ := (volume : Measure (Fin d → ℝ)))] at h
  have hall := ae_open (μ := volume) isOpen_univ hc (by
    filter_upwards [h] with x hx
    simpa only [mvNormal, sum_sum_outer, dotProduct] using hx)
  have h0 := hall 0 trivial
  simp only [dotProduct_zero, mulVec_zero, add_zero] at h0
  subst h0
  have h1 : ∀ x, v.1 ⬝ᵥ x = 0 ∧ x ⬝ᵥ v.2 *ᵥ x = 0 := by
    intro x
    have hp := hall x trivial
    have hn := hall (-x) trivial
    simp only [dotProduct_neg, neg_dotProduct, mulVec_neg, neg_neg] at hp hn
    constructor <;> linarith
  refine Prod.ext (funext fun i => ?_) (Matrix.ext fun i j => ?_)
  · simpa using (h1 (Pi.single i 1)).1
  · have a := (h1 (Pi.single i 1 + Pi.single j 1)).2
    have b := (h1 (Pi.single i 1)).2
    have e := (h1 (Pi.single j 1)).2
    simp only [mulVec_add, add_dotProduct, dotProduct_add, mulVec_single_one, single_one_dotProduct,
      col_apply] at a b e
    have s := hv.apply i j
    simp only [Prod.snd_zero, Matrix.zero_apply]
    linarith

end Efax
