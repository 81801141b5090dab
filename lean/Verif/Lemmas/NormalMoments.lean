import Verif.Lemmas.Laws
import Verif.Spec.Moments
import Verif.Spec.Textbook
import Verif.Spec.ExpFam
import Mathlib.Analysis.Matrix.Order
import Mathlib.Probability.Distributions.Gaussian.Real
import Mathlib.Probability.Independence.Integration
import Mathlib.Probability.ProductMeasure

/-!
# Means, covariances and densities of normal draws
-/

namespace Efax

open MeasureTheory ProbabilityTheory Spec Matrix

theorem randomNormal_eq_gaussianReal : randomNormal = gaussianReal 0 1 := by
  have h1 : ∀ x : ℝ, Real.exp (-x ^ 2 / 2) = Real.sqrt (2 * Real.pi) * gaussianPDFReal 0 1 x := fun x => by
    have : Real.sqrt (2 * Real.pi) ≠ 0 := by positivity
    rw [gaussianPDFReal]
    simp
    field_simp
  have hs : ENNReal.ofReal (Real.sqrt (2 * Real.pi)) ≠ 0 := by
    simp only [ne_eq, ENNReal.ofReal_eq_zero, not_le]
    positivity
  have h2 : (fun x : ℝ => ENNReal.ofReal (Real.exp (-x ^ 2 / 2))) =
      ENNReal.ofReal (Real.sqrt (2 * Real.pi)) • gaussianPDF 0 1 := by
    funext x
    rw [h1, ENNReal.ofReal_mul (Real.sqrt_nonneg _)]
    rfl
  rw [randomNormal, proportional, h2, gaussianReal_of_var_ne_zero 0 one_ne_zero,
    withDensity_smul _ (measurable_gaussianPDF 0 1)]
  have h3 : ∫⁻ x, (ENNReal.ofReal (Real.sqrt (2 * Real.pi)) • gaussianPDF 0 1) x =
      ENNReal.ofReal (Real.sqrt (2 * Real.pi)) := by
    simp only [Pi.smul_apply, smul_eq_mul]
    rw [lintegral_const_mul _ (measurable_gaussianPDF 0 1), lintegral_gaussianPDF_eq_one 0 one_ne_zero,
      mul_one]
  rw [h3, smul_smul, ENNReal.inv_mul_cancel hs ENNReal.ofReal_ne_top, one_smul]

instance : IsProbabilityMeasure randomNormal := by
  rw [randomNormal_eq_gaussianReal]
  infer_instance

variable {ι : Type} [Fintype ι]

instance : IsProbabilityMeasure (randomNormals ι) := by
  rw [randomNormals]
  infer_instance

theorem randomNormals_eval (i : ι) : MeasurePreserving (fun z : ι → ℝ => z i) (randomNormals ι) randomNormal :=
  measurePreserving_eval _ i

theorem randomNormals_memLp (i : ι) : MemLp (fun z : ι → ℝ => z i) 2 (randomNormals ι) := by
  have h : MemLp id 2 randomNormal := by
    rw [randomNormal_eq_gaussianReal]
    exact memLp_id_gaussianReal 2
  exact h.comp_measurePreserving (randomNormals_eval i)

theorem randomNormals_mean (i : ι) : ∫ z, z i ∂(randomNormals ι) = 0 := by
  have h := integral_map (μ := randomNormals ι) (φ := fun z => z i) (f := fun x : ℝ => x)
    (measurable_pi_apply i).aemeasurable measurable_id.aestronglyMeasurable
  rw [(randomNormals_eval i).map_eq, randomNormal_eq_gaussianReal, integral_id_gaussianReal] at h
  exact h.symm

theorem randomNormals_integrable (i : ι) : Integrable (fun z : ι → ℝ => z i) (randomNormals ι) :=
  (randomNormals_memLp i).integrable (by norm_num)

theorem randomNormals_integrable₂ (i j : ι) :
    Integrable (fun z : ι → ℝ => z i * z j) (randomNormals ι) :=
  (randomNormals_memLp i).integrable_mul (randomNormals_memLp j)

theorem randomNormals_cov [DecidableEq ι] (i j : ι) :
    ∫ z, z i * z j ∂(randomNormals ι) = if i = j then 1 else 0 := by
  split_ifs with hij
  · subst hij
    have h := integral_map (μ := randomNormals ι) (φ := fun z => z i) (f := fun x : ℝ => x * x)
      (measurable_pi_apply i).aemeasurable (by fun_prop)
    rw [(randomNormals_eval i).map_eq, randomNormal_eq_gaussianReal] at h
    rw [← h]
    have hv := variance_fun_id_gaussianReal (μ := 0) (v := 1)
    rw [variance_eq_integral (by fun_prop), integral_id_gaussianReal] at hv
    simpa [pow_two] using hv
  · have hI : iIndepFun (fun (i : ι) (z : ι → ℝ) => z i) (randomNormals ι) :=
      iIndepFun_pi (X := fun _ => id) fun _ => aemeasurable_id
    have h := (hI.indepFun hij).integral_fun_mul_eq_mul_integral
      (randomNormals_integrable i).aestronglyMeasurable (randomNormals_integrable j).aestronglyMeasurable
    rw [h, randomNormals_mean, zero_mul]

variable {factor : Matrix ι ι ℝ → Matrix ι ι ℝ} {S : Matrix ι ι ℝ}

theorem affine_measurable (m : ι → ℝ) (L : Matrix ι ι ℝ) : Measurable fun z : ι → ℝ => m + L *ᵥ z :=
  Continuous.measurable (continuous_const.add (Continuous.matrix_mulVec continuous_const continuous_id))

/-- The mean and the covariance of `jax.random.multivariate_normal`. -/
theorem randomMultivariateNormal_moments (hf : factor S * (factor S)ᵀ = S) (m : ι → ℝ) :
    Moments (randomMultivariateNormal factor m S) m S := by
  classical
  have hm := affine_measurable m (factor S)
  have hae := hm.aemeasurable (μ := randomNormals ι)
  have e : ∀ i (z : ι → ℝ), (m + factor S *ᵥ z) i - m i = ∑ k, factor S i k * z k := fun i z => by
    rw [Pi.add_apply, add_sub_cancel_left]
    rfl
  have e2 : ∀ i j (z : ι → ℝ), ((m + factor S *ᵥ z) i - m i) * ((m + factor S *ᵥ z) j - m j) =
      ∑ k, ∑ l, factor S i k * factor S j l * (z k * z l) := fun i j z => by
    rw [e, e, Finset.sum_mul_sum]
    exact Finset.sum_congr rfl fun k _ => Finset.sum_congr rfl fun l _ => by ring
  have hi : ∀ i, Integrable (fun z : ι → ℝ => (m + factor S *ᵥ z) i) (randomNormals ι) := fun i => by
    refine (integrable_const (m i)).add ?_
    exact integrable_finsetSum _ fun k _ => (randomNormals_integrable k).const_mul _
  have hi2 : ∀ i j k l, Integrable (fun z : ι → ℝ => factor S i k * factor S j l * (z k * z l))
      (randomNormals ι) := fun i j k l => (randomNormals_integrable₂ k l).const_mul _
  refine ⟨?_, fun i => ?_, fun i => ?_, fun i j => ?_, fun i j => ?_⟩
  · rw [randomMultivariateNormal]
    exact Measure.isProbabilityMeasure_map hae
  · rw [randomMultivariateNormal, integrable_map_measure (measurable_pi_apply i).aestronglyMeasurable hae]
    exact hi i
  · rw [randomMultivariateNormal, integral_map hae (measurable_pi_apply i).aestronglyMeasurable]
    have : ∀ z : ι → ℝ, (m + factor S *ᵥ z) i = m i + ∑ k, factor S i k * z k := fun z => rfl
    simp only [this]
    rw [integral_add (integrable_const _)
      (integrable_finsetSum _ fun k _ => (randomNormals_integrable k).const_mul _),
      integral_finsetSum _ fun k _ => (randomNormals_integrable k).const_mul _]
    simp [integral_const_mul, randomNormals_mean]
  · rw [randomMultivariateNormal, integrable_map_measure (by fun_prop) hae]
    simp only [Function.comp_def, e2]
    exact integrable_finsetSum _ fun k _ => integrable_finsetSum _ fun l _ => hi2 i j k l
  · rw [randomMultivariateNormal, integral_map hae (by fun_prop)]
    simp only [e2]
    rw [integral_finsetSum _ fun k _ => integrable_finsetSum _ fun l _ => hi2 i j k l]
    simp only [integral_finsetSum _ fun l _ => hi2 i j _ l, integral_const_mul, randomNormals_cov]
    simp only [mul_ite, mul_one, mul_zero, Finset.sum_ite_eq, Finset.mem_univ, if_true]
    conv_rhs => rw [← hf]
    rfl

variable [DecidableEq ι]

omit [DecidableEq ι] in
theorem lintegral_exp_sq :
    ∫⁻ z : ι → ℝ, ENNReal.ofReal (Real.exp (-(∑ i, z i ^ 2) / 2)) =
      ENNReal.ofReal (Real.sqrt (2 * Real.pi) ^ Fintype.card ι) := by
  have e : ∀ x : ℝ, Real.exp (-x ^ 2 / 2) = Real.exp (-(1 / 2) * x ^ 2) := fun x => by
    congr 1
    ring
  have hi : Integrable (fun x : ℝ => Real.exp (-x ^ 2 / 2)) := by
    simp only [e]
    exact integrable_exp_neg_mul_sq (by norm_num)
  have h1 : ∫ x : ℝ, Real.exp (-x ^ 2 / 2) = Real.sqrt (2 * Real.pi) := by
    simp only [e]
    rw [integral_gaussian]
    congr 1
    ring
  have h2 : ∀ z : ι → ℝ, Real.exp (-(∑ i, z i ^ 2) / 2) = ∏ i, Real.exp (-z i ^ 2 / 2) := fun z => by
    rw [← Real.exp_sum, ← Finset.sum_div, Finset.sum_neg_distrib]
  simp only [h2]
  have hp : Integrable (fun z : ι → ℝ => ∏ i, Real.exp (-z i ^ 2 / 2)) volume :=
    Integrable.fintype_prod fun _ => hi
  rw [← ofReal_integral_eq_lintegral_ofReal hp
    (ae_of_all _ fun z => Finset.prod_nonneg fun i _ => (Real.exp_pos _).le)]
  congr 1
  rw [integral_fintype_prod_volume_eq_pow fun x : ℝ => Real.exp (-x ^ 2 / 2), h1]

/-- The normal density is the law of `jax.random.multivariate_normal`. -/
theorem randomMultivariateNormal_density (hS : 0 < S.det) (hf : factor S * (factor S)ᵀ = S) (m : ι → ℝ) :
    randomMultivariateNormal factor m S =
      volume.withDensity fun x => ENNReal.ofReal (Textbook.mvNormal m S x) := by
  have hd : S.det = (factor S).det ^ 2 := by
    conv_lhs => rw [← hf]
    rw [det_mul, det_transpose, pow_two]
  have hL : (factor S).det ≠ 0 := fun h => by
    rw [h] at hd
    norm_num at hd
    exact hS.ne' hd
  have hu : IsUnit (factor S).det := isUnit_iff_ne_zero.2 hL
  have hsq : Real.sqrt ((2 * Real.pi) ^ Fintype.card ι * S.det) =
      Real.sqrt (2 * Real.pi) ^ Fintype.card ι * |(factor S).det| := by
    rw [Real.sqrt_mul (by positivity), hd, Real.sqrt_sq_eq_abs]
    congr 1
    rw [Real.sqrt_eq_iff_mul_self_eq (by positivity) (by positivity), ← mul_pow,
      Real.mul_self_sqrt (by positivity)]
  have hpos : 0 < Real.sqrt ((2 * Real.pi) ^ Fintype.card ι * S.det) := by positivity
  have hc : Continuous fun x : ι → ℝ => Real.exp (-((x - m) ⬝ᵥ S⁻¹ *ᵥ (x - m)) / 2) := by
    refine Real.continuous_exp.comp (Continuous.div_const (Continuous.neg ?_) _)
    exact Continuous.dotProduct (by fun_prop) (Continuous.matrix_mulVec continuous_const (by fun_prop))
  have hg : Measurable fun x : ι → ℝ => ENNReal.ofReal (Real.exp (-((x - m) ⬝ᵥ S⁻¹ *ᵥ (x - m)) / 2)) :=
    ENNReal.measurable_ofReal.comp hc.measurable
  have hI : ∫⁻ x, ENNReal.ofReal (Real.exp (-((x - m) ⬝ᵥ S⁻¹ *ᵥ (x - m)) / 2)) =
      ENNReal.ofReal (Real.sqrt ((2 * Real.pi) ^ Fintype.card ι * S.det)) := by
    have hmap : (volume : Measure (ι → ℝ)).map (fun z => m + factor S *ᵥ z) =
        ENNReal.ofReal |(factor S).det⁻¹| • volume := by
      have h1 : (fun x => m + factor S *ᵥ x) = (fun x => m + x) ∘ (Matrix.toLin' (factor S)) := rfl
      rw [h1, ← Measure.map_map (measurable_const_add m),
        Real.map_matrix_volume_pi_eq_smul_volume_pi hL, Measure.map_smul, map_add_left_eq_self]
      exact (LinearMap.continuous_of_finiteDimensional _).measurable
    have h2 := lintegral_map (μ := volume) hg (affine_measurable m (factor S))
    have h3 : ∀ z : ι → ℝ, (m + factor S *ᵥ z - m) ⬝ᵥ S⁻¹ *ᵥ (m + factor S *ᵥ z - m) = ∑ i, z i ^ 2 := by
      intro z
      have hi : S⁻¹ = ((factor S)⁻¹)ᵀ * (factor S)⁻¹ := by
        rw [Matrix.transpose_nonsing_inv, ← Matrix.mul_inv_rev, hf]
      rw [add_sub_cancel_left, hi, ← Matrix.mulVec_mulVec, Matrix.dotProduct_mulVec, Matrix.vecMul_transpose,
        Matrix.mulVec_mulVec, Matrix.nonsing_inv_mul _ hu, one_mulVec]
      simp only [dotProduct, sq]
    simp only [h3] at h2
    rw [hmap, lintegral_smul_measure, lintegral_exp_sq, smul_eq_mul] at h2
    rw [hsq, ENNReal.ofReal_mul (by positivity), ← h2, mul_right_comm, ← ENNReal.ofReal_mul (abs_nonneg _),
      ← abs_mul, inv_mul_cancel₀ hL, abs_one, ENNReal.ofReal_one, one_mul]
  rw [randomMultivariateNormal_eq hS.ne' hf, proportional, hI, ← withDensity_smul _ hg]
  congr 1
  funext x
  rw [Textbook.mvNormal, Pi.smul_apply, smul_eq_mul, ← ENNReal.ofReal_inv_of_pos hpos,
    ← ENNReal.ofReal_mul (inv_nonneg.2 hpos.le)]
  congr 1
  rw [mul_comm]
  exact (div_eq_mul_inv _ _).symm

omit [DecidableEq ι] in
/-- The law of `jax.random.multivariate_normal` for a factor that exists whenever the matrix is positive
semidefinite. -/
theorem exists_factor (hS : S.PosSemidef) : ∃ L : Matrix ι ι ℝ, L * Lᵀ = S := by
  classical
  open scoped MatrixOrder in
  obtain ⟨B, hB⟩ := CStarAlgebra.nonneg_iff_eq_star_mul_self.mp hS.nonneg
  exact ⟨Bᵀ, by rw [hB, transpose_transpose, star_eq_conjTranspose, conjTranspose_eq_transpose_of_trivial]⟩

/-- The moments of the normal density. -/
theorem textbook_moments (hS : S.PosDef) (m : ι → ℝ) :
    Moments (volume.withDensity fun x => ENNReal.ofReal (Textbook.mvNormal m S x)) m S := by
  obtain ⟨L, hL⟩ := exists_factor hS.posSemidef
  rw [← randomMultivariateNormal_density (factor := fun _ => L) hS.det_pos hL]
  exact randomMultivariateNormal_moments hL m

theorem mvNormal_pos (hS : 0 < S.det) (m x : ι → ℝ) : 0 < Textbook.mvNormal m S x := by
  rw [Textbook.mvNormal]
  positivity

theorem mvNormal_continuous (m : ι → ℝ) : Continuous (Textbook.mvNormal m S) := by
  unfold Textbook.mvNormal
  refine Continuous.div_const (Real.continuous_exp.comp (Continuous.div_const (Continuous.neg ?_) _)) _
  exact Continuous.dotProduct (by fun_prop) (Continuous.matrix_mulVec continuous_const (by fun_prop))

/-- Integrals under a law with a density. -/
theorem hasMean_of_law {X : Type} [MeasurableSpace X] {μ : Measure X} {f g : X → ℝ} {c : ℝ}
    (hf : Measurable f) (h0 : ∀ x, 0 ≤ f x)
    (hi : Integrable g (μ.withDensity fun x => ENNReal.ofReal (f x)))
    (hc : ∫ x, g x ∂(μ.withDensity fun x => ENNReal.ofReal (f x)) = c) : HasMean μ f g c := by
  have hm : Measurable fun x => ENNReal.ofReal (f x) := ENNReal.measurable_ofReal.comp hf
  have ht : ∀ᵐ x ∂μ, ENNReal.ofReal (f x) < ⊤ := ae_of_all _ fun x => ENNReal.ofReal_lt_top
  rw [integrable_withDensity_iff hm ht] at hi
  rw [integral_withDensity_eq_integral_toReal_smul hm ht] at hc
  simp only [ENNReal.toReal_ofReal (h0 _), smul_eq_mul] at hi hc
  refine ⟨hi, ?_⟩
  rw [← hc]
  exact integral_congr_ae (ae_of_all _ fun x => mul_comm _ _)

/-- The differential entropy of the normal density. -/
theorem textbook_entropy (hS : S.PosDef) (m : ι → ℝ) :
    IsCrossEntropy volume (Textbook.mvNormal m S) (Textbook.mvNormal m S)
      ((Fintype.card ι * (Real.log (2 * Real.pi) + 1) + Real.log S.det) / 2) := by
  have M := textbook_moments hS m
  have hd := hS.det_pos
  have hu : IsUnit S.det := isUnit_iff_ne_zero.2 hd.ne'
  have := M.prob
  have e : ∀ x, -Real.log (Textbook.mvNormal m S x) =
      (Fintype.card ι * Real.log (2 * Real.pi) + Real.log S.det) / 2 +
        ∑ i, ∑ j, S⁻¹ i j / 2 * ((x i - m i) * (x j - m j)) := fun x => by
    rw [Textbook.mvNormal, Real.log_div (Real.exp_pos _).ne' (by positivity), Real.log_exp,
      Real.log_sqrt (by positivity), Real.log_mul (by positivity) hd.ne', Real.log_pow]
    have : (x - m) ⬝ᵥ S⁻¹ *ᵥ (x - m) = 2 * ∑ i, ∑ j, S⁻¹ i j / 2 * ((x i - m i) * (x j - m j)) := by
      simp only [dotProduct, mulVec, Finset.mul_sum, Pi.sub_apply]
      exact Finset.sum_congr rfl fun i _ => Finset.sum_congr rfl fun j _ => by ring
    rw [this]
    ring
  have hi : ∀ i j, Integrable (fun x : ι → ℝ => S⁻¹ i j / 2 * ((x i - m i) * (x j - m j)))
      (volume.withDensity fun x => ENNReal.ofReal (Textbook.mvNormal m S x)) := fun i j =>
    (M.integrable₂ i j).const_mul _
  refine hasMean_of_law (mvNormal_continuous m).measurable (fun x => (mvNormal_pos hd m x).le) ?_ ?_
  · simp only [e]
    exact (integrable_const _).add (integrable_finsetSum _ fun i _ => integrable_finsetSum _ fun j _ => hi i j)
  · simp only [e]
    rw [integral_add (integrable_const _)
      (integrable_finsetSum _ fun i _ => integrable_finsetSum _ fun j _ => hi i j),
      integral_finsetSum _ fun i _ => integrable_finsetSum _ fun j _ => hi i j]
    simp only [integral_finsetSum _ fun j _ => hi _ j, integral_const_mul, M.cov, integral_const]
    have ht : ∑ i, ∑ j, S⁻¹ i j / 2 * S i j = Fintype.card ι / 2 := by
      have h1 : (S⁻¹ * S).trace = Fintype.card ι := by rw [nonsing_inv_mul _ hu, trace_one]
      have hs : S.IsSymm := by
        have := hS.1
        rwa [IsHermitian, conjTranspose_eq_transpose_of_trivial] at this
      rw [← h1, trace, Finset.sum_div]
      refine Finset.sum_congr rfl fun i _ => ?_
      rw [diag, mul_apply, Finset.sum_div]
      exact Finset.sum_congr rfl fun j _ => by rw [hs.apply i j]; ring
    rw [ht]
    simp
    ring

end Efax
