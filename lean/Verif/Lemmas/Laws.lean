import Verif.Spec.Laws
import Verif.Model.Primitives
import Mathlib.MeasureTheory.Integral.Pi
import Mathlib.Analysis.SpecialFunctions.Gaussian.GaussianIntegral
import Mathlib.LinearAlgebra.Matrix.NonsingularInverse
import Mathlib.Topology.Instances.Matrix
import Mathlib.MeasureTheory.Measure.Lebesgue.Integral
import Mathlib.MeasureTheory.Measure.Haar.OfBasis
import Mathlib.MeasureTheory.Measure.Lebesgue.EqHaar

/-!
# Laws with a density known up to a factor
-/

namespace Efax

open MeasureTheory Spec Set

section

variable {X Y : Type} [MeasurableSpace X] [MeasurableSpace Y] {μ : Measure X}

theorem proportional_of {f g : X → ℝ} {c : ℝ} (hc : 0 < c) (h : ∀ᵐ x ∂μ, f x = c * g x) :
    proportional μ f = proportional μ g := by
  have e : (fun x => ENNReal.ofReal (f x)) =ᵐ[μ] fun x => ENNReal.ofReal c * ENNReal.ofReal (g x) := by
    filter_upwards [h] with x hx
    rw [hx, ENNReal.ofReal_mul hc.le]
  have hc0 : ENNReal.ofReal c ≠ 0 := (ENNReal.ofReal_pos.2 hc).ne'
  rw [proportional, proportional, withDensity_congr_ae e, lintegral_congr_ae e,
    lintegral_const_mul' _ _ ENNReal.ofReal_ne_top]
  have : μ.withDensity (fun x => ENNReal.ofReal c * ENNReal.ofReal (g x)) =
      ENNReal.ofReal c • μ.withDensity fun x => ENNReal.ofReal (g x) :=
    withDensity_smul' _ _ ENNReal.ofReal_ne_top
  rw [this, smul_smul, ENNReal.mul_inv (Or.inl hc0) (Or.inl ENNReal.ofReal_ne_top), mul_right_comm,
    ENNReal.inv_mul_cancel hc0 ENNReal.ofReal_ne_top, one_mul]

theorem proportional_density {f : X → ℝ} (hf : IsDensity μ f) :
    proportional μ f = μ.withDensity fun x => ENNReal.ofReal (f x) := by
  have hi : Integrable f μ := integrable_of_integral_eq_one hf.2
  rw [proportional, ← ofReal_integral_eq_lintegral_ofReal hi (ae_of_all _ hf.1), hf.2,
    ENNReal.ofReal_one, inv_one, one_smul]

/-- A density that is known up to a factor. -/
theorem law_eq_proportional {N E : Type} {F : ExpFam N E X} {q : N} (hd : IsDensity μ (F.pdf q))
    {g : X → ℝ} {c : ℝ} (hc : 0 < c) (h : ∀ᵐ x ∂μ, F.pdf q x = c * g x) :
    proportional μ g = law F μ q := by
  rw [law, ← proportional_density hd, proportional_of hc h]

theorem proportional_map (e : X ≃ᵐ Y) (g : X → ℝ) :
    (proportional μ g).map e = proportional (μ.map e) fun y => g (e.symm y) := by
  rw [proportional, proportional, Measure.map_smul, lintegral_map_equiv]
  simp only [MeasurableEquiv.symm_apply_apply]
  congr 1
  ext s hs
  rw [e.map_apply, withDensity_apply _ (e.measurable hs), withDensity_apply _ hs,
    e.restrict_map, lintegral_map_equiv]
  simp only [MeasurableEquiv.symm_apply_apply]

theorem proportional_smul {c : ENNReal} (h0 : c ≠ 0) (h1 : c ≠ ⊤) (g : X → ℝ) :
    proportional (c • μ) g = proportional μ g := by
  rw [proportional, proportional, lintegral_smul_measure, withDensity_smul_measure, smul_smul,
    smul_eq_mul, ENNReal.mul_inv (Or.inl h0) (Or.inl h1), mul_right_comm,
    ENNReal.inv_mul_cancel h0 h1, one_mul]

end

theorem isProbability_proportional {X : Type} [MeasurableSpace X] {μ : Measure X} {g : X → ℝ}
    (h0 : ∀ x, 0 ≤ g x) (hi : Integrable g μ) (hp : 0 < ∫ x, g x ∂μ) :
    IsProbabilityMeasure (proportional μ g) := by
  constructor
  rw [proportional, Measure.smul_apply, withDensity_apply _ MeasurableSet.univ,
    Measure.restrict_univ, ← ofReal_integral_eq_lintegral_ofReal hi (ae_of_all _ h0), smul_eq_mul]
  exact ENNReal.inv_mul_cancel (ENNReal.ofReal_pos.2 hp).ne' ENNReal.ofReal_ne_top

theorem proportional_apply {X : Type} [MeasurableSpace X] {μ : Measure X} {g : X → ℝ}
    (h0 : ∀ x, 0 ≤ g x) (hi : Integrable g μ) (hp : 0 < ∫ x, g x ∂μ) {s : Set X}
    (hs : MeasurableSet s) :
    proportional μ g s = ENNReal.ofReal ((∫ x, g x ∂μ)⁻¹ * ∫ x, s.indicator g x ∂μ) := by
  rw [proportional, Measure.smul_apply, withDensity_apply _ hs,
    ← ofReal_integral_eq_lintegral_ofReal hi (ae_of_all _ h0),
    ← ofReal_integral_eq_lintegral_ofReal hi.integrableOn (ae_of_all _ h0), smul_eq_mul,
    ← ENNReal.ofReal_inv_of_pos hp, ← ENNReal.ofReal_mul (inv_nonneg.2 hp.le),
    integral_indicator hs]

/-- Independent draws. -/
theorem pi_proportional {ι : Type} [Fintype ι] {g : ℝ → ℝ} (h0 : ∀ x, 0 ≤ g x)
    (hi : Integrable g volume) (hp : 0 < ∫ x, g x) :
    Measure.pi (fun _ : ι => proportional volume g) =
      proportional volume fun x : ι → ℝ => ∏ i, g (x i) := by
  have := isProbability_proportional h0 hi hp
  have hI : Integrable (fun x : ι → ℝ => ∏ i, g (x i)) volume :=
    Integrable.fintype_prod (fun _ => hi)
  have hP : ∫ x : ι → ℝ, ∏ i, g (x i) = ∏ _i : ι, ∫ x, g x :=
    integral_fintype_prod_volume_eq_prod (fun _ => g)
  refine Measure.pi_eq (μ := fun _ : ι => proportional volume g) fun s hs => ?_
  rw [proportional_apply (fun x => Finset.prod_nonneg fun i _ => h0 _) hI
    (hP ▸ Finset.prod_pos fun _ _ => hp) (MeasurableSet.univ_pi hs), hP]
  have e : ∀ x : ι → ℝ, (univ.pi s).indicator (fun x : ι → ℝ => ∏ i, g (x i)) x =
      ∏ i, (s i).indicator g (x i) := by
    intro x
    by_cases hx : x ∈ univ.pi s
    · rw [indicator_of_mem hx]
      exact Finset.prod_congr rfl fun i _ => (indicator_of_mem (hx i (mem_univ i)) g).symm
    · rw [indicator_of_notMem hx]
      obtain ⟨i, hi'⟩ : ∃ i, x i ∉ s i := by simpa [Set.mem_pi] using hx
      exact (Finset.prod_eq_zero (Finset.mem_univ i) (indicator_of_notMem hi' g)).symm
  simp only [e]
  rw [integral_fintype_prod_volume_eq_prod (fun i => (s i).indicator g), ← Finset.prod_inv_distrib,
    ← Finset.prod_mul_distrib, ENNReal.ofReal_prod_of_nonneg]
  · refine Finset.prod_congr rfl fun i _ => ?_
    rw [proportional_apply h0 hi hp (hs i)]
  · intro i _
    refine mul_nonneg (inv_nonneg.2 hp.le) (integral_nonneg fun x => ?_)
    exact indicator_nonneg (fun x _ => h0 x) x

/-- A positive quantity, scaled. -/
theorem proportional_map_scale {a : ℝ} (ha : 0 < a) (g : ℝ → ℝ) :
    (proportional (volume.restrict (Ioi 0)) g).map (fun x => x * a) =
      proportional (volume.restrict (Ioi 0)) fun x => g (x / a) := by
  let e : ℝ ≃ᵐ ℝ := (Homeomorph.mulRight₀ a ha.ne').toMeasurableEquiv
  have he : ∀ x, e x = x * a := fun x => rfl
  have hs : ∀ x, e.symm x = x / a := fun x => by
    rw [div_eq_mul_inv]
    rfl
  have hf : (fun x => x * a) = e := funext fun x => (he x).symm
  have hm : (volume.restrict (Ioi (0 : ℝ))).map e =
      ENNReal.ofReal |a⁻¹| • volume.restrict (Ioi (0 : ℝ)) := by
    have h1 : e ⁻¹' Ioi 0 = Ioi 0 := by
      ext x
      simp [he, ha]
    rw [← h1, ← e.restrict_map, h1]
    have : Measure.map e volume = ENNReal.ofReal |a⁻¹| • volume := by
      rw [← hf]
      exact Real.map_volume_mul_right ha.ne'
    rw [this, Measure.restrict_smul]
  rw [hf, proportional_map, hm, proportional_smul]
  · simp only [hs]
  · simp [ha.ne']
  · exact ENNReal.ofReal_ne_top

/-- A number, scaled and shifted. -/
theorem proportional_map_affine {a : ℝ} (ha : a ≠ 0) (b : ℝ) (g : ℝ → ℝ) :
    (proportional volume g).map (fun x => x * a + b) =
      proportional volume fun x => g ((x - b) / a) := by
  let e : ℝ ≃ᵐ ℝ := ((Homeomorph.mulRight₀ a ha).trans (Homeomorph.addRight b)).toMeasurableEquiv
  have he : ∀ x, e x = x * a + b := fun x => rfl
  have hs : ∀ x, e.symm x = (x - b) / a := fun x => by
    rw [div_eq_mul_inv, sub_eq_add_neg]
    rfl
  have hf : (fun x => x * a + b) = e := funext fun x => (he x).symm
  have hm : (volume : Measure ℝ).map e = ENNReal.ofReal |a⁻¹| • volume := by
    have h1 : ((fun x => x * a + b) : ℝ → ℝ) = (fun x => x + b) ∘ fun x => x * a := rfl
    rw [← hf, h1, ← Measure.map_map (measurable_add_const b) (measurable_mul_const a),
      Real.map_volume_mul_right ha, Measure.map_smul, map_add_right_eq_self]
  rw [hf, proportional_map, hm, proportional_smul]
  · simp only [hs]
  · simp [ha]
  · exact ENNReal.ofReal_ne_top

open Matrix in
/-- A vector, transformed by an invertible matrix and shifted. -/
theorem proportional_map_matrix {ι : Type} [Fintype ι] [DecidableEq ι] {L : Matrix ι ι ℝ}
    (hL : L.det ≠ 0) (b : ι → ℝ) (g : (ι → ℝ) → ℝ) :
    (proportional volume g).map (fun x => b + L *ᵥ x) =
      proportional volume fun x => g (L⁻¹ *ᵥ (x - b)) := by
  have hu : IsUnit L.det := isUnit_iff_ne_zero.2 hL
  let e : (ι → ℝ) ≃ᵐ (ι → ℝ) :=
    { toFun := fun x => b + L *ᵥ x
      invFun := fun x => L⁻¹ *ᵥ (x - b)
      left_inv := fun x => by
        simp [Matrix.mulVec_mulVec, Matrix.nonsing_inv_mul _ hu]
      right_inv := fun x => by
        simp [Matrix.mulVec_mulVec, Matrix.mul_nonsing_inv _ hu]
      measurable_toFun := by
        refine Continuous.measurable ?_
        exact continuous_const.add (Continuous.matrix_mulVec continuous_const continuous_id)
      measurable_invFun := by
        refine Continuous.measurable ?_
        exact Continuous.matrix_mulVec continuous_const (continuous_id.sub continuous_const) }
  have he : ∀ x, e x = b + L *ᵥ x := fun x => rfl
  have hf : (fun x => b + L *ᵥ x) = e := funext fun x => (he x).symm
  have hm : (volume : Measure (ι → ℝ)).map e = ENNReal.ofReal |L.det⁻¹| • volume := by
    have h1 : (fun x => b + L *ᵥ x) = (fun x => b + x) ∘ (Matrix.toLin' L) := rfl
    rw [← hf, h1, ← Measure.map_map (measurable_const_add b),
      Real.map_matrix_volume_pi_eq_smul_volume_pi hL, Measure.map_smul, map_add_left_eq_self]
    exact (LinearMap.continuous_of_finiteDimensional _).measurable
  rw [hf, proportional_map, hm, proportional_smul]
  · rfl
  · simp [hL]
  · exact ENNReal.ofReal_ne_top

/-! ### Normal draws -/

theorem randomNormals_eq (ι : Type) [Fintype ι] :
    randomNormals ι = proportional volume fun z : ι → ℝ => Real.exp (-(∑ i, z i ^ 2) / 2) := by
  have hi : Integrable (fun x : ℝ => Real.exp (-x ^ 2 / 2)) volume := by
    have := integrable_exp_neg_mul_sq (b := 1 / 2) (by norm_num)
    refine this.congr (ae_of_all _ fun x => ?_)
    show Real.exp _ = Real.exp _
    congr 1
    ring
  have hp : 0 < ∫ x : ℝ, Real.exp (-x ^ 2 / 2) := by
    have := integral_gaussian (1 / 2)
    rw [show (fun x : ℝ => Real.exp (-x ^ 2 / 2)) = fun x => Real.exp (-(1 / 2) * x ^ 2) by
      funext x
      congr 1
      ring, this]
    positivity
  rw [randomNormals, randomNormal, pi_proportional (fun x => (Real.exp_pos _).le) hi hp]
  congr 1
  funext z
  rw [← Real.exp_sum]
  congr 1
  rw [← Finset.sum_div, Finset.sum_neg_distrib]

open Matrix in
/-- The law of `jax.random.multivariate_normal` has the normal density. -/
theorem randomMultivariateNormal_eq {ι : Type} [Fintype ι] [DecidableEq ι]
    {factor : Matrix ι ι ℝ → Matrix ι ι ℝ} {V : Matrix ι ι ℝ} (hV : V.det ≠ 0)
    (hf : factor V * (factor V)ᵀ = V) (m : ι → ℝ) :
    randomMultivariateNormal factor m V =
      proportional volume fun x => Real.exp (-((x - m) ⬝ᵥ V⁻¹ *ᵥ (x - m)) / 2) := by
  have hL : (factor V).det ≠ 0 := by
    intro h
    rw [← hf, Matrix.det_mul, h, zero_mul] at hV
    exact hV rfl
  rw [randomMultivariateNormal, randomNormals_eq, proportional_map_matrix hL]
  congr 1
  funext x
  congr 3
  generalize x - m = y
  have h1 : V⁻¹ = ((factor V)⁻¹)ᵀ * (factor V)⁻¹ := by
    rw [Matrix.transpose_nonsing_inv, ← Matrix.mul_inv_rev, hf]
  rw [h1, ← Matrix.mulVec_mulVec, Matrix.dotProduct_mulVec, Matrix.vecMul_transpose]
  simp only [dotProduct, sq]

end Efax
