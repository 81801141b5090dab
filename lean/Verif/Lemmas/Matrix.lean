import Mathlib.Analysis.Matrix.Order
import Mathlib.Analysis.Calculus.Deriv.Slope
import Mathlib.Analysis.Calculus.Deriv.Add
import Mathlib.Analysis.Calculus.Deriv.Mul
import Mathlib.Analysis.Calculus.Deriv.Polynomial
import Mathlib.Topology.Instances.Matrix
import Mathlib.LinearAlgebra.Matrix.Charpoly.Coeff

/-!
# Matrices depending on a number
-/

namespace Efax

open Matrix Filter Topology

open scoped ComplexOrder

open scoped MatrixOrder in
/-- A positive definite matrix is a square. -/
theorem posDef_square {𝕜 : Type} [RCLike 𝕜] {d : ℕ} {A : Matrix (Fin d) (Fin d) 𝕜}
    (h : A.PosDef) : ∃ B : Matrix (Fin d) (Fin d) 𝕜, A = Bᴴ * B ∧ B.det ≠ 0 := by
  obtain ⟨B, hB⟩ := CStarAlgebra.nonneg_iff_eq_star_mul_self.mp h.posSemidef.nonneg
  refine ⟨B, hB, fun h0 => ?_⟩
  have h1 := h.isUnit
  rw [Matrix.isUnit_iff_isUnit_det, hB, det_mul, h0, mul_zero] at h1
  exact not_isUnit_zero h1

theorem posDef_iff_re {𝕜 : Type} [RCLike 𝕜] {d : ℕ} {A : Matrix (Fin d) (Fin d) 𝕜}
    (hA : A.IsHermitian) : A.PosDef ↔ ∀ x ≠ 0, 0 < RCLike.re (star x ⬝ᵥ A *ᵥ x) := by
  rw [posDef_iff_dotProduct_mulVec]
  refine ⟨fun h x hx => ?_, fun h => ⟨hA, fun {x} hx => ?_⟩⟩
  · have := h.2 hx
    rw [RCLike.pos_iff] at this
    exact this.1
  · rw [RCLike.pos_iff]
    exact ⟨h x hx, hA.im_star_dotProduct_mulVec_self x⟩

/-- Positive definiteness is preserved by small Hermitian changes. -/
theorem posDef_perturb {𝕜 : Type} [RCLike 𝕜] {d : ℕ} {A V : Matrix (Fin d) (Fin d) 𝕜}
    (h : A.PosDef) (hV : V.IsHermitian) : ∀ᶠ t : ℝ in 𝓝 0, (A + t • V).PosDef := by
  have hH : ∀ t : ℝ, (A + t • V).IsHermitian := fun t => by
    refine h.isHermitian.add ?_
    rw [IsHermitian, conjTranspose_smul, hV.eq, star_trivial]
  have hK : IsCompact (Metric.sphere (0 : Fin d → 𝕜) 1) := isCompact_sphere _ _
  have hc : Continuous fun y : ℝ × (Fin d → 𝕜) =>
      RCLike.re (star y.2 ⬝ᵥ (A + y.1 • V) *ᵥ y.2) := by
    refine RCLike.continuous_re.comp ?_
    refine Continuous.dotProduct (by fun_prop) ?_
    exact Continuous.matrix_mulVec (by fun_prop) continuous_snd
  have key : ∀ᶠ t : ℝ in 𝓝 0, ∀ x ∈ Metric.sphere (0 : Fin d → 𝕜) 1,
      0 < RCLike.re (star x ⬝ᵥ (A + t • V) *ᵥ x) := by
    refine hK.eventually_forall_of_forall_eventually fun x hx => ?_
    refine hc.continuousAt.eventually_const_lt ?_
    have hx0 : x ≠ 0 := by
      rintro rfl
      simp at hx
    simpa using (posDef_iff_re h.isHermitian).1 h x hx0
  filter_upwards [key] with t ht
  rw [posDef_iff_re (hH t)]
  intro x hx
  have hn : 0 < ‖x‖ := norm_pos_iff.2 hx
  have h1 := ht (‖x‖⁻¹ • x) (by simp [norm_smul, hn.ne'])
  rw [star_smul, star_trivial, mulVec_smul, smul_dotProduct, dotProduct_smul, smul_smul,
    RCLike.smul_re] at h1
  exact pos_of_mul_pos_right h1 (by positivity)

theorem hasDerivAt_of_factor_smul {E : Type} [NormedAddCommGroup E] [NormedSpace ℝ E] {f g : ℝ → E}
    (h : ∀ᶠ t in 𝓝 0, f t = f 0 + t • g t)
    (hg : ContinuousAt g 0) : HasDerivAt f (g 0) 0 := by
  rw [hasDerivAt_iff_tendsto_slope_zero]
  refine (hg.tendsto.mono_left nhdsWithin_le_nhds).congr' ?_
  filter_upwards [h.filter_mono nhdsWithin_le_nhds, self_mem_nhdsWithin] with t ht h0
  have h0 : t ≠ 0 := h0
  rw [zero_add, ht, add_sub_cancel_left, smul_smul, inv_mul_cancel₀ h0, one_smul]

theorem hasDerivAt_of_factor {f g : ℝ → ℝ} (h : ∀ᶠ t in 𝓝 0, f t = f 0 + t * g t)
    (hg : ContinuousAt g 0) : HasDerivAt f (g 0) 0 :=
  hasDerivAt_of_factor_smul h hg

theorem det_perturb {𝕜 : Type} [RCLike 𝕜] {d : ℕ} {H V : Matrix (Fin d) (Fin d) 𝕜}
    (hH : IsUnit H.det) :
    HasDerivAt (fun t : ℝ => (H + t • V).det) (H.det * (H⁻¹ * V).trace) 0 := by
  have e : ∀ t : ℝ, (H + t • V).det = H.det * (1 + (t : 𝕜) • (H⁻¹ * V)).det := by
    intro t
    rw [← det_mul, mul_add, mul_one, Matrix.mul_smul, ← mul_assoc, mul_nonsing_inv _ hH, one_mul]
    congr 2
    ext i j
    simp [RCLike.real_smul_eq_coe_mul]
  simp only [e]
  refine HasDerivAt.const_mul _ ?_
  have h1 := hasDerivAt_of_factor_smul (f := fun t : ℝ => (1 + (t : 𝕜) • (H⁻¹ * V)).det)
    (g := fun t : ℝ => (H⁻¹ * V).trace + (det (1 + (Polynomial.X : Polynomial 𝕜) •
      (H⁻¹ * V).map Polynomial.C)).divX.divX.eval (t : 𝕜) * t)
    (Eventually.of_forall fun t => by
      simp only [det_one_add_smul (t : 𝕜), RCLike.ofReal_zero, zero_smul, add_zero, det_one,
        RCLike.real_smul_eq_coe_mul]
      ring) (by
        refine Continuous.continuousAt (continuous_const.add (Continuous.mul ?_ RCLike.continuous_ofReal))
        exact (Polynomial.continuous _).comp RCLike.continuous_ofReal)
  simpa using h1

section

theorem ContinuousAt.matrix_mulVec' {d : ℕ} {M : ℝ → Matrix (Fin d) (Fin d) ℝ}
    {x : ℝ → Fin d → ℝ} (hM : ContinuousAt M 0) (hx : ContinuousAt x 0) :
    ContinuousAt (fun t => M t *ᵥ x t) 0 :=
  continuousAt_pi.2 fun i => by
    have : ContinuousAt (fun t => ∑ j, M t i j * x t j) 0 :=
      tendsto_finsetSum _ fun j _ =>
        Tendsto.mul (continuousAt_pi.1 (continuousAt_pi.1 hM i) j) (continuousAt_pi.1 hx j)
    exact this

variable {d : ℕ} {H V : Matrix (Fin d) (Fin d) ℝ}

theorem det_perturb_ne (hH : IsUnit H.det) : ∀ᶠ t : ℝ in 𝓝 0, IsUnit (H + t • V).det := by
  have hc : ContinuousAt (fun t : ℝ => (H + t • V).det) 0 :=
    (det_perturb hH).continuousAt
  have := hc.eventually_ne (y := 0) (by simpa using hH.ne_zero)
  filter_upwards [this] with t ht
  exact isUnit_iff_ne_zero.2 ht

theorem inv_perturb_continuous (hH : IsUnit H.det) :
    ContinuousAt (fun t : ℝ => (H + t • V)⁻¹) 0 := by
  have e : (fun t : ℝ => (H + t • V)⁻¹) = fun t => ((H + t • V).det)⁻¹ • (H + t • V).adjugate := by
    funext t
    rw [inv_def, Ring.inverse_eq_inv']
  rw [e]
  refine ContinuousAt.smul (f := fun t : ℝ => ((H + t • V).det)⁻¹)
    (g := fun t : ℝ => (H + t • V).adjugate) ?_ ?_
  · refine (det_perturb hH).continuousAt.inv₀ ?_
    simpa using hH.ne_zero
  · exact Continuous.continuousAt (Continuous.matrix_adjugate (by fun_prop))

theorem inv_perturb (hH : IsUnit H.det) : ∀ᶠ t : ℝ in 𝓝 0,
    (H + t • V)⁻¹ = H⁻¹ - t • ((H + t • V)⁻¹ * V * H⁻¹) := by
  filter_upwards [det_perturb_ne hH] with t ht
  have h1 : (H + t • V)⁻¹ * (H + t • V) = 1 := nonsing_inv_mul _ ht
  have h2 : (H + t • V)⁻¹ * H = 1 - t • ((H + t • V)⁻¹ * V) := by
    rw [mul_add, Matrix.mul_smul] at h1
    exact eq_sub_of_add_eq h1
  have h3 := congrArg (· * H⁻¹) h2
  simp only [mul_assoc, mul_nonsing_inv _ hH, mul_one, sub_mul, one_mul, smul_mul] at h3
  rw [mul_assoc]
  exact h3

/-- The derivative of `uᵀ H⁻¹ u`. -/
theorem quad_perturb (hH : IsUnit H.det) (hs : H.IsSymm) (η v : Fin d → ℝ) :
    HasDerivAt (fun t : ℝ => (η + t • v) ⬝ᵥ (H + t • V)⁻¹ *ᵥ (η + t • v))
      (2 * (v ⬝ᵥ H⁻¹ *ᵥ η) - (H⁻¹ *ᵥ η) ⬝ᵥ V *ᵥ (H⁻¹ *ᵥ η)) 0 := by
  have hi : (H⁻¹)ᵀ = H⁻¹ := by rw [transpose_nonsing_inv, hs.eq]
  have hsym : ∀ x y : Fin d → ℝ, x ⬝ᵥ H⁻¹ *ᵥ y = y ⬝ᵥ H⁻¹ *ᵥ x := by
    intro x y
    rw [dotProduct_mulVec, ← mulVec_transpose, hi, dotProduct_comm]
  have hM := inv_perturb_continuous (V := V) hH
  have h := hasDerivAt_of_factor
    (f := fun t : ℝ => (η + t • v) ⬝ᵥ (H + t • V)⁻¹ *ᵥ (η + t • v))
    (g := fun t : ℝ => 2 * (v ⬝ᵥ H⁻¹ *ᵥ η) + t * (v ⬝ᵥ H⁻¹ *ᵥ v) -
      (η + t • v) ⬝ᵥ (H + t • V)⁻¹ *ᵥ (V *ᵥ (H⁻¹ *ᵥ (η + t • v)))) ?_ ?_
  · convert h using 1
    simp only [zero_smul, add_zero, zero_mul]
    rw [hsym η, dotProduct_comm (V *ᵥ _)]
  · filter_upwards [inv_perturb (V := V) hH] with t ht
    have e : (H + t • V)⁻¹ *ᵥ (η + t • v) = H⁻¹ *ᵥ (η + t • v) -
        t • (H + t • V)⁻¹ *ᵥ (V *ᵥ (H⁻¹ *ᵥ (η + t • v))) := by
      conv_lhs => rw [ht]
      rw [sub_mulVec, smul_mulVec, ← mulVec_mulVec, ← mulVec_mulVec]
    rw [e, dotProduct_sub, dotProduct_smul]
    simp only [zero_smul, add_zero, mulVec_add, mulVec_smul, add_dotProduct, dotProduct_add,
      smul_dotProduct, dotProduct_smul, smul_eq_mul]
    rw [hsym η v]
    ring
  · have h1 : ContinuousAt (fun t : ℝ => η + t • v) 0 := by fun_prop
    have h2 : ContinuousAt (fun t : ℝ => (H + t • V)⁻¹ *ᵥ (V *ᵥ (H⁻¹ *ᵥ (η + t • v)))) 0 := by
      exact ContinuousAt.matrix_mulVec' hM (Continuous.continuousAt (by fun_prop))
    have h3 : ContinuousAt (fun t : ℝ => (η + t • v) ⬝ᵥ
        (H + t • V)⁻¹ *ᵥ (V *ᵥ (H⁻¹ *ᵥ (η + t • v)))) 0 := by
      exact tendsto_finsetSum _ fun i _ =>
        Tendsto.mul (continuousAt_pi.1 h1 i) (continuousAt_pi.1 h2 i)
    exact ContinuousAt.sub (by fun_prop) h3

end

end Efax
