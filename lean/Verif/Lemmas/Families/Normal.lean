import Verif.Model.Families.Normal
import Verif.Lemmas.Families.Positive
import Mathlib.Probability.Distributions.Gaussian.Real

/-!
# Univariate normal families are regular
-/

namespace Efax

open MeasureTheory Spec Set ProbabilityTheory

theorem normal_pdf {q : ℝ × ℝ} (h : q.2 < 0) (x : ℝ) :
    normal.pdf q x = gaussianPDFReal (-q.1 / (2 * q.2)) (Real.toNNReal (-1 / (2 * q.2))) x := by
  have hv : 0 < -1 / (2 * q.2) := div_pos_of_neg_of_neg (by norm_num) (by linarith)
  have hp : 0 < -Real.pi / q.2 := div_pos_of_neg_of_neg (by linarith [Real.pi_pos]) h
  have hs : 0 < √(-Real.pi / q.2) := Real.sqrt_pos.2 hp
  have hq : q.2 ≠ 0 := h.ne
  rw [gaussianPDFReal, Real.coe_toNNReal _ hv.le, ExpFam.pdf, ExpFam.logPdf]
  have e : 2 * Real.pi * (-1 / (2 * q.2)) = -Real.pi / q.2 := by field_simp
  rw [e]
  conv_rhs => rw [← Real.exp_log (inv_pos.2 hs), ← Real.exp_add]
  congr 1
  rw [Real.log_inv, Real.log_sqrt hp.le]
  simp only [normal]
  field_simp
  ring

theorem normal_density {q : ℝ × ℝ} (h : q.2 < 0) : IsDensity volume (normal.pdf q) := by
  have hv : 0 < -1 / (2 * q.2) := div_pos_of_neg_of_neg (by norm_num) (by linarith)
  refine ⟨fun x => (normal.pdf_pos q x).le, ?_⟩
  rw [funext (normal_pdf h)]
  exact integral_gaussianPDFReal_eq_one _ (by simpa using hv)

theorem normal_gradient {q : ℝ × ℝ} (h : q.2 < 0) :
    HasFDerivAt normal.logNormalizer ((normal.toExp q).1 • ContinuousLinearMap.fst ℝ ℝ ℝ +
        (normal.toExp q).2 • ContinuousLinearMap.snd ℝ ℝ ℝ) q := by
  have hq : q.2 ≠ 0 := h.ne
  have hp : 0 < -Real.pi / q.2 := div_pos_of_neg_of_neg (by linarith [Real.pi_pos]) h
  have h1 : HasFDerivAt (fun q : ℝ × ℝ => q.1) (ContinuousLinearMap.fst ℝ ℝ ℝ) q := hasFDerivAt_fst
  have h2 : HasFDerivAt (fun q : ℝ × ℝ => q.2) (ContinuousLinearMap.snd ℝ ℝ ℝ) q := hasFDerivAt_snd
  have h3 := (h1.pow 2).neg.mul ((hasDerivAt_inv hq).comp_hasFDerivAt q h2 |>.const_mul (1 / 4))
  have h4 : HasFDerivAt (fun q : ℝ × ℝ => -Real.pi / q.2)
      ((-Real.pi) • (-(q.2 ^ 2)⁻¹ • ContinuousLinearMap.snd ℝ ℝ ℝ)) q :=
    ((hasDerivAt_inv hq).comp_hasFDerivAt q h2).const_mul (-Real.pi)
  have h5 := (h4.log hp.ne').const_mul 0.5
  have h6 := h3.add h5
  have e : normal.logNormalizer = ((-fun q : ℝ × ℝ => q.1 ^ 2) * fun q =>
      1 / 4 * ((fun x => x⁻¹) ∘ fun q : ℝ × ℝ => q.2) q) +
      fun q => 0.5 * Real.log (-Real.pi / q.2) := by
    funext q
    simp only [normal, Pi.add_apply, Pi.mul_apply, Pi.neg_apply, Function.comp]
    rw [div_eq_mul_inv, mul_inv]
    ring
  rw [e]
  refine h6.congr_fderiv ?_
  have := Real.pi_pos.ne'
  ext
  · simp [normal]
    field_simp
    ring
  · simp [normal]
    field_simp
    ring

theorem normal_regular : Regular normal volume normalDom ⊤ := by
  refine .pair (fun _ _ => rfl) ?_ ?_ (fun η h => normal_density h) fun η h => normal_gradient h
  · exact isOpen_Iio.preimage continuous_snd
  · exact (convex_Iio (0 : ℝ)).linear_preimage (LinearMap.snd ℝ ℝ ℝ)

theorem normal_minimal : Minimal normal volume ⊤ := by
  intro v _ c h
  have hc : ContinuousOn (fun x => v.1 * x + v.2 * x ^ 2) univ := by fun_prop
  rw [← Measure.restrict_univ (μ := (volume : Measure ℝ))] at h
  have hall := ae_open (μ := volume) isOpen_univ hc h
  have h1 := hall 0 trivial
  have h2 := hall 1 trivial
  have h3 := hall (-1) trivial
  norm_num at h1 h2 h3
  exact Prod.ext (by simp; linarith) (by simp; linarith)

/-! ### Unit variance -/

theorem unitNormal_pdf (q x : ℝ) : unitNormal.pdf q x = normal.pdf (q, -0.5) x := by
  rw [ExpFam.pdf, ExpFam.pdf, ExpFam.logPdf, ExpFam.logPdf]
  congr 1
  simp only [unitNormal, normal]
  have e : -Real.pi / (-0.5) = Real.pi * 2 := by norm_num; ring
  rw [e]
  norm_num
  ring

theorem unitNormal_regular : Regular unitNormal volume univ ⊤ := by
  refine .scalar (fun _ _ => rfl) isOpen_univ convex_univ (fun η _ => ?_) fun η _ => ?_
  · have := normal_density (q := (η, -0.5)) (by norm_num)
    rwa [← funext (unitNormal_pdf η)] at this
  · have h := (((hasDerivAt_id η).pow 2).add_const (Real.log (Real.pi * 2))).const_mul 0.5
    refine h.congr_deriv ?_
    simp [unitNormal]
    ring

theorem unitNormal_minimal : Minimal unitNormal volume ⊤ := by
  have := minimal_of_two (F := unitNormal) (fun _ _ => rfl) isOpen_univ continuousOn_id
    (a := 1) (b := 2) trivial trivial (by norm_num [unitNormal])
  rwa [Measure.restrict_univ] at this

end Efax
