import Verif.Model.Scipy.Normal
import Verif.Lemmas.ComplexMoments
import Verif.Props.TextbookNormal
import Verif.Props.Families.ComplexNormal
import Verif.Props.Families.ComplexSamplers

/-!
# The replacements of SciPy's normal distributions (C58)
-/

namespace Efax

open MeasureTheory Spec Matrix

/-! ### Real variables -/

section Real

variable {ι : Type} [Fintype ι] [DecidableEq ι] {S : Matrix ι ι ℝ}

/-- The formula that SciPy evaluates is the normal density. -/
theorem C58_mvn_pdf (hS : S.PosDef) (m x : ι → ℝ) :
    Scipy.mvnPdf m S x = .ok (Textbook.mvNormal m S x) := by
  have hd := hS.det_pos
  rw [Scipy.mvnPdf, if_pos hS, Textbook.mvNormal, Real.sqrt_eq_rpow, Real.rpow_def_of_pos (by positivity),
    ← Real.exp_sub, Real.log_mul (by positivity) hd.ne', Real.log_pow]
  refine congrArg _ (congrArg _ ?_)
  ring

/-- The formula that SciPy evaluates is the differential entropy of the normal density. -/
theorem C58_mvn_entropy (hS : S.PosDef) (m : ι → ℝ) : ∃ h, Scipy.mvnEntropy S = .ok h ∧
    IsCrossEntropy volume (Textbook.mvNormal m S) (Textbook.mvNormal m S) h := by
  refine ⟨_, if_pos hS, ?_⟩
  have := textbook_entropy hS m
  rwa [div_eq_inv_mul, show (2 : ℝ)⁻¹ = 0.5 by norm_num] at this

example : ∃ h, Scipy.mvnEntropy (1 : Matrix (Fin 3) (Fin 3) ℝ) = .ok h ∧
    IsCrossEntropy volume (Textbook.mvNormal (0 : Fin 3 → ℝ) 1) (Textbook.mvNormal 0 1) h :=
  C58_mvn_entropy PosDef.one 0

theorem isCrossEntropy_unique {X : Type} [MeasurableSpace X] {μ : Measure X} {f g : X → ℝ} {a b : ℝ}
    (ha : IsCrossEntropy μ f g a) (hb : IsCrossEntropy μ f g b) : a = b := ha.2.symm.trans hb.2

theorem mvNormalVariance_posDef {d : ℕ} {q : (Fin d → ℝ) × Matrix (Fin d) (Fin d) ℝ}
    (hq : q ∈ mvNormalDom d) : (mvNormalVariance ((mvNormal d).toExp q)).PosDef := by
  have hq : (-q.2).PosDef := hq
  have hu : IsUnit q.2.det := by
    have := hq.det_pos.ne'
    rw [det_neg] at this
    exact isUnit_iff_ne_zero.2 (right_ne_zero_of_mul this)
  have := hq.inv.smul (show (0 : ℝ) < 0.5 by norm_num)
  rw [matrix_inv_neg hu, smul_neg, ← neg_smul] at this
  rwa [mvNormal_variance]

/-- The multivariate normal family has the density of its replacement. -/
theorem C58_mv_normal_family {d : ℕ} {q : (Fin d → ℝ) × Matrix (Fin d) (Fin d) ℝ} (hq : q ∈ mvNormalDom d)
    (x : Fin d → ℝ) : Scipy.mvnPdf ((mvNormal d).toExp q).1 (mvNormalVariance ((mvNormal d).toExp q)) x =
      .ok ((mvNormal d).pdf q x) := by
  rw [C58_mvn_pdf (mvNormalVariance_posDef hq), C57_mv_normal d hq]

end Real

/-! ### One complex variable -/

theorem scipy_complexNormalCov (v : ℝ) (p : ℂ) : Scipy.complexNormalCov v p = Textbook.complexCov v p := by
  ext i j
  fin_cases i <;> fin_cases j <;> simp [Scipy.complexNormalCov, Textbook.complexCov] <;> ring

theorem complexCov_dot (v : ℝ) (p : ℂ) (x : Fin 2 → ℝ) : x ⬝ᵥ Textbook.complexCov v p *ᵥ x =
    (v * (x 0 ^ 2 + x 1 ^ 2) + (p.re * (x 0 ^ 2 - x 1 ^ 2) + 2 * p.im * (x 0 * x 1))) / 2 := by
  simp [Textbook.complexCov, dotProduct, mulVec, Fin.sum_univ_two]
  ring

theorem complexCov_herm (v : ℝ) (p : ℂ) : (Textbook.complexCov v p).IsHermitian := by
  rw [IsHermitian, conjTranspose_eq_transpose_of_trivial]
  ext i j
  fin_cases i <;> fin_cases j <;> simp [Textbook.complexCov]

theorem complexCov_bound (p : ℂ) (x : Fin 2 → ℝ) :
    |p.re * (x 0 ^ 2 - x 1 ^ 2) + 2 * p.im * (x 0 * x 1)| ≤ ‖p‖ * (x 0 ^ 2 + x 1 ^ 2) := by
  refine abs_le_of_sq_le_sq ?_ (by positivity)
  rw [mul_pow, ← Complex.normSq_eq_norm_sq, Complex.normSq_apply]
  nlinarith [sq_nonneg (p.im * (x 0 ^ 2 - x 1 ^ 2) - 2 * p.re * (x 0 * x 1))]

/-- A direction in which the bound is attained. -/
theorem complexCov_attained (p : ℂ) : ∃ x : Fin 2 → ℝ, x 0 ^ 2 + x 1 ^ 2 = 1 ∧
    p.re * (x 0 ^ 2 - x 1 ^ 2) + 2 * p.im * (x 0 * x 1) = -‖p‖ := by
  refine ⟨![-Real.sin (p.arg / 2), Real.cos (p.arg / 2)], ?_, ?_⟩
  · simp
  · have h1 := Complex.norm_mul_cos_arg p
    have h2 := Complex.norm_mul_sin_arg p
    rw [← h1, ← h2]
    have e1 := Real.cos_two_mul (p.arg / 2)
    have e2 := Real.sin_two_mul (p.arg / 2)
    have e3 := Real.sin_sq_add_cos_sq (p.arg / 2)
    rw [mul_div_cancel₀ _ (two_ne_zero)] at e1 e2
    rw [e1, e2]
    simp
    generalize Real.sin (p.arg / 2) = s at *
    generalize Real.cos (p.arg / 2) = c at *
    have : s ^ 2 = 1 - c ^ 2 := by linarith
    linear_combination (-‖p‖ * (2 * c ^ 2 + 1)) * e3

theorem complexCov_posSemidef {v : ℝ} {p : ℂ} : (Textbook.complexCov v p).PosSemidef ↔ ‖p‖ ≤ v := by
  rw [posSemidef_iff_dotProduct_mulVec]
  constructor
  · rintro ⟨-, h⟩
    obtain ⟨x, h1, h2⟩ := complexCov_attained p
    have := h x
    rw [star_trivial, complexCov_dot, h1, h2] at this
    linarith
  · refine fun h => ⟨complexCov_herm v p, fun x => ?_⟩
    rw [star_trivial, complexCov_dot]
    have h2 := neg_le_of_abs_le (complexCov_bound p x)
    nlinarith [sq_nonneg (x 0), sq_nonneg (x 1), mul_nonneg (sub_nonneg.2 h) (add_nonneg (sq_nonneg (x 0)) (sq_nonneg (x 1)))]

theorem complexCov_posDef {v : ℝ} {p : ℂ} : (Textbook.complexCov v p).PosDef ↔ ‖p‖ < v := by
  rw [posDef_iff_dotProduct_mulVec]
  constructor
  · rintro ⟨-, h⟩
    obtain ⟨x, h1, h2⟩ := complexCov_attained p
    have hx : x ≠ 0 := by
      rintro rfl
      norm_num at h1
    have := h hx
    rw [star_trivial, complexCov_dot, h1, h2] at this
    linarith
  · refine fun h => ⟨complexCov_herm v p, fun {x} hx => ?_⟩
    rw [star_trivial, complexCov_dot]
    have h2 := neg_le_of_abs_le (complexCov_bound p x)
    have hx' : 0 < x 0 ^ 2 + x 1 ^ 2 := by
      by_contra hc
      have h0 : x 0 ^ 2 = 0 := by nlinarith [sq_nonneg (x 0), sq_nonneg (x 1)]
      have h1 : x 1 ^ 2 = 0 := by nlinarith [sq_nonneg (x 0), sq_nonneg (x 1)]
      refine hx (funext fun i => ?_)
      fin_cases i
      · simpa using h0
      · simpa using h1
    nlinarith [mul_pos (sub_pos.2 h) hx']

theorem scipy_complexNormalInit {v : ℝ} {p : ℂ} : Scipy.complexNormalInit v p = .ok () ↔ ‖p‖ ≤ v := by
  rw [Scipy.complexNormalInit]
  split_ifs with h
  · exact ⟨fun h' => by simp at h', fun h' => absurd h (not_lt.2 h')⟩
  · exact ⟨fun _ => not_lt.1 h, fun _ => rfl⟩

/-- The constructor accepts exactly the variances and pseudo-variances that belong to a covariance of the
real and the imaginary part. -/
theorem C58_complex_normal_accepts (v : ℝ) (p : ℂ) :
    Scipy.complexNormalInit v p = .ok () ↔ (Textbook.complexCov v p).PosSemidef := by
  rw [scipy_complexNormalInit, complexCov_posSemidef]

/-- `pdf` is the density of the complex normal distribution with the given mean, variance and
pseudo-variance. -/
theorem C58_complex_normal_pdf {v : ℝ} {p : ℂ} (h : ‖p‖ < v) (m z : ℂ) :
    Scipy.complexNormalPdf m v p z = .ok (Textbook.complexNormal m v p z) := by
  have hi := scipy_complexNormalInit.2 h.le
  simp only [Scipy.complexNormalPdf, hi, Bind.bind, Except.bind]
  rw [scipy_complexNormalCov, C58_mvn_pdf (complexCov_posDef.2 h)]
  rfl

/-- In the boundary case, which the constructor accepts, there is no density and `pdf` raises. -/
theorem C58_complex_normal_degenerate {v : ℝ} {p : ℂ} (h : ‖p‖ = v) (m z : ℂ) :
    Scipy.complexNormalInit v p = .ok () ∧ Scipy.complexNormalPdf m v p z = .error .valueError := by
  have hi := scipy_complexNormalInit.2 h.le
  refine ⟨hi, ?_⟩
  simp only [Scipy.complexNormalPdf, hi, Bind.bind, Except.bind]
  rw [scipy_complexNormalCov, Scipy.mvnPdf, if_neg]
  rw [complexCov_posDef, h]
  exact lt_irrefl v

example (z : ℂ) : Scipy.complexNormalPdf 1 3 Complex.I z = .ok (Textbook.complexNormal 1 3 Complex.I z) :=
  C58_complex_normal_pdf (by norm_num) 1 z

example (z : ℂ) : Scipy.complexNormalInit 1 Complex.I = .ok () ∧
    Scipy.complexNormalPdf 0 1 Complex.I z = .error .valueError :=
  C58_complex_normal_degenerate (by norm_num) 0 z

theorem crossEntropy_parts {f : (Fin 2 → ℝ) → ℝ} {h : ℝ} (hf : IsCrossEntropy volume f f h) :
    IsCrossEntropy volume (fun z => f (Textbook.parts z)) (fun z => f (Textbook.parts z)) h := by
  have hm := Complex.volume_preserving_equiv_pi
  have e : ∀ z, Complex.measurableEquivPi z = Textbook.parts z := fun z => rfl
  refine ⟨?_, ?_⟩
  · have := (hm.integrable_comp_emb Complex.measurableEquivPi.measurableEmbedding).2 hf.1
    exact this
  · have := hm.integral_comp Complex.measurableEquivPi.measurableEmbedding
      fun x => -Real.log (f x) * f x
    exact this.trans hf.2

/-- `entropy` is the differential entropy. -/
theorem C58_complex_normal_entropy {v : ℝ} {p : ℂ} (h : ‖p‖ < v) (m : ℂ) :
    ∃ e, Scipy.complexNormalEntropy v p = .ok e ∧
      IsCrossEntropy volume (Textbook.complexNormal m v p) (Textbook.complexNormal m v p) e := by
  have hi := scipy_complexNormalInit.2 h.le
  obtain ⟨e, h1, h2⟩ := C58_mvn_entropy (complexCov_posDef.2 h) (Textbook.parts m)
  refine ⟨e, ?_, crossEntropy_parts h2⟩
  simp only [Scipy.complexNormalEntropy, hi, Bind.bind, Except.bind]
  rw [scipy_complexNormalCov, h1]

theorem complexNormal_expectation_dom {q : ComplexNormalParams} (hq : q ∈ complexNormalDom) :
    ‖(complexNormal.toExp q).2.2 - (complexNormal.toExp q).1 ^ 2‖ <
      (complexNormal.toExp q).2.1 - Complex.normSq (complexNormal.toExp q).1 := by
  have := (C31_complex_normal.1 q hq).1
  rw [Complex.normSq_eq_norm_sq]
  exact this

/-- The complex normal family has the density of its replacement, and its entropy. -/
theorem C58_complex_normal_family {q : ComplexNormalParams} (hq : q ∈ complexNormalDom) :
    let m := (complexNormal.toExp q).1
    let v := (complexNormal.toExp q).2.1 - Complex.normSq m
    let p := (complexNormal.toExp q).2.2 - m ^ 2
    (∀ z, Scipy.complexNormalPdf m v p z = .ok (complexNormal.pdf q z)) ∧
      Scipy.complexNormalEntropy v p = .ok (complexNormal.entropyN complexNormalEcm q) := by
  have h := complexNormal_expectation_dom hq
  refine ⟨fun z => ?_, ?_⟩
  · rw [C58_complex_normal_pdf h, C57_complex_normal hq]
  · obtain ⟨e, h1, h2⟩ := C58_complex_normal_entropy h (complexNormal.toExp q).1
    have h3 := (C35_complex_normal q hq).1
    rw [funext (C57_complex_normal hq)] at h3
    rw [h1, isCrossEntropy_unique h2 h3]

/-- Unit variance. -/
theorem C58_complex_unit_family (q z : ℂ) :
    Scipy.complexNormalPdf (complexUnit.toExp q) 1 0 z = .ok (complexUnit.pdf q z) ∧
      Scipy.complexNormalEntropy 1 0 = .ok (complexUnit.entropyN complexUnitEcm q) := by
  have h : ‖(0 : ℂ)‖ < 1 := by norm_num
  refine ⟨by rw [C58_complex_normal_pdf h, C57_complex_unit], ?_⟩
  obtain ⟨e, h1, h2⟩ := C58_complex_normal_entropy h (complexUnit.toExp q)
  have h3 := (C35_complex_unit q trivial).1
  rw [funext (C57_complex_unit q)] at h3
  rw [h1, isCrossEntropy_unique h2 h3]

/-- `rvs` has the given mean, variance and pseudo-variance, in all the cases that are accepted. -/
theorem C58_complex_normal_rvs {factor : Matrix (Fin 2) (Fin 2) ℝ → Matrix (Fin 2) (Fin 2) ℝ} {v : ℝ} {p : ℂ}
    (hf : factor (Scipy.complexNormalCov v p) * (factor (Scipy.complexNormalCov v p))ᵀ =
      Scipy.complexNormalCov v p) (m : ℂ) :
    ComplexMoments₁ (Scipy.complexNormalRvs factor m v p) m v p := by
  have h := complexMoments₁_of (randomMultivariateNormal_moments hf (Scipy.complexNormalMean m)) 0 1
  have e1 : (Scipy.complexNormalMean m 0 : ℂ) + Complex.I * (Scipy.complexNormalMean m 1 : ℂ) = m := by
    rw [mul_comm]
    exact Complex.re_add_im m
  have e2 : Scipy.complexNormalCov v p 0 0 + Scipy.complexNormalCov v p 1 1 = v := by
    simp [Scipy.complexNormalCov]
    ring
  have e3 : ((Scipy.complexNormalCov v p 0 0 - Scipy.complexNormalCov v p 1 1 : ℝ) : ℂ) + Complex.I *
      ((Scipy.complexNormalCov v p 0 1 + Scipy.complexNormalCov v p 1 0 : ℝ) : ℂ) = p := by
    apply Complex.ext <;> simp [Scipy.complexNormalCov] <;> ring
  rw [e1, e2, e3] at h
  exact h

/-- A suitable factor exists for everything that is accepted. -/
theorem C58_complex_normal_factor {v : ℝ} {p : ℂ} (h : Scipy.complexNormalInit v p = .ok ()) :
    ∃ L : Matrix (Fin 2) (Fin 2) ℝ, L * Lᵀ = Scipy.complexNormalCov v p := by
  refine exists_factor ?_
  rw [scipy_complexNormalCov]
  exact (C58_complex_normal_accepts v p).1 h

/-- `rvs` has the density `pdf`. -/
theorem C58_complex_normal_rvs_law {factor : Matrix (Fin 2) (Fin 2) ℝ → Matrix (Fin 2) (Fin 2) ℝ} {v : ℝ}
    {p : ℂ} (h : ‖p‖ < v)
    (hf : factor (Scipy.complexNormalCov v p) * (factor (Scipy.complexNormalCov v p))ᵀ =
      Scipy.complexNormalCov v p) (m : ℂ) : Scipy.complexNormalRvs factor m v p =
      volume.withDensity fun z => ENNReal.ofReal (Textbook.complexNormal m v p z) := by
  have hd := (complexCov_posDef.2 h).det_pos
  have e : (fun z : Fin 2 → ℝ => (z 0 : ℂ) + Complex.I * (z 1 : ℂ)) = Complex.measurableEquivPi.symm := by
    funext z
    rw [Complex.measurableEquivPi_symm_apply, mul_comm]
  rw [Scipy.complexNormalRvs, randomMultivariateNormal_density (by rwa [scipy_complexNormalCov]) hf, e,
    scipy_complexNormalCov]
  ext s hs
  rw [MeasurableEquiv.map_apply, withDensity_apply _ hs, withDensity_apply _ (Complex.measurableEquivPi.symm.measurable hs)]
  have hm := Complex.volume_preserving_equiv_pi.symm Complex.measurableEquivPi
  rw [← hm.setLIntegral_comp_preimage_emb Complex.measurableEquivPi.symm.measurableEmbedding]
  refine lintegral_congr fun x => ?_
  rw [Textbook.complexNormal]
  congr 2
  exact (Complex.measurableEquivPi.apply_symm_apply x).symm

/-! ### The angle and the polarization -/

/-- Polarizations of at most one are accepted. -/
theorem C58_angle_accepts {v : ℝ} (hv : 0 < v) (angle : ℝ) (r : ℂ) :
    Scipy.complexNormalInit v (Scipy.angleToPseudoVariance v angle r) = .ok () ↔ ‖r‖ ≤ 1 := by
  rw [scipy_complexNormalInit, Scipy.angleToPseudoVariance]
  have : Complex.I * 2 * Real.pi * angle * 2 = ((2 * Real.pi * angle * 2 : ℝ) : ℂ) * Complex.I := by
    push_cast
    ring
  rw [this, norm_mul, norm_mul, Complex.norm_exp_ofReal_mul_I, mul_one, Complex.norm_real,
    Real.norm_of_nonneg hv.le]
  exact mul_le_iff_le_one_left hv

theorem directional_angle (v angle r φ : ℝ) :
    directional (Textbook.complexCov v (Scipy.angleToPseudoVariance v angle r)) φ =
      v / 2 * (1 + r * Real.cos (2 * (φ - 2 * Real.pi * angle))) := by
  have e : Complex.I * 2 * Real.pi * angle * 2 = ((2 * (2 * Real.pi * angle) : ℝ) : ℂ) * Complex.I := by
    push_cast
    ring
  have e2 : Scipy.angleToPseudoVariance v angle r =
      ((r * v : ℝ) : ℂ) * Complex.exp (((2 * (2 * Real.pi * angle) : ℝ) : ℂ) * Complex.I) := by
    rw [Scipy.angleToPseudoVariance]
    simp only [e]
    push_cast
    ring
  rw [Spec.directional, complexCov_dot, e2, Complex.re_ofReal_mul, Complex.im_ofReal_mul,
    Complex.exp_ofReal_mul_I_re, Complex.exp_ofReal_mul_I_im, mul_sub 2 φ, Real.cos_sub, Real.cos_two_mul φ,
    Real.sin_two_mul φ]
  simp
  have := Real.sin_sq_add_cos_sq φ
  generalize Real.sin φ = s at *
  generalize Real.cos φ = c at *
  linear_combination (-r * v * Real.cos (2 * (2 * Real.pi * angle)) / 2) * this

/-- The variance is largest in the direction of the given angle, measured in turns, smallest at right
angles to it, and the polarization is the relative difference. -/
theorem C58_angle_direction {v r : ℝ} (hv : 0 ≤ v) (hr : 0 ≤ r) (angle : ℝ) :
    (∀ φ, directional (Textbook.complexCov v (Scipy.angleToPseudoVariance v angle r)) φ ≤
        directional (Textbook.complexCov v (Scipy.angleToPseudoVariance v angle r)) (2 * Real.pi * angle)) ∧
      (∀ φ, directional (Textbook.complexCov v (Scipy.angleToPseudoVariance v angle r)) (2 * Real.pi * angle + Real.pi / 2) ≤
        directional (Textbook.complexCov v (Scipy.angleToPseudoVariance v angle r)) φ) ∧
      directional (Textbook.complexCov v (Scipy.angleToPseudoVariance v angle r)) (2 * Real.pi * angle) -
        directional (Textbook.complexCov v (Scipy.angleToPseudoVariance v angle r)) (2 * Real.pi * angle + Real.pi / 2) = r * v := by
  simp only [directional_angle]
  have e : 2 * (2 * Real.pi * angle + Real.pi / 2 - 2 * Real.pi * angle) = Real.pi := by ring
  rw [e, sub_self, mul_zero, Real.cos_zero, Real.cos_pi]
  refine ⟨fun φ => ?_, fun φ => ?_, by ring⟩
  · gcongr
    exact Real.cos_le_one _
  · gcongr
    exact Real.neg_one_le_cos _

example : directional (Textbook.complexCov 2 (Scipy.angleToPseudoVariance 2 0.125 1)) (2 * Real.pi * 0.125) -
    directional (Textbook.complexCov 2 (Scipy.angleToPseudoVariance 2 0.125 1)) (2 * Real.pi * 0.125 + Real.pi / 2) = 1 * 2 := by
  have := (C58_angle_direction (v := 2) (r := 1) (by norm_num) (by norm_num) 0.125).2.2
  exact_mod_cast this

end Efax
