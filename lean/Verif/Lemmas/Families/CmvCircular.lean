import Verif.Lemmas.Families.ComplexNormal
import Mathlib.RingTheory.Norm.Transitivity
import Mathlib.RingTheory.Complex

/-!
# The circularly symmetric complex normal family is regular
-/

namespace Efax

open MeasureTheory Spec Set Matrix Complex

open scoped ComplexOrder

theorem cmv_form {d : ℕ} (M : Matrix (Fin d) (Fin d) ℂ) (x : Fin d → ℂ) :
    ∑ i, ∑ j, M i j * vecMulVec x (star x) i j = star x ⬝ᵥ Mᵀ *ᵥ x := by
  simp only [dotProduct, mulVec, vecMulVec_apply, Finset.mul_sum, transpose_apply, Pi.star_apply]
  rw [Finset.sum_comm]
  exact Finset.sum_congr rfl fun i _ => Finset.sum_congr rfl fun j _ => by ring

theorem re_star_dot {d : ℕ} (y : Fin d → ℂ) : (star y ⬝ᵥ y).re = ∑ i, normSq (y i) := by
  simp only [dotProduct, re_sum, Pi.star_apply]
  exact Finset.sum_congr rfl fun i _ => by simp [normSq_apply]

/-- The integral of the exponential of a negative definite Hermitian form. -/
theorem cgauss_integral {d : ℕ} {B : Matrix (Fin d) (Fin d) ℂ} (hB : B.det ≠ 0) :
    ∫ x : Fin d → ℂ, Real.exp (-∑ i, normSq ((B *ᵥ x) i)) =
      (normSq B.det)⁻¹ * Real.exp (d * Real.log Real.pi) := by
  have hdet : LinearMap.det ((toLin' B).restrictScalars ℝ) = normSq B.det := by
    rw [LinearMap.det_restrictScalars, LinearMap.det_toLin', Algebra.norm_complex_apply]
  have hmap := Measure.map_linearMap_addHaar_eq_smul_addHaar (volume : Measure (Fin d → ℂ))
    (f := (toLin' B).restrictScalars ℝ) (by rw [hdet]; exact (normSq_pos.2 hB).ne')
  have hm : AEMeasurable (fun x : Fin d → ℂ => (toLin' B).restrictScalars ℝ x) volume :=
    (LinearMap.continuous_of_finiteDimensional _).aemeasurable
  have h1 : ∫ x : Fin d → ℂ, Real.exp (-∑ i, normSq ((B *ᵥ x) i)) =
      ∫ y : Fin d → ℂ, Real.exp (-∑ i, normSq (y i))
        ∂(Measure.map ((toLin' B).restrictScalars ℝ) volume) := by
    rw [integral_map hm]
    · rfl
    · refine Continuous.aestronglyMeasurable ?_
      have := continuous_normSq
      fun_prop
  rw [h1, hmap, integral_smul_measure, ENNReal.toReal_ofReal (abs_nonneg _), hdet, abs_inv, smul_eq_mul,
    abs_of_nonneg (normSq_nonneg _)]
  congr 1
  have h2 : ∀ y : Fin d → ℂ, Real.exp (-∑ i, normSq (y i)) =
      Real.exp (d * Real.log Real.pi) * (cmvUnit d).pdf 0 y := by
    intro y
    rw [ExpFam.pdf, ← Real.exp_add, ExpFam.logPdf]
    congr 1
    simp [cmvUnit]
  simp only [h2]
  rw [integral_const_mul, ((cmvUnit_regular d).density 0 trivial).2, mul_one]

theorem cmvCircular_density {d : ℕ} {q : Matrix (Fin d) (Fin d) ℂ} (h : q ∈ cmvCircularDom d) :
    IsDensity volume ((cmvCircular d).pdf q) := by
  refine ⟨fun x => ((cmvCircular d).pdf_pos q x).le, ?_⟩
  have h : (-q).PosDef := h
  obtain ⟨B, hB, hd⟩ := posDef_square h.transpose
  have hdet : (-q).det = normSq B.det := by
    rw [← det_transpose, hB, det_mul, det_conjTranspose, normSq_eq_conj_mul_self]
    rfl
  have hH : qᵀ = -(Bᴴ * B) := by rw [← hB, transpose_neg, neg_neg]
  have hp : 0 < normSq B.det := normSq_pos.2 hd
  have e : ∀ x, (cmvCircular d).pdf q x = Real.exp (Real.log (normSq B.det) - d * Real.log Real.pi) *
      Real.exp (-∑ i, normSq ((B *ᵥ x) i)) := by
    intro x
    rw [ExpFam.pdf, ← Real.exp_add, ExpFam.logPdf]
    congr 1
    simp only [cmvCircular, cmv_form, hdet, ofReal_re]
    rw [hH, neg_mulVec, dotProduct_neg, neg_re, ← mulVec_mulVec, dotProduct_mulVec, ← star_mulVec,
      re_star_dot]
    ring
  rw [funext e, integral_const_mul, cgauss_integral hd, Real.exp_sub, Real.exp_log hp]
  have := (Real.exp_pos (d * Real.log Real.pi)).ne'
  field_simp

theorem cmvCircular_gradient {d : ℕ} {q v : Matrix (Fin d) (Fin d) ℂ}
    (h : q ∈ cmvCircularDom d) (hv : v ∈ hermitianDirs d) :
    HasDerivAt (fun t : ℝ => (cmvCircular d).logNormalizer (q + t • v))
      ((cmvCircular d).dot v ((cmvCircular d).toExp q)) 0 := by
  have h : (-q).PosDef := h
  have hv : v.IsHermitian := hv
  have hun : IsUnit (-q).det := (isUnit_iff_isUnit_det _).1 h.isUnit
  obtain ⟨hdp, hdi⟩ := Complex.pos_iff.1 h.det_pos
  have h1 := reCLM.hasFDerivAt.comp_hasDerivAt (0 : ℝ) (det_perturb (V := -v) hun)
  have h2 := ((h1.log (by simpa using hdp.ne')).neg).add_const (d * Real.log Real.pi)
  refine (h2.congr_deriv ?_).congr_of_eventuallyEq (Filter.Eventually.of_forall fun t => ?_)
  · have hinv : ((-q)⁻¹).IsHermitian := h.isHermitian.inv
    have e1 : ∑ i, ∑ j, v i j * ((-q)⁻¹.map (starRingEnd ℂ)) i j = ((-q)⁻¹ * v).trace := by
      rw [Matrix.trace_mul_comm]
      simp only [trace, diag, mul_apply]
      refine Finset.sum_congr rfl fun i _ => Finset.sum_congr rfl fun j _ => ?_
      rw [map_apply, ← hinv.apply j i]
      rfl
    simp only [cmvCircular, e1, reCLM_apply, Function.comp_apply, zero_smul, add_zero, mul_re, ← hdi,
      zero_mul, sub_zero, mul_neg, trace_neg, neg_re]
    field_simp
  · simp only [cmvCircular, Function.comp_apply, reCLM_apply, neg_add, smul_neg, Pi.neg_apply]

theorem cmvCircular_regular (d : ℕ) :
    Regular (cmvCircular d) volume (cmvCircularDom d) (hermitianDirs d) where
  dot_add η v t w := by
    simp only [cmvCircular, Matrix.add_apply, Matrix.smul_apply, add_mul, Finset.sum_add_distrib,
      add_re, smul_mul_assoc, ← Finset.smul_sum, smul_re, smul_eq_mul]
  convex := by
    intro x hx y hy a b ha hb hab
    have hx : (-x).PosDef := hx
    have hy : (-y).PosDef := hy
    change (-(a • x + b • y)).PosDef
    rw [neg_add, ← smul_neg, ← smul_neg]
    rcases eq_or_lt_of_le ha with rfl | ha
    · obtain rfl : b = 1 := by linarith
      simpa using hy
    rcases eq_or_lt_of_le hb with rfl | hb
    · obtain rfl : a = 1 := by linarith
      simpa using hx
    exact (hx.smul ha).add (hy.smul hb)
  is_open η h v hv := by
    have hV : (-v).IsHermitian := (show v.IsHermitian from hv).neg
    filter_upwards [posDef_perturb (show (-η).PosDef from h) hV] with t ht
    change (-(η + t • v)).PosDef
    rwa [neg_add, ← smul_neg]
  mem_dirs q h := by
    have := (show (-q).PosDef from h).isHermitian.neg
    rwa [neg_neg] at this
  density _ h := cmvCircular_density h
  gradient _ h _ hv := cmvCircular_gradient h hv

theorem cmvCircular_minimal (d : ℕ) : Minimal (cmvCircular d) volume (hermitianDirs d) := by
  intro v hv c h
  have hv : v.IsHermitian := hv
  have hc : ContinuousOn (fun x : Fin d → ℂ => (star x ⬝ᵥ vᵀ *ᵥ x).re) univ := by
    simp only [dotProduct, mulVec, Pi.star_apply]
    fun_prop
  rw [← Measure.restrict_univ (μ := (volume : Measure (Fin d → ℂ)))] at h
  have hall := ae_open (μ := volume) isOpen_univ hc (by
    filter_upwards [h] with x hx
    simpa only [cmvCircular, cmv_form] using hx)
  have h0 := hall 0 trivial
  simp only [dotProduct_zero, mulVec_zero, zero_re] at h0
  subst h0
  have hall : ∀ x, (star x ⬝ᵥ vᵀ *ᵥ x).re = 0 := fun x => hall x trivial
  have s := fun i j => hv.apply i j
  ext i j
  have a := hall (Pi.single i 1 + Pi.single j 1)
  have a' := hall (Pi.single i 1 + I • Pi.single j 1)
  have b := hall (Pi.single i 1)
  have e := hall (Pi.single j 1)
  have e' := hall (I • Pi.single j 1)
  have sr := congrArg re (s i j)
  have si := congrArg im (s i j)
  simp only [star_add, star_smul, Pi.star_single, star_one, mulVec_add, mulVec_smul, add_dotProduct,
    dotProduct_add, smul_dotProduct, dotProduct_smul, mulVec_single_one, single_one_dotProduct,
    col_apply, transpose_apply, add_re, smul_eq_mul, star_def, conj_I, mul_re, neg_re, neg_im, I_re,
    I_im, mul_im, add_im] at a a' b e e' sr si
  simp only [conj_re, conj_im] at sr si
  refine Complex.ext ?_ ?_
  · simp only [Matrix.zero_apply, zero_re]; linarith
  · simp only [Matrix.zero_apply, zero_im]; linarith

end Efax
