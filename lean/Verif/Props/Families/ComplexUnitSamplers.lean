import Verif.Props.Families.ComplexSamplers

/-!
# The samplers of the complex unit normal families draw real and imaginary part with one key (C49)
-/

namespace Efax

open MeasureTheory Spec Set Complex

/-- Expectations under the law of a distribution are those under its density. -/
theorem law_integral {N E X : Type} [MeasurableSpace X] {μ : Measure X} {F : ExpFam N E X} {q : N}
    (hd : IsDensity μ (F.pdf q)) {g : X → ℝ} {m : ℝ} (hg : HasMean μ (F.pdf q) g m) :
    ∫ x, g x ∂law F μ q = m := by
  have hi : Integrable (F.pdf q) μ := by
    by_contra h
    have := hd.2
    rw [integral_undef h] at this
    exact zero_ne_one this
  rw [law, integral_withDensity_eq_integral_toReal_smul₀ hi.aemeasurable.ennreal_ofReal
    (ae_of_all _ fun x => ENNReal.ofReal_lt_top), ← hg.2]
  refine integral_congr_ae (ae_of_all _ fun x => ?_)
  show (ENNReal.ofReal _).toReal • g x = _
  rw [ENNReal.toReal_ofReal (hd.1 x), smul_eq_mul, mul_comm]

theorem randomNormal_eq : randomNormal = law normal volume (normalVarToNat (0, 1)) := by
  rw [← C46_normal_var (w := (0, 1)) one_pos, normalSampleV]
  simp

theorem randomNormal_probability : IsProbabilityMeasure randomNormal := by
  have hi : Integrable (fun x : ℝ => Real.exp (-x ^ 2 / 2)) volume := by
    have := integrable_exp_neg_mul_sq (b := 1 / 2) (by norm_num)
    refine this.congr (ae_of_all _ fun x => ?_)
    show Real.exp _ = Real.exp _
    congr 1
    ring
  refine isProbability_proportional (fun x => (Real.exp_pos _).le) hi ?_
  exact integral_exp_pos hi

theorem randomNormal_sq : ∫ a, a ^ 2 ∂randomNormal = 1 := by
  have hd : normalVarToNat (0, 1) ∈ normalDom := by
    show -0.5 * (1 / (1 : ℝ)) < 0
    norm_num
  rw [randomNormal_eq, law_integral (normal_regular.density _ hd) (C30_normal hd).2]
  simp [normal, normalVarToNat]
  norm_num

theorem randomNormals_sq {d : ℕ} (i : Fin d) : ∫ a, a i ^ 2 ∂randomNormals (Fin d) = 1 := by
  have := randomNormal_probability
  have h := (measurePreserving_eval (fun _ : Fin d => randomNormal) i).map_eq
  rw [← randomNormal_sq, ← h, integral_map (measurable_pi_apply i).aemeasurable]
  · rfl
  · exact (measurable_id.pow_const 2).aestronglyMeasurable

/-! ### What the property asks for -/

theorem conj_half_two : starRingEnd ℂ 2 = 2 ∧ starRingEnd ℂ 0.5 = 0.5 ∧ normSq 0.5 = 0.25 := by
  have e : (0.5 : ℂ) = ((0.5 : ℝ) : ℂ) := by norm_num
  refine ⟨conj_ofNat 2, by rw [e, conj_ofReal], ?_⟩
  rw [e, normSq_ofReal]
  norm_num

/-- Under the distribution the deviation from the mean has unit variance and no pseudo-variance. -/
theorem C49_complex_unit_law (m : ℂ) :
    ∫ z, normSq (z - m) ∂law complexUnit volume (complexUnitToNat m) = 1 ∧
    ∫ z, ((z - m) ^ 2).re ∂law complexUnit volume (complexUnitToNat m) = 0 ∧
    ∫ z, ((z - m) ^ 2).im ∂law complexUnit volume (complexUnitToNat m) = 0 := by
  set q := complexUnitToNat m with hq
  obtain ⟨hd, e1, e2⟩ := complexUnit_eq q
  have e : complexUnit.pdf q = complexNormal.pdf (q, -1, 0) := by
    funext x
    rw [ExpFam.pdf, ExpFam.pdf, ExpFam.logPdf, ExpFam.logPdf, e1]
    congr 1
    simp [complexNormal, complexUnit]
    ring
  obtain ⟨h1, h2, h3, h4, h5⟩ := C30_complex_normal hd
  have hD := complexUnit_regular.density q trivial
  rw [← e] at h1 h2 h3 h4 h5
  have c := fun r : ℝ => HasMean.const hD r
  have em : (complexNormal.toExp (q, -1, 0)).1 = m := by
    simp [complexNormal, complexNormalRSMu, hq, complexUnitToNat, conj_half_two]
    ring
  have em2 : (complexNormal.toExp (q, -1, 0)).2.2 = m ^ 2 := by
    simp [complexNormal, complexNormalRSMu, hq, complexUnitToNat, conj_half_two]
    ring
  have em3 : (complexNormal.toExp (q, -1, 0)).2.1 = 1 + normSq m := by
    rw [e2]
    simp [complexUnit, hq, complexUnitToNat, conj_half_two]
    ring
  rw [em] at h1 h2
  rw [em2] at h4 h5
  rw [em3] at h3
  refine ⟨law_integral hD (((((h3.add (h1.const_mul (-2 * m.re))).add (h2.const_mul (-2 * m.im))).add
      (c (normSq m)))).congr (fun z => ?_) ?_),
    law_integral hD (((((h4.add (h1.const_mul (-2 * m.re))).add (h2.const_mul (2 * m.im))).add
      (c (m ^ 2).re))).congr (fun z => ?_) ?_),
    law_integral hD (((((h5.add (h1.const_mul (-2 * m.im))).add (h2.const_mul (-2 * m.re))).add
      (c (m ^ 2).im))).congr (fun z => ?_) ?_)⟩
  · rw [← normSq_eq_norm_sq]
    simp only [normSq_apply, sub_re, sub_im]
    ring
  · rw [normSq_apply]
    ring
  all_goals
    simp only [pow_two, mul_re, mul_im, sub_re, sub_im]
    ring

/-! ### What the samplers do -/

/-- Under the sampler the variance is two and the pseudo-variance is `2 * I`. -/
theorem C49_complex_unit_moments (m : ℂ) :
    ∫ z, normSq (z - m) ∂complexUnitSampleE m = 2 ∧
    ∫ z, ((z - m) ^ 2).re ∂complexUnitSampleE m = 0 ∧
    ∫ z, ((z - m) ^ 2).im ∂complexUnitSampleE m = 2 := by
  have hf : Measurable fun a : ℝ => (a : ℂ) + I * (a : ℂ) + m := by fun_prop
  have h2 : ∫ a, 2 * a ^ 2 ∂randomNormal = 2 := by rw [integral_const_mul, randomNormal_sq, mul_one]
  have m1 : Measurable fun z : ℂ => normSq (z - m) := by
    simp only [normSq_apply]
    fun_prop
  refine ⟨?_, ?_, ?_⟩
  · rw [complexUnitSampleE, integral_map hf.aemeasurable m1.aestronglyMeasurable, ← h2]
    congr 1
    funext a
    simp [normSq_apply]
    ring
  · rw [complexUnitSampleE, integral_map hf.aemeasurable
      (by fun_prop)]
    simp [pow_two]
  · rw [complexUnitSampleE, integral_map hf.aemeasurable
      (by fun_prop), ← h2]
    congr 1
    funext a
    simp [pow_two]
    ring

/-- The sampler draws from a different law, whatever the mean. -/
theorem C49_complex_unit_negation (m : ℂ) :
    complexUnitSampleE m ≠ law complexUnit volume (complexUnitToNat m) := by
  intro h
  have h1 := (C49_complex_unit_moments m).1
  rw [h, (C49_complex_unit_law m).1] at h1
  norm_num at h1

/-- Under the distribution every component deviates from its mean by unit variance. -/
theorem C49_cmv_unit_law {d : ℕ} (m : Fin d → ℂ) (i : Fin d) :
    ∫ z, normSq (z i - m i) ∂law (cmvUnit d) volume (cmvUnitToNat m) = 1 := by
  have h3 := cmvUnit_second (cmvUnitToNat m) i
  obtain ⟨h1, h2⟩ := C30_cmv_unit (cmvUnitToNat m) i
  have hD := (cmvUnit_regular d).density (cmvUnitToNat m) trivial
  have e : (cmvUnit d).toExp (cmvUnitToNat m) i = m i := by
    simp [cmvUnit, cmvUnitToNat, conj_half_two]
    ring
  rw [e] at h1 h2 h3
  refine law_integral hD (((((h3.add (h1.const_mul (-2 * (m i).re))).add
    (h2.const_mul (-2 * (m i).im))).add (HasMean.const hD (normSq (m i))))).congr (fun z => ?_) ?_)
  · simp only [normSq_apply, sub_re, sub_im]
    ring
  · rw [normSq_apply]
    ring

theorem C49_cmv_unit_moments {d : ℕ} (m : Fin d → ℂ) (i : Fin d) :
    ∫ z, normSq (z i - m i) ∂cmvUnitSampleE m = 2 ∧
    ∫ z, ((z i - m i) ^ 2).re ∂cmvUnitSampleE m = 0 ∧
    ∫ z, ((z i - m i) ^ 2).im ∂cmvUnitSampleE m = 2 := by
  have hf : Measurable fun (a : Fin d → ℝ) i => (a i : ℂ) + I * (a i : ℂ) + m i := by fun_prop
  have h2 : ∫ a, 2 * a i ^ 2 ∂randomNormals (Fin d) = 2 := by
    rw [integral_const_mul, randomNormals_sq, mul_one]
  have m1 : Measurable fun z : Fin d → ℂ => normSq (z i - m i) := by
    simp only [normSq_apply]
    fun_prop
  have m0 : Measurable fun z : Fin d → ℂ => (z i - m i) ^ 2 := by fun_prop
  have m2 : Measurable fun z : Fin d → ℂ => ((z i - m i) ^ 2).re := measurable_re.comp m0
  have m3 : Measurable fun z : Fin d → ℂ => ((z i - m i) ^ 2).im := measurable_im.comp m0
  refine ⟨?_, ?_, ?_⟩
  · rw [cmvUnitSampleE, integral_map hf.aemeasurable m1.aestronglyMeasurable, ← h2]
    congr 1
    funext a
    simp [normSq_apply]
    ring
  · rw [cmvUnitSampleE, integral_map hf.aemeasurable
      m2.aestronglyMeasurable]
    simp [pow_two]
  · rw [cmvUnitSampleE, integral_map hf.aemeasurable
      m3.aestronglyMeasurable, ← h2]
    congr 1
    funext a
    simp [pow_two]
    ring

/-- With at least one component the sampler draws from a different law. -/
theorem C49_cmv_unit_negation {d : ℕ} (m : Fin (d + 1) → ℂ) :
    cmvUnitSampleE m ≠ law (cmvUnit (d + 1)) volume (cmvUnitToNat m) := by
  intro h
  have h1 := (C49_cmv_unit_moments m 0).1
  rw [h, C49_cmv_unit_law m 0] at h1
  norm_num at h1

end Efax
