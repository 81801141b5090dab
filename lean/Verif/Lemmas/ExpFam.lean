import Verif.Spec.ExpFam
import Mathlib.Probability.Moments.MGFAnalytic
import Mathlib.Probability.Moments.Tilted
import Mathlib.MeasureTheory.Integral.Bochner.ContinuousLinearMap
import Mathlib.MeasureTheory.Measure.WithDensity

/-!
# Generic theory of exponential families
-/

namespace Efax

open MeasureTheory ProbabilityTheory Spec Filter Topology

variable {N E X : Type} [AddCommGroup N] [Module ℝ N] [MeasurableSpace X]

section HasMean

variable {μ : Measure X} {f g h : X → ℝ} {a b : ℝ}

theorem Spec.IsDensity.integrable (hf : IsDensity μ f) : Integrable f μ := by
  by_contra hn
  have := hf.2
  rw [integral_undef hn] at this
  exact zero_ne_one this

theorem Spec.HasMean.add (hg : HasMean μ f g a) (hh : HasMean μ f h b) :
    HasMean μ f (fun x => g x + h x) (a + b) := by
  refine ⟨(hg.1.add hh.1).congr (Eventually.of_forall fun x => ?_), ?_⟩
  · simp only [Pi.add_apply]; ring
  · simp only [add_mul]
    rw [integral_add hg.1 hh.1, hg.2, hh.2]

theorem Spec.HasMean.const_mul (hg : HasMean μ f g a) (c : ℝ) :
    HasMean μ f (fun x => c * g x) (c * a) := by
  refine ⟨(hg.1.const_mul c).congr (Eventually.of_forall fun x => ?_), ?_⟩
  · ring
  · simp only [mul_assoc]
    rw [integral_const_mul, hg.2]

theorem Spec.HasMean.congr (hg : HasMean μ f g a) (hh : ∀ x, h x = g x) (hb : b = a) :
    HasMean μ f h b := by
  have : h = g := funext hh
  rw [this, hb]
  exact hg

theorem Spec.HasMean.sub (hg : HasMean μ f g a) (hh : HasMean μ f h b) :
    HasMean μ f (fun x => g x - h x) (a - b) :=
  (hg.add (hh.const_mul (-1))).congr (fun x => by ring) (by ring)

theorem Spec.HasMean.const (hf : IsDensity μ f) (c : ℝ) : HasMean μ f (fun _ => c) c := by
  refine ⟨hf.integrable.const_mul c, ?_⟩
  rw [integral_const_mul, hf.2, mul_one]

theorem Spec.HasMean.unique (hg : HasMean μ f g a) (hg' : HasMean μ f g b) : a = b :=
  hg.2.symm.trans hg'.2

theorem Spec.HasMean.sum {ι : Type} (s : Finset ι) {g : ι → X → ℝ} {a : ι → ℝ}
    (hg : ∀ i ∈ s, HasMean μ f (g i) (a i)) :
    HasMean μ f (fun x => ∑ i ∈ s, g i x) (∑ i ∈ s, a i) := by
  refine ⟨(integrable_finsetSum s fun i hi => (hg i hi).1).congr
    (Eventually.of_forall fun x => ?_), ?_⟩
  · simp only [Finset.sum_mul]
  · simp only [Finset.sum_mul]
    rw [integral_finsetSum s fun i hi => (hg i hi).1]
    exact Finset.sum_congr rfl fun i hi => (hg i hi).2

end HasMean

theorem ExpFam.pdf_pos (F : ExpFam N E X) (η : N) (x : X) : 0 < F.pdf η x := Real.exp_pos _

theorem ExpFam.log_pdf (F : ExpFam N E X) (η : N) (x : X) :
    Real.log (F.pdf η x) = F.logPdf η x := Real.log_exp _

namespace Spec.LocallyRegular

variable {F : ExpFam N E X} {μ : Measure X} {dom : Set N} {dirs : Submodule ℝ N}
  (R : LocallyRegular F μ dom dirs)

include R

theorem integrable {η : N} (h : η ∈ dom) : Integrable (F.pdf η) μ := by
  have := (R.density η h).2
  by_contra hn
  rw [integral_undef hn] at this
  exact zero_ne_one this

theorem sub_mem (η : N) (h : η ∈ dom) (η' : N) (h' : η' ∈ dom) : η' - η ∈ dirs :=
  dirs.sub_mem (R.mem_dirs η' h') (R.mem_dirs η h)

theorem dot_zero_smul (v : N) (t : ℝ) (w : E) : F.dot (t • v) w = t * F.dot v w := by
  have h0 : F.dot 0 w = 0 := by
    have := R.dot_add 0 0 1 w
    simp only [one_smul, add_zero, one_mul] at this
    linarith
  have := R.dot_add 0 v t w
  rw [zero_add, h0, zero_add] at this
  exact this

theorem dot_sub (η η' : N) (w : E) : F.dot (η - η') w = F.dot η w - F.dot η' w := by
  have := R.dot_add η η' (-1) w
  rw [neg_one_smul, ← sub_eq_add_neg] at this
  linarith

theorem dot_plus (η η' : N) (w : E) : F.dot (η + η') w = F.dot η w + F.dot η' w := by
  have := R.dot_add η η' 1 w
  rw [one_smul, one_mul] at this
  exact this

/-- Changing the parameter multiplies the density by an exponential factor. -/
theorem pdf_shift (η v : N) (t : ℝ) (x : X) :
    Real.exp (t * F.dot v (F.stat x)) * F.pdf η x =
      Real.exp (F.logNormalizer (η + t • v) - F.logNormalizer η) * F.pdf (η + t • v) x := by
  rw [ExpFam.pdf, ExpFam.pdf, ← Real.exp_add, ← Real.exp_add, ExpFam.logPdf, ExpFam.logPdf,
    R.dot_add]
  congr 1
  ring

end Spec.LocallyRegular

/-- The probability measure with the density of the parameter `η`. -/
noncomputable def law (F : ExpFam N E X) (μ : Measure X) (η : N) : Measure X :=
  μ.withDensity fun x => ENNReal.ofReal (F.pdf η x)

namespace Spec.LocallyRegular

variable {F : ExpFam N E X} {μ : Measure X} {dom : Set N} {dirs : Submodule ℝ N}
  (R : LocallyRegular F μ dom dirs)

include R

theorem integral_law {η : N} (h : η ∈ dom) (g : X → ℝ) :
    ∫ x, g x ∂law F μ η = ∫ x, g x * F.pdf η x ∂μ := by
  rw [law, integral_withDensity_eq_integral_toReal_smul₀
    (R.integrable h).aestronglyMeasurable.aemeasurable.ennreal_ofReal (by simp)]
  refine integral_congr_ae (Filter.Eventually.of_forall fun x => ?_)
  simp only [smul_eq_mul]
  rw [ENNReal.toReal_ofReal (F.pdf_pos η x).le, mul_comm]

theorem integrable_law {η : N} (h : η ∈ dom) (g : X → ℝ) :
    Integrable g (law F μ η) ↔ Integrable (fun x => g x * F.pdf η x) μ := by
  rw [law, integrable_withDensity_iff_integrable_smul₀'
    (R.integrable h).aestronglyMeasurable.aemeasurable.ennreal_ofReal (by simp)]
  refine integrable_congr (Filter.Eventually.of_forall fun x => ?_)
  simp only [smul_eq_mul]
  rw [ENNReal.toReal_ofReal (F.pdf_pos η x).le, mul_comm]

theorem isProbability {η : N} (h : η ∈ dom) : IsProbabilityMeasure (law F μ η) := by
  constructor
  rw [law, withDensity_apply _ MeasurableSet.univ, Measure.restrict_univ,
    ← ofReal_integral_eq_lintegral_ofReal (R.integrable h)
      (Filter.Eventually.of_forall fun x => (Real.exp_pos _).le), (R.density η h).2]
  simp

theorem exp_integrable {η v : N} {t : ℝ} (h : η ∈ dom) (ht : η + t • v ∈ dom) :
    Integrable (fun x => Real.exp (t * F.dot v (F.stat x))) (law F μ η) := by
  rw [R.integrable_law h]
  simp only [R.pdf_shift]
  exact (R.integrable ht).const_mul _

theorem mgf_eq {η v : N} {t : ℝ} (h : η ∈ dom) (ht : η + t • v ∈ dom) :
    mgf (fun x => F.dot v (F.stat x)) (law F μ η) t =
      Real.exp (F.logNormalizer (η + t • v) - F.logNormalizer η) := by
  rw [mgf, R.integral_law h]
  simp only [R.pdf_shift]
  rw [integral_const_mul, (R.density _ ht).2, mul_one]

theorem mem_interior {η v : N} (h : η ∈ dom) (hv : v ∈ dirs) :
    (0 : ℝ) ∈ interior (integrableExpSet (fun x => F.dot v (F.stat x)) (law F μ η)) := by
  rw [mem_interior_iff_mem_nhds]
  filter_upwards [R.is_open η h v hv] with t ht
  exact R.exp_integrable h ht

/-- The expectation of the statistics in any direction. -/
theorem mean_dot {η v : N} (h : η ∈ dom) (hv : v ∈ dirs) :
    HasMean μ (F.pdf η) (fun x => F.dot v (F.stat x)) (F.dot v (F.toExp η)) := by
  have hi := R.mem_interior h hv
  haveI := R.isProbability h
  have hint : Integrable (fun x => F.dot v (F.stat x)) (law F μ η) := by
    have := integrable_pow_of_mem_interior_integrableExpSet hi 1
    simpa using this
  refine ⟨(R.integrable_law h _).1 hint, ?_⟩
  rw [← R.integral_law h]
  have h1 : HasDerivAt (mgf (fun x => F.dot v (F.stat x)) (law F μ η))
      (∫ x, F.dot v (F.stat x) ∂law F μ η) 0 := by
    have := hasDerivAt_mgf hi
    simpa using this
  have h2 : HasDerivAt (fun t : ℝ => Real.exp (F.logNormalizer (η + t • v) - F.logNormalizer η))
      (F.dot v (F.toExp η)) 0 := by
    have := ((R.gradient η h v hv).sub_const (F.logNormalizer η)).exp
    simpa using this
  refine h1.unique (h2.congr_of_eventuallyEq ?_)
  filter_upwards [R.is_open η h v hv] with t ht
  exact R.mgf_eq h ht

theorem cgf_eq {η v : N} {t : ℝ} (h : η ∈ dom) (ht : η + t • v ∈ dom) :
    cgf (fun x => F.dot v (F.stat x)) (law F μ η) t =
      F.logNormalizer (η + t • v) - F.logNormalizer η := by
  rw [cgf, R.mgf_eq h ht, Real.log_exp]

theorem memLp {η v : N} (h : η ∈ dom) (hv : v ∈ dirs) (p : NNReal) :
    MemLp (fun x => F.dot v (F.stat x)) p (law F μ η) :=
  memLp_of_mem_interior_integrableExpSet (R.mem_interior h hv) p

theorem memLp2 {η v : N} (h : η ∈ dom) (hv : v ∈ dirs) :
    MemLp (fun x => F.dot v (F.stat x)) 2 (law F μ η) := by
  exact_mod_cast R.memLp h hv 2

theorem integrable_shift {η v : N} {t : ℝ} (h : η ∈ dom) (ht : η + t • v ∈ dom) (g : X → ℝ) :
    Integrable g (law F μ (η + t • v)) ↔
      Integrable (fun x => g x * Real.exp (t * F.dot v (F.stat x))) (law F μ η) := by
  rw [R.integrable_law h, R.integrable_law ht]
  simp only [mul_assoc, R.pdf_shift]
  have : ∀ x, g x * (Real.exp (F.logNormalizer (η + t • v) - F.logNormalizer η) *
      F.pdf (η + t • v) x) = Real.exp (F.logNormalizer (η + t • v) - F.logNormalizer η) *
      (g x * F.pdf (η + t • v) x) := fun x => by ring
  simp only [this]
  constructor
  · exact fun hh => hh.const_mul _
  · intro hh
    have := hh.const_mul (Real.exp (F.logNormalizer (η + t • v) - F.logNormalizer η))⁻¹
    refine this.congr (Filter.Eventually.of_forall fun x => ?_)
    have hne := (Real.exp_pos (F.logNormalizer (η + t • v) - F.logNormalizer η)).ne'
    dsimp only
    rw [inv_mul_cancel_left₀ hne]

theorem integral_shift {η v : N} {t : ℝ} (h : η ∈ dom) (ht : η + t • v ∈ dom) (g : X → ℝ) :
    ∫ x, g x * Real.exp (t * F.dot v (F.stat x)) ∂law F μ η =
      Real.exp (F.logNormalizer (η + t • v) - F.logNormalizer η) *
        ∫ x, g x ∂law F μ (η + t • v) := by
  rw [R.integral_law h, R.integral_law ht, ← integral_const_mul]
  simp only [mul_assoc, R.pdf_shift]
  exact integral_congr_ae (Filter.Eventually.of_forall fun x => by ring)

theorem hasMean_iff {η : N} (h : η ∈ dom) (g : X → ℝ) (m : ℝ) :
    HasMean μ (F.pdf η) g m ↔ Integrable g (law F μ η) ∧ ∫ x, g x ∂law F μ η = m := by
  rw [HasMean, R.integrable_law h, R.integral_law h]

/-- A statistic of finite exponential moments under a shifted parameter: the derivative of its
unnormalised mean. -/
theorem deriv_moment {η v : N} (h : η ∈ dom) (hv : v ∈ dirs) (U : X → ℝ)
    (hU : ∀ η' ∈ dom, MemLp U 2 (law F μ η')) :
    HasDerivAt (fun t : ℝ => ∫ x, U x * Real.exp (t * F.dot v (F.stat x)) ∂law F μ η)
      (∫ x, U x * F.dot v (F.stat x) ∂law F μ η) 0 := by
  haveI := R.isProbability h
  obtain ⟨δ, hδ, hball⟩ := Metric.eventually_nhds_iff.1 (R.is_open η h v hv)
  set ε := δ / 2 with hε
  have he : 0 < ε := by positivity
  have hp : η + ε • v ∈ dom := hball (by rw [dist_zero_right, Real.norm_of_nonneg he.le]; linarith)
  have hm : η + (-ε) • v ∈ dom := hball (by
    rw [dist_zero_right, norm_neg, Real.norm_of_nonneg he.le]; linarith)
  have hV := R.memLp2 h hv
  have i1 : Integrable (fun x => U x * F.dot v (F.stat x) *
      Real.exp (ε * F.dot v (F.stat x))) (law F μ η) :=
    (R.integrable_shift h hp _).1 ((hU _ hp).integrable_mul (R.memLp2 hp hv))
  have i2 : Integrable (fun x => U x * F.dot v (F.stat x) *
      Real.exp (-ε * F.dot v (F.stat x))) (law F μ η) :=
    (R.integrable_shift h hm _).1 ((hU _ hm).integrable_mul (R.memLp2 hm hv))
  have hVm := hV.aestronglyMeasurable
  have hUm := (hU η h).aestronglyMeasurable
  have key := hasDerivAt_integral_of_dominated_loc_of_deriv_le (μ := law F μ η) (x₀ := (0 : ℝ))
    (s := Metric.ball 0 ε)
    (F := fun t x => U x * Real.exp (t * F.dot v (F.stat x)))
    (F' := fun t x => U x * (F.dot v (F.stat x) * Real.exp (t * F.dot v (F.stat x))))
    (bound := fun x => ‖U x * F.dot v (F.stat x) * Real.exp (ε * F.dot v (F.stat x))‖ +
      ‖U x * F.dot v (F.stat x) * Real.exp (-ε * F.dot v (F.stat x))‖)
    (Metric.ball_mem_nhds _ he)
    (Filter.Eventually.of_forall fun t => hUm.mul
      (Real.continuous_exp.comp_aestronglyMeasurable (hVm.const_mul t)))
    (by simpa using (hU η h).integrable (by norm_num))
    (hUm.mul (hVm.mul (Real.continuous_exp.comp_aestronglyMeasurable (hVm.const_mul 0))))
    (Filter.Eventually.of_forall fun x t ht => ?_)
    (i1.norm.add i2.norm)
    (Filter.Eventually.of_forall fun x t _ => ?_)
  · simpa using key.2
  · rw [Metric.mem_ball, dist_zero_right, Real.norm_eq_abs, abs_lt] at ht
    simp only [norm_mul, Real.norm_eq_abs, Real.abs_exp]
    rw [← mul_assoc, ← mul_add]
    refine mul_le_mul_of_nonneg_left ?_ (by positivity)
    rcases le_total 0 (F.dot v (F.stat x)) with hx | hx
    · have : Real.exp (t * F.dot v (F.stat x)) ≤ Real.exp (ε * F.dot v (F.stat x)) :=
        Real.exp_le_exp.2 (mul_le_mul_of_nonneg_right ht.2.le hx)
      linarith [Real.exp_pos (-ε * F.dot v (F.stat x))]
    · have : Real.exp (t * F.dot v (F.stat x)) ≤ Real.exp (-ε * F.dot v (F.stat x)) :=
        Real.exp_le_exp.2 (mul_le_mul_of_nonpos_right ht.1.le hx)
      linarith [Real.exp_pos (ε * F.dot v (F.stat x))]
  · have := ((hasDerivAt_id t).mul_const (F.dot v (F.stat x))).exp.const_mul (U x)
    simp only [id, one_mul] at this
    rw [mul_comm (F.dot v (F.stat x))]
    exact this

/-- The derivative of the expectation of any square integrable quantity is its covariance with the
statistic. -/
theorem deriv_mean {η v : N} (h : η ∈ dom) (hv : v ∈ dirs) (U : X → ℝ)
    (hU : ∀ η' ∈ dom, MemLp U 2 (law F μ η')) (m : N → ℝ)
    (hm : ∀ η' ∈ dom, HasMean μ (F.pdf η') U (m η')) :
    ∃ c, HasCov μ (F.pdf η) U (fun x => F.dot v (F.stat x)) c ∧
      HasDerivAt (fun t : ℝ => m (η + t • v)) c 0 := by
  haveI := R.isProbability h
  have hV := R.memLp2 h hv
  have hUV : Integrable (fun x => U x * F.dot v (F.stat x)) (law F μ η) :=
    (hU η h).integrable_mul hV
  have hUi := ((R.hasMean_iff h _ _).1 (hm η h)).1
  have hUe := ((R.hasMean_iff h _ _).1 (hm η h)).2
  have hVi := ((R.hasMean_iff h _ _).1 (R.mean_dot h hv)).1
  have hVe := ((R.hasMean_iff h _ _).1 (R.mean_dot h hv)).2
  have hUVm : HasMean μ (F.pdf η) (fun x => U x * F.dot v (F.stat x))
      (∫ x, U x * F.dot v (F.stat x) ∂law F μ η) := (R.hasMean_iff h _ _).2 ⟨hUV, rfl⟩
  refine ⟨∫ x, U x * F.dot v (F.stat x) ∂law F μ η - m η * F.dot v (F.toExp η),
    ⟨m η, F.dot v (F.toExp η), hm η h, R.mean_dot h hv, ?_⟩, ?_⟩
  · exact (((hUVm.sub ((R.mean_dot h hv).const_mul (m η))).sub
      ((hm η h).const_mul (F.dot v (F.toExp η)))).add
      (HasMean.const (R.density η h) (m η * F.dot v (F.toExp η)))).congr
      (fun x => by ring) (by ring)
  · have h1 := R.deriv_moment h hv U hU
    have h2 : HasDerivAt (fun t : ℝ => Real.exp (F.logNormalizer η - F.logNormalizer (η + t • v)))
        (-(F.dot v (F.toExp η))) 0 := by
      have := ((R.gradient η h v hv).const_sub (F.logNormalizer η)).exp
      simpa using this
    have h3 := h1.mul h2
    have h4 : (fun t : ℝ => m (η + t • v)) =ᶠ[𝓝 0]
        ((fun t => ∫ x, U x * Real.exp (t * F.dot v (F.stat x)) ∂law F μ η) * fun t =>
          Real.exp (F.logNormalizer η - F.logNormalizer (η + t • v))) := by
      filter_upwards [R.is_open η h v hv] with t ht
      simp only [Pi.mul_apply]
      rw [R.integral_shift h ht, mul_right_comm, ← Real.exp_add]
      have := ((R.hasMean_iff ht _ _).1 (hm _ ht)).2
      rw [this]
      simp
    refine (h3.congr_of_eventuallyEq h4).congr_deriv ?_
    simp [hUe]
    ring

/-- The derivative of the expectation parameters is the covariance matrix of the statistics. -/
theorem deriv_toExp {η u v : N} (h : η ∈ dom) (hu : u ∈ dirs) (hv : v ∈ dirs) :
    ∃ c, HasCov μ (F.pdf η) (fun x => F.dot u (F.stat x)) (fun x => F.dot v (F.stat x)) c ∧
      HasDerivAt (fun t : ℝ => F.dot u (F.toExp (η + t • v))) c 0 :=
  R.deriv_mean h hv (fun x => F.dot u (F.stat x)) (fun _ h' => R.memLp2 h' hu)
    (fun η => F.dot u (F.toExp η)) fun _ h' => R.mean_dot h' hu

end Spec.LocallyRegular

end Efax
