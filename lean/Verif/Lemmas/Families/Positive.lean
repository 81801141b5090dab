import Verif.Spec.Measures
import Verif.Model.Families.Positive
import Verif.Lemmas.Families
import Verif.Lemmas.Special
import Mathlib.Analysis.SpecialFunctions.Gamma.Deriv
import Mathlib.MeasureTheory.Integral.Gamma
import Mathlib.MeasureTheory.Integral.IntegralEqImproper
import Mathlib.Analysis.SpecialFunctions.Pow.Integral

/-!
# Families on the positive numbers are regular
-/

namespace Efax

open MeasureTheory Spec Set

/-- Two-parameter families. -/
theorem Spec.Regular.pair {X : Type} [MeasurableSpace X] {F : ExpFam (ℝ × ℝ) (ℝ × ℝ) X}
    {μ : Measure X} {dom : Set (ℝ × ℝ)} (hdot : ∀ v w, F.dot v w = v.1 * w.1 + v.2 * w.2)
    (hopen : IsOpen dom) (hconv : Convex ℝ dom) (hdens : ∀ η ∈ dom, IsDensity μ (F.pdf η))
    (hgrad : ∀ η ∈ dom, HasFDerivAt F.logNormalizer
      ((F.toExp η).1 • ContinuousLinearMap.fst ℝ ℝ ℝ +
        (F.toExp η).2 • ContinuousLinearMap.snd ℝ ℝ ℝ) η) : Regular F μ dom ⊤ :=
  .of_fderiv (fun w => ⟨fun a b => by simp only [hdot, Prod.fst_add, Prod.snd_add]; ring,
    fun c a => by simp only [hdot, Prod.smul_fst, Prod.smul_snd, smul_eq_mul]; ring⟩)
    hopen hconv hdens fun η h => ⟨_, hgrad η h, fun v => by simp [hdot]; ring⟩

theorem density_positive {f g : ℝ → ℝ} (h0 : ∀ x, 0 ≤ f x) (h : ∀ x, 0 < x → f x = g x)
    (hg : ∫ x in Ioi 0, g x = 1) : IsDensity positive f := by
  refine ⟨h0, ?_⟩
  rw [← hg]
  exact setIntegral_congr_fun measurableSet_Ioi fun x hx => h x hx

/-! ### Gamma -/

theorem gamma_pdf {q : ℝ × ℝ} (h1 : q.1 < 0) (h2 : -1 < q.2) {x : ℝ} (hx : 0 < x) :
    gamma.pdf q x = (-q.1) ^ (q.2 + 1) / Real.Gamma (q.2 + 1) *
      (x ^ (q.2 + 1 - 1) * Real.exp (-(-q.1 * x))) := by
  have hG := Real.Gamma_pos_of_pos (show 0 < q.2 + 1 by linarith)
  rw [ExpFam.pdf, ExpFam.logPdf]
  simp only [gamma, gammaln]
  rw [Real.rpow_def_of_pos (by linarith : 0 < -q.1), Real.rpow_def_of_pos hx]
  conv_rhs => rw [← Real.exp_log hG]
  rw [← Real.exp_sub, ← Real.exp_add, ← Real.exp_add]
  congr 1
  ring

theorem gamma_density {q : ℝ × ℝ} (h1 : q.1 < 0) (h2 : -1 < q.2) :
    IsDensity positive (gamma.pdf q) := by
  refine density_positive (fun x => (gamma.pdf_pos q x).le) (fun x hx => gamma_pdf h1 h2 hx) ?_
  have hG := Real.Gamma_pos_of_pos (show 0 < q.2 + 1 by linarith)
  have hr : 0 < -q.1 := by linarith
  rw [integral_const_mul, Real.integral_rpow_mul_exp_neg_mul_Ioi (by linarith) hr,
    Real.div_rpow zero_le_one hr.le, Real.one_rpow]
  have := Real.rpow_pos_of_pos hr (q.2 + 1)
  field_simp

theorem gammaDom_eq : gammaDom = Iio 0 ×ˢ Ioi (-1) := rfl

theorem gamma_gradient {q : ℝ × ℝ} (h1 : q.1 < 0) (h2 : -1 < q.2) :
    HasFDerivAt gamma.logNormalizer ((gamma.toExp q).1 • ContinuousLinearMap.fst ℝ ℝ ℝ +
        (gamma.toExp q).2 • ContinuousLinearMap.snd ℝ ℝ ℝ) q := by
  have hs : HasFDerivAt (fun q : ℝ × ℝ => q.2 + 1) (ContinuousLinearMap.snd ℝ ℝ ℝ) q :=
    hasFDerivAt_snd.add_const 1
  have hf : HasFDerivAt (fun q : ℝ × ℝ => -q.1) (-ContinuousLinearMap.fst ℝ ℝ ℝ) q :=
    hasFDerivAt_fst.neg
  have hg := (hasDerivAt_gammaln (show 0 < q.2 + 1 by linarith)).comp_hasFDerivAt q hs
  have hl := hf.log (by linarith : -q.1 ≠ 0)
  have := hg.sub (hs.mul hl)
  refine this.congr_fderiv ?_
  have hq : q.1 ≠ 0 := h1.ne
  ext
  · simp [gamma]
    field_simp
    ring
  · simp [gamma]

theorem gamma_regular : Regular gamma positive gammaDom ⊤ := by
  refine .pair (fun _ _ => rfl) ?_ ?_ (fun η h => gamma_density h.1 h.2)
    fun η h => gamma_gradient h.1 h.2
  · exact isOpen_Iio.prod isOpen_Ioi
  · exact (convex_Iio 0).prod (convex_Ioi (-1))

theorem gamma_minimal : Minimal gamma positive ⊤ := by
  intro v _ c h
  have hc : ContinuousOn (fun x => v.1 * x + v.2 * Real.log x) (Ioi 0) := by
    refine (continuousOn_const.mul continuousOn_id).add (continuousOn_const.mul ?_)
    exact Real.continuousOn_log.mono fun x (hx : 0 < x) => hx.ne'
  have hall := ae_open (μ := volume) isOpen_Ioi hc h
  have h1 := hall 1 (by simp)
  have h2 := hall (Real.exp 1) (Real.exp_pos 1)
  have h3 := hall (Real.exp 2) (Real.exp_pos 2)
  rw [Real.log_one, mul_zero, add_zero, mul_one] at h1
  rw [Real.log_exp, mul_one] at h2
  have he : Real.exp 2 = Real.exp 1 * Real.exp 1 := by rw [← Real.exp_add]; norm_num
  rw [Real.log_exp, he] at h3
  have hlt : 1 < Real.exp 1 := by simp
  have hc0 : v.1 = 0 := by
    have : v.1 * (Real.exp 1 - 1) ^ 2 = 0 := by nlinarith
    rcases mul_eq_zero.1 this with h | h
    · exact h
    · have := pow_eq_zero_iff (two_ne_zero) |>.1 h
      linarith
  have hc1 : v.2 = 0 := by
    rw [hc0] at h1 h2
    linarith
  exact Prod.ext hc0 hc1

/-! ### Exponential -/

theorem exponential_pdf (q x : ℝ) : exponential.pdf q x = gamma.pdf (q, 0) x := by
  rw [ExpFam.pdf, ExpFam.pdf, ExpFam.logPdf, ExpFam.logPdf]
  simp [exponential, gamma, gammaln]

theorem exponential_regular : Regular exponential positive (Iio 0) ⊤ := by
  refine .scalar (fun _ _ => rfl) isOpen_Iio (convex_Iio 0) (fun η h => ?_) fun η h => ?_
  · have := gamma_density (q := (η, 0)) h (by norm_num)
    rwa [← funext (exponential_pdf η)] at this
  · have h : η < 0 := h
    have h1 : HasDerivAt (fun q : ℝ => -q) (-1) η := (hasDerivAt_id η).neg
    have := (h1.log (by linarith : -η ≠ 0)).neg
    refine this.congr_deriv ?_
    have : η ≠ 0 := h.ne
    simp only [exponential]
    field_simp

theorem minimal_of_two {F : ExpFam ℝ ℝ ℝ} (hdot : ∀ v w, F.dot v w = v * w) {U : Set ℝ}
    (hU : IsOpen U) (hc : ContinuousOn F.stat U) {a b : ℝ} (ha : a ∈ U) (hb : b ∈ U)
    (hab : F.stat a ≠ F.stat b) : Minimal F (volume.restrict U) ⊤ := by
  intro v _ c h
  simp only [hdot] at h
  have hall := ae_open (μ := volume) hU (continuousOn_const.mul hc) h
  have h1 := hall a ha
  have h2 := hall b hb
  have : v * (F.stat a - F.stat b) = 0 := by
    rw [mul_sub]
    simp only [Pi.mul_apply] at h1 h2
    linarith
  rcases mul_eq_zero.1 this with h | h
  · exact h
  · exact absurd (sub_eq_zero.1 h) hab

theorem exponential_minimal : Minimal exponential positive ⊤ :=
  minimal_of_two (fun _ _ => rfl) isOpen_Ioi continuousOn_id (a := 1) (b := 2) (by simp) (by simp)
    (by norm_num [exponential])

/-! ### Chi-square -/

theorem chiSquare_pdf (q x : ℝ) : chiSquare.pdf q x = gamma.pdf (-0.5, q) x := by
  rw [ExpFam.pdf, ExpFam.pdf, ExpFam.logPdf, ExpFam.logPdf]
  simp only [chiSquare, gamma]
  congr 1
  norm_num
  ring

theorem chiSquare_deriv {q : ℝ} (hq : -1 < q) :
    HasDerivAt chiSquare.logNormalizer (chiSquare.toExp q) q := by
  have h1 : HasDerivAt (fun q : ℝ => q + 1) 1 q := (hasDerivAt_id q).add_const 1
  have h2 := (hasDerivAt_gammaln (show 0 < q + 1 by linarith)).comp q h1
  have := h2.sub (h1.mul_const (Real.log 0.5))
  refine this.congr_deriv ?_
  simp [chiSquare]

theorem chiSquare_regular : Regular chiSquare positive (Ioi (-1)) ⊤ := by
  refine .scalar (fun _ _ => rfl) isOpen_Ioi (convex_Ioi (-1)) (fun η h => ?_)
    fun η h => chiSquare_deriv h
  have := gamma_density (q := (-0.5, η)) (by norm_num) h
  rwa [← funext (chiSquare_pdf η)] at this

theorem chiSquare_minimal : Minimal chiSquare positive ⊤ := by
  refine minimal_of_two (fun _ _ => rfl) isOpen_Ioi ?_ (a := 1) (b := Real.exp 1) (by simp)
    (Real.exp_pos 1) ?_
  · exact Real.continuousOn_log.mono fun x (hx : 0 < x) => hx.ne'
  · simp [chiSquare]

/-! ### Powers of an observation -/

/-- Substituting a power: means under the density of the power. -/
theorem integral_power {p : ℝ} (hp : 0 < p) (g : ℝ → ℝ) :
    ∫ x in Ioi 0, g (x ^ p) * (p * x ^ (p - 1)) = ∫ y in Ioi 0, g y := by
  rw [← integral_comp_rpow_Ioi g hp.ne']
  refine setIntegral_congr_fun measurableSet_Ioi fun x _ => ?_
  simp only [smul_eq_mul, abs_of_pos hp]
  ring

theorem integrable_power {p : ℝ} (hp : 0 < p) (g : ℝ → ℝ) :
    Integrable (fun x => g (x ^ p) * (p * x ^ (p - 1))) positive ↔ Integrable g positive := by
  have := integrableOn_Ioi_comp_rpow_iff g hp.ne'
  rw [IntegrableOn, IntegrableOn] at this
  rw [← this]
  refine integrable_congr ?_
  filter_upwards [ae_restrict_mem measurableSet_Ioi] with x _
  simp only [smul_eq_mul, abs_of_pos hp]
  ring

theorem density_power {p : ℝ} (hp : 0 < p) {f g : ℝ → ℝ} (h : PowerOf p f g) (h0 : ∀ x, 0 ≤ f x)
    (hg : IsDensity positive g) : IsDensity positive f :=
  density_positive h0 h ((integral_power hp g).trans hg.2)

theorem mean_power {p : ℝ} (hp : 0 < p) {f g u : ℝ → ℝ} {m : ℝ} (h : PowerOf p f g) :
    HasMean positive f (fun x => u (x ^ p)) m ↔ HasMean positive g u m := by
  have hcongr : ∀ᵐ x ∂positive, u (x ^ p) * f x = (fun y => u y * g y) (x ^ p) *
      (p * x ^ (p - 1)) := by
    filter_upwards [ae_restrict_mem measurableSet_Ioi] with x hx
    rw [h x hx, mul_assoc]
  rw [HasMean, HasMean, integrable_congr hcongr, integral_congr_ae hcongr,
    integrable_power hp fun y => u y * g y, integral_power hp fun y => u y * g y]

theorem HasMean_congr_positive {f u w : ℝ → ℝ} {m : ℝ} (h : ∀ x, 0 < x → u x = w x) :
    HasMean positive f u m ↔ HasMean positive f w m := by
  have hcongr : ∀ᵐ x ∂positive, u x * f x = w x * f x := by
    filter_upwards [ae_restrict_mem measurableSet_Ioi] with x hx
    rw [h x hx]
  rw [HasMean, HasMean, integrable_congr hcongr, integral_congr_ae hcongr]

/-! ### Chi, Rayleigh, Weibull -/

theorem chi_power (q : ℝ) : PowerOf 2 (chi.pdf q) (chiSquare.pdf q) := by
  intro x hx
  have h2 : (0 : ℝ) < 2 * x ^ ((2 : ℝ) - 1) := by positivity
  rw [ExpFam.pdf, ExpFam.pdf, ExpFam.logPdf, ExpFam.logPdf]
  simp only [chi, transformed, chiSquare]
  conv_rhs => rw [← Real.exp_log h2, ← Real.exp_add]
  congr 1
  have e : (2 : ℝ) - 1 = 1 := by norm_num
  rw [e, Real.rpow_one, Real.rpow_two]
  ring

theorem chi_regular : Regular chi positive (Ioi (-1)) ⊤ :=
  .scalar (fun _ _ => rfl) isOpen_Ioi (convex_Ioi (-1))
    (fun η h => density_power two_pos (chi_power η) (fun x => (chi.pdf_pos η x).le)
      (chiSquare_regular.density η h))
    fun _ h => chiSquare_deriv h

theorem chi_minimal : Minimal chi positive ⊤ := by
  refine minimal_of_two (fun _ _ => rfl) isOpen_Ioi ?_ (a := 1) (b := Real.exp 1) (by simp)
    (Real.exp_pos 1) ?_
  · exact ContinuousOn.log (by fun_prop) fun x (hx : 0 < x) => by positivity
  · simp [chi, transformed, chiSquare]

theorem rayleigh_power (q : ℝ) : PowerOf 2 (rayleigh.pdf q) (exponential.pdf q) := by
  intro x hx
  have h2 : (0 : ℝ) < 2 * x ^ ((2 : ℝ) - 1) := by positivity
  rw [ExpFam.pdf, ExpFam.pdf, ExpFam.logPdf, ExpFam.logPdf]
  simp only [rayleigh, transformed, exponential]
  conv_rhs => rw [← Real.exp_log h2, ← Real.exp_add]
  congr 1
  have e : (2 : ℝ) - 1 = 1 := by norm_num
  rw [e, Real.rpow_one, Real.rpow_two, Real.log_mul two_ne_zero hx.ne']
  ring

theorem rayleigh_regular : Regular rayleigh positive (Iio 0) ⊤ :=
  .scalar (fun _ _ => rfl) isOpen_Iio (convex_Iio 0)
    (fun η h => density_power two_pos (rayleigh_power η) (fun x => (rayleigh.pdf_pos η x).le)
      (exponential_regular.density η h))
    fun η h => by
      have := exponential_regular.gradient η h 1 trivial
      have h : η < 0 := h
      have h1 : HasDerivAt (fun q : ℝ => -q) (-1) η := (hasDerivAt_id η).neg
      have := (h1.log (by linarith : -η ≠ 0)).neg
      refine this.congr_deriv ?_
      have : η ≠ 0 := h.ne
      simp only [rayleigh, transformed, exponential]
      field_simp

theorem rayleigh_minimal : Minimal rayleigh positive ⊤ := by
  refine minimal_of_two (fun _ _ => rfl) isOpen_Ioi ?_ (a := 1) (b := 2) (by simp) (by simp) ?_
  · exact (continuousOn_id.pow 2)
  · norm_num [rayleigh, transformed, exponential]

theorem weibull_power {k : ℝ} (hk : 0 < k) (q : ℝ) :
    PowerOf k ((weibull k).pdf q) (exponential.pdf q) := by
  intro x hx
  have h2 : (0 : ℝ) < k * x ^ (k - 1) := by positivity
  rw [ExpFam.pdf, ExpFam.pdf, ExpFam.logPdf, ExpFam.logPdf]
  simp only [weibull, exponential]
  conv_rhs => rw [← Real.exp_log h2, ← Real.exp_add]
  congr 1
  rw [Real.log_mul hk.ne' (by positivity), Real.log_rpow hx]
  ring

theorem weibull_regular {k : ℝ} (hk : 0 < k) : Regular (weibull k) positive (Iio 0) ⊤ :=
  .scalar (fun _ _ => rfl) isOpen_Iio (convex_Iio 0)
    (fun η h => density_power hk (weibull_power hk η) (fun x => ((weibull k).pdf_pos η x).le)
      (exponential_regular.density η h))
    fun η h => by
      have h : η < 0 := h
      have h1 : HasDerivAt (fun q : ℝ => -q) (-1) η := (hasDerivAt_id η).neg
      have := (h1.log (by linarith : -η ≠ 0)).neg.sub_const (Real.log k)
      refine this.congr_deriv ?_
      have : η ≠ 0 := h.ne
      simp only [weibull]
      field_simp

theorem weibull_minimal {k : ℝ} (hk : 0 < k) : Minimal (weibull k) positive ⊤ := by
  refine minimal_of_two (fun _ _ => rfl) isOpen_Ioi ?_ (a := 1) (b := 2) (by simp) (by simp) ?_
  · exact fun x (hx : 0 < x) => (Real.continuousAt_rpow_const x k (Or.inl hx.ne')).continuousWithinAt
  · simp only [weibull, Real.one_rpow]
    exact (Real.one_lt_rpow one_lt_two hk).ne

end Efax
