import Verif.Lemmas.Families.VonMises
import Mathlib.Analysis.Calculus.MeanValue
import Mathlib.Topology.Order.IntermediateValue

/-!
# The mean resultant length of the von Mises-Fisher family
-/

namespace Efax

open MeasureTheory Spec Set Real Filter Metric
open scoped Topology InnerProductSpace

variable {n : ℕ}

local notation "𝔼" => EuclideanSpace ℝ (Fin (n + 1))
local notation "σ" => surface n

instance : IsFiniteMeasure (surface n) :=
  inferInstanceAs (IsFiniteMeasure (Measure.toSphere _))

instance : (surface n).IsOpenPosMeasure :=
  inferInstanceAs (Measure.IsOpenPosMeasure (Measure.toSphere _))

theorem vmfAK_eq {x : ℝ} (hx : 0 < x) : vmfAK (n + 1 : ℕ) x =
    x / 2 * (besselH ((n + 1) / 2 + 1) (x ^ 2 / 4) / besselH ((n + 1) / 2) (x ^ 2 / 4)) := by
  rw [vmfAK, vmf_half, ivRatio_eq hx]

theorem vmfAK_pos {x : ℝ} (hx : 0 < x) : 0 < vmfAK (n + 1 : ℕ) x := by
  rw [vmfAK_eq hx]
  have h1 := besselH_pos (a := ((n : ℝ) + 1) / 2) (z := x ^ 2 / 4) (by positivity) (by positivity)
  have h2 := besselH_pos (a := ((n : ℝ) + 1) / 2 + 1) (z := x ^ 2 / 4) (by positivity) (by positivity)
  positivity

theorem vmf_toExp' {q : 𝔼} (h : q ≠ 0) :
    (vonMisesFisher (n + 1)).toExp q = (vmfAK (n + 1 : ℕ) ‖q‖ / ‖q‖) • q := by
  simp only [vonMisesFisher, if_neg (norm_ne_zero_iff.2 h)]

theorem norm_vmf_toExp {q : 𝔼} (h : q ≠ 0) :
    ‖(vonMisesFisher (n + 1)).toExp q‖ = vmfAK (n + 1 : ℕ) ‖q‖ := by
  have hk : 0 < ‖q‖ := norm_pos_iff.2 h
  rw [vmf_toExp' h, norm_smul, Real.norm_of_nonneg (div_nonneg (vmfAK_pos hk).le hk.le),
    div_mul_cancel₀ _ hk.ne']

theorem inner_sphere_le (u : 𝔼) (x : sphere (0 : 𝔼) 1) : ⟪u, x.1⟫_ℝ ≤ ‖u‖ := by
  have h := real_inner_le_norm u x.1
  have hx : ‖x.1‖ = 1 := by simpa using x.2
  rwa [hx, mul_one] at h

theorem vmf_mean_lt {q : 𝔼} (h : q ≠ 0) : ‖(vonMisesFisher (n + 1)).toExp q‖ < 1 := by
  set m := (vonMisesFisher (n + 1)).toExp q with hm
  have hmean := vmf_locallyRegular.mean_dot (η := q) h (v := m) trivial
  have hm0 : 0 < ‖m‖ := by rw [norm_vmf_toExp h]; exact vmfAK_pos (norm_pos_iff.2 h)
  rw [vmf_dot, real_inner_self_eq_norm_sq] at hmean
  have hd := vmf_density h
  have hle : ‖m‖ ^ 2 ≤ ‖m‖ := by
    have h1 : Integrable (fun x => ‖m‖ * (vonMisesFisher (n + 1)).pdf q x) σ :=
      (vmf_locallyRegular.integrable h).const_mul _
    have := integral_mono hmean.1 h1 fun x => by
      dsimp only
      refine mul_le_mul_of_nonneg_right ?_ (hd.1 x)
      rw [vmf_dot]
      exact inner_sphere_le m x
    rwa [hmean.2, integral_const_mul, hd.2, mul_one] at this
  have hle1 : ‖m‖ ≤ 1 := by nlinarith
  refine lt_of_le_of_ne hle1 fun h1 => ?_
  have hz : HasMean σ ((vonMisesFisher (n + 1)).pdf q) (fun x =>
      1 - (vonMisesFisher (n + 1)).dot m ((vonMisesFisher (n + 1)).stat x)) 0 :=
    ((HasMean.const hd 1).sub hmean).congr (fun _ => rfl) (by rw [h1]; norm_num)
  have hnn : ∀ x, 0 ≤ (1 - (vonMisesFisher (n + 1)).dot m ((vonMisesFisher (n + 1)).stat x)) *
      (vonMisesFisher (n + 1)).pdf q x := fun x => by
    refine mul_nonneg (sub_nonneg.2 ?_) (hd.1 x)
    rw [vmf_dot]
    exact (inner_sphere_le m x).trans_eq h1
  have hae := (integral_eq_zero_iff_of_nonneg hnn hz.1).1 hz.2
  have := vmf_minimal m trivial 1 (by
    filter_upwards [hae] with x hx
    have := (mul_eq_zero.1 hx).resolve_right ((vonMisesFisher (n + 1)).pdf_pos q x).ne'
    linarith)
  rw [this, norm_zero] at hm0
  exact hm0.ne rfl

/-- The logarithm of the normaliser grows almost as fast as the concentration. -/
theorem vmf_growth {e : 𝔼} (he : ‖e‖ = 1) {ε : ℝ} (hε : 0 < ε) : ∃ c : ℝ, ∀ t : ℝ, 0 < t →
    (1 - ε) * t + c ≤ (vonMisesFisher (n + 1)).logNormalizer (t • e) := by
  set cap : Set (sphere (0 : 𝔼) 1) := {x | 1 - ε < ⟪e, x.1⟫_ℝ} with hcap
  have hco : IsOpen cap := isOpen_lt continuous_const (by fun_prop)
  have hne : cap.Nonempty := ⟨⟨e, by simpa using he⟩, by
    simp only [hcap, mem_setOf_eq, real_inner_self_eq_norm_sq, he]
    linarith⟩
  have hpos : 0 < (surface n).real cap :=
    ENNReal.toReal_pos (hco.measure_pos _ hne).ne' (measure_ne_top _ _)
  refine ⟨log ((surface n).real cap), fun t ht => ?_⟩
  have he0 : t • e ≠ 0 := smul_ne_zero ht.ne' (norm_ne_zero_iff.1 (by rw [he]; norm_num))
  rw [vmf_logNormalizer he0, ← sphere_exp]
  have hi : Integrable (fun x : sphere (0 : 𝔼) 1 => exp ⟪t • e, x.1⟫_ℝ) σ := by
    refine Integrable.of_bound (Continuous.aestronglyMeasurable (by fun_prop)) (exp ‖t • e‖)
      (Eventually.of_forall fun x => ?_)
    rw [Real.norm_eq_abs, abs_exp]
    exact exp_le_exp.2 (inner_sphere_le _ x)
  have h1 : exp ((1 - ε) * t) * (surface n).real cap ≤ ∫ x, exp ⟪t • e, x.1⟫_ℝ ∂σ := by
    calc exp ((1 - ε) * t) * (surface n).real cap = ∫ _ in cap, exp ((1 - ε) * t) ∂σ := by
          rw [setIntegral_const, smul_eq_mul, mul_comm]
      _ ≤ ∫ x in cap, exp ⟪t • e, x.1⟫_ℝ ∂σ := by
          refine setIntegral_mono_on (integrable_const _) hi.integrableOn hco.measurableSet fun x hx => ?_
          rw [exp_le_exp, inner_smul_left, conj_trivial, mul_comm]
          exact mul_le_mul_of_nonneg_left hx.le ht.le
      _ ≤ _ := setIntegral_le_integral hi (Eventually.of_forall fun x => (exp_pos _).le)
  have h2 := log_le_log (by positivity) h1
  rw [log_mul (exp_ne_zero _) hpos.ne', log_exp] at h2
  exact h2

theorem vmfAK_large {m : ℝ} (hm : m < 1) : ∃ x > 0, m < vmfAK (n + 1 : ℕ) x := by
  by_contra hcon
  push Not at hcon
  set e : 𝔼 := EuclideanSpace.single 0 1 with hed
  have he : ‖e‖ = 1 := by simp [hed]
  obtain ⟨c, hc⟩ := vmf_growth he (ε := (1 - m) / 2) (by linarith)
  set f : ℝ → ℝ := fun t => (vonMisesFisher (n + 1)).logNormalizer (t • e) with hf
  have he0 : e ≠ 0 := norm_ne_zero_iff.1 (by rw [he]; norm_num)
  have hd : ∀ t, 0 < t → HasDerivAt f (vmfAK (n + 1 : ℕ) t) t := by
    intro t ht
    have hq : t • e ≠ 0 := smul_ne_zero ht.ne' he0
    have h := vmf_gradient hq e
    have h2 : HasDerivAt (fun s : ℝ => s - t) 1 t := (hasDerivAt_id t).sub_const t
    have h3 := HasDerivAt.comp (h₂ := fun s : ℝ => (vonMisesFisher (n + 1)).logNormalizer
      (t • e + s • e)) t (by simpa using h) h2
    refine (h3.congr_of_eventuallyEq (Eventually.of_forall fun s => ?_)).congr_deriv ?_
    · simp only [hf, Function.comp, ← add_smul, add_sub_cancel]
    · rw [vmf_dot, vmf_toExp' hq, inner_smul_right, inner_smul_right, real_inner_self_eq_norm_sq,
        norm_smul, he, Real.norm_of_nonneg ht.le]
      field_simp
  obtain ⟨T, hT1, hT⟩ : ∃ T : ℝ, 1 < T ∧ f 1 - m - c < (1 - m) / 2 * T := by
    refine ⟨max 2 ((f 1 - m - c) / ((1 - m) / 2) + 1), lt_max_of_lt_left (by norm_num), ?_⟩
    have hp : 0 < (1 - m) / 2 := by linarith
    calc f 1 - m - c < (1 - m) / 2 * ((f 1 - m - c) / ((1 - m) / 2) + 1) := by
          rw [mul_add, mul_div_cancel₀ _ hp.ne']
          linarith
      _ ≤ _ := mul_le_mul_of_nonneg_left (le_max_right _ _) hp.le
  have hmv := (convex_Icc (1 : ℝ) T).image_sub_le_mul_sub_of_deriv_le (f := f) (C := m)
    (fun x hx => (hd x (by linarith [hx.1])).continuousAt.continuousWithinAt)
    (fun x hx => (hd x (by
      have := interior_subset hx
      linarith [this.1])).differentiableAt.differentiableWithinAt)
    (fun x hx => by
      have h0 : 0 < x := by
        have := interior_subset hx
        linarith [this.1]
      rw [(hd x h0).deriv]
      exact hcon x h0) 1 ⟨le_rfl, hT1.le⟩ T ⟨hT1.le, le_rfl⟩ hT1.le
  have := hc T (by linarith)
  change _ ≤ f T at this
  linarith

/-- Every length strictly between zero and one is attained. -/
theorem vmfAK_surj {m : ℝ} (h0 : 0 < m) (h1 : m < 1) : ∃ x > 0, vmfAK (n + 1 : ℕ) x = m := by
  obtain ⟨b, hb, hbm⟩ := vmfAK_large (n := n) h1
  have ha : (0 : ℝ) < ((n : ℝ) + 1) / 2 := by positivity
  set f : ℝ → ℝ := fun x =>
    x / 2 * (besselH ((n + 1) / 2 + 1) (x ^ 2 / 4) / besselH ((n + 1) / 2) (x ^ 2 / 4)) with hf
  have hcH : ∀ a : ℝ, 0 < a → Continuous (besselH a) := fun a ha =>
    continuous_iff_continuousAt.2 fun z => (besselH_hasDerivAt ha z).continuousAt
  have hc : Continuous f := by
    refine (continuous_id.div_const 2).mul (Continuous.div ((hcH _ (by positivity)).comp (by fun_prop))
      ((hcH _ ha).comp (by fun_prop)) fun x => (besselH_pos ha (by positivity)).ne')
  obtain ⟨x, hx, hxm⟩ := intermediate_value_Icc hb.le hc.continuousOn (show m ∈ Icc (f 0) (f b) from
    ⟨by simpa [hf] using h0.le, hbm.le.trans_eq (vmfAK_eq hb)⟩)
  have hx0 : 0 < x := lt_of_le_of_ne hx.1 fun h => by
    rw [← h] at hxm
    simp only [hf, zero_div, zero_mul] at hxm
    exact h0.ne hxm
  exact ⟨x, hx0, by rw [vmfAK_eq hx0]; exact hxm⟩

end Efax
