import Verif.Lemmas.Sphere
import Verif.Lemmas.ExpFam2
import Verif.Spec.Measures
import Verif.Lemmas.Families
import Verif.Model.Families.VonMises

/-!
# The von Mises-Fisher family is regular away from the uniform distribution
-/

namespace Efax

open MeasureTheory Spec Set Real Filter Metric
open scoped Topology InnerProductSpace

variable {n : ℕ}

local notation "𝔼" => EuclideanSpace ℝ (Fin (n + 1))
local notation "σ" => surface n

theorem vmf_dot (q p : 𝔼) : (vonMisesFisher (n + 1)).dot q p = ⟪q, p⟫_ℝ := by
  simp only [vonMisesFisher, PiLp.inner_apply, RCLike.inner_apply, conj_trivial]
  exact Finset.sum_congr rfl fun i _ => mul_comm _ _

theorem vmf_half : ((n + 1 : ℕ) : ℝ) * 0.5 = ((n : ℝ) + 1) / 2 := by
  push_cast
  norm_num
  ring

theorem vmf_logNormalizer {q : 𝔼} (h : q ≠ 0) :
    (vonMisesFisher (n + 1)).logNormalizer q =
      log (2 * √π ^ (n + 1) * besselH ((n + 1) / 2) (‖q‖ ^ 2 / 4)) := by
  have hk : 0 < ‖q‖ := norm_pos_iff.2 h
  have ha : (0 : ℝ) < ((n : ℝ) + 1) / 2 := by positivity
  have hH : 0 < besselH ((n + 1) / 2) (‖q‖ ^ 2 / 4) := besselH_pos ha (by positivity)
  have hs : 0 < √π := sqrt_pos.2 pi_pos
  simp only [vonMisesFisher, logIve]
  rw [vmf_half, besselI_eq hk, sub_add_cancel, log_mul (by positivity) (exp_ne_zero _), log_exp,
    log_mul (by positivity) hH.ne', log_mul (by positivity) hH.ne', log_rpow (by positivity),
    log_div hk.ne' two_ne_zero, log_mul two_ne_zero pi_pos.ne', log_mul two_ne_zero (by positivity),
    log_pow, log_sqrt pi_pos.le]
  push_cast
  ring

theorem vmf_toExp {q : 𝔼} (h : q ≠ 0) :
    (vonMisesFisher (n + 1)).toExp q =
      (besselH ((n + 1) / 2 + 1) (‖q‖ ^ 2 / 4) / besselH ((n + 1) / 2) (‖q‖ ^ 2 / 4) / 2) • q := by
  have hk : 0 < ‖q‖ := norm_pos_iff.2 h
  simp only [vonMisesFisher, if_neg hk.ne', vmfAK]
  rw [vmf_half, ivRatio_eq hk]
  congr 1
  field_simp

theorem vmf_density {q : 𝔼} (h : q ≠ 0) : IsDensity σ ((vonMisesFisher (n + 1)).pdf q) := by
  refine ⟨fun x => (exp_pos _).le, ?_⟩
  have ha : (0 : ℝ) < ((n : ℝ) + 1) / 2 := by positivity
  have hH : 0 < besselH ((n + 1) / 2) (‖q‖ ^ 2 / 4) := besselH_pos ha (by positivity)
  have hs : 0 < √π := sqrt_pos.2 pi_pos
  have e : ∀ x : sphere (0 : 𝔼) 1, (vonMisesFisher (n + 1)).pdf q x =
      exp ⟪q, x.1⟫_ℝ * exp (-(vonMisesFisher (n + 1)).logNormalizer q) := by
    intro x
    rw [ExpFam.pdf, ExpFam.logPdf, vmf_dot, ← exp_add]
    simp only [vonMisesFisher]
    congr 1
    ring
  simp only [e]
  rw [integral_mul_const, surface, sphere_exp, vmf_logNormalizer h, exp_neg, exp_log (by positivity),
    mul_inv_cancel₀ (by positivity)]

theorem vmf_gradient {q : 𝔼} (h : q ≠ 0) (v : 𝔼) :
    HasDerivAt (fun t : ℝ => (vonMisesFisher (n + 1)).logNormalizer (q + t • v))
      ((vonMisesFisher (n + 1)).dot v ((vonMisesFisher (n + 1)).toExp q)) 0 := by
  have ha : (0 : ℝ) < ((n : ℝ) + 1) / 2 := by positivity
  have hH : 0 < besselH ((n + 1) / 2) (‖q‖ ^ 2 / 4) := besselH_pos ha (by positivity)
  have hs : 0 < √π := sqrt_pos.2 pi_pos
  have h1 : HasDerivAt (fun t : ℝ => ‖q + t • v‖ ^ 2 / 4) (⟪q, v⟫_ℝ / 2) 0 := by
    have h0 : HasDerivAt (fun t : ℝ => q + t • v) v 0 := by
      simpa using ((hasDerivAt_id (0 : ℝ)).smul_const v).const_add q
    have := (h0.norm_sq).div_const 4
    refine this.congr_deriv ?_
    simp
    ring
  have h2 : HasDerivAt (besselH ((n + 1) / 2)) (besselH ((n + 1) / 2 + 1) (‖q‖ ^ 2 / 4))
      (‖q + (0 : ℝ) • v‖ ^ 2 / 4) := by
    simpa using besselH_hasDerivAt ha (‖q‖ ^ 2 / 4)
  have h3 := ((h2.comp (0 : ℝ) h1).const_mul (2 * √π ^ (n + 1))).log (by
    simp only [Function.comp, zero_smul, add_zero]
    positivity)
  have hne : ∀ᶠ t : ℝ in 𝓝 0, q + t • v ≠ 0 := by
    have hc : Continuous fun t : ℝ => q + t • v := by fun_prop
    exact hc.continuousAt.eventually_ne (by simpa using h)
  refine (h3.congr_of_eventuallyEq ?_).congr_deriv ?_
  · filter_upwards [hne] with t ht
    rw [vmf_logNormalizer ht]
    rfl
  · rw [vmf_dot, vmf_toExp h, inner_smul_right, real_inner_comm v q]
    simp only [Function.comp, zero_smul, add_zero]
    field_simp

theorem vmf_locallyRegular :
    LocallyRegular (vonMisesFisher (n + 1)) σ {q | q ≠ 0} ⊤ where
  dot_add η v t w := by
    simp only [vmf_dot, inner_add_left, inner_smul_left, conj_trivial]
  is_open η h v _ := by
    have hc : Continuous fun t : ℝ => η + t • v := by fun_prop
    exact hc.continuousAt.eventually_ne (by simpa using h)
  mem_dirs _ _ := trivial
  density _ h := vmf_density h
  gradient _ h v _ := vmf_gradient h v

theorem vmf_minimal : Minimal (vonMisesFisher (n + 1)) σ ⊤ := by
  intro v _ c hc
  have ha : (0 : ℝ) < ((n : ℝ) + 1) / 2 := by positivity
  have hs : 0 < √π := sqrt_pos.2 pi_pos
  have hc : ∀ᵐ x ∂σ, ⟪v, x.1⟫_ℝ = c := by
    filter_upwards [hc] with x hx
    rw [← hx, vmf_dot]
    rfl
  have hpos : 0 < ∫ _ : sphere (0 : 𝔼) 1, (1 : ℝ) ∂σ := by
    have := sphere_exp (n := n) 0
    simp only [inner_zero_left, exp_zero] at this
    rw [surface, this]
    have hH : 0 < besselH ((n + 1) / 2) (‖(0 : 𝔼)‖ ^ 2 / 4) := besselH_pos ha (by positivity)
    positivity
  have h1 : c * ∫ _ : sphere (0 : 𝔼) 1, (1 : ℝ) ∂σ = 0 := by
    rw [← integral_const_mul, ← sphere_moment_odd v 0]
    refine integral_congr_ae ?_
    filter_upwards [hc] with x hx
    simp [hx]
  have h0 : c = 0 := (mul_eq_zero.1 h1).resolve_right hpos.ne'
  have h2 : ∫ x : sphere (0 : 𝔼) 1, ⟪v, x.1⟫_ℝ ^ 2 ∂σ = 0 := by
    rw [← integral_zero (sphere (0 : 𝔼) 1) ℝ (μ := σ)]
    refine integral_congr_ae ?_
    filter_upwards [hc] with x hx
    simp [hx, h0]
  have h3 := sphere_moment_even v 1
  rw [mul_one] at h3
  rw [show ∫ ω : sphere (0 : 𝔼) 1, ⟪v, ω.1⟫_ℝ ^ 2 ∂(volume : Measure 𝔼).toSphere = 0 from h2,
    zero_div] at h3
  have hG : 0 < Gamma ((1 : ℕ) + ((n : ℝ) + 1) / 2) := Gamma_pos_of_pos (by positivity)
  by_contra hv
  have hn : 0 < ‖v‖ := norm_pos_iff.2 hv
  have : 0 < 2 * √π ^ (n + 1) * ((‖v‖ ^ 2 / 4) ^ 1 / ((1 : ℕ).factorial *
      Gamma ((1 : ℕ) + ((n : ℝ) + 1) / 2))) := by positivity
  exact this.ne h3

end Efax
