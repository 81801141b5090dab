import Verif.Lemmas.Bessel
import Mathlib.MeasureTheory.Constructions.HaarToSphere
import Mathlib.MeasureTheory.Measure.Haar.InnerProductSpace
import Mathlib.MeasureTheory.Integral.Gamma
import Mathlib.MeasureTheory.Integral.Pi
import Mathlib.MeasureTheory.Measure.Lebesgue.Integral
import Mathlib.Analysis.InnerProductSpace.Projection.Reflection
import Mathlib.Analysis.SpecialFunctions.Gaussian.GaussianIntegral

/-!
# Integrals over the sphere
-/

namespace Efax

open MeasureTheory Set Real Metric

/-- Integration in polar coordinates of a product. -/
theorem integral_polar {n : ℕ} (f : EuclideanSpace ℝ (Fin (n + 1)) → ℝ)
    (g : sphere (0 : EuclideanSpace ℝ (Fin (n + 1))) 1 → ℝ) (h : ℝ → ℝ)
    (hf : ∀ (ω : sphere (0 : EuclideanSpace ℝ (Fin (n + 1))) 1) (r : ℝ), 0 < r →
      f (r • ω.1) = g ω * h r) :
    ∫ x, f x = (∫ ω, g ω ∂(volume : Measure (EuclideanSpace ℝ (Fin (n + 1)))).toSphere) *
      ∫ r in Ioi (0 : ℝ), r ^ n * h r := by
  set μ : Measure (EuclideanSpace ℝ (Fin (n + 1))) := volume
  have hd : Module.finrank ℝ (EuclideanSpace ℝ (Fin (n + 1))) - 1 = n := by simp
  calc
    ∫ x, f x = ∫ x : ({(0)}ᶜ : Set (EuclideanSpace ℝ (Fin (n + 1)))), f x.1 ∂(μ.comap (↑)) := by
      rw [integral_subtype_comap (measurableSet_singleton _).compl fun x ↦ f x,
        restrict_compl_singleton]
    _ = ∫ x, g x.1 * h x.2 ∂μ.toSphere.prod (.volumeIoiPow n) := by
      have := μ.measurePreserving_homeomorphUnitSphereProd.integral_comp
        (Homeomorph.measurableEmbedding _) (fun x => g x.1 * h x.2)
      rw [hd] at this
      rw [← this]
      refine integral_congr_ae (Filter.Eventually.of_forall fun x => ?_)
      show f x.1 = g (homeomorphUnitSphereProd _ x).1 * h (homeomorphUnitSphereProd _ x).2
      rw [← hf _ _ (homeomorphUnitSphereProd _ x).2.2]
      congr 1
      have hx : ‖x.1‖ ≠ 0 := norm_ne_zero_iff.2 x.2
      simp [smul_smul, hx]
    _ = (∫ ω, g ω ∂μ.toSphere) * ∫ r : Ioi (0 : ℝ), h r ∂.volumeIoiPow n :=
      integral_prod_mul (f := g) (g := fun r : Ioi (0 : ℝ) => h r)
    _ = _ := by
      congr 1
      simp only [Measure.volumeIoiPow, ENNReal.ofReal]
      rw [integral_withDensity_eq_integral_smul,
        integral_subtype_comap measurableSet_Ioi fun a ↦ Real.toNNReal (a ^ n) • h a,
        setIntegral_congr_fun measurableSet_Ioi fun x hx ↦ ?_]
      · rw [NNReal.smul_def, Real.coe_toNNReal _ (pow_nonneg hx.out.le _), smul_eq_mul]
      · exact (measurable_subtype_coe.pow_const _).real_toNNReal

/-- The moments of the Gaussian integral. -/
theorem integral_pow_gauss (k : ℕ) : ∫ x : ℝ, x ^ (2 * k) * exp (-x ^ 2) = Gamma (k + 1 / 2) := by
  have h := integral_comp_abs (f := fun x : ℝ => x ^ (2 * k) * exp (-x ^ 2))
  simp only [sq_abs, pow_mul, sq_abs] at h ⊢
  rw [h]
  have h2 := integral_rpow_mul_exp_neg_rpow (p := 2) (q := 2 * k) two_pos
    (by have : (0 : ℝ) ≤ k := Nat.cast_nonneg k
        linarith)
  rw [setIntegral_congr_fun (g := fun x : ℝ => x ^ (2 * k : ℝ) * exp (-x ^ (2 : ℝ)))
    measurableSet_Ioi fun x hx => ?_, h2]
  · rw [show ((2 * (k : ℝ) + 1) / 2) = k + 1 / 2 by ring]
    ring
  · simp only
    rw [rpow_two, show (2 * (k : ℝ)) = ((2 * k : ℕ) : ℝ) by push_cast; ring, rpow_natCast, pow_mul]

theorem integral_pow_gauss_odd (k : ℕ) : ∫ x : ℝ, x ^ (2 * k + 1) * exp (-x ^ 2) = 0 := by
  have h := integral_neg_eq_self (fun x : ℝ => x ^ (2 * k + 1) * exp (-x ^ 2)) volume
  have e : ∀ x : ℝ, (-x) ^ (2 * k + 1) * exp (-(-x) ^ 2) = -(x ^ (2 * k + 1) * exp (-x ^ 2)) := by
    intro x
    rw [(odd_two_mul_add_one k).neg_pow, neg_sq, neg_mul]
  simp only [e] at h
  rw [integral_neg] at h
  linarith

theorem integral_radial (m n : ℕ) :
    ∫ r in Ioi (0 : ℝ), r ^ n * (r ^ m * exp (-r ^ 2)) = Gamma ((n + m + 1) / 2) / 2 := by
  have h := integral_rpow_mul_exp_neg_rpow (p := 2) (q := ((n + m : ℕ) : ℝ)) two_pos
    (by have : (0 : ℝ) ≤ ((n + m : ℕ) : ℝ) := Nat.cast_nonneg _
        linarith)
  rw [setIntegral_congr_fun (g := fun x : ℝ => x ^ ((n + m : ℕ) : ℝ) * exp (-x ^ (2 : ℝ)))
    measurableSet_Ioi fun x hx => ?_, h]
  · push_cast
    ring
  · simp only
    rw [rpow_two, rpow_natCast, pow_add]
    ring

/-- Gaussian integrals of a function of one coordinate. -/
theorem integral_coord {n : ℕ} (f : ℝ → ℝ) :
    ∫ x : EuclideanSpace ℝ (Fin (n + 1)), f (x 0) * exp (-‖x‖ ^ 2) =
      (∫ t : ℝ, f t * exp (-t ^ 2)) * √π ^ n := by
  rw [← (PiLp.volume_preserving_toLp (Fin (n + 1))).integral_comp
    (MeasurableEquiv.toLp 2 _).measurableEmbedding]
  have e : ∀ x : Fin (n + 1) → ℝ, f ((WithLp.toLp 2 x : EuclideanSpace ℝ (Fin (n + 1))) 0) *
      exp (-‖(WithLp.toLp 2 x : EuclideanSpace ℝ (Fin (n + 1)))‖ ^ 2) =
      ∏ i, (if i = 0 then f (x i) * exp (-x i ^ 2) else exp (-x i ^ 2)) := by
    intro x
    rw [Fin.prod_univ_succ, EuclideanSpace.norm_sq_eq]
    simp only [if_true, Real.norm_eq_abs, sq_abs, Fin.succ_ne_zero, if_false]
    rw [← Real.exp_sum, mul_assoc, ← Real.exp_add, Fin.sum_univ_succ, neg_add, Finset.sum_neg_distrib]
  simp only [e]
  rw [integral_fintype_prod_volume_eq_prod
    (f := fun (i : Fin (n + 1)) (t : ℝ) => if i = 0 then f t * exp (-t ^ 2) else exp (-t ^ 2)),
    Fin.prod_univ_succ]
  simp only [if_true, Fin.succ_ne_zero, if_false]
  have := integral_gaussian 1
  simp only [neg_mul, one_mul, div_one] at this
  rw [this, Finset.prod_const, Finset.card_univ, Fintype.card_fin]

open scoped InnerProductSpace in
/-- Gaussian integrals are rotation invariant. -/
theorem integral_rotate {n : ℕ} (f : ℝ → ℝ) (η : EuclideanSpace ℝ (Fin (n + 1))) :
    ∫ x : EuclideanSpace ℝ (Fin (n + 1)), f ⟪η, x⟫_ℝ * exp (-‖x‖ ^ 2) =
      (∫ t : ℝ, f (‖η‖ * t) * exp (-t ^ 2)) * √π ^ n := by
  set w : EuclideanSpace ℝ (Fin (n + 1)) := EuclideanSpace.single 0 ‖η‖ with hw
  have hn : ‖η‖ = ‖w‖ := by simp [hw]
  set T := (ℝ ∙ (η - w))ᗮ.reflection with hT
  have hTη : T η = w := Submodule.reflection_sub hn
  have h := (T.measurePreserving).integral_comp T.toHomeomorph.measurableEmbedding
    (fun x : EuclideanSpace ℝ (Fin (n + 1)) => f ⟪w, x⟫_ℝ * exp (-‖x‖ ^ 2))
  rw [← integral_coord (fun t => f (‖η‖ * t))]
  simp only [← hTη, LinearIsometryEquiv.inner_map_map, LinearIsometryEquiv.norm_map] at h
  rw [h, hTη]
  refine integral_congr_ae (Filter.Eventually.of_forall fun x => ?_)
  simp only [hw]
  rw [EuclideanSpace.inner_single_left]
  simp

section

variable {n : ℕ}

local notation "𝔼" => EuclideanSpace ℝ (Fin (n + 1))

/-- The surface measure of the unit sphere. -/
local notation "σ" => Measure.toSphere (volume : Measure (EuclideanSpace ℝ (Fin (n + 1))))

open scoped InnerProductSpace

theorem sphere_moment (η : 𝔼) (m : ℕ) :
    (∫ ω : sphere (0 : 𝔼) 1, ⟪η, ω.1⟫_ℝ ^ m ∂σ) * (Gamma ((n + m + 1) / 2) / 2) =
      ‖η‖ ^ m * (∫ t : ℝ, t ^ m * exp (-t ^ 2)) * √π ^ n := by
  rw [← integral_radial, ← integral_polar (fun x => ⟪η, x⟫_ℝ ^ m * exp (-‖x‖ ^ 2)), integral_rotate
    (fun t => t ^ m), ← integral_const_mul]
  · simp only [mul_pow, mul_assoc]
  · intro ω r hr
    have h1 : ‖ω.1‖ = 1 := by simpa using ω.2
    rw [inner_smul_right, norm_smul, h1, mul_one, Real.norm_of_nonneg hr.le, mul_pow]
    ring

theorem sphere_moment_odd (η : 𝔼) (k : ℕ) :
    ∫ ω : sphere (0 : 𝔼) 1, ⟪η, ω.1⟫_ℝ ^ (2 * k + 1) ∂σ = 0 := by
  have h := sphere_moment η (2 * k + 1)
  rw [integral_pow_gauss_odd, mul_zero, zero_mul] at h
  refine (mul_eq_zero.1 h).resolve_right ?_
  have : 0 < Gamma ((n + (2 * k + 1 : ℕ) + 1) / 2) := Gamma_pos_of_pos (by positivity)
  positivity

theorem gamma_half_factorial (k : ℕ) :
    Gamma (k + 1 / 2) = (2 * k).factorial * √π / (4 ^ k * k.factorial) := by
  induction k with
  | zero => simpa using Gamma_one_half_eq
  | succ k ih =>
    rw [show ((k + 1 : ℕ) : ℝ) + 1 / 2 = (k + 1 / 2) + 1 by push_cast; ring,
      Gamma_add_one (by positivity), ih, show 2 * (k + 1) = 2 * k + 1 + 1 by ring,
      Nat.factorial_succ, Nat.factorial_succ, Nat.factorial_succ, pow_succ]
    push_cast
    field_simp
    ring

theorem sphere_moment_even (η : 𝔼) (k : ℕ) :
    (∫ ω : sphere (0 : 𝔼) 1, ⟪η, ω.1⟫_ℝ ^ (2 * k) ∂σ) / (2 * k).factorial =
      2 * √π ^ (n + 1) * ((‖η‖ ^ 2 / 4) ^ k / (k.factorial * Gamma (k + (n + 1) / 2))) := by
  have h := sphere_moment η (2 * k)
  rw [integral_pow_gauss, gamma_half_factorial,
    show ((n : ℝ) + (2 * k : ℕ) + 1) / 2 = k + (n + 1) / 2 by push_cast; ring] at h
  have h1 : 0 < Gamma (k + (n + 1) / 2) := Gamma_pos_of_pos (by positivity)
  have h2 : (0 : ℝ) < (2 * k).factorial := by positivity
  have h3 : (0 : ℝ) < k.factorial := by positivity
  rw [div_eq_iff h2.ne']
  have h4 := eq_div_of_mul_eq (by positivity) h
  rw [h4, div_pow, pow_succ, ← pow_mul]
  field_simp

/-- The integral of the exponential of a linear form over the sphere. -/
theorem sphere_exp (η : 𝔼) :
    ∫ ω : sphere (0 : 𝔼) 1, exp ⟪η, ω.1⟫_ℝ ∂σ =
      2 * √π ^ (n + 1) * besselH ((n + 1) / 2) (‖η‖ ^ 2 / 4) := by
  have hb : ∀ ω : sphere (0 : 𝔼) 1, |⟪η, ω.1⟫_ℝ| ≤ ‖η‖ := by
    intro ω
    have h1 : ‖ω.1‖ = 1 := by simpa using ω.2
    simpa [h1] using abs_real_inner_le_norm η ω.1
  have hc : Continuous fun ω : sphere (0 : 𝔼) 1 => ⟪η, ω.1⟫_ℝ := by fun_prop
  have hi : ∀ m : ℕ, Integrable (fun ω : sphere (0 : 𝔼) 1 => ⟪η, ω.1⟫_ℝ ^ m / m.factorial) σ := by
    intro m
    refine Integrable.of_bound (C := ‖η‖ ^ m / m.factorial)
      ((hc.pow m).div_const _).aestronglyMeasurable (Filter.Eventually.of_forall fun ω => ?_)
    rw [norm_div, norm_pow, Real.norm_natCast, Real.norm_eq_abs]
    gcongr
    exact hb ω
  have hs : Summable fun m : ℕ => ∫ ω : sphere (0 : 𝔼) 1, ‖⟪η, ω.1⟫_ℝ ^ m / m.factorial‖ ∂σ := by
    refine Summable.of_nonneg_of_le (fun m => integral_nonneg fun _ => norm_nonneg _) (fun m => ?_)
      ((Real.summable_pow_div_factorial ‖η‖).mul_left (Measure.real σ univ))
    have := integral_mono (hi m).norm (integrable_const (‖η‖ ^ m / m.factorial)) (μ := σ) fun ω => by
      simp only
      rw [norm_div, norm_pow, Real.norm_natCast, Real.norm_eq_abs]
      gcongr
      exact hb ω
    simpa using this
  have h := hasSum_integral_of_summable_integral_norm hi hs
  have e : ∀ ω : sphere (0 : 𝔼) 1, ∑' m : ℕ, ⟪η, ω.1⟫_ℝ ^ m / m.factorial = exp ⟪η, ω.1⟫_ℝ := by
    intro ω
    rw [Real.exp_eq_exp_ℝ, NormedSpace.exp_eq_tsum_div]
  simp only [e] at h
  rw [← h.tsum_eq, ← tsum_even_add_odd, besselH, ← tsum_mul_left]
  · simp only [integral_div, sphere_moment_odd, zero_div, tsum_zero, add_zero, sphere_moment_even]
  · simp only [integral_div, sphere_moment_even]
    exact (besselH_summable (by positivity) _).mul_left _
  · simp only [integral_div, sphere_moment_odd, zero_div]
    exact summable_zero

end

end Efax
