import Verif.Lemmas.Searches
import Verif.Props.Families.Search
import Mathlib.Analysis.Convex.SpecificFunctions.Basic

/-! # The search for the parameters of a gamma distribution starts near the root -/

namespace Efax

open Filter Topology Set

/-- `log u ≤ (u - 1 / u) / 2` for `u ≥ 1`. -/
theorem log_le_trapezoid {u : ℝ} (hu : 1 ≤ u) : Real.log u ≤ u / 2 - 1 / (2 * u) := by
  have h : MonotoneOn (fun u : ℝ => u / 2 - u⁻¹ / 2 - Real.log u) (Ici 1) := by
    refine monotoneOn_of_hasDerivWithinAt_nonneg (convex_Ici 1)
      (f' := fun u => 1 / 2 - (-(u ^ 2)⁻¹) / 2 - u⁻¹) ?_ ?_ ?_
    · intro u hu
      have hu : (1 : ℝ) ≤ u := hu
      have : u ≠ 0 := by positivity
      fun_prop (disch := assumption)
    · intro u hu
      rw [interior_Ici] at hu
      have : u ≠ 0 := by have : (1 : ℝ) < u := hu; positivity
      exact ((((hasDerivAt_id u).div_const 2).sub ((hasDerivAt_inv this).div_const 2)).sub
        (Real.hasDerivAt_log this)).hasDerivWithinAt
    · intro u hu
      rw [interior_Ici] at hu
      have h1 : (1 : ℝ) < u := hu
      have : u ≠ 0 := by positivity
      have e : 1 / 2 - (-(u ^ 2)⁻¹) / 2 - u⁻¹ = (u - 1) ^ 2 / (2 * u ^ 2) := by
        field_simp
        ring
      simp only [e]
      positivity
  have := h (by simp) (show u ∈ Ici 1 from hu) hu
  simp only [inv_one, Real.log_one] at this
  rw [one_div, mul_inv]
  linarith

/-- `(u - 1 / u) / 2 - (u - 1) ^ 2 / 12 + (1 - 1 / u) ^ 2 / 12 ≤ log u` for `u ≥ 1`. -/
theorem trapezoid_le_log {u : ℝ} (hu : 1 ≤ u) :
    u / 2 - 1 / (2 * u) - (u - 1) ^ 2 / 12 + (1 - 1 / u) ^ 2 / 12 ≤ Real.log u := by
  have h : MonotoneOn (fun u : ℝ => Real.log u - (u / 2 - u⁻¹ / 2 - (u - 1) ^ 2 / 12 +
      (1 - u⁻¹) ^ 2 / 12)) (Ici 1) := by
    refine monotoneOn_of_hasDerivWithinAt_nonneg (convex_Ici 1)
      (f' := fun u => u⁻¹ - (1 / 2 - (-(u ^ 2)⁻¹) / 2 - (2 * (u - 1) ^ 1 * 1) / 12 +
        (2 * (1 - u⁻¹) ^ 1 * (-(-(u ^ 2)⁻¹))) / 12)) ?_ ?_ ?_
    · intro u hu
      have hu : (1 : ℝ) ≤ u := hu
      have : u ≠ 0 := by positivity
      fun_prop (disch := assumption)
    · intro u hu
      rw [interior_Ici] at hu
      have : u ≠ 0 := by have : (1 : ℝ) < u := hu; positivity
      have h1 := ((hasDerivAt_id u).div_const 2).sub ((hasDerivAt_inv this).div_const 2)
      have h2 := (((hasDerivAt_id u).sub_const 1).fun_pow 2).div_const 12
      have h3 := (((hasDerivAt_inv this).const_sub 1).fun_pow 2).div_const 12
      exact ((Real.hasDerivAt_log this).sub ((h1.sub h2).add h3)).hasDerivWithinAt
    · intro u hu
      rw [interior_Ici] at hu
      have h1 : (1 : ℝ) < u := hu
      have : u ≠ 0 := by positivity
      have e : u⁻¹ - (1 / 2 - (-(u ^ 2)⁻¹) / 2 - (2 * (u - 1) ^ 1 * 1) / 12 +
        (2 * (1 - u⁻¹) ^ 1 * (-(-(u ^ 2)⁻¹))) / 12) = (u - 1) ^ 4 / (6 * u ^ 3) := by
        field_simp
        ring
      simp only [e]
      positivity
  have := h (by simp) (show u ∈ Ici 1 from hu) hu
  simp only [inv_one, Real.log_one] at this
  rw [one_div, mul_inv, one_div]
  linarith

/-- `log x - ψ(x)`. -/
noncomputable def logSubDigamma (x : ℝ) : ℝ := Real.log x - digamma x

theorem logSubDigamma_pos {x : ℝ} (hx : 0 < x) : 0 < logSubDigamma x := by
  have := digamma_lt_log hx
  simp only [logSubDigamma]
  linarith

theorem logSubDigamma_lt {x : ℝ} (hx : 0 < x) : logSubDigamma x < 1 / x := by
  have := log_lt_digamma_add_one hx
  rw [digamma_add_one hx] at this
  simp only [logSubDigamma]
  linarith

theorem logSubDigamma_add_one {x : ℝ} (hx : 0 < x) :
    logSubDigamma (x + 1) = logSubDigamma x + Real.log ((x + 1) / x) - 1 / x := by
  rw [logSubDigamma, logSubDigamma, digamma_add_one hx, Real.log_div (by linarith) hx.ne']
  ring

theorem tendsto_inv_shift (x : ℝ) : Tendsto (fun n : ℕ => 1 / (x + n)) atTop (𝓝 0) := by
  simp only [one_div]
  exact tendsto_inv_atTop_zero.comp (tendsto_atTop_add_const_left _ x tendsto_natCast_atTop_atTop)

theorem tendsto_logSubDigamma {x : ℝ} (hx : 0 < x) :
    Tendsto (fun n : ℕ => logSubDigamma (x + n)) atTop (𝓝 0) :=
  squeeze_zero (fun n => (logSubDigamma_pos (by positivity)).le)
    (fun n => (logSubDigamma_lt (by positivity)).le) (tendsto_inv_shift x)

theorem logSubDigamma_ge {x : ℝ} (hx : 0 < x) : 1 / (2 * x) ≤ logSubDigamma x := by
  have hanti : Antitone fun n : ℕ => logSubDigamma (x + n) - 1 / (x + n) / 2 := by
    refine antitone_nat_of_succ_le fun n => ?_
    have hy : 0 < x + n := by positivity
    have := log_le_trapezoid (u := (x + n + 1) / (x + n)) (by rw [le_div_iff₀ hy]; linarith)
    rw [Nat.cast_succ, ← add_assoc, logSubDigamma_add_one hy]
    have e : (x + n + 1) / (x + n) / 2 - 1 / (2 * ((x + n + 1) / (x + n))) =
        1 / (x + n) / 2 + 1 / (x + n + 1) / 2 := by
      field_simp
      ring
    linarith
  have ht : Tendsto (fun n : ℕ => logSubDigamma (x + n) - 1 / (x + n) / 2) atTop (𝓝 (0 - 0 / 2)) :=
    (tendsto_logSubDigamma hx).sub ((tendsto_inv_shift x).div_const 2)
  have := hanti.le_of_tendsto ht 0
  simp only [Nat.cast_zero, add_zero] at this
  rw [mul_comm, ← div_div]
  linarith

theorem logSubDigamma_le {x : ℝ} (hx : 0 < x) :
    logSubDigamma x ≤ 1 / (2 * x) + 1 / (12 * x ^ 2) := by
  have hmono : Monotone fun n : ℕ => logSubDigamma (x + n) - 1 / (x + n) / 2 -
      (1 / (x + n)) ^ 2 / 12 := by
    refine monotone_nat_of_le_succ fun n => ?_
    have hy : 0 < x + n := by positivity
    have := trapezoid_le_log (u := (x + n + 1) / (x + n)) (by rw [le_div_iff₀ hy]; linarith)
    rw [Nat.cast_succ, ← add_assoc, logSubDigamma_add_one hy]
    have e : (x + n + 1) / (x + n) / 2 - 1 / (2 * ((x + n + 1) / (x + n))) =
        1 / (x + n) / 2 + 1 / (x + n + 1) / 2 := by
      field_simp
      ring
    have e1 : (x + n + 1) / (x + n) - 1 = 1 / (x + n) := by field_simp; ring
    have e2 : 1 - 1 / ((x + n + 1) / (x + n)) = 1 / (x + n + 1) := by field_simp; ring
    rw [e1, e2] at this
    linarith
  have ht : Tendsto (fun n : ℕ => logSubDigamma (x + n) - 1 / (x + n) / 2 - (1 / (x + n)) ^ 2 / 12)
      atTop (𝓝 (0 - 0 / 2 - 0 ^ 2 / 12)) :=
    ((tendsto_logSubDigamma hx).sub ((tendsto_inv_shift x).div_const 2)).sub
      (((tendsto_inv_shift x).pow 2).div_const 12)
  have := hmono.ge_of_tendsto ht 0
  simp only [Nat.cast_zero, add_zero] at this
  have e : 1 / (2 * x) + 1 / (12 * x ^ 2) = 1 / x / 2 + (1 / x) ^ 2 / 12 := by field_simp
  rw [e]
  linarith

theorem logSubDigamma_anti {x y : ℝ} (hx : 0 < x) (h : x < y) : logSubDigamma y < logSubDigamma x := by
  have := digamma_sub_log_lt hx h
  simp only [logSubDigamma]
  linarith

/-- A step of `c` changes `softplus` by at least this much. -/
theorem softplus_shift (s : ℝ) {c : ℝ} (hc : 0 ≤ c) :
    softplus s + c * (softplus s / (1 + softplus s)) ≤ softplus (s + c) := by
  have ha := softplus_pos s
  have hes := Real.exp_pos s
  have hE : Real.exp (softplus s) = 1 + Real.exp s := by
    rw [softplus, Real.exp_log (by positivity)]
  set p := Real.exp s / (1 + Real.exp s) with hp
  have hp0 : 0 ≤ p := by positivity
  have hp1 : p ≤ 1 := by
    rw [hp, div_le_one (by positivity)]
    linarith
  have h1 : softplus s / (1 + softplus s) ≤ p := by
    rw [hp, ← hE, div_le_div_iff₀ (by positivity) (by positivity)]
    have := Real.add_one_le_exp (softplus s)
    nlinarith
  have h2 : Real.exp (c * p) ≤ 1 + (Real.exp c - 1) * p := by
    have := convexOn_exp.2 (mem_univ c) (mem_univ 0) hp0 (by linarith : 0 ≤ 1 - p) (by ring)
    simp only [smul_eq_mul, mul_zero, add_zero, Real.exp_zero, mul_one] at this
    rw [mul_comm c p]
    linarith
  have h3 : Real.exp (softplus s + c * p) ≤ Real.exp (softplus (s + c)) := by
    rw [Real.exp_add, hE]
    have : Real.exp (softplus (s + c)) = 1 + Real.exp s * Real.exp c := by
      rw [softplus, Real.exp_log (by positivity), Real.exp_add]
    rw [this]
    refine (mul_le_mul_of_nonneg_left h2 (by positivity)).trans (le_of_eq ?_)
    rw [hp]
    field_simp
    ring
  have h4 := Real.exp_le_exp.1 h3
  have := mul_le_mul_of_nonneg_left h1 hc
  linarith

theorem le_add_of_softplus {s x c : ℝ} (hc : 0 ≤ c)
    (h : softplus s ≤ softplus x + c * (softplus x / (1 + softplus x))) : s ≤ x + c :=
  softplus_strictMono.le_iff_le.1 (h.trans (softplus_shift x hc))

variable [MachEps]

theorem gamma_start {χ : ℝ × ℝ} (h : χ.2 < Real.log χ.1) {s x : ℝ}
    (hs : gammaSearchGradient χ s = 0) (hx : gammaInitialSearch χ = some x) : |s - x| ≤ 1 := by
  obtain ⟨h0, h1⟩ := C32_gamma_initial h
  obtain ⟨y, hy, hb⟩ := softplus_invSoftplus h0
  have hxy : y = x := by
    rw [gammaInitialSearch, hy] at hx
    exact Option.some.inj hx
  subst hxy
  have hD : Real.log χ.1 - χ.2 = logSubDigamma (softplus s) := by
    simp only [gammaSearchGradient] at hs
    simp only [logSubDigamma]
    linarith
  rw [hD, ← hb] at h1
  have ha0 := softplus_pos s
  have hb0 := softplus_pos y
  set a := softplus s with ha
  set b := softplus y with hbd
  have e1 : (1 + 1 / (6 * b + 1)) / (2 * b) = (3 * b + 1) / (b * (6 * b + 1)) := by
    field_simp
    ring
  rw [e1] at h1
  rw [abs_le]
  constructor
  · have : y ≤ s + 1 := by
      refine le_add_of_softplus zero_le_one ?_
      rw [one_mul, ← ha, ← hbd]
      by_contra hc
      push Not at hc
      have hD := logSubDigamma_ge ha0
      rw [← h1, div_le_div_iff₀ (by positivity) (by positivity)] at hD
      have h2 : a < (b - a) * (1 + a) := by
        have : a / (1 + a) < b - a := by linarith
        rwa [div_lt_iff₀ (by positivity)] at this
      have h3 : 0 < b - a := by
        by_contra hn
        nlinarith
      nlinarith
    linarith
  · have : s ≤ y + 1 := by
      refine le_add_of_softplus zero_le_one ?_
      rw [one_mul, ← ha, ← hbd]
      by_contra hc
      push Not at hc
      have h2 := logSubDigamma_anti (by positivity) hc
      rw [← h1] at h2
      have e2 : b + b / (1 + b) = b * (2 + b) / (1 + b) := by
        field_simp
        ring
      rw [e2] at h2
      rcases le_total (6 * b ^ 2) 2 with hl | hl
      · have h3 := h2.trans (logSubDigamma_lt (by positivity))
        rw [one_div_div, div_lt_div_iff₀ (by positivity) (by positivity)] at h3
        nlinarith
      · have h3 := h2.trans_le (logSubDigamma_le (by positivity))
        have hb1 : 1 / 2 ≤ b := by nlinarith
        have e3 : 1 / (2 * (b * (2 + b) / (1 + b))) + 1 / (12 * (b * (2 + b) / (1 + b)) ^ 2) =
            ((1 + b) * (6 * b * (2 + b) + (1 + b))) / (12 * b ^ 2 * (2 + b) ^ 2) := by
          field_simp
          ring
        rw [e3, div_lt_div_iff₀ (by positivity) (by positivity)] at h3
        have : 0 < b ^ 2 := by positivity
        have : 0 < b ^ 3 := by positivity
        nlinarith [mul_pos hb0 (show 0 < 36 * b ^ 3 + 89 * b ^ 2 + 28 * b - 1 by nlinarith)]
    linarith

end Efax
