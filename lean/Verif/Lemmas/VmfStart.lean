import Verif.Lemmas.GammaStart
import Verif.Lemmas.Families.VmfMean
import Verif.Lemmas.Bessel

/-! # The search for the parameters of a von Mises-Fisher distribution starts near the root -/

namespace Efax

open Filter Topology Set Real

/-- The recurrence of the Bessel functions. -/
theorem besselH_rec {a : ℝ} (ha : 0 < a) (z : ℝ) :
    besselH a z = a * besselH (a + 1) z + z * besselH (a + 2) z := by
  have h1 := besselH_summable (a := a + 1) (by linarith) z
  have h2 := besselH_summable (a := a + 2) (by linarith) z
  have h0 := besselH_summable ha z
  have hG : ∀ k : ℕ, Gamma (k + (a + 1)) = (k + a) * Gamma (k + a) := fun k => by
    rw [← add_assoc, Gamma_add_one (by positivity)]
  have e : ∀ k : ℕ, z ^ k / (k.factorial * Gamma (k + a)) =
      a * (z ^ k / (k.factorial * Gamma (k + (a + 1)))) +
        k * (z ^ k / (k.factorial * Gamma (k + (a + 1)))) := fun k => by
    have : 0 < Gamma (k + a) := Gamma_pos_of_pos (by positivity)
    have hk : (0 : ℝ) < k.factorial := by positivity
    have hka : 0 < (k : ℝ) + a := by positivity
    rw [hG]
    field_simp
    ring
  have e2 : ∀ k : ℕ, ((k + 1 : ℕ) : ℝ) * (z ^ (k + 1) / ((k + 1).factorial * Gamma ((k + 1 : ℕ) + (a + 1)))) =
      z * (z ^ k / (k.factorial * Gamma (k + (a + 2)))) := fun k => by
    have : 0 < Gamma (k + (a + 2)) := Gamma_pos_of_pos (by positivity)
    have hk : (0 : ℝ) < k.factorial := by positivity
    rw [show ((k + 1 : ℕ) : ℝ) + (a + 1) = k + (a + 2) by push_cast; ring, Nat.factorial_succ,
      Nat.cast_mul, pow_succ]
    field_simp
  have hs : Summable fun k : ℕ => (k : ℝ) * (z ^ k / (k.factorial * Gamma (k + (a + 1)))) := by
    have := h0.sub (h1.mul_left a)
    refine this.congr fun k => ?_
    rw [e k]
    ring
  rw [besselH, besselH, besselH, ← tsum_mul_left, ← tsum_mul_left, tsum_congr e,
    (h1.mul_left a).tsum_add hs, hs.tsum_eq_zero_add]
  simp only [Nat.cast_zero, zero_mul, zero_add, e2]

variable {n : ℕ}

theorem vmfAK_rec {x : ℝ} (hx : 0 < x) :
    vmfAK (n + 1 : ℕ) x * ((n + 1) / x + vmfAK (n + 2 + 1 : ℕ) x) = 1 := by
  have ha : (0 : ℝ) < ((n : ℝ) + 1) / 2 := by positivity
  have h0 := besselH_pos (z := x ^ 2 / 4) ha (by positivity)
  have h1 := besselH_pos (a := ((n : ℝ) + 1) / 2 + 1) (z := x ^ 2 / 4) (by positivity) (by positivity)
  have hr := besselH_rec ha (x ^ 2 / 4)
  rw [vmfAK_eq hx, vmfAK_eq hx]
  rw [show (((n + 2 : ℕ) : ℝ) + 1) / 2 = ((n : ℝ) + 1) / 2 + 1 by push_cast; ring,
    show ((n : ℝ) + 1) / 2 + 1 + 1 = ((n : ℝ) + 1) / 2 + 2 by ring]
  generalize besselH (((n : ℝ) + 1) / 2) (x ^ 2 / 4) = H0 at *
  generalize besselH (((n : ℝ) + 1) / 2 + 1) (x ^ 2 / 4) = H1 at *
  generalize besselH (((n : ℝ) + 1) / 2 + 2) (x ^ 2 / 4) = H2 at *
  field_simp
  rw [hr]
  ring

/-- The derivative of the mean resultant length is not negative. -/
theorem vmfAK_riccati {x : ℝ} (hx : 0 < x) :
    n * vmfAK (n + 1 : ℕ) x ≤ x * (1 - vmfAK (n + 1 : ℕ) x ^ 2) := by
  have ha : (0 : ℝ) < ((n : ℝ) + 1) / 2 := by positivity
  set a : ℝ := ((n : ℝ) + 1) / 2 with had
  set z := x ^ 2 / 4 with hz
  have h0 := besselH_pos (z := z) ha (by positivity)
  have h1 := besselH_pos (a := a + 1) (z := z) (by positivity) (by positivity)
  have hr := besselH_rec ha z
  have hzd : HasDerivAt (fun y : ℝ => y ^ 2 / 4) (x / 2) x := by
    have := (hasDerivAt_pow 2 x).div_const 4
    refine this.congr_deriv ?_
    simp only [Nat.cast_ofNat, Nat.add_one_sub_one, pow_one]
    ring
  have d0 := HasDerivAt.comp (h₂ := besselH a) x (besselH_hasDerivAt ha z) hzd
  have d1 := HasDerivAt.comp (h₂ := besselH (a + 1)) x (besselH_hasDerivAt (by positivity) z) hzd
  have hd := ((hasDerivAt_id x).div_const 2).mul (d1.div d0 h0.ne')
  have hmono : ∀ᶠ y in 𝓝[>] x, 0 ≤ slope (fun y : ℝ => y / 2 *
      (besselH (a + 1) (y ^ 2 / 4) / besselH a (y ^ 2 / 4))) x y := by
    filter_upwards [self_mem_nhdsWithin] with y hy
    have hy : x < y := hy
    have := vmfAK_strictMono (n := n) hx hy
    rw [vmfAK_eq hx, vmfAK_eq (hx.trans hy)] at this
    rw [slope_def_field]
    exact div_nonneg (by linarith) (by linarith)
  have hge := ge_of_tendsto (hasDerivAt_iff_tendsto_slope.1 hd |>.mono_left
    (nhdsWithin_mono (s := Ioi x) _ fun y (hy : x < y) => hy.ne')) hmono
  rw [vmfAK_eq hx]
  simp only [Function.comp, id, Pi.div_apply, ← hz, ← had] at hge ⊢
  rw [show a + 1 + 1 = a + 2 by ring] at hge
  generalize besselH a z = H0 at *
  generalize besselH (a + 1) z = H1 at *
  generalize besselH (a + 2) z = H2 at *
  have hn : (n : ℝ) = 2 * a - 1 := by rw [had]; ring
  have key : x * (1 - (x / 2 * (H1 / H0)) ^ 2) - n * (x / 2 * (H1 / H0)) =
      x * (1 / 2 * (H1 / H0) + x / 2 * ((H2 * (x / 2) * H0 - H1 * (H1 * (x / 2))) / H0 ^ 2)) := by
    rw [hn]
    have hH2 : z * H2 = H0 - a * H1 := by linarith
    have : x ^ 2 * H2 = 4 * (H0 - a * H1) := by rw [← hH2, hz]; ring
    field_simp
    linear_combination (-H0) * this
  have := mul_nonneg hx.le hge
  linarith

theorem vmf_start {m : EuclideanSpace ℝ (Fin (n + 1 + 1))} (h : m ≠ 0) (h1 : ‖m‖ < 1) {s x : ℝ}
    (hs : vmfSearchGradient m s = 0) (hx : vmfInitialSearch m = some x) : |s - x| ≤ 2 := by
  obtain ⟨y, hy, hb⟩ := C32_von_mises_fisher_initial h h1
  have hxy : y = x := Option.some.inj (hy.symm.trans hx)
  subst hxy
  have hr0 : 0 < ‖m‖ := norm_pos_iff.2 h
  have hA : vmfAK (n + 1 + 1 : ℕ) (softplus s) = ‖m‖ := by
    simp only [vmfSearchGradient] at hs
    linarith
  have hk0 := softplus_pos s
  have hL := vmfAK_riccati (n := n + 1) hk0
  have hU := vmfAK_riccati (n := n + 1 + 2) hk0
  have hrec := vmfAK_rec (n := n + 1) hk0
  rw [hA] at hL hrec
  set k := softplus s with hk
  set k0 := softplus y with hk0d
  set r := ‖m‖ with hr
  set B := vmfAK (n + 1 + 2 + 1 : ℕ) k with hB
  push_cast at hL hU hrec hb
  have hn : (0 : ℝ) ≤ n := Nat.cast_nonneg n
  have hq : 0 < 1 - r ^ 2 := by nlinarith
  have hb' : k0 * (1 - r ^ 2) = r * (n + 2) - r ^ 3 := by
    rw [hb, div_mul_cancel₀ _ hq.ne']
    ring
  have hBk : B * (r * k) = k - (n + 2) * r := by
    field_simp at hrec
    linarith
  -- the upper bound of the concentration
  have hup : k ^ 2 * (1 - r ^ 2) ≤ (n + 1) * r * k + (n + 2) * r ^ 2 := by
    have := mul_le_mul_of_nonneg_left hU (show 0 ≤ r ^ 2 * k by positivity)
    have e1 : r ^ 2 * k * (k * (1 - B ^ 2)) = r ^ 2 * k ^ 2 - (B * (r * k)) ^ 2 := by ring
    have e2 : r ^ 2 * k * ((n + 1 + 2) * B) = (n + 3) * r * (B * (r * k)) := by ring
    rw [e1, e2, hBk] at this
    nlinarith
  have hkr : r ≤ k := by
    have : r * (1 - r ^ 2) ≤ k * (1 - r ^ 2) := by nlinarith
    exact le_of_mul_le_mul_right this hq
  have hk0r : r ≤ k0 := by
    have : r * (1 - r ^ 2) ≤ k0 * (1 - r ^ 2) := by nlinarith
    exact le_of_mul_le_mul_right this hq
  have hd1 : k0 - k ≤ r := by
    have : (k0 - k) * (1 - r ^ 2) ≤ r * (1 - r ^ 2) := by nlinarith
    exact le_of_mul_le_mul_right this hq
  have hd2 : k - k0 ≤ r := by
    have h3 : k * (k * (1 - r ^ 2) - (n + 1) * r) ≤ k * (2 * r * (1 - r ^ 2)) := by nlinarith
    have h4 := le_of_mul_le_mul_left h3 hk0
    have : (k - k0) * (1 - r ^ 2) ≤ r * (1 - r ^ 2) := by nlinarith
    exact le_of_mul_le_mul_right this hq
  have step : ∀ t, 0 < t → r ≤ t → r ≤ 2 * (t / (1 + t)) := fun t ht hrt => by
    rw [← mul_div_assoc, le_div_iff₀ (by linarith)]
    nlinarith
  rw [abs_le]
  constructor
  · have : y ≤ s + 2 := le_add_of_softplus zero_le_two (by
      rw [← hk, ← hk0d]
      linarith [step k hk0 hkr])
    linarith
  · have : s ≤ y + 2 := le_add_of_softplus zero_le_two (by
      rw [← hk, ← hk0d]
      linarith [step k0 (softplus_pos y) hk0r])
    linarith

end Efax
