import Verif.Lemmas.RootFinding
import Verif.Props.Families.Search
import Verif.Props.Families.VonMises

/-! # The one-dimensional searches are monotone -/

namespace Efax

open Spec Set MeasureTheory

theorem softplus_strictMono : StrictMono softplus := fun a b h =>
  Real.log_lt_log (by positivity) (by linarith [Real.exp_lt_exp.2 h])

theorem softplus_sub_le {a b : ℝ} (h : a ≤ b) : softplus b - softplus a ≤ b - a := by
  have h1 : 1 + Real.exp b ≤ Real.exp (b - a) * (1 + Real.exp a) := by
    rw [mul_add, mul_one, ← Real.exp_add, sub_add_cancel]
    linarith [Real.one_le_exp (x := b - a) (by linarith)]
  have h2 := Real.log_le_log (by positivity) h1
  rw [Real.log_mul (Real.exp_pos _).ne' (by positivity), Real.log_exp] at h2
  simp only [softplus]
  linarith

/-- `softplus` does not enlarge distances. -/
theorem softplus_lipschitz (a b : ℝ) : |softplus a - softplus b| ≤ |a - b| := by
  rcases le_total a b with h | h
  · rw [abs_sub_comm, abs_sub_comm a, abs_of_nonneg (sub_nonneg.2 (softplus_strictMono.monotone h)),
      abs_of_nonneg (sub_nonneg.2 h)]
    exact softplus_sub_le h
  · rw [abs_of_nonneg (sub_nonneg.2 (softplus_strictMono.monotone h)), abs_of_nonneg (sub_nonneg.2 h)]
    exact softplus_sub_le h

/-- The gradient of the log-normaliser is strictly monotone. -/
theorem Spec.LocallyRegular.dot_lt {N E X : Type} [AddCommGroup N] [Module ℝ N] [MeasurableSpace X]
    {F : ExpFam N E X} {μ : Measure X} {dom : Set N} {dirs : Submodule ℝ N}
    (R : LocallyRegular F μ dom dirs) (M : Minimal F μ dirs) {p q : N} (hp : p ∈ dom) (hq : q ∈ dom)
    (hne : p ≠ q) : F.dot (q - p) (F.toExp p) < F.dot (q - p) (F.toExp q) := by
  have h1 := R.support_strict M hp hq hne
  have h2 := R.support_strict M hq hp hne.symm
  rw [R.dot_sub] at h1 h2 ⊢
  rw [R.dot_sub]
  linarith

/-- `ψ(x) - log x` increases. -/
theorem digamma_sub_log_lt {x y : ℝ} (hx : 0 < x) (h : x < y) :
    digamma x - Real.log x < digamma y - Real.log y := by
  have hy := hx.trans h
  have := gamma_regular.dot_lt gamma_minimal (p := (-x, x - 1)) (q := (-y, y - 1))
    ⟨by simpa using hx, by simpa using hx⟩ ⟨by simpa using hy, by simpa using hy⟩
    (fun e => h.ne (by simpa using congrArg Prod.fst e))
  simp only [gamma, Prod.fst_sub, Prod.snd_sub, sub_add_cancel, neg_neg, neg_div_neg_eq,
    div_self hx.ne', div_self hy.ne'] at this
  nlinarith

theorem gammaSearchGradient_strictMono (χ : ℝ × ℝ) : StrictMono (gammaSearchGradient χ) := by
  intro a b h
  have := digamma_sub_log_lt (softplus_pos a) (softplus_strictMono h)
  simp only [gammaSearchGradient]
  linarith

theorem vmfAK_strictMono {n : ℕ} {x y : ℝ} (hx : 0 < x) (h : x < y) :
    vmfAK (n + 1 : ℕ) x < vmfAK (n + 1 : ℕ) y := by
  have hy := hx.trans h
  set u : EuclideanSpace ℝ (Fin (n + 1)) := EuclideanSpace.single 0 1 with hu
  have hu1 : ‖u‖ = 1 := by simp [hu]
  have hx0 : x • u ≠ 0 := by simp [hx.ne', hu]
  have hy0 : y • u ≠ 0 := by simp [hy.ne', hu]
  have nx : ‖x • u‖ = x := by rw [norm_smul, hu1, mul_one, Real.norm_of_nonneg hx.le]
  have ny : ‖y • u‖ = y := by rw [norm_smul, hu1, mul_one, Real.norm_of_nonneg hy.le]
  have := vmf_locallyRegular.dot_lt vmf_minimal (p := x • u) (q := y • u) hx0 hy0 (fun e => by
    have := congrArg norm e
    rw [nx, ny] at this
    exact h.ne this)
  rw [vmf_dot, vmf_dot, vmf_toExp' hx0, vmf_toExp' hy0, nx, ny, smul_smul, smul_smul,
    div_mul_cancel₀ _ hx.ne', div_mul_cancel₀ _ hy.ne', ← sub_smul, inner_smul_left, inner_smul_left,
    inner_smul_right, inner_smul_right, real_inner_self_eq_norm_sq, hu1] at this
  simp only [conj_trivial, one_pow, mul_one] at this
  nlinarith

theorem vmfSearchGradient_strictMono {n : ℕ} (m : EuclideanSpace ℝ (Fin (n + 1))) :
    StrictMono (vmfSearchGradient m) := by
  intro a b h
  have := vmfAK_strictMono (n := n) (softplus_pos a) (softplus_strictMono h)
  simp only [vmfSearchGradient]
  linarith

variable [MachEps]

theorem chiSquareSearchToNatural_strictMono : StrictMono chiSquareSearchToNatural := by
  intro a b h
  have := softplus_strictMono h
  simp only [chiSquareSearchToNatural, Ring.realUnflat]
  linarith

theorem chiSquareSearchGradient_strictMono (χ : ℝ) :
    StrictMono (searchGradient chiSquareSearchToNatural chiSquare.toExp χ) := by
  intro a b h
  have h1 := lt_realUnflat (-1) a
  have := digamma_strictMonoOn (show (0 : ℝ) < chiSquareSearchToNatural a + 1 by
      simp only [chiSquareSearchToNatural]; linarith)
    (show (0 : ℝ) < chiSquareSearchToNatural b + 1 by
      have := lt_realUnflat (-1) b
      simp only [chiSquareSearchToNatural]; linarith)
    (by linarith [chiSquareSearchToNatural_strictMono h])
  simp only [searchGradient, chiSquare]
  linarith

theorem logarithmicSearchToNatural_strictMono : StrictMono logarithmicSearchToNatural := by
  intro a b h
  have := softplus_strictMono (neg_lt_neg h)
  simp only [logarithmicSearchToNatural, Ring.realUnflat]
  linarith

omit [MachEps] in
theorem logarithmic_toExp_lt {p q : ℝ} (h : p < q) (hq : q < 0) :
    logarithmic.toExp p < logarithmic.toExp q := by
  have := logarithmic_regular.dot_lt logarithmic_minimal (p := p) (q := q) (h.trans hq) hq h.ne
  simp only [logarithmic] at this ⊢
  exact lt_of_mul_lt_mul_left this (by linarith)

omit [MachEps] in
theorem logarithmic_mean_gt {q : ℝ} (hq : q < 0) : 1 < logarithmic.toExp q := by
  have h0 := Real.exp_pos q
  have h1 : Real.exp q < 1 := by rwa [Real.exp_lt_one_iff]
  have hp : 0 < 1 - Real.exp q := by linarith
  have hl : Real.log (1 - Real.exp q) < 0 := Real.log_neg hp (by linarith)
  have h2 := Real.log_lt_sub_one_of_pos (inv_pos.2 hp) (fun e => by
    rw [inv_eq_one] at e
    linarith)
  rw [Real.log_inv] at h2
  have h3 : (1 - Real.exp q) * (1 - Real.exp q)⁻¹ = 1 := mul_inv_cancel₀ hp.ne'
  simp only [logarithmic, logarithmicQuotient, expm1, log1p]
  rw [show (1 : ℝ) + -Real.exp q = 1 - Real.exp q by ring, one_lt_div (by nlinarith)]
  nlinarith

/-- The search of the logarithmic distribution changes its sign where the root is, also across the
cut-offs of `to_exp`. -/
theorem logarithmic_crosses {q s : ℝ} (h1 : logProbabilityFloor ≤ q) (h2 : q ≤ logProbabilityCeiling)
    (hs : logarithmicSearchToNatural s = q) :
    Crosses (logarithmicSearchGradient (logarithmic.toExp q)) s := by
  have hc : logProbabilityCeiling < 0 := by norm_num [logProbabilityCeiling]
  have hχ : 1 < logarithmic.toExp q := logarithmic_mean_gt (by linarith)
  refine ⟨fun t ht => ?_, fun t ht => ?_⟩
  · have hlt := logarithmicSearchToNatural_strictMono ht
    rw [hs] at hlt
    rw [logarithmicSearchGradient, logarithmicToExp]
    split_ifs with a b
    · rw [← EReal.coe_one, ← EReal.coe_sub]
      exact_mod_cast sub_neg.2 hχ
    · linarith
    · rw [← EReal.coe_sub]
      have := logarithmic_toExp_lt hlt (by linarith)
      exact_mod_cast sub_neg.2 this
  · have hlt := logarithmicSearchToNatural_strictMono ht
    rw [hs] at hlt
    rw [logarithmicSearchGradient, logarithmicToExp]
    split_ifs with a b
    · linarith
    · simp
    · rw [← EReal.coe_sub]
      have := logarithmic_toExp_lt hlt (by linarith)
      exact_mod_cast sub_pos.2 this

end Efax
