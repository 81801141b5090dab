import Verif.Lemmas.Arr
import Mathlib.Tactic.Linarith
import Mathlib.Tactic.FieldSimp

/-! # Lemmas about the element-level ring maps -/

namespace Efax

theorem softplus_pos (x : ℝ) : 0 < softplus x :=
  Real.log_pos (by have := Real.exp_pos x; linarith)

theorem exp_softplus (x : ℝ) : Real.exp (softplus x) = 1 + Real.exp x :=
  Real.exp_log (by have := Real.exp_pos x; linarith)

theorem invSoftplus?_softplus (x : ℝ) : invSoftplus? (softplus x) = some x := by
  rw [invSoftplus?, if_pos (softplus_pos x), exp_softplus]
  simp

theorem softplus_invSoftplus {x : ℝ} (h : 0 < x) :
    ∃ y, invSoftplus? x = some y ∧ softplus y = x := by
  have h1 : 1 < Real.exp x := by simpa using h
  refine ⟨_, by rw [invSoftplus?, if_pos h], ?_⟩
  rw [softplus, Real.exp_log (by linarith)]
  simp

theorem expit_pos (x : ℝ) : 0 < expit x := by
  have := Real.exp_pos (-x)
  unfold expit; positivity

theorem expit_lt_one (x : ℝ) : expit x < 1 := by
  have := Real.exp_pos (-x)
  unfold expit
  rw [div_lt_one (by linarith)]
  linarith

theorem one_sub_expit (x : ℝ) : 1 - expit x = expit (-x) := by
  have h1 := Real.exp_pos x
  unfold expit
  rw [Real.exp_neg, neg_neg]
  field_simp
  ring

theorem logit?_expit (x : ℝ) : logit? (expit x) = some x := by
  rw [logit?, if_pos ⟨expit_pos x, expit_lt_one x⟩]
  have h1 := Real.exp_pos x
  have : expit x / (1 - expit x) = Real.exp x := by
    rw [one_sub_expit]
    unfold expit
    rw [Real.exp_neg, neg_neg]
    field_simp
    ring
  rw [this, Real.log_exp]

theorem expit_logit {p : ℝ} (h0 : 0 < p) (h1 : p < 1) :
    ∃ y, logit? p = some y ∧ expit y = p := by
  refine ⟨_, by rw [logit?, if_pos ⟨h0, h1⟩], ?_⟩
  have h2 : 0 < 1 - p := by linarith
  rw [expit, Real.exp_neg, Real.exp_log (by positivity)]
  field_simp
  ring

theorem expit_zero : expit 0 = 1 / 2 := by norm_num [expit]

theorem expit_strictMono : StrictMono expit := by
  intro a b h
  have h1 := Real.exp_pos (-a)
  have h2 := Real.exp_pos (-b)
  have : Real.exp (-b) < Real.exp (-a) := by simpa using h
  unfold expit
  apply one_div_lt_one_div_of_lt <;> linarith

theorem expit_gt_half {x : ℝ} (h : 0 < x) : 1 / 2 < expit x := by
  rw [← expit_zero]; exact expit_strictMono h

theorem logit_pos {p : ℝ} (h0 : 1 / 2 < p) (h1 : p < 1) :
    ∃ y, logit? p = some y ∧ 0 < y ∧ expit y = p := by
  obtain ⟨y, hy, he⟩ := expit_logit (p := p) (by linarith) h1
  refine ⟨y, hy, ?_, he⟩
  by_contra hn
  have := expit_strictMono.monotone (not_lt.1 hn)
  rw [he, expit_zero] at this
  linarith

namespace Ring

/-- On the interior of the bounds the plane map is finite and is undone by the inverse map. -/
theorem realUnflat_realFlat {mn mx : Option ℝ} {x : ℝ} (h1 : ∀ m ∈ mn, m < x)
    (h2 : ∀ M ∈ mx, x < M) : ∃ y, realFlat mn mx x = some y ∧ realUnflat mn mx y = x := by
  match mn, mx with
  | none, none => exact ⟨x, rfl, rfl⟩
  | none, some M =>
    obtain ⟨y, hy, he⟩ := softplus_invSoftplus (x := M - x) (by have := h2 M rfl; linarith)
    refine ⟨-y, by simp [realFlat, hy], ?_⟩
    simp [realUnflat, he]
  | some m, none =>
    obtain ⟨y, hy, he⟩ := softplus_invSoftplus (x := x - m) (by have := h1 m rfl; linarith)
    refine ⟨y, by simp [realFlat, hy], ?_⟩
    simp [realUnflat, he]
  | some m, some M =>
    have a1 := h1 m rfl
    have a2 := h2 M rfl
    have a3 : 0 < M - m := by linarith
    obtain ⟨y, hy, he⟩ := expit_logit (p := (x - m) / (M - m)) (div_pos (by linarith) a3)
      (by rw [div_lt_one a3]; linarith)
    refine ⟨y, by simp [realFlat, div?, a3.ne', hy], ?_⟩
    simp only [realUnflat, he]
    field_simp
    ring

/-- The converse direction; with two bounds they must be in order. -/
theorem realFlat_realUnflat {mn mx : Option ℝ} (hb : ∀ m ∈ mn, ∀ M ∈ mx, m < M) (y : ℝ) :
    realFlat mn mx (realUnflat mn mx y) = some y := by
  match mn, mx with
  | none, none => rfl
  | none, some M => simp [realFlat, realUnflat, invSoftplus?_softplus]
  | some m, none => simp [realFlat, realUnflat, invSoftplus?_softplus]
  | some m, some M =>
    have a3 : 0 < M - m := by have := hb m rfl M rfl; linarith
    have : (m + expit y * (M - m) - m) / (M - m) = expit y := by field_simp; ring
    simp [realFlat, realUnflat, div?, a3.ne', logit?_expit]

/-- The inverse map lands strictly inside the stored bounds. -/
theorem realUnflat_mem {mn mx : Option ℝ} (hb : ∀ m ∈ mn, ∀ M ∈ mx, m < M) (y : ℝ) :
    (∀ m ∈ mn, m < realUnflat mn mx y) ∧ (∀ M ∈ mx, realUnflat mn mx y < M) := by
  match mn, mx with
  | none, none => simp
  | none, some M =>
    have := softplus_pos (-y)
    simpa [realUnflat] using this
  | some m, none =>
    have := softplus_pos y
    simpa [realUnflat] using this
  | some m, some M =>
    have a3 : 0 < M - m := by have := hb m rfl M rfl; linarith
    have h1 := expit_pos y
    have h2 := expit_lt_one y
    simp only [realUnflat, Option.mem_def, Option.some.injEq, forall_eq']
    constructor <;> nlinarith

theorem complexUnflat_complexFlat {mn : ℝ} {mx : Option ℝ} {x : ℂ} (h0 : 0 ≤ mn) (h1 : mn < ‖x‖)
    (h2 : ∀ M ∈ mx, ‖x‖ < mn + M) :
    ∃ c, complexFlat mn mx x = some c ∧ c ≠ 0 ∧ complexUnflat mn mx c = some x := by
  have hx : 0 < ‖x‖ := by linarith
  have hx' : (‖x‖ : ℂ) ≠ 0 := by exact_mod_cast hx.ne'
  have key : ∀ r : ℝ, 0 < r → ‖x * (r : ℂ) / (‖x‖ : ℂ)‖ = r := by
    intro r hr
    rw [norm_div, norm_mul, Complex.norm_real, Complex.norm_real, Real.norm_of_nonneg hr.le,
      Real.norm_of_nonneg hx.le]
    field_simp
  match mx with
  | none =>
    have hr : 0 < ‖x‖ - mn := by linarith
    have hr' : ((‖x‖ - mn : ℝ) : ℂ) ≠ 0 := by exact_mod_cast hr.ne'
    refine ⟨_, by simp only [complexFlat, cdiv?, if_neg hx.ne']; rfl, ?_, ?_⟩
    · rw [← norm_pos_iff, key _ hr]; exact hr
    · simp only [complexUnflat, key _ hr, cdiv?, if_neg hr.ne']
      congr 1
      rw [sub_add_cancel]
      field_simp
  | some M =>
    have hM := h2 M rfl
    have hM0 : 0 < M := by linarith
    have hq : (‖x‖ - mn) / M < 1 := by rw [div_lt_one hM0]; linarith
    have hq0 : 0 < (‖x‖ - mn) / M := div_pos (by linarith) hM0
    obtain ⟨c, hc, hc0, he⟩ := logit_pos (p := (‖x‖ - mn) / M * 0.5 + 0.5)
      (by norm_num; linarith) (by norm_num; linarith)
    have hc' : (c : ℂ) ≠ 0 := by exact_mod_cast hc0.ne'
    refine ⟨x * (c : ℂ) / (‖x‖ : ℂ), ?_, ?_, ?_⟩
    · simp only [complexFlat, div?, if_neg hM0.ne', Option.bind_eq_bind, Option.bind_some, hc,
        cdiv?, if_neg hx.ne']
    · rw [← norm_pos_iff, key _ hc0]; exact hc0
    · simp only [complexUnflat, key _ hc0, cdiv?, if_neg hc0.ne', he]
      have : M * ((‖x‖ - mn) / M * 0.5 + 0.5 - 0.5) * 2 + mn = ‖x‖ := by
        field_simp; ring
      rw [this]
      congr 1
      field_simp

theorem complexFlat_complexUnflat {mn : ℝ} {mx : Option ℝ} {c : ℂ} (h0 : 0 ≤ mn) (hc : c ≠ 0)
    (h2 : ∀ M ∈ mx, 0 < M) :
    ∃ x, complexUnflat mn mx c = some x ∧ mn < ‖x‖ ∧ (∀ M ∈ mx, ‖x‖ < mn + M) ∧
      complexFlat mn mx x = some c := by
  have hc0 : 0 < ‖c‖ := norm_pos_iff.2 hc
  have hc' : (‖c‖ : ℂ) ≠ 0 := by exact_mod_cast hc0.ne'
  have key : ∀ r : ℝ, 0 < r → ‖c * (r : ℂ) / (‖c‖ : ℂ)‖ = r := by
    intro r hr
    rw [norm_div, norm_mul, Complex.norm_real, Complex.norm_real, Real.norm_of_nonneg hr.le,
      Real.norm_of_nonneg hc0.le]
    field_simp
  match mx with
  | none =>
    have hr : 0 < ‖c‖ + mn := by linarith
    have hr' : ((‖c‖ + mn : ℝ) : ℂ) ≠ 0 := by exact_mod_cast hr.ne'
    refine ⟨_, by simp only [complexUnflat, cdiv?, if_neg hc0.ne']; rfl, ?_, by simp, ?_⟩
    · rw [key _ hr]; linarith
    · simp only [complexFlat, key _ hr, cdiv?, if_neg hr.ne']
      congr 1
      rw [add_sub_cancel_right]
      field_simp
  | some M =>
    have hM0 := h2 M rfl
    have he := expit_gt_half hc0
    have he1 := expit_lt_one ‖c‖
    set r := M * (expit ‖c‖ - 0.5) * 2 + mn with hrdef
    have hr1 : mn < r := by
      have : 0 < M * (expit ‖c‖ - 0.5) := mul_pos hM0 (by norm_num; linarith)
      linarith
    have hr : 0 < r := by linarith
    have hr2 : r < mn + M := by
      have : M * (expit ‖c‖ - 0.5) < M * 0.5 := by
        apply mul_lt_mul_of_pos_left _ hM0; norm_num; linarith
      linarith
    have hr' : (r : ℂ) ≠ 0 := by exact_mod_cast hr.ne'
    refine ⟨_, by simp only [complexUnflat, cdiv?, if_neg hc0.ne', ← hrdef]; rfl, ?_, ?_, ?_⟩
    · rw [key _ hr]; exact hr1
    · intro M' hM'
      cases hM'
      rw [key _ hr]
      exact hr2
    · have hq : (r - mn) / M * 0.5 + 0.5 = expit ‖c‖ := by rw [hrdef]; field_simp; ring
      simp only [complexFlat, key _ hr, div?, if_neg hM0.ne', Option.bind_eq_bind,
        Option.bind_some, hq, logit?_expit, cdiv?, if_neg hr.ne']
      congr 1
      field_simp

/-- At the origin both complex maps are 0/0. -/
theorem complexFlat_zero (mn : ℝ) (mx : Option ℝ) : complexFlat mn mx 0 = none := by
  cases mx with
  | none => simp [complexFlat, cdiv?]
  | some M =>
    simp only [complexFlat, norm_zero, cdiv?]
    cases div? (0 - mn) M <;> simp

theorem complexUnflat_zero (mn : ℝ) (mx : Option ℝ) : complexUnflat mn mx 0 = none := by
  cases mx <;> simp [complexUnflat, cdiv?]

end Ring

end Efax
