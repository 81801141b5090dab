import Verif.Spec.RootFinding
import Mathlib.Tactic.Linarith
import Mathlib.Tactic.Ring
import Mathlib.Tactic.FieldSimp
import Mathlib.Data.EReal.Basic

/-! # Bisection converges to the point where the sign changes -/

namespace Efax

open Spec

theorem halve_mem {f : ℝ → EReal} {s : ℝ} (h : Crosses f s) (n : ℕ) {a b : ℝ} (ha : a ≤ s)
    (hb : s ≤ b) : |halveInterval f n a b - s| ≤ (b - a) / 2 ^ (n + 1) := by
  induction n generalizing a b with
  | zero =>
    rw [halveInterval, abs_le]
    constructor <;> norm_num <;> linarith
  | succ n ih =>
    rw [halveInterval]
    split_ifs with hm
    · have h1 : (a + b) / 2 ≤ s := by
        by_contra hc
        exact lt_asymm hm (h.2 _ (not_le.1 hc))
      refine (ih h1 hb).trans (le_of_eq ?_)
      rw [pow_succ (2 : ℝ) (n + 1)]
      field_simp
      ring
    · have h1 : s ≤ (a + b) / 2 := by
        by_contra hc
        exact hm (h.1 _ (not_le.1 hc))
      refine (ih ha h1).trans (le_of_eq ?_)
      rw [pow_succ (2 : ℝ) (n + 1)]
      field_simp
      ring

theorem expand_spec {f : ℝ → EReal} {s x : ℝ} (h : Crosses f s) (k : ℕ) {r : ℝ} (hr : 0 < r)
    (hs : |s - x| ≤ r * 3 ^ k) : (expandInterval f k (x - r) (x + r)).1 ≤ s ∧
      s ≤ (expandInterval f k (x - r) (x + r)).2 ∧
      (expandInterval f k (x - r) (x + r)).2 - (expandInterval f k (x - r) (x + r)).1 ≤
        2 * r * 3 ^ k := by
  induction k generalizing r with
  | zero =>
    rw [pow_zero, mul_one, abs_le] at hs
    simp only [expandInterval, pow_zero]
    exact ⟨by linarith, by linarith, by linarith⟩
  | succ k ih =>
    rw [expandInterval]
    split_ifs with hc
    · have h1 : x - r ≤ s := by
        by_contra hn
        exact lt_asymm hc.1 (h.2 _ (not_le.1 hn))
      have h2 : s ≤ x + r := by
        by_contra hn
        exact lt_asymm hc.2 (h.1 _ (not_le.1 hn))
      refine ⟨h1, h2, ?_⟩
      have : (1 : ℝ) ≤ 3 ^ (k + 1) := one_le_pow₀ (by norm_num)
      simp only
      nlinarith
    · have e1 : x - r - (x + r - (x - r)) = x - 3 * r := by ring
      have e2 : x + r + (x + r - (x - r)) = x + 3 * r := by ring
      rw [e1, e2]
      have := ih (r := 3 * r) (by linarith) (by rw [pow_succ] at hs; linarith)
      refine ⟨this.1, this.2.1, this.2.2.trans (le_of_eq ?_)⟩
      rw [pow_succ]
      ring

theorem crosses_of_strictMono {g : ℝ → ℝ} (h : StrictMono g) {s : ℝ} (h0 : g s = 0) :
    Crosses (fun t => (g t : EReal)) s :=
  ⟨fun t ht => by
    have := h ht
    rw [h0] at this
    show ((g t : ℝ) : EReal) < 0
    exact_mod_cast this, fun t ht => by
    have := h ht
    rw [h0] at this
    show (0 : EReal) < ((g t : ℝ) : EReal)
    exact_mod_cast this⟩

end Efax
