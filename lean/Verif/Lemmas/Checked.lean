import Verif.Spec.Finite

/-! # Operations inside their domains -/

namespace Efax.Checked

theorem div?_eq {K : Type} [DivisionRing K] {a b : K} (h : b ≠ 0) : div? a b = some (a / b) := if_neg h

theorem log?_eq {x : ℝ} (h : 0 < x) : log? x = some (Real.log x) := if_pos h

theorem log1p?_eq {x : ℝ} (h : -1 < x) : log1p? x = some (log1p x) := if_pos h

theorem logit?_eq {x : ℝ} (h : 0 < x ∧ x < 1) : logit? x = some (logit x) := if_pos h

theorem gammaln?_eq {x : ℝ} (h : 0 < x) : gammaln? x = some (gammaln x) := if_pos h

theorem digamma?_eq {x : ℝ} (h : 0 < x) : digamma? x = some (digamma x) := if_pos h

theorem betaln?_eq {a b : ℝ} (ha : 0 < a) (hb : 0 < b) : betaln? a b = some (betaln a b) := by
  simp [betaln?, gammaln?_eq ha, gammaln?_eq hb, gammaln?_eq (add_pos ha hb), betaln]

theorem pow?_eq {x k : ℝ} (h : 0 < x) : pow? x k = some (x ^ k) := if_pos h

theorem logIve?_eq {ν x : ℝ} (h : 0 < x) : logIve? ν x = some (logIve ν x) := if_pos h

theorem ivRatio?_eq {ν x : ℝ} (h : 0 < x) : ivRatio? ν x = some (ivRatio ν x) := if_pos h

theorem inv?_eq {n : ℕ} {K : Type} [_root_.Field K] {m : Matrix (Fin n) (Fin n) K} (h : m.det ≠ 0) :
    inv? m = some m⁻¹ := if_neg h

theorem logAbsDet?_eq {n : ℕ} {m : Matrix (Fin n) (Fin n) ℝ} (h : m.det ≠ 0) :
    logAbsDet? m = some (Real.log m.det) := by rw [logAbsDet?, if_neg h, Real.log_abs]

theorem vec?_eq {ι A : Type} {f : ι → Option A} {g : ι → A} (h : ∀ i, f i = some (g i)) :
    vec? f = some g := by
  obtain rfl : f = fun i => some (g i) := funext h
  simp [vec?]

theorem vec?_some {ι A : Type} (g : ι → A) : (vec? fun i => some (g i)) = some g := vec?_eq fun _ => rfl

end Efax.Checked

namespace Efax

open MeasureTheory Spec Checked

variable [MachEps]

set_option linter.overlappingInstances false in
theorem Spec.FiniteFor.simple {P N E X : Type} [AddCommGroup N] [Module ℝ N]
    [MeasurableSpace X] {c c' : Cls} {nat : Layout P N} {exp : Layout P E}
    {obs : List ℕ → (List ℕ → X) → Val → Prop} {F : P → ExpFam N E X} {toNat : P → E → N}
    {ecm : P → E → ℝ} {ent : Prop} {d : P → N → Prop} {e : P → E → Prop} {μ : Measure X}
    {dom : Set N} {dirs : Submodule ℝ N} {ok : P → Prop} {closed : Prop} {C : P → CheckedFam N E X}
    (h1 : ∀ p q, ok p → q ∈ dom → (C p).logNormalizer q = some ((F p).logNormalizer q))
    (h2 : ∀ p q, ok p → q ∈ dom → d p q → (C p).toExp q = some ((F p).toExp q))
    (h3 : ∀ p q, ok p → q ∈ dom → (C p).toNat ((F p).toExp q) = some (toNat p ((F p).toExp q)))
    (h4 : ∀ p q, ent → ok p → q ∈ dom → toNat p ((F p).toExp q) ∈ dom →
      (C p).ecm ((F p).toExp q) = some (ecm p ((F p).toExp q)))
    (h5 : ∀ p, ok p → ∀ᵐ x ∂μ, (C p).stat x = some ((F p).stat x) ∧
      (C p).carrier x = some ((F p).carrier x)) :
    FiniteFor (Setting.simple μ dom dirs ok closed :
      Setting (Kind.simple c c' nat exp obs F toNat ecm ent d e)) C where
  logNormalizer := h1
  toExp := h2
  toNat := h3
  ecm := h4
  obs := h5

end Efax
