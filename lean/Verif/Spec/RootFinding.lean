import Mathlib.Data.EReal.Operations

/-!
# Finding the point where a function changes its sign
-/

namespace Efax.Spec

/-- `f` is negative before `s` and positive after `s`. -/
def Crosses (f : ℝ → EReal) (s : ℝ) : Prop := (∀ t < s, f t < 0) ∧ ∀ t > s, 0 < f t

/-- `find f lower upper`, given a function and an interval, comes as near as `tol` to the point where
the function changes its sign, if that point is not further than `reach` from the middle of the
interval. -/
def FindsCrossing (reach tol : ℝ) (find : (ℝ → EReal) → ℝ → ℝ → ℝ) : Prop :=
  ∀ f s x, Crosses f s → |s - x| ≤ reach → |find f (x - 1) (x + 1) - s| ≤ tol

open Classical in
/-- Make an interval longer, on both sides, until the function has different signs at its ends; at
most `k` times. -/
noncomputable def expandInterval (f : ℝ → EReal) : ℕ → ℝ → ℝ → ℝ × ℝ
  | 0, a, b => (a, b)
  | k + 1, a, b => if f a < 0 ∧ 0 < f b then (a, b) else expandInterval f k (a - (b - a)) (b + (b - a))

open Classical in
/-- Halve an interval `n` times, and take the middle. -/
noncomputable def halveInterval (f : ℝ → EReal) : ℕ → ℝ → ℝ → ℝ
  | 0, a, b => (a + b) / 2
  | n + 1, a, b =>
    if f ((a + b) / 2) < 0 then halveInterval f n ((a + b) / 2) b
    else halveInterval f n a ((a + b) / 2)

/-- Bisection, with an interval that is expanded if necessary. -/
noncomputable def bisection (k n : ℕ) (f : ℝ → EReal) (a b : ℝ) : ℝ :=
  halveInterval f n (expandInterval f k a b).1 (expandInterval f k a b).2

end Efax.Spec
