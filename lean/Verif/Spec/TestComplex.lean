import Mathlib.Analysis.Complex.Basic

/-!
# Sample moments, for the tests of the replacements of `scipy.stats`
-/

namespace Efax.Spec

/-- The average of an array with two axes. -/
noncomputable def average (m n : ℕ) (f : ℕ → ℕ → ℂ) : ℂ :=
  (∑ ab : Fin m × Fin n, f ab.1.val ab.2.val) / (m * n)

/-- Closeness of an estimate `a` to the true value `b`. -/
def Near (rtol atol : ℝ) (a b : ℂ) : Prop := ‖a - b‖ ≤ atol + rtol * ‖b‖

end Efax.Spec
