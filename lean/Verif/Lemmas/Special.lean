import Verif.Lemmas.Ring
import Verif.Model.Special
import Mathlib.Analysis.SpecialFunctions.Gamma.Deriv
import Mathlib.Analysis.SpecialFunctions.Log.Deriv

/-!
# Derivatives and identities of the library functions
-/

namespace Efax

theorem expit_eq (x : ℝ) : expit x = Real.exp x / (Real.exp x + 1) := by
  have h := Real.exp_pos x
  rw [expit, Real.exp_neg]
  field_simp

theorem one_sub_expit_eq (x : ℝ) : 1 - expit x = 1 / (Real.exp x + 1) := by
  rw [expit_eq]
  field_simp
  ring

theorem hasDerivAt_logaddexp_zero (x : ℝ) : HasDerivAt (fun x => logaddexp x 0) (expit x) x := by
  rw [expit_eq]
  have h : HasDerivAt (fun x : ℝ => Real.exp x + Real.exp 0) (Real.exp x) x :=
    (Real.hasDerivAt_exp x).add_const _
  have := h.log (by positivity)
  simpa [logaddexp] using this

theorem logit_expit (x : ℝ) : logit (expit x) = x := by
  rw [logit, one_sub_expit_eq, expit_eq, div_div_div_cancel_right₀ (by positivity), div_one,
    Real.log_exp]

theorem expit_of_logit {p : ℝ} (h0 : 0 < p) (h1 : p < 1) : expit (logit p) = p := by
  have : 0 < 1 - p := by linarith
  rw [logit, expit_eq, Real.exp_log (by positivity)]
  field_simp
  ring

theorem gammaln_nat (n : ℕ) : gammaln (n + 1) = Real.log n.factorial := by
  rw [gammaln, Real.Gamma_nat_eq_factorial]

theorem hasDerivAt_gammaln {x : ℝ} (hx : 0 < x) : HasDerivAt gammaln (digamma x) x := by
  have hd : DifferentiableAt ℝ Real.Gamma x :=
    Real.differentiableAt_Gamma fun m => by
      have : (0 : ℝ) ≤ m := Nat.cast_nonneg m
      intro h
      linarith
  have := hd.hasDerivAt.log (Real.Gamma_pos_of_pos hx).ne'
  exact this

end Efax
