import Verif.Lemmas.Families.Discrete
import Verif.Lemmas.Families.Multinomial
import Verif.Lemmas.Families.Normal
import Verif.Lemmas.Families.Simplex
import Mathlib.NumberTheory.Harmonic.GammaDeriv

/-!
# `expected_carrier_measure` is the expectation of the carrier measure (C36)

For every family with an entropy.  The expectation parameters are those of the distribution, `toExp q`.
-/

namespace Efax

open MeasureTheory Spec Set

/-! ### Moments of the gamma and normal families -/

theorem gamma_mean {q : ℝ × ℝ} (h : q ∈ gammaDom) :
    HasMean positive (gamma.pdf q) (fun x => x) (-(q.2 + 1) / q.1) :=
  (gamma_regular.mean_dot h (v := (1, 0)) trivial).congr (fun x => by simp [gamma])
    (by simp [gamma])

theorem gamma_mean_log {q : ℝ × ℝ} (h : q ∈ gammaDom) :
    HasMean positive (gamma.pdf q) Real.log (digamma (q.2 + 1) - Real.log (-q.1)) :=
  (gamma_regular.mean_dot h (v := (0, 1)) trivial).congr (fun x => by simp [gamma])
    (by simp [gamma])

theorem normal_mean {q : ℝ × ℝ} (h : q ∈ normalDom) :
    HasMean volume (normal.pdf q) (fun x => x) (-q.1 / (2 * q.2)) :=
  (normal_regular.mean_dot h (v := (1, 0)) trivial).congr (fun x => by simp [normal])
    (by simp [normal])

theorem normal_mean_sq {q : ℝ × ℝ} (h : q ∈ normalDom) :
    HasMean volume (normal.pdf q) (fun x => x ^ 2) ((-q.1 / (2 * q.2)) ^ 2 - 0.5 / q.2) :=
  (normal_regular.mean_dot h (v := (0, 1)) trivial).congr (fun x => by simp [normal])
    (by simp [normal])

theorem digamma_one : digamma 1 = -Real.eulerMascheroniConstant := by
  rw [digamma, Real.eulerMascheroniConstant_eq_neg_deriv, Real.Gamma_one]
  simp

/-- The mean of the logarithm of an exponential variable. -/
theorem exponential_mean_log {q : ℝ} (h : q < 0) :
    HasMean positive (exponential.pdf q) Real.log
      (-Real.eulerMascheroniConstant - Real.log (-q)) := by
  have := gamma_mean_log (q := (q, 0)) ⟨h, by norm_num⟩
  rw [← funext (exponential_pdf q)] at this
  rwa [zero_add, digamma_one] at this

/-! ### C36 -/

theorem C36_bernoulli (q : ℝ) :
    HasMean Measure.count (bernoulli.pdf q) bernoulli.carrier (bernoulliEcm (bernoulli.toExp q)) :=
  .const (bernoulli_regular.density q trivial) 0

theorem C36_geometric {q : ℝ} (h : q < 0) :
    HasMean Measure.count (geometric.pdf q) geometric.carrier (geometricEcm (geometric.toExp q)) :=
  (HasMean.const ((negativeBinomial_regular le_rfl).density q h) 0).congr
    (fun x => by simp [geometric, negativeBinomial, gammaln]) rfl

theorem C36_multinomial {d : ℕ} (q : Fin (d + 1) → ℝ) :
    HasMean (categories d) ((multinomial d).pdf q) (multinomial d).carrier
      (multinomialEcm ((multinomial d).toExp q)) :=
  .const ((multinomial_regular d).density q trivial) 0

theorem C36_exponential {q : ℝ} (h : q < 0) :
    HasMean positive (exponential.pdf q) exponential.carrier
      (exponentialEcm (exponential.toExp q)) :=
  .const (exponential_regular.density q h) 0

theorem C36_gamma {q : ℝ × ℝ} (h : q ∈ gammaDom) :
    HasMean positive (gamma.pdf q) gamma.carrier (gammaEcm (gamma.toExp q)) :=
  .const (gamma_regular.density q h) 0

/-- `toNat` is any conversion that is right at this distribution. -/
theorem C36_chi_square {q : ℝ} (h : -1 < q) (toNat : ℝ → ℝ) (hn : toNat (chiSquare.toExp q) = q) :
    HasMean positive (chiSquare.pdf q) chiSquare.carrier
      (chiSquareEcm toNat (chiSquare.toExp q)) := by
  have := gamma_mean (q := (-0.5, q)) ⟨by norm_num, h⟩
  rw [← funext (chiSquare_pdf q)] at this
  refine (this.const_mul (-0.5)).congr (fun x => by simp [chiSquare]; ring) ?_
  rw [chiSquareEcm, hn]
  norm_num
  ring

theorem C36_chi {q : ℝ} (h : -1 < q) (toNat : ℝ → ℝ) (hn : toNat (chi.toExp q) = q) :
    HasMean positive (chi.pdf q) chi.carrier (chiEcm toNat (chi.toExp q)) := by
  have h1 := gamma_mean (q := (-0.5, q)) ⟨by norm_num, h⟩
  have h2 := gamma_mean_log (q := (-0.5, q)) ⟨by norm_num, h⟩
  rw [← funext (chiSquare_pdf q)] at h1 h2
  have h3 := ((h2.const_mul 0.5).sub (h1.const_mul 0.5)).add
    (HasMean.const (chiSquare_regular.density q h) (Real.log 2))
  have h4 := (mean_power two_pos (chi_power q)).2 h3
  refine ((HasMean_congr_positive fun x hx => ?_).1 h4).congr (fun _ => rfl) ?_
  · simp only [chi, transformed]
    rw [Real.log_mul two_ne_zero hx.ne', Real.rpow_two, Real.log_pow]
    norm_num
    ring
  · rw [chiEcm, hn]
    have : Real.log (1 / 2) = -Real.log 2 := by rw [one_div, Real.log_inv]
    norm_num [this]
    ring

theorem C36_rayleigh {q : ℝ} (h : q < 0) :
    HasMean positive (rayleigh.pdf q) rayleigh.carrier (rayleighEcm (rayleigh.toExp q)) := by
  have h1 := ((exponential_mean_log h).const_mul 0.5).add
    (HasMean.const (exponential_regular.density q h) (Real.log 2))
  have h4 := (mean_power two_pos (rayleigh_power q)).2 h1
  refine ((HasMean_congr_positive fun x hx => ?_).1 h4).congr (fun _ => rfl) ?_
  · simp only [rayleigh, transformed]
    rw [Real.rpow_two, Real.log_pow]
    norm_num
    ring
  · simp only [rayleighEcm, rayleigh, transformed, exponential]
    have e : -1 / q * 0.5 = (-q)⁻¹ * 2⁻¹ := by
      have := h.ne
      norm_num
      field_simp
    rw [e, Real.log_mul (inv_ne_zero (by linarith)) (by norm_num), Real.log_inv, Real.log_inv]
    norm_num
    ring

theorem C36_weibull {k : ℝ} (hk : 0 < k) {q : ℝ} (h : q < 0) :
    HasMean positive ((weibull k).pdf q) (weibull k).carrier
      (weibullEcm k ((weibull k).toExp q)) := by
  have h1 := (exponential_mean_log h).const_mul (1 - 1 / k)
  have h4 := (mean_power hk (weibull_power hk q)).2 h1
  refine ((HasMean_congr_positive fun x hx => ?_).1 h4).congr (fun _ => rfl) ?_
  · simp only [weibull]
    rw [Real.log_rpow hx]
    field_simp
  · simp only [weibullEcm, weibull]
    have e : -1 / q = (-q)⁻¹ := by
      have := h.ne
      field_simp
    rw [e, Real.log_inv]
    ring

theorem C36_normal {q : ℝ × ℝ} (h : q ∈ normalDom) :
    HasMean volume (normal.pdf q) normal.carrier (normalEcm (normal.toExp q)) :=
  .const (normal_regular.density q h) 0

theorem C36_unit_normal (q : ℝ) :
    HasMean volume (unitNormal.pdf q) unitNormal.carrier (unitNormalEcm (unitNormal.toExp q)) := by
  have := normal_mean_sq (q := (q, -0.5)) (by norm_num [normalDom])
  rw [← funext (unitNormal_pdf q)] at this
  refine (this.const_mul (-0.5)).congr (fun x => by simp [unitNormal]) ?_
  simp only [unitNormalEcm, unitNormal]
  norm_num

theorem C36_dirichlet {d : ℕ} {q : Fin (d + 1) → ℝ} (h : q ∈ dirichletDom (d + 1)) :
    HasMean (volume.restrict (simplex d)) ((dirichlet d).pdf q) (dirichlet d).carrier
      (dirichletEcm ((dirichlet d).toExp q)) :=
  .const ((dirichlet_regular d).density q h) 0

theorem C36_beta {q : Fin 2 → ℝ} (h : q ∈ dirichletDom 2) :
    HasMean (volume.restrict (Ioo 0 1)) (beta.pdf q) beta.carrier (dirichletEcm (beta.toExp q)) :=
  .const (beta_regular.density q h) 0

theorem C36_gen_dirichlet {k : ℕ} {q : (Fin k → ℝ) × (Fin k → ℝ)} (h : q ∈ genDirichletDom k) :
    HasMean (volume.restrict (simplex k)) ((genDirichlet k).pdf q) (genDirichlet k).carrier
      (genDirichletEcm ((genDirichlet k).toExp q)) :=
  .const ((genDirichlet_regular k).density q h) 0

/-- The hypotheses are satisfiable. -/
example : (-2 : ℝ) < 0 ∧ (-1 : ℝ) < 3 ∧ ((-2, 3) : ℝ × ℝ) ∈ gammaDom ∧
    ((5, -2) : ℝ × ℝ) ∈ normalDom ∧ (fun i => (i : ℝ) : Fin 2 → ℝ) ∈ dirichletDom 2 ∧
    ((fun _ => 0, fun _ => 0) : (Fin 3 → ℝ) × (Fin 3 → ℝ)) ∈ genDirichletDom 3 := by
  refine ⟨by norm_num, by norm_num, ⟨by norm_num, by norm_num⟩, by norm_num [normalDom],
    fun i => ?_, fun i => by norm_num, fun i => ?_⟩
  · have : (0 : ℝ) ≤ (i : ℝ) := Nat.cast_nonneg _
    show (-1 : ℝ) < (i : ℝ)
    linarith
  · simp only [ite_self, Finset.sum_const_zero, zero_add]
    positivity

example : ∃ toNat : ℝ → ℝ, toNat (chiSquare.toExp 2) = 2 := ⟨fun _ => 2, rfl⟩

end Efax
