import Verif.Spec.Textbook
import Verif.Spec.Measures
import Verif.Props.Families.Probability
import Verif.Model.Families.Positive
import Verif.Model.Families.Normal
import Verif.Model.Families.Simplex

/-!
# The densities are the textbook ones (C57): discrete families, families on the positive numbers, the
univariate normal families and the families on the simplex
-/

namespace Efax

open Spec Real

/-- Bernoulli: the expectation parameter is the probability of success. -/
theorem C57_bernoulli (q : ℝ) (x : Bool) :
    bernoulli.pdf q x = Textbook.bernoulli (bernoulli.toExp q) x := by
  have h := exp_pos q
  cases x
  · simp only [ExpFam.pdf, ExpFam.logPdf, bernoulli, ofBool, logaddexp, Textbook.bernoulli, expit]
    simp only [Bool.false_eq_true, if_false, mul_zero, zero_sub, add_zero, exp_neg, exp_zero]
    rw [exp_log (by positivity)]
    field_simp
    ring
  · simp only [ExpFam.pdf, ExpFam.logPdf, bernoulli, ofBool, logaddexp, Textbook.bernoulli, expit]
    simp only [if_true, mul_one, add_zero, exp_sub, exp_neg, exp_zero]
    rw [exp_log (by positivity)]
    field_simp

example : bernoulli.pdf 0 true = 1 / 2 := by
  rw [C57_bernoulli]; norm_num [Textbook.bernoulli, bernoulli, expit]

/-- Poisson. -/
theorem C57_poisson (q : ℝ) (k : ℕ) : poisson.pdf q k = Textbook.poisson (poisson.toExp q) k := by
  simp only [ExpFam.pdf, ExpFam.logPdf, poisson, gammaln, Textbook.poisson]
  rw [Real.Gamma_nat_eq_factorial, exp_add, exp_sub, exp_neg, exp_neg, exp_log (by positivity), mul_comm q,
    exp_nat_mul]
  field_simp

example : poisson.pdf 0 2 = Real.exp (-1) / 2 := by
  rw [C57_poisson]; norm_num [Textbook.poisson, poisson, Nat.factorial]

/-- Negative binomial: success has the probability `1 / (1 + mean / r)`. -/
theorem C57_negative_binomial {r : ℕ} (hr : 1 ≤ r) {q : ℝ} (hq : q < 0) (k : ℕ) :
    (negativeBinomial r).pdf q k =
      Textbook.negativeBinomial r (1 / (1 + (negativeBinomial r).toExp q / r)) k := by
  have h1 : exp q < 1 := exp_lt_one_iff.2 hq
  have hr0 : (r : ℝ) ≠ 0 := by positivity
  have hp : 1 / (1 + (negativeBinomial r).toExp q / r) = 1 - exp q := by
    simp only [negativeBinomial, expm1, exp_neg]
    have : (exp q)⁻¹ - 1 ≠ 0 := by
      rw [sub_ne_zero]; exact (one_lt_inv₀ (exp_pos q) |>.2 h1).ne'
    have hq0 := (exp_pos q).ne'
    have h2 : 1 - exp q ≠ 0 := by linarith
    field_simp
    ring
  rw [hp, Textbook.negativeBinomial, sub_sub_cancel]
  obtain ⟨s, rfl⟩ : ∃ s, r = s + 1 := ⟨r - 1, by omega⟩
  simp only [ExpFam.pdf, ExpFam.logPdf, negativeBinomial, gammaln, log1p]
  have e1 : ((k : ℝ) + ((s + 1 : ℕ) : ℝ) - 1 + 1) = ((k + s : ℕ) : ℝ) + 1 := by push_cast; ring
  have e2 : ((k : ℝ) + ((s + 1 : ℕ) : ℝ) - 1 - k + 1) = (s : ℝ) + 1 := by push_cast; ring
  rw [e1, e2, Real.Gamma_nat_eq_factorial, Real.Gamma_nat_eq_factorial, Real.Gamma_nat_eq_factorial,
    show k + (s + 1) - 1 = k + s by omega, Nat.choose_symm_add, Nat.add_choose, Nat.cast_div
      (by exact Nat.factorial_mul_factorial_dvd_factorial_add k s) (by positivity)]
  have : exp (q * k - -((s + 1 : ℕ) : ℝ) * log (1 + -exp q) +
      (log (k + s).factorial - log k.factorial - log s.factorial)) =
      exp q ^ k * exp (log (1 + -exp q)) ^ (s + 1) *
        (exp (log (k + s).factorial) / exp (log k.factorial) / exp (log s.factorial)) := by
    rw [← exp_nat_mul, ← exp_nat_mul, ← exp_sub, ← exp_sub, ← exp_add, ← exp_add]
    congr 1
    ring
  rw [this, exp_log (by linarith), exp_log (by positivity), exp_log (by positivity), exp_log (by positivity)]
  push_cast
  field_simp
  ring

example (k : ℕ) : (negativeBinomial 3).pdf (-1) k =
    Textbook.negativeBinomial 3 (1 / (1 + (negativeBinomial 3).toExp (-1) / (3 : ℕ))) k :=
  C57_negative_binomial (by norm_num) (by norm_num) k

/-- Geometric: success has the probability `1 / (1 + mean)`. -/
theorem C57_geometric {q : ℝ} (hq : q < 0) (k : ℕ) :
    geometric.pdf q k = Textbook.geometric (1 / (1 + geometric.toExp q)) k := by
  have h := C57_negative_binomial le_rfl hq k
  rw [geometric, h, Textbook.negativeBinomial, Textbook.geometric]
  simp

example : geometric.pdf (-log 2) 1 = 1 / 4 := by
  rw [C57_geometric (by linarith [log_pos one_lt_two])]
  simp [Textbook.geometric, geometric, negativeBinomial, expm1, exp_log]
  norm_num

/-- Logarithmic: the observation `k + 1`. -/
theorem C57_logarithmic {q : ℝ} (hq : q < 0) (k : ℕ) :
    logarithmic.pdf q k = Textbook.logarithmic (exp q) (k + 1) := by
  have h1 : exp q < 1 := exp_lt_one_iff.2 hq
  have hl : log (1 + -exp q) < 0 := log_neg (by linarith) (by linarith [exp_pos q])
  simp only [ExpFam.pdf, ExpFam.logPdf, logarithmic, Textbook.logarithmic, log1p]
  rw [exp_add, exp_sub, exp_neg, exp_log (by linarith), exp_log (by positivity), mul_comm q,
    show ((k : ℝ) + 1) = ((k + 1 : ℕ) : ℝ) by push_cast; ring, exp_nat_mul, ← sub_eq_add_neg]
  rw [← sub_eq_add_neg] at hl
  field_simp

example : logarithmic.pdf (-log 2) 0 = 1 / 2 / log 2 := by
  rw [C57_logarithmic (by linarith [log_pos one_lt_two])]
  have : (1 : ℝ) - 2⁻¹ = 2⁻¹ := by norm_num
  simp [Textbook.logarithmic, exp_neg, exp_log, this]

/-- Multinomial: the expectation parameters are the probabilities of all categories but the last. -/
theorem C57_multinomial (d : ℕ) (q : Fin (d + 1) → ℝ) (k : Fin (d + 2)) :
    (multinomial d).pdf q (oneHot k) =
      Fin.snoc (α := fun _ => ℝ) ((multinomial d).toExp q) (1 - ∑ i, (multinomial d).toExp q i) k :=
  ((C52_multinomial q).2.2 k).1.symm

example : (multinomial 0).pdf (fun _ => 0) (oneHot 1) = 1 / 2 := by
  rw [C57_multinomial, show (1 : Fin 2) = Fin.last 1 from rfl, Fin.snoc_last]
  have e : (multinomial 0).toExp (fun _ => 0) = fun _ => 1 / 2 := by
    funext i
    refine (toExp_multinomial (fun _ => 0) i).trans ?_
    norm_num
  norm_num [e]

/-- Exponential. -/
theorem C57_exponential {q : ℝ} (hq : q < 0) (x : ℝ) :
    exponential.pdf q x = Textbook.exponential (exponential.toExp q) x := by
  simp only [ExpFam.pdf, ExpFam.logPdf, exponential, Textbook.exponential]
  rw [add_zero, sub_neg_eq_add, exp_add, exp_log (by linarith)]
  rw [show -x / (-1 / q) = q * x by field_simp]
  field_simp

example : exponential.pdf (-2) 1 = 2 * Real.exp (-2) := by
  rw [C57_exponential (by norm_num)]; norm_num [Textbook.exponential, exponential]; ring

/-- Gamma. -/
theorem C57_gamma {q : ℝ × ℝ} (hq : q ∈ gammaDom) {x : ℝ} (hx : 0 < x) :
    gamma.pdf q x = Textbook.gamma (q.2 + 1) (-1 / q.1) x := by
  obtain ⟨h1, h2⟩ := hq
  have h3 : 0 < -q.1 := by linarith
  simp only [ExpFam.pdf, ExpFam.logPdf, gamma, Textbook.gamma, gammaln]
  rw [show -1 / q.1 = (-q.1)⁻¹ by rw [inv_neg, neg_div, one_div], inv_rpow h3.le, add_sub_cancel_right,
    show -x / (-q.1)⁻¹ = q.1 * x by rw [div_inv_eq_mul]; ring, rpow_def_of_pos hx, rpow_def_of_pos h3]
  rw [add_zero, exp_sub, exp_add, exp_sub, exp_log (Gamma_pos_of_pos (by linarith))]
  have := (Gamma_pos_of_pos (show 0 < q.2 + 1 by linarith)).ne'
  rw [mul_comm (log x), mul_comm (log (-q.1))]
  field_simp

example : gamma.pdf (-2, 1) 3 = Textbook.gamma (1 + 1) (-1 / -2) 3 :=
  C57_gamma (q := (-2, 1)) ⟨by norm_num, by norm_num⟩ (by norm_num)

/-- Chi-square: the parameter is half the number of degrees of freedom, less one. -/
theorem C57_chi_square {q : ℝ} (hq : -1 < q) {x : ℝ} (hx : 0 < x) :
    chiSquare.pdf q x = Textbook.chiSquare ((q + 1) * 2) x := by
  simp only [ExpFam.pdf, ExpFam.logPdf, chiSquare, Textbook.chiSquare, gammaln]
  have hg := Gamma_pos_of_pos (show 0 < q + 1 by linarith)
  rw [show (q + 1) * 2 / 2 = q + 1 by ring, add_sub_cancel_right, rpow_def_of_pos hx,
    rpow_def_of_pos two_pos]
  rw [exp_add, exp_sub, exp_sub, exp_log hg, show (0.5 : ℝ) = 2⁻¹ by norm_num, log_inv,
    show (q + 1) * -log 2 = -(log 2 * (q + 1)) by ring, exp_neg, mul_comm q,
    show -x * 2⁻¹ = -x / 2 by ring]
  have := exp_pos (log 2 * (q + 1))
  field_simp

example : chiSquare.pdf 0 1 = Real.exp (-1 / 2) / 2 := by
  rw [C57_chi_square (by norm_num) one_pos]; norm_num [Textbook.chiSquare]

/-- Chi. -/
theorem C57_chi {q : ℝ} (hq : -1 < q) {x : ℝ} (hx : 0 < x) :
    chi.pdf q x = Textbook.chi ((q + 1) * 2) x := by
  simp only [ExpFam.pdf, ExpFam.logPdf, chi, transformed, chiSquare, Textbook.chi, gammaln]
  have hg := Gamma_pos_of_pos (show 0 < q + 1 by linarith)
  rw [show (q + 1) * 2 / 2 = q + 1 by ring, add_sub_cancel_right, rpow_def_of_pos hx,
    rpow_def_of_pos two_pos]
  have e : exp (q * log (x ^ 2) - (log (Gamma (q + 1)) - (q + 1) * log 0.5) +
      (log (2 * x) - x ^ 2 * 0.5)) = exp (log x * ((q + 1) * 2 - 1)) * exp (-x ^ 2 / 2) /
        (exp (log 2 * q) * exp (log (Gamma (q + 1)))) := by
    rw [← exp_add, ← exp_add, ← exp_sub, log_pow, log_mul two_ne_zero hx.ne',
      show (0.5 : ℝ) = 2⁻¹ by norm_num, log_inv]
    congr 1
    push_cast
    ring
  rw [e, exp_log hg]

example : chi.pdf 0 1 = Real.exp (-1 / 2) := by
  rw [C57_chi (by norm_num) one_pos]; norm_num [Textbook.chi]

/-- Rayleigh. -/
theorem C57_rayleigh {q : ℝ} (hq : q < 0) {x : ℝ} (hx : 0 < x) :
    rayleigh.pdf q x = Textbook.rayleigh (sqrt (rayleigh.toExp q / 2)) x := by
  have hs : (0 : ℝ) ≤ -1 / q / 2 := div_nonneg (div_nonneg_of_nonpos (by norm_num) hq.le) two_pos.le
  simp only [ExpFam.pdf, ExpFam.logPdf, rayleigh, transformed, exponential, Textbook.rayleigh, sq_sqrt hs]
  rw [show -x ^ 2 / (2 * (-1 / q / 2)) = q * x ^ 2 by field_simp,
    sub_neg_eq_add, exp_add, exp_add, exp_add, exp_log (by linarith), exp_log hx, exp_log two_pos]
  field_simp

example : rayleigh.pdf (-2) 1 = Textbook.rayleigh (sqrt (rayleigh.toExp (-2) / 2)) 1 :=
  C57_rayleigh (by norm_num) one_pos

/-- Weibull. -/
theorem C57_weibull {k : ℝ} (hk : 0 < k) {q : ℝ} (hq : q < 0) {x : ℝ} (hx : 0 < x) :
    (weibull k).pdf q x = Textbook.weibull k ((weibull k).toExp q ^ (1 / k)) x := by
  have h1 : 0 < -1 / q := div_pos_of_neg_of_neg (by norm_num) hq
  have h2 : ((-1 / q) ^ (1 / k)) ^ k = -1 / q := by
    rw [← rpow_mul h1.le, one_div_mul_cancel hk.ne', rpow_one]
  set l := (-1 / q) ^ (1 / k) with hl
  have hl0 : 0 < l := rpow_pos_of_pos h1 _
  have e1 : (weibull k).toExp q ^ (1 / k) = l := rfl
  simp only [e1, ExpFam.pdf, ExpFam.logPdf, Textbook.weibull]
  rw [div_rpow hx.le hl0.le, div_rpow hx.le hl0.le, h2, rpow_sub_one hl0.ne', h2]
  simp only [weibull]
  rw [rpow_def_of_pos hx (k - 1), mul_comm (log x) (k - 1),
    show q * x ^ k - (-log (-q) - log k) + (k - 1) * log x =
      q * x ^ k + (log (-q) + log k + (k - 1) * log x) by ring, exp_add, exp_add, exp_add,
    exp_log (by linarith), exp_log hk, show -(x ^ k / (-1 / q)) = q * x ^ k by field_simp]
  field_simp

example : (weibull 3).pdf (-2) 1 = Textbook.weibull 3 ((weibull 3).toExp (-2) ^ (1 / 3 : ℝ)) 1 :=
  C57_weibull (by norm_num) (by norm_num) one_pos

/-- Normal. -/
theorem C57_normal {q : ℝ × ℝ} (hq : q ∈ normalDom) (x : ℝ) :
    normal.pdf q x = Textbook.normal (normal.toExp q).1 (normalVariance (normal.toExp q)) x := by
  have hq : q.2 < 0 := hq
  have hv : normalVariance (normal.toExp q) = -1 / (2 * q.2) := by
    simp only [normalVariance, normal]; ring
  have hpos : 0 < -π / q.2 := div_pos_of_neg_of_neg (by linarith [pi_pos]) hq
  rw [hv]
  simp only [ExpFam.pdf, ExpFam.logPdf, normal, Textbook.normal]
  rw [show 2 * π * (-1 / (2 * q.2)) = -π / q.2 by field_simp, sqrt_eq_rpow, rpow_def_of_pos hpos, ← exp_sub]
  congr 1
  have := hq.ne
  field_simp
  ring

-- The standard normal density.
example (x : ℝ) : normal.pdf (0, -1 / 2) x = Textbook.normal 0 1 x := by
  rw [C57_normal (show (0, -1 / 2) ∈ normalDom by norm_num [normalDom])]
  norm_num [normal, normalVariance]

/-- Normal with unit variance. -/
theorem C57_unit_normal (q x : ℝ) : unitNormal.pdf q x = Textbook.normal (unitNormal.toExp q) 1 x := by
  simp only [ExpFam.pdf, ExpFam.logPdf, unitNormal, Textbook.normal]
  rw [mul_one, sqrt_eq_rpow, rpow_def_of_pos (by positivity), ← exp_sub, mul_comm π]
  congr 1
  ring_nf

/-- Dirichlet: the observation lists all coordinates but the last. -/
theorem C57_dirichlet (d : ℕ) {q : Fin (d + 1) → ℝ} (hq : q ∈ dirichletDom (d + 1)) {x : Fin d → ℝ}
    (hx : x ∈ simplex d) : (dirichlet d).pdf q x =
      Textbook.dirichlet (fun i => q i + 1) (Fin.snoc (α := fun _ => ℝ) x (1 - ∑ i, x i)) := by
  set y : Fin (d + 1) → ℝ := Fin.snoc (α := fun _ => ℝ) x (1 - ∑ i, x i) with hy
  have hpos : ∀ i, 0 < y i := fun i => by
    refine Fin.lastCases ?_ (fun j => ?_) i
    · simpa [hy] using hx.2
    · simpa [hy] using hx.1 j
  have hs : ∀ i, (dirichlet d).stat x i = log (y i) := fun i => by
    refine Fin.lastCases ?_ (fun j => ?_) i <;> simp [dirichlet, hy]
  have hsum : 0 < ∑ i, (q i + 1) :=
    Finset.sum_pos (fun i _ => by linarith [hq i]) Finset.univ_nonempty
  have e : ∑ i, q i + ((d + 1 : ℕ) : ℝ) = ∑ i, (q i + 1) := by simp [Finset.sum_add_distrib]
  have hg : ∀ i, 0 < Gamma (q i + 1) := fun i => Gamma_pos_of_pos (by linarith [hq i])
  simp only [ExpFam.pdf, ExpFam.logPdf, Textbook.dirichlet, add_sub_cancel_right]
  have e1 : (dirichlet d).dot q ((dirichlet d).stat x) = ∑ i, log (y i) * q i := by
    rw [show (dirichlet d).dot q ((dirichlet d).stat x) = ∑ i, q i * (dirichlet d).stat x i from rfl]
    exact Finset.sum_congr rfl fun i _ => by rw [hs i, mul_comm]
  rw [e1]
  simp only [dirichlet, dirichletLogNormalizer, e, gammaln]
  rw [add_zero, exp_sub, exp_sub, exp_log (Gamma_pos_of_pos hsum), exp_sum, exp_sum,
    Finset.prod_congr rfl fun i _ => (rpow_def_of_pos (hpos i) (q i)).symm,
    Finset.prod_congr rfl fun i _ => exp_log (hg i)]
  field_simp

-- The uniform distribution on the triangle.
example : (dirichlet 2).pdf (fun _ => 0) (fun _ => 1 / 4) = 2 := by
  rw [C57_dirichlet 2 (fun _ => by norm_num) ⟨fun _ => by norm_num, by norm_num⟩]
  norm_num [Textbook.dirichlet]

/-- Beta. -/
theorem C57_beta {q : Fin 2 → ℝ} (hq : q ∈ dirichletDom 2) {x : ℝ} (hx : x ∈ Set.Ioo (0 : ℝ) 1) :
    beta.pdf q x = Textbook.beta (q 0 + 1) (q 1 + 1) x := by
  have h1 : 0 < 1 - x := by linarith [hx.2]
  have g0 := Gamma_pos_of_pos (show 0 < q 0 + 1 by linarith [hq 0])
  have g1 := Gamma_pos_of_pos (show 0 < q 1 + 1 by linarith [hq 1])
  have g2 := Gamma_pos_of_pos (show 0 < q 0 + 1 + (q 1 + 1) by linarith [hq 0, hq 1])
  simp only [ExpFam.pdf, ExpFam.logPdf, beta, dirichletLogNormalizer, Textbook.beta, gammaln, log1p,
    Fin.sum_univ_two, Matrix.cons_val_zero, Matrix.cons_val_one]
  rw [rpow_def_of_pos hx.1, rpow_def_of_pos h1, add_sub_cancel_right, add_sub_cancel_right, add_zero,
    ← sub_eq_add_neg, show q 0 + q 1 + ((2 : ℕ) : ℝ) = q 0 + 1 + (q 1 + 1) by push_cast; ring,
    exp_sub, exp_sub, exp_add, exp_add, exp_log g0, exp_log g1, exp_log g2, mul_comm (q 0), mul_comm (q 1)]
  field_simp

example : beta.pdf (fun _ => 0) (1 / 3) = 1 := by
  rw [C57_beta (fun _ => by norm_num) ⟨by norm_num, by norm_num⟩]
  norm_num [Textbook.beta]

end Efax
