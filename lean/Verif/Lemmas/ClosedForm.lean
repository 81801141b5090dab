import Verif.Spec.ClosedForm
import Verif.Spec.Measures
import Verif.Lemmas.Ring
import Mathlib.Analysis.SpecialFunctions.Gamma.Deriv

/-!
# Divergences and entropies of families of numbers in closed form
-/

namespace Efax

open Spec Real

theorem log_expit (q : ℝ) : log (expit q) = q - logaddexp q 0 ∧ log (1 - expit q) = -logaddexp q 0 := by
  have h := exp_pos q
  have h1 : (0 : ℝ) < 1 + exp q := by positivity
  have e1 : expit q = exp q / (exp q + exp 0) := by
    rw [expit, exp_neg, exp_zero]; field_simp
  have e2 : 1 - expit q = 1 / (exp q + exp 0) := by
    rw [e1, exp_zero]; field_simp; ring
  have h2 : exp q + exp 0 ≠ 0 := by positivity
  rw [e2, e1, log_div h.ne' h2, log_exp, one_div, log_inv]
  exact ⟨rfl, rfl⟩

theorem bernoulli_kl (a b : ℝ) :
    bernoulli.kl a b = Textbook.KL.bernoulli (bernoulli.toExp a) (bernoulli.toExp b) := by
  obtain ⟨a1, a2⟩ := log_expit a
  obtain ⟨b1, b2⟩ := log_expit b
  have ha : 0 < expit a ∧ expit a < 1 := ⟨expit_pos a, expit_lt_one a⟩
  have hb : 0 < expit b ∧ expit b < 1 := ⟨expit_pos b, expit_lt_one b⟩
  simp only [ExpFam.kl, ExpFam.klWith, bernoulli, Textbook.KL.bernoulli]
  rw [log_div ha.1.ne' hb.1.ne', log_div (by linarith [ha.2]) (by linarith [hb.2]), a1, a2, b1, b2]
  ring

theorem bernoulli_entropy (a : ℝ) :
    bernoulli.entropyN bernoulliEcm a = Textbook.Entropy.bernoulli (bernoulli.toExp a) := by
  obtain ⟨a1, a2⟩ := log_expit a
  simp only [ExpFam.entropyN, ExpFam.crossEntropy, bernoulli, Textbook.Entropy.bernoulli, bernoulliEcm]
  rw [a1, a2]
  ring

theorem poisson_kl (a b : ℝ) :
    poisson.kl a b = Textbook.KL.poisson (poisson.toExp a) (poisson.toExp b) := by
  simp only [ExpFam.kl, ExpFam.klWith, poisson, Textbook.KL.poisson]
  rw [log_div (exp_pos _).ne' (exp_pos _).ne', log_exp, log_exp]
  ring

/-- The probability of success. -/
theorem negativeBinomial_p {r : ℕ} (hr : 1 ≤ r) {q : ℝ} (hq : q < 0) :
    1 / (1 + (negativeBinomial r).toExp q / r) = 1 - exp q := by
  have h1 : exp q < 1 := exp_lt_one_iff.2 hq
  have hr0 : (r : ℝ) ≠ 0 := by positivity
  simp only [negativeBinomial, expm1, exp_neg]
  have : (exp q)⁻¹ - 1 ≠ 0 := by
    rw [sub_ne_zero]; exact (one_lt_inv₀ (exp_pos q) |>.2 h1).ne'
  have h2 := exp_pos q
  have h3 : 1 - exp q ≠ 0 := by linarith
  have e : (exp q)⁻¹ - 1 = (1 - exp q) / exp q := by field_simp
  rw [e]
  field_simp
  ring

theorem negativeBinomial_kl {r : ℕ} (hr : 1 ≤ r) {a b : ℝ} (ha : a < 0) (hb : b < 0) :
    (negativeBinomial r).kl a b = Textbook.KL.negativeBinomial r
      (1 / (1 + (negativeBinomial r).toExp a / r)) (1 / (1 + (negativeBinomial r).toExp b / r)) := by
  rw [negativeBinomial_p hr ha, negativeBinomial_p hr hb]
  have h1 : exp a < 1 := exp_lt_one_iff.2 ha
  have h2 : exp b < 1 := exp_lt_one_iff.2 hb
  have h3 := exp_pos a
  simp only [ExpFam.kl, ExpFam.klWith, negativeBinomial, Textbook.KL.negativeBinomial, sub_sub_cancel]
  rw [log_div (by linarith) (by linarith), log_div (exp_pos _).ne' (exp_pos _).ne', log_exp, log_exp, log1p,
    log1p, ← sub_eq_add_neg, ← sub_eq_add_neg, expm1, exp_neg,
    show (exp a)⁻¹ - 1 = (1 - exp a) / exp a by field_simp, div_div_eq_mul_div]
  ring

theorem geometric_kl {a b : ℝ} (ha : a < 0) (hb : b < 0) : geometric.kl a b =
    Textbook.KL.negativeBinomial 1 (1 / (1 + geometric.toExp a)) (1 / (1 + geometric.toExp b)) := by
  have h := negativeBinomial_kl le_rfl ha hb
  rw [Nat.cast_one, div_one, div_one] at h
  exact h

theorem geometric_entropy {a : ℝ} (ha : a < 0) :
    geometric.entropyN geometricEcm a = Textbook.Entropy.geometric (1 / (1 + geometric.toExp a)) := by
  have h := negativeBinomial_p le_rfl ha
  rw [Nat.cast_one, div_one] at h
  rw [geometric, h]
  have h1 : exp a < 1 := exp_lt_one_iff.2 ha
  have h3 := exp_pos a
  have h4 : 1 - exp a ≠ 0 := by linarith
  simp only [ExpFam.entropyN, ExpFam.crossEntropy, negativeBinomial, Textbook.Entropy.geometric, geometricEcm,
    sub_sub_cancel, log_exp, log1p]
  rw [expm1, exp_neg, show (exp a)⁻¹ - 1 = (1 - exp a) / exp a by field_simp, ← sub_eq_add_neg]
  field_simp
  ring

theorem logarithmic_kl {a b : ℝ} (ha : a < 0) (hb : b < 0) :
    logarithmic.kl a b = Textbook.KL.logarithmic (exp a) (exp b) := by
  have h1 : exp a < 1 := exp_lt_one_iff.2 ha
  have h2 : exp b < 1 := exp_lt_one_iff.2 hb
  have la : log (1 - exp a) < 0 := log_neg (by linarith) (by linarith [exp_pos a])
  have lb : log (1 - exp b) < 0 := log_neg (by linarith) (by linarith [exp_pos b])
  simp only [ExpFam.kl, ExpFam.klWith, logarithmic, Textbook.KL.logarithmic, logarithmicQuotient, log1p, expm1]
  rw [← sub_eq_add_neg, ← sub_eq_add_neg, log_div (exp_pos _).ne' (exp_pos _).ne', log_exp, log_exp,
    log_div lb.ne la.ne, log_neg_eq_log, log_neg_eq_log]
  have h4 : 1 - exp a ≠ 0 := by linarith
  have h5 : exp a - 1 ≠ 0 := by linarith
  have := la.ne
  rw [add_sub_assoc]
  congr 1
  field_simp
  ring

theorem exponential_kl {a b : ℝ} (ha : a < 0) (hb : b < 0) :
    exponential.kl a b = Textbook.KL.exponential (exponential.toExp a) (exponential.toExp b) := by
  have := ha.ne
  have := hb.ne
  simp only [ExpFam.kl, ExpFam.klWith, exponential, Textbook.KL.exponential]
  rw [show -1 / b / (-1 / a) = -a / -b by field_simp, log_div (by linarith) (by linarith)]
  field_simp
  ring

theorem exponential_entropy {a : ℝ} (ha : a < 0) :
    exponential.entropyN exponentialEcm a = Textbook.Entropy.exponential (exponential.toExp a) := by
  have := ha.ne
  simp only [ExpFam.entropyN, ExpFam.crossEntropy, exponential, Textbook.Entropy.exponential, exponentialEcm]
  rw [show -1 / a = (-a)⁻¹ by rw [inv_neg, neg_div, one_div], log_inv]
  field_simp
  ring

theorem gamma_kl {a b : ℝ × ℝ} (ha : a ∈ gammaDom) (hb : b ∈ gammaDom) :
    gamma.kl a b = Textbook.KL.gamma (a.2 + 1) (-1 / a.1) (b.2 + 1) (-1 / b.1) := by
  obtain ⟨a1, a2⟩ := ha
  obtain ⟨b1, b2⟩ := hb
  simp only [ExpFam.kl, ExpFam.klWith, gamma, Textbook.KL.gamma, gammaln, Prod.fst_sub, Prod.snd_sub]
  have := a1.ne
  have := b1.ne
  rw [show log (-1 / a.1) = -log (-a.1) by
    rw [show -1 / a.1 = (-a.1)⁻¹ by rw [inv_neg, neg_div, one_div], log_inv]]
  rw [show log (-1 / b.1) = -log (-b.1) by
    rw [show -1 / b.1 = (-b.1)⁻¹ by rw [inv_neg, neg_div, one_div], log_inv]]
  field_simp
  ring

theorem gamma_entropy {a : ℝ × ℝ} (ha : a ∈ gammaDom) :
    gamma.entropyN gammaEcm a = Textbook.Entropy.gamma (a.2 + 1) (-1 / a.1) := by
  obtain ⟨a1, a2⟩ := ha
  simp only [ExpFam.entropyN, ExpFam.crossEntropy, gamma, Textbook.Entropy.gamma, gammaln, gammaEcm]
  have := a1.ne
  rw [show log (-1 / a.1) = -log (-a.1) by
    rw [show -1 / a.1 = (-a.1)⁻¹ by rw [inv_neg, neg_div, one_div], log_inv]]
  field_simp
  ring

theorem chiSquare_kl {a b : ℝ} (ha : -1 < a) (hb : -1 < b) :
    chiSquare.kl a b = Textbook.KL.chiSquare ((a + 1) * 2) ((b + 1) * 2) := by
  have ga := Gamma_pos_of_pos (show 0 < a + 1 by linarith)
  have gb := Gamma_pos_of_pos (show 0 < b + 1 by linarith)
  simp only [ExpFam.kl, ExpFam.klWith, chiSquare, Textbook.KL.chiSquare, gammaln,
    mul_div_cancel_right₀ _ (two_ne_zero' ℝ)]
  rw [log_div gb.ne' ga.ne']
  ring

theorem chiSquare_entropy {a : ℝ} (ha : -1 < a) {toNat : ℝ → ℝ} (h : toNat (chiSquare.toExp a) = a) :
    chiSquare.entropyN (chiSquareEcm toNat) a = Textbook.Entropy.chiSquare ((a + 1) * 2) := by
  have ga := Gamma_pos_of_pos (show 0 < a + 1 by linarith)
  simp only [ExpFam.entropyN, ExpFam.crossEntropy, chiSquareEcm, h, Textbook.Entropy.chiSquare,
    mul_div_cancel_right₀ _ (two_ne_zero' ℝ)]
  simp only [chiSquare, gammaln]
  rw [log_mul two_ne_zero ga.ne', show (0.5 : ℝ) = 2⁻¹ by norm_num, log_inv]
  ring

theorem chi_entropy {a : ℝ} (ha : -1 < a) {toNat : ℝ → ℝ} (h : toNat (chi.toExp a) = a) :
    chi.entropyN (chiEcm toNat) a = Textbook.Entropy.chi ((a + 1) * 2) := by
  simp only [ExpFam.entropyN, ExpFam.crossEntropy, chiEcm, h, Textbook.Entropy.chi,
    mul_div_cancel_right₀ _ (two_ne_zero' ℝ)]
  simp only [chi, transformed, chiSquare, gammaln]
  rw [show log (0.5 : ℝ) = -log 2 by rw [show (0.5 : ℝ) = 2⁻¹ by norm_num, log_inv]]
  ring

theorem rayleigh_kl {a b : ℝ} (ha : a < 0) (hb : b < 0) :
    rayleigh.kl a b = Textbook.KL.rayleigh (sqrt (rayleigh.toExp a / 2)) (sqrt (rayleigh.toExp b / 2)) := by
  have pa : 0 < rayleigh.toExp a := div_pos_of_neg_of_neg (by norm_num) ha
  have pb : 0 < rayleigh.toExp b := div_pos_of_neg_of_neg (by norm_num) hb
  have e := exponential_kl ha hb
  rw [Textbook.KL.rayleigh, sq_sqrt (by positivity), sq_sqrt (by positivity), show ∀ x : ℝ, 2 * log x = log (x ^ 2) from
      fun x => by rw [log_pow]; norm_num, div_pow,
    sq_sqrt (by positivity), sq_sqrt (by positivity), div_div_div_cancel_right₀ two_ne_zero,
    div_div_div_cancel_right₀ two_ne_zero]
  exact e

theorem rayleigh_entropy {a : ℝ} (ha : a < 0) :
    rayleigh.entropyN rayleighEcm a = Textbook.Entropy.rayleigh (sqrt (rayleigh.toExp a / 2)) := by
  have pa : 0 < -1 / a := div_pos_of_neg_of_neg (by norm_num) ha
  have e : rayleigh.toExp a = -1 / a := rfl
  simp only [ExpFam.entropyN, ExpFam.crossEntropy, rayleighEcm, e, Textbook.Entropy.rayleigh]
  simp only [rayleigh, transformed, exponential]
  rw [log_div (sqrt_pos.2 (by positivity)).ne' (by positivity), log_sqrt (by positivity), log_sqrt (by positivity),
    log_div pa.ne' two_ne_zero, log_mul pa.ne' (by norm_num),
    show log (-a) = -log (-1 / a) by
      rw [show -1 / a = (-a)⁻¹ by rw [inv_neg, neg_div, one_div], log_inv, neg_neg],
    show log (0.5 : ℝ) = -log 2 by rw [show (0.5 : ℝ) = 2⁻¹ by norm_num, log_inv],
    mul_div_cancel₀ _ ha.ne]
  ring

theorem weibull_scale {k : ℝ} (hk : 0 < k) {q : ℝ} (hq : q < 0) :
    0 < (weibull k).toExp q ^ (1 / k) ∧ ((weibull k).toExp q ^ (1 / k)) ^ k = -1 / q ∧
      log ((weibull k).toExp q ^ (1 / k)) = -log (-q) / k := by
  have h1 : 0 < -1 / q := div_pos_of_neg_of_neg (by norm_num) hq
  have e : (weibull k).toExp q = -1 / q := rfl
  rw [e]
  refine ⟨rpow_pos_of_pos h1 _, ?_, ?_⟩
  · rw [← rpow_mul h1.le, one_div_mul_cancel hk.ne', rpow_one]
  · rw [log_rpow h1, show -1 / q = (-q)⁻¹ by rw [inv_neg, neg_div, one_div], log_inv]
    ring

theorem weibull_kl {k : ℝ} (hk : 0 < k) {a b : ℝ} (ha : a < 0) (hb : b < 0) :
    (weibull k).kl a b = Textbook.KL.weibull k ((weibull k).toExp a ^ (1 / k))
      ((weibull k).toExp b ^ (1 / k)) := by
  have := ha.ne
  have := hb.ne
  obtain ⟨a1, a2, a3⟩ := weibull_scale hk ha
  obtain ⟨b1, b2, b3⟩ := weibull_scale hk hb
  rw [Textbook.KL.weibull, div_rpow a1.le b1.le, a2, b2, log_div b1.ne' a1.ne', a3, b3]
  simp only [ExpFam.kl, ExpFam.klWith, weibull]
  field_simp
  ring

theorem weibull_entropy {k : ℝ} (hk : 0 < k) {a : ℝ} (ha : a < 0) :
    (weibull k).entropyN (weibullEcm k) a =
      Textbook.Entropy.weibull k ((weibull k).toExp a ^ (1 / k)) := by
  have := ha.ne
  obtain ⟨a1, a2, a3⟩ := weibull_scale hk ha
  rw [Textbook.Entropy.weibull, log_div a1.ne' hk.ne', a3]
  simp only [ExpFam.entropyN, ExpFam.crossEntropy, weibull, weibullEcm]
  rw [show log (-1 / a) = -log (-a) by
    rw [show -1 / a = (-a)⁻¹ by rw [inv_neg, neg_div, one_div], log_inv]]
  field_simp
  ring

theorem normal_kl {a b : ℝ × ℝ} (ha : a ∈ normalDom) (hb : b ∈ normalDom) :
    normal.kl a b = Textbook.KL.normal (normal.toExp a).1 (normalVariance (normal.toExp a))
      (normal.toExp b).1 (normalVariance (normal.toExp b)) := by
  have ha : a.2 < 0 := ha
  have hb : b.2 < 0 := hb
  have := ha.ne
  have := hb.ne
  have hv : ∀ q : ℝ × ℝ, normalVariance (normal.toExp q) = -1 / (2 * q.2) := fun q => by
    simp only [normalVariance, normal]; ring
  rw [hv, hv, Textbook.KL.normal, show -1 / (2 * b.2) / (-1 / (2 * a.2)) = -a.2 / -b.2 by field_simp,
    log_div (by linarith) (by linarith)]
  simp only [ExpFam.kl, ExpFam.klWith, normal, Prod.fst_sub, Prod.snd_sub]
  rw [show -π / b.2 = π / -b.2 by rw [div_neg, neg_div], show -π / a.2 = π / -a.2 by rw [div_neg, neg_div],
    log_div pi_ne_zero (by linarith), log_div pi_ne_zero (by linarith)]
  field_simp
  ring

theorem normal_entropy {a : ℝ × ℝ} (ha : a ∈ normalDom) :
    normal.entropyN normalEcm a = Textbook.Entropy.normal (normalVariance (normal.toExp a)) := by
  have ha : a.2 < 0 := ha
  have := ha.ne
  have hv : normalVariance (normal.toExp a) = -1 / (2 * a.2) := by simp only [normalVariance, normal]; ring
  rw [hv, Textbook.Entropy.normal, show 2 * π * exp 1 * (-1 / (2 * a.2)) = -π / a.2 * exp 1 by field_simp,
    log_mul (div_pos_of_neg_of_neg (by linarith [pi_pos]) ha).ne' (exp_pos _).ne', log_exp]
  simp only [ExpFam.entropyN, ExpFam.crossEntropy, normal, normalEcm]
  field_simp
  ring

theorem unitNormal_kl (a b : ℝ) :
    unitNormal.kl a b = Textbook.KL.normal (unitNormal.toExp a) 1 (unitNormal.toExp b) 1 := by
  simp only [ExpFam.kl, ExpFam.klWith, unitNormal, Textbook.KL.normal, div_one, log_one]
  ring

theorem unitNormal_entropy (a : ℝ) : unitNormal.entropyN unitNormalEcm a = Textbook.Entropy.normal 1 := by
  simp only [ExpFam.entropyN, ExpFam.crossEntropy, unitNormal, unitNormalEcm, Textbook.Entropy.normal]
  rw [mul_one, log_mul (by positivity) (exp_pos _).ne', log_exp, mul_comm π]
  ring

end Efax
