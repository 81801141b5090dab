import Verif.Spec.ClosedForm
import Verif.Lemmas.ClosedForm
import Verif.Props.TextbookNormal
import Verif.Props.Families.MvCarrier

/-!
# Divergences and entropies of multivariate and complex normal families in closed form
-/

namespace Efax

open Spec Matrix

theorem KL_mvNormal_eq {ι : Type} [Fintype ι] [DecidableEq ι] {B B' S S' : Matrix ι ι ℝ} (hB : B.PosDef)
    (hB' : B'.PosDef) (hS : S * B = (1 / 2 : ℝ) • 1) (hS' : S' * B' = (1 / 2 : ℝ) • 1) (m m' : ι → ℝ) :
    Textbook.KL.mvNormal m S m' S' = (B' * S).trace + (m' - m) ⬝ᵥ (B' *ᵥ (m' - m)) - Fintype.card ι / 2 +
      1 / 2 * (Real.log B.det - Real.log B'.det) := by
  have hi : S'⁻¹ = (2 : ℝ) • B' := inv_eq_right_inv (by rw [Matrix.mul_smul, hS', smul_smul]; norm_num)
  have hd : S.det * B.det = (1 / 2) ^ Fintype.card ι := by
    rw [← det_mul, hS, det_smul, det_one, mul_one]
  have hd' : S'.det * B'.det = (1 / 2) ^ Fintype.card ι := by
    rw [← det_mul, hS', det_smul, det_one, mul_one]
  have hp : 0 < B.det := hB.det_pos
  have hp' : 0 < B'.det := hB'.det_pos
  have e : S'.det / S.det = B.det / B'.det := by
    rw [eq_div_of_mul_eq hp.ne' hd, eq_div_of_mul_eq hp'.ne' hd']
    field_simp
  rw [Textbook.KL.mvNormal, hi, e, Real.log_div hp.ne' hp'.ne', smul_mul, trace_smul, smul_mulVec,
    dotProduct_smul, smul_eq_mul, smul_eq_mul]
  ring

theorem Entropy_mvNormal_eq {ι : Type} [Fintype ι] [DecidableEq ι] {B S : Matrix ι ι ℝ} (hB : B.PosDef)
    (hS : S * B = (1 / 2 : ℝ) • 1) :
    Textbook.Entropy.mvNormal S = Fintype.card ι / 2 * (1 + Real.log Real.pi) - 1 / 2 * Real.log B.det := by
  have hd : S.det * B.det = (1 / 2) ^ Fintype.card ι := by
    rw [← det_mul, hS, det_smul, det_one, mul_one]
  have hp : 0 < B.det := hB.det_pos
  have e : (2 * Real.pi * Real.exp 1) ^ Fintype.card ι * S.det =
      (Real.pi * Real.exp 1) ^ Fintype.card ι / B.det := by
    rw [eq_div_iff hp.ne', mul_assoc, hd, ← mul_pow]
    congr 1
    ring
  rw [Textbook.Entropy.mvNormal, e, Real.log_div (by positivity) hp.ne', Real.log_pow,
    Real.log_mul (by positivity) (by positivity), Real.log_exp]
  ring

/-- What the mean of the statistics contributes to the cross entropy. -/
theorem mvNormal_dot_toExp {d : ℕ} {a b : (Fin d → ℝ) × Matrix (Fin d) (Fin d) ℝ} (hb : b.2.IsSymm) :
    (mvNormal d).dot b ((mvNormal d).toExp a) = b.1 ⬝ᵥ ((mvNormal d).toExp a).1 +
      ((mvNormal d).toExp a).1 ⬝ᵥ b.2 *ᵥ ((mvNormal d).toExp a).1 +
      (b.2 * mvNormalVariance ((mvNormal d).toExp a)).trace := by
  have e : ((mvNormal d).toExp a).2 = mvNormalVariance ((mvNormal d).toExp a) +
      vecMulVec ((mvNormal d).toExp a).1 ((mvNormal d).toExp a).1 := by
    rw [mvNormalVariance, sub_add_cancel]
  rw [trace_mul_comm, ← sum_sum_trace hb, ← sum_sum_outer b.2]
  show b.1 ⬝ᵥ _ + ∑ i, ∑ j, b.2 i j * ((mvNormal d).toExp a).2 i j = _
  rw [e, add_assoc]
  congr 1
  simp only [Matrix.add_apply, mul_add, Finset.sum_add_distrib]
  rw [add_comm]

/-- The natural parameters from mean and variance. -/
theorem mvNormal_params {d : ℕ} {q : (Fin d → ℝ) × Matrix (Fin d) (Fin d) ℝ} (h : q ∈ mvNormalDom d) :
    q.1 = (-2 : ℝ) • (q.2 *ᵥ ((mvNormal d).toExp q).1) ∧
    mvNormalVariance ((mvNormal d).toExp q) * -q.2 = (1 / 2 : ℝ) • 1 ∧
    (mvNormal d).logNormalizer q = -(((mvNormal d).toExp q).1 ⬝ᵥ q.2 *ᵥ ((mvNormal d).toExp q).1) -
      0.5 * Real.log (-q.2).det + 0.5 * d * Real.log Real.pi := by
  have hu := mvNormalDom_unit h
  have hm : q.1 = (-2 : ℝ) • (q.2 *ᵥ ((mvNormal d).toExp q).1) := by
    simp only [mvNormal, mulVec_smul, mulVec_mulVec, mul_nonsing_inv _ hu, one_mulVec, smul_smul]
    norm_num
  refine ⟨hm, ?_, ?_⟩
  · rw [mvNormal_variance, smul_mul, mul_neg, nonsing_inv_mul _ hu, smul_neg, neg_smul, neg_neg]; norm_num
  · rw [mvNormal_logNormalizer]
    have e : q.2⁻¹ *ᵥ q.1 = (-2 : ℝ) • ((mvNormal d).toExp q).1 := by
      simp only [mvNormal, smul_smul]; norm_num
    rw [e]
    nth_rw 1 [hm]
    rw [smul_dotProduct, dotProduct_smul, dotProduct_comm, smul_eq_mul, smul_eq_mul]
    ring

theorem mvNormal_kl {d : ℕ} {a b : (Fin d → ℝ) × Matrix (Fin d) (Fin d) ℝ} (ha : a ∈ mvNormalDom d)
    (hb : b ∈ mvNormalDom d) : (mvNormal d).kl a b =
      Textbook.KL.mvNormal ((mvNormal d).toExp a).1 (mvNormalVariance ((mvNormal d).toExp a))
        ((mvNormal d).toExp b).1 (mvNormalVariance ((mvNormal d).toExp b)) := by
  obtain ⟨a1, a2, a3⟩ := mvNormal_params ha
  obtain ⟨b1, b2, b3⟩ := mvNormal_params hb
  have sb := mvNormalDom_symm hb
  have sa := mvNormalDom_symm ha
  have hsymm : ((mvNormal d).toExp a).1 ⬝ᵥ b.2 *ᵥ ((mvNormal d).toExp b).1 =
      ((mvNormal d).toExp b).1 ⬝ᵥ b.2 *ᵥ ((mvNormal d).toExp a).1 := by
    rw [dotProduct_mulVec, ← mulVec_transpose, sb.eq, dotProduct_comm]
  have ta : (a.2 * mvNormalVariance ((mvNormal d).toExp a)).trace = -d / 2 := by
    have := congrArg trace a2
    rw [mul_neg, trace_neg, trace_mul_comm, trace_smul, trace_one, Fintype.card_fin, smul_eq_mul] at this
    linarith
  rw [KL_mvNormal_eq ha hb a2 b2, ExpFam.kl, ExpFam.klWith, mvNormal_dot_toExp (sa.sub sb), a3, b3]
  simp only [Prod.fst_sub, Prod.snd_sub, Matrix.sub_mul, trace_sub, ta, sub_mulVec, sub_dotProduct,
    dotProduct_sub, neg_mulVec, dotProduct_neg, neg_mul, trace_neg, mulVec_sub, hsymm, Fintype.card_fin]
  have c1 : a.1 ⬝ᵥ ((mvNormal d).toExp a).1 =
      -2 * (((mvNormal d).toExp a).1 ⬝ᵥ a.2 *ᵥ ((mvNormal d).toExp a).1) := by
    nth_rw 1 [a1]
    rw [smul_dotProduct, dotProduct_comm, smul_eq_mul]
  have c2 : b.1 ⬝ᵥ ((mvNormal d).toExp a).1 =
      -2 * (((mvNormal d).toExp b).1 ⬝ᵥ b.2 *ᵥ ((mvNormal d).toExp a).1) := by
    nth_rw 1 [b1]
    rw [smul_dotProduct, dotProduct_comm, smul_eq_mul, hsymm]
  rw [c1, c2]
  ring

theorem mvNormal_entropy {d : ℕ} {a : (Fin d → ℝ) × Matrix (Fin d) (Fin d) ℝ} (ha : a ∈ mvNormalDom d) :
    (mvNormal d).entropyN mvNormalEcm a =
      Textbook.Entropy.mvNormal (mvNormalVariance ((mvNormal d).toExp a)) := by
  obtain ⟨a1, a2, a3⟩ := mvNormal_params ha
  have sa := mvNormalDom_symm ha
  have ta : (a.2 * mvNormalVariance ((mvNormal d).toExp a)).trace = -d / 2 := by
    have := congrArg trace a2
    rw [mul_neg, trace_neg, trace_mul_comm, trace_smul, trace_one, Fintype.card_fin, smul_eq_mul] at this
    linarith
  have c1 : a.1 ⬝ᵥ ((mvNormal d).toExp a).1 =
      -2 * (((mvNormal d).toExp a).1 ⬝ᵥ a.2 *ᵥ ((mvNormal d).toExp a).1) := by
    nth_rw 1 [a1]
    rw [smul_dotProduct, dotProduct_comm, smul_eq_mul]
  rw [Entropy_mvNormal_eq ha a2, ExpFam.entropyN, ExpFam.crossEntropy, mvNormal_dot_toExp sa, a3, c1, ta,
    mvNormalEcm, Fintype.card_fin]
  ring

theorem mvDiagonal_kl {d : ℕ} {a b : (Fin d → ℝ) × (Fin d → ℝ)} (ha : a ∈ mvDiagonalDom d)
    (hb : b ∈ mvDiagonalDom d) : (mvDiagonal d).kl a b =
      ∑ i, Textbook.KL.normal (((mvDiagonal d).toExp a).1 i) (mvDiagonalVariance ((mvDiagonal d).toExp a) i)
        (((mvDiagonal d).toExp b).1 i) (mvDiagonalVariance ((mvDiagonal d).toExp b) i) := by
  have h : ∀ i, Textbook.KL.normal (((mvDiagonal d).toExp a).1 i) (mvDiagonalVariance ((mvDiagonal d).toExp a) i)
        (((mvDiagonal d).toExp b).1 i) (mvDiagonalVariance ((mvDiagonal d).toExp b) i) =
      normal.kl (a.1 i, a.2 i) (b.1 i, b.2 i) := fun i =>
    (normal_kl (a := (a.1 i, a.2 i)) (b := (b.1 i, b.2 i)) (ha i) (hb i)).symm
  rw [Finset.sum_congr rfl fun i _ => h i]
  simp only [ExpFam.kl, ExpFam.klWith, mvDiagonal, normal, Finset.sum_add_distrib, Finset.sum_sub_distrib]
  rfl

theorem mvDiagonal_entropy {d : ℕ} {a : (Fin d → ℝ) × (Fin d → ℝ)} (ha : a ∈ mvDiagonalDom d) :
    (mvDiagonal d).entropyN mvDiagonalEcm a =
      ∑ i, Textbook.Entropy.normal (mvDiagonalVariance ((mvDiagonal d).toExp a) i) := by
  have h : ∀ i, Textbook.Entropy.normal (mvDiagonalVariance ((mvDiagonal d).toExp a) i) =
      normal.entropyN normalEcm (a.1 i, a.2 i) := fun i =>
    (normal_entropy (a := (a.1 i, a.2 i)) (ha i)).symm
  rw [Finset.sum_congr rfl fun i _ => h i]
  simp only [ExpFam.entropyN, ExpFam.crossEntropy, mvDiagonal, normal, Finset.sum_add_distrib,
    Finset.sum_sub_distrib, Finset.sum_neg_distrib, mvDiagonalEcm, normalEcm, Finset.sum_const_zero, neg_add]

theorem mvIsotropic_params {d : ℕ} (hd : 0 < d) {q : (Fin d → ℝ) × ℝ} (h : q ∈ mvIsotropicDom d) :
    mvIsotropicVariance ((mvIsotropic d).toExp q) = -1 / (2 * q.2) := by
  have h : q.2 < 0 := h
  have := h.ne
  have hd0 : (d : ℝ) ≠ 0 := by positivity
  simp only [mvIsotropicVariance, mvIsotropic]
  rw [add_sub_cancel_left]
  field_simp

theorem mvIsotropic_kl {d : ℕ} (hd : 0 < d) {a b : (Fin d → ℝ) × ℝ} (ha : a ∈ mvIsotropicDom d)
    (hb : b ∈ mvIsotropicDom d) : (mvIsotropic d).kl a b =
      Textbook.KL.spherical ((mvIsotropic d).toExp a).1 (mvIsotropicVariance ((mvIsotropic d).toExp a))
        ((mvIsotropic d).toExp b).1 (mvIsotropicVariance ((mvIsotropic d).toExp b)) := by
  have ha' : a.2 < 0 := ha
  have hb' : b.2 < 0 := hb
  have na := ha'.ne
  have nb := hb'.ne
  rw [mvIsotropic_params hd ha, mvIsotropic_params hd hb, Textbook.KL.spherical,
    show -1 / (2 * b.2) / (-1 / (2 * a.2)) = -a.2 / -b.2 by field_simp,
    Real.log_div (by linarith) (by linarith)]
  simp only [ExpFam.kl, ExpFam.klWith, mvIsotropic, Prod.fst_sub, Prod.snd_sub, Pi.sub_apply]
  rw [Real.log_div Real.pi_ne_zero (by linarith), Real.log_div Real.pi_ne_zero (by linarith)]
  have e1 : ∑ i, (a.1 i - b.1 i) * (a.1 i / (-2 * a.2)) =
      (∑ i, a.1 i ^ 2 - ∑ i, a.1 i * b.1 i) / (-2 * a.2) := by
    rw [← Finset.sum_sub_distrib, Finset.sum_div]
    exact Finset.sum_congr rfl fun i _ => by ring
  have e2 : ∑ i, (a.1 i / (-2 * a.2)) ^ 2 = (∑ i, a.1 i ^ 2) / (4 * a.2 ^ 2) := by
    rw [Finset.sum_div]
    exact Finset.sum_congr rfl fun i _ => by field_simp; norm_num
  have e3 : ∑ i, (b.1 i / (-2 * b.2) - a.1 i / (-2 * a.2)) ^ 2 = (∑ i, b.1 i ^ 2) / (4 * b.2 ^ 2) -
      (∑ i, a.1 i * b.1 i) / (2 * a.2 * b.2) + (∑ i, a.1 i ^ 2) / (4 * a.2 ^ 2) := by
    rw [Finset.sum_div, Finset.sum_div, Finset.sum_div, ← Finset.sum_sub_distrib, ← Finset.sum_add_distrib]
    exact Finset.sum_congr rfl fun i _ => by field_simp; ring
  rw [e1, e2, e3]
  field_simp
  ring

theorem mvIsotropic_entropy {d : ℕ} (hd : 0 < d) {a : (Fin d → ℝ) × ℝ} (ha : a ∈ mvIsotropicDom d) :
    (mvIsotropic d).entropyN mvIsotropicEcm a =
      d * Textbook.Entropy.normal (mvIsotropicVariance ((mvIsotropic d).toExp a)) := by
  have ha' : a.2 < 0 := ha
  have na := ha'.ne
  rw [mvIsotropic_params hd ha, Textbook.Entropy.normal,
    show 2 * Real.pi * Real.exp 1 * (-1 / (2 * a.2)) = Real.pi / -a.2 * Real.exp 1 by field_simp,
    Real.log_mul (div_pos Real.pi_pos (by linarith)).ne' (Real.exp_pos _).ne', Real.log_exp]
  simp only [ExpFam.entropyN, ExpFam.crossEntropy, mvIsotropic, mvIsotropicEcm]
  have e1 : ∑ i, a.1 i * (a.1 i / (-2 * a.2)) = (∑ i, a.1 i ^ 2) / (-2 * a.2) := by
    rw [Finset.sum_div]
    exact Finset.sum_congr rfl fun i _ => by ring
  have e2 : ∑ i, (a.1 i / (-2 * a.2)) ^ 2 = (∑ i, a.1 i ^ 2) / (4 * a.2 ^ 2) := by
    rw [Finset.sum_div]
    exact Finset.sum_congr rfl fun i _ => by field_simp; norm_num
  rw [e1, e2]
  field_simp
  ring

theorem mvFixed_kl {d : ℕ} {v : ℝ} (hv : 0 < v) (a b : Fin d → ℝ) : (mvFixed d v).kl a b =
    Textbook.KL.spherical ((mvFixed d v).toExp a) v ((mvFixed d v).toExp b) v := by
  simp only [ExpFam.kl, ExpFam.klWith, mvFixed, Textbook.KL.spherical, Pi.sub_apply, div_self hv.ne',
    Real.log_one]
  have e1 : ∑ i, (a i - b i) * (a i * v) = v * (∑ i, a i ^ 2 - ∑ i, a i * b i) := by
    rw [← Finset.sum_sub_distrib, Finset.mul_sum]
    exact Finset.sum_congr rfl fun i _ => by ring
  have e2 : ∑ i, (b i * v - a i * v) ^ 2 =
      v ^ 2 * (∑ i, b i ^ 2 - 2 * ∑ i, a i * b i + ∑ i, a i ^ 2) := by
    rw [Finset.mul_sum, ← Finset.sum_sub_distrib, ← Finset.sum_add_distrib, Finset.mul_sum]
    exact Finset.sum_congr rfl fun i _ => by ring
  rw [e1, e2]
  field_simp
  ring

theorem mvFixed_entropy {d : ℕ} {v : ℝ} (hv : 0 < v) (a : Fin d → ℝ) :
    (mvFixed d v).entropyN (mvFixedEcm v) a = d * Textbook.Entropy.normal v := by
  simp only [ExpFam.entropyN, ExpFam.crossEntropy, mvFixed, mvFixedEcm, Textbook.Entropy.normal]
  rw [show 2 * Real.pi * Real.exp 1 * v = Real.pi * 2 * v * Real.exp 1 by ring,
    Real.log_mul (by positivity) (Real.exp_pos _).ne', Real.log_exp]
  have e1 : ∑ i, a i * (a i * v) = v * ∑ i, a i ^ 2 := by
    rw [Finset.mul_sum]
    exact Finset.sum_congr rfl fun i _ => by ring
  have e2 : ∑ i, (a i * v) ^ 2 = v ^ 2 * ∑ i, a i ^ 2 := by
    rw [Finset.mul_sum]
    exact Finset.sum_congr rfl fun i _ => by ring
  rw [e1, e2]
  field_simp
  ring

theorem mvUnit_kl {d : ℕ} (a b : Fin d → ℝ) : (mvUnit d).kl a b =
    Textbook.KL.spherical ((mvUnit d).toExp a) 1 ((mvUnit d).toExp b) 1 := by
  simp only [ExpFam.kl, ExpFam.klWith, mvUnit, Textbook.KL.spherical, Pi.sub_apply, div_one, Real.log_one]
  have e1 : ∑ i, (a i - b i) * a i = ∑ i, a i ^ 2 - ∑ i, a i * b i := by
    rw [← Finset.sum_sub_distrib]
    exact Finset.sum_congr rfl fun i _ => by ring
  have e2 : ∑ i, (b i - a i) ^ 2 = ∑ i, b i ^ 2 - 2 * ∑ i, a i * b i + ∑ i, a i ^ 2 := by
    rw [Finset.mul_sum, ← Finset.sum_sub_distrib, ← Finset.sum_add_distrib]
    exact Finset.sum_congr rfl fun i _ => by ring
  rw [e1, e2]
  ring

theorem mvUnit_entropy {d : ℕ} (a : Fin d → ℝ) :
    (mvUnit d).entropyN mvUnitEcm a = d * Textbook.Entropy.normal 1 := by
  simp only [ExpFam.entropyN, ExpFam.crossEntropy, mvUnit, mvUnitEcm, Textbook.Entropy.normal]
  rw [mul_one, show 2 * Real.pi * Real.exp 1 = Real.pi * 2 * Real.exp 1 by ring,
    Real.log_mul (by positivity) (Real.exp_pos _).ne', Real.log_exp]
  simp only [← pow_two]
  ring

theorem complexUnit_kl (a b : ℂ) : complexUnit.kl a b =
    Textbook.KL.complexUnit (complexUnit.toExp a) (complexUnit.toExp b) := by
  simp only [ExpFam.kl, ExpFam.klWith, complexUnit, Textbook.KL.complexUnit, Complex.normSq_apply]
  have e : (0.5 : ℂ) = ((0.5 : ℝ) : ℂ) := by norm_num
  rw [e]
  simp only [Complex.mul_re, Complex.mul_im, Complex.sub_re, Complex.sub_im, Complex.conj_re, Complex.conj_im,
    Complex.ofReal_re, Complex.ofReal_im, mul_zero, sub_zero, zero_add, add_zero]
  ring

theorem complexUnit_entropy (a : ℂ) :
    complexUnit.entropyN complexUnitEcm a = Textbook.Entropy.complexNormal 1 0 := by
  have e : (0.5 : ℂ) = ((0.5 : ℝ) : ℂ) := by norm_num
  rw [Textbook.Entropy.complexNormal, map_zero, sub_zero, one_pow, Real.sqrt_one, mul_one,
    Real.log_mul Real.pi_ne_zero (Real.exp_pos _).ne', Real.log_exp]
  simp only [ExpFam.entropyN, ExpFam.crossEntropy, complexUnit, complexUnitEcm, Complex.normSq_apply, e]
  simp only [Complex.mul_re, Complex.mul_im, Complex.conj_re, Complex.conj_im,
    Complex.ofReal_re, Complex.ofReal_im, mul_zero, sub_zero, zero_add, add_zero]
  ring

theorem cmvUnit_kl {d : ℕ} (a b : Fin d → ℂ) : (cmvUnit d).kl a b =
    ∑ i, Textbook.KL.complexUnit ((cmvUnit d).toExp a i) ((cmvUnit d).toExp b i) := by
  have h : ∀ i, Textbook.KL.complexUnit ((cmvUnit d).toExp a i) ((cmvUnit d).toExp b i) =
      complexUnit.kl (a i) (b i) := fun i => (complexUnit_kl (a i) (b i)).symm
  rw [Finset.sum_congr rfl fun i _ => h i]
  simp only [ExpFam.kl, ExpFam.klWith, complexUnit, cmvUnit, Finset.sum_add_distrib, Finset.sum_sub_distrib,
    Complex.re_sum, Finset.sum_const, Finset.card_univ, Fintype.card_fin, nsmul_eq_mul]
  simp only [Pi.sub_apply]

theorem cmvUnit_entropy {d : ℕ} (a : Fin d → ℂ) :
    (cmvUnit d).entropyN cmvUnitEcm a = d * Textbook.Entropy.complexNormal 1 0 := by
  have h : (d : ℝ) * Textbook.Entropy.complexNormal 1 0 = ∑ i : Fin d, complexUnit.entropyN complexUnitEcm (a i) := by
    simp [complexUnit_entropy]
  rw [h]
  simp only [ExpFam.entropyN, ExpFam.crossEntropy, complexUnit, cmvUnit, cmvUnitEcm, complexUnitEcm,
    Finset.sum_add_distrib, Finset.sum_sub_distrib, Finset.sum_neg_distrib,
    Complex.re_sum, Finset.sum_const, Finset.card_univ, Fintype.card_fin, nsmul_eq_mul, mul_one]

end Efax
