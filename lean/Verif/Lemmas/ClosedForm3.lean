import Verif.Lemmas.ClosedForm2
import Verif.Props.TextbookOther
import Verif.Props.Families.ComplexCarrier

/-!
# Divergences and entropies of complex, categorical and directional families in closed form
-/

namespace Efax

open Spec Matrix

/-! ### Complex normal -/

theorem complexNormal_dot_real {q : ComplexNormalParams} (hq : q ∈ complexNormalDom) (v : ComplexNormalParams) :
    complexNormal.dot v (complexNormal.toExp q) =
      (mvNormal 2).dot (complexNormalReal v) ((mvNormal 2).toExp (complexNormalReal q)) := by
  obtain ⟨hh, hD⟩ := complexNormal_dom hq
  obtain ⟨hs, hr, hi⟩ := complexNormal_mu hh.ne hD.ne'
  have hu := complexNormal_u hh.ne hD.ne'
  have hm : ∀ i, (complexNormalReal q).2⁻¹.mulVec (complexNormalReal q).1 i =
      -2 * ![(complexNormalRSMu q).2.2.re, (complexNormalRSMu q).2.2.im] i := by
    intro i
    rw [complexNormal_inv hD.ne', hr, hi]
    generalize hg : q.2.1 ^ 2 - Complex.normSq q.2.2 = D at *
    have hD' := hD.ne'
    fin_cases i <;> simp [complexNormalReal, mulVec, dotProduct, Fin.sum_univ_two] <;> field_simp <;>
      ring
  simp only [complexNormal, mvNormal, hu, Fin.sum_univ_two, Matrix.sub_apply, Matrix.smul_apply,
    vecMulVec_apply, Pi.smul_apply, hm]
  rw [complexNormal_inv hD.ne', hs]
  have e : ∀ v, complexNormalReal v = (![v.1.re, -v.1.im],
    !![v.2.1 + v.2.2.re, -v.2.2.im; -v.2.2.im, v.2.1 - v.2.2.re]) := fun _ => rfl
  simp only [e, Matrix.smul_apply, of_apply, cons_val', cons_val_zero,
    cons_val_one, cons_val_fin_one, smul_eq_mul, Complex.mul_re, Complex.add_re, pow_two, Complex.mul_im,
    Complex.add_im, Complex.div_ofReal_re, Complex.div_ofReal_im, Complex.conj_re, Complex.conj_im,
    Complex.normSq_apply (complexNormalRSMu q).2.2]
  generalize hg : q.2.1 * q.2.1 - Complex.normSq q.2.2 = D at *
  rw [pow_two, hg] at hD
  have hD' := hD.ne'
  norm_num
  field_simp
  ring

/-- The variance of a complex normal. -/
noncomputable abbrev complexVariance (χ : ComplexNormalParams) : ℝ := χ.2.1 - Complex.normSq χ.1

/-- The pseudo-variance of a complex normal. -/
noncomputable abbrev complexPseudo (χ : ComplexNormalParams) : ℂ := χ.2.2 - χ.1 ^ 2

theorem complexNormal_params {q : ComplexNormalParams} (hq : q ∈ complexNormalDom) :
    ((mvNormal 2).toExp (complexNormalReal q)).1 = Textbook.parts (complexNormal.toExp q).1 ∧
    mvNormalVariance ((mvNormal 2).toExp (complexNormalReal q)) =
      Textbook.complexCov (complexVariance (complexNormal.toExp q)) (complexPseudo (complexNormal.toExp q)) := by
  obtain ⟨hh, hD⟩ := complexNormal_dom hq
  obtain ⟨hs, hr, hi⟩ := complexNormal_mu hh.ne hD.ne'
  have hu := complexNormal_u hh.ne hD.ne'
  refine ⟨?_, ?_⟩
  · funext i
    simp only [mvNormal, complexNormal, Pi.smul_apply, smul_eq_mul]
    rw [complexNormal_inv hD.ne']
    simp only [Textbook.parts, hr, hi]
    generalize hg : q.2.1 ^ 2 - Complex.normSq q.2.2 = D at *
    have hD' := hD.ne'
    fin_cases i <;> simp [complexNormalReal, mulVec, dotProduct, Fin.sum_univ_two] <;> field_simp <;>
      ring
  · rw [mvNormal_variance, complexNormal_inv hD.ne']
    simp only [complexVariance, complexPseudo, complexNormal, add_sub_cancel_right, hu]
    rw [hs]
    generalize hg : q.2.1 ^ 2 - Complex.normSq q.2.2 = D at *
    have hD' := hD.ne'
    ext i j
    fin_cases i <;> fin_cases j <;>
      simp [Textbook.complexCov, Complex.div_ofReal_re, Complex.div_ofReal_im] <;> field_simp <;> ring

theorem complexNormal_kl {a b : ComplexNormalParams} (ha : a ∈ complexNormalDom) (hb : b ∈ complexNormalDom) :
    complexNormal.kl a b = Textbook.KL.complexNormal (complexNormal.toExp a).1
      (complexVariance (complexNormal.toExp a)) (complexPseudo (complexNormal.toExp a))
      (complexNormal.toExp b).1 (complexVariance (complexNormal.toExp b))
      (complexPseudo (complexNormal.toExp b)) := by
  rw [Textbook.KL.complexNormal, ← (complexNormal_params ha).1, ← (complexNormal_params ha).2,
    ← (complexNormal_params hb).1, ← (complexNormal_params hb).2,
    ← mvNormal_kl ((complexNormalDom_iff a).1 ha) ((complexNormalDom_iff b).1 hb), ExpFam.kl, ExpFam.kl,
    ExpFam.klWith, ExpFam.klWith, complexNormal_dot_real ha, complexNormal_logNormalizer ha,
    complexNormal_logNormalizer hb, map_sub]

theorem complexNormal_entropy {a : ComplexNormalParams} (ha : a ∈ complexNormalDom) :
    complexNormal.entropyN complexNormalEcm a = Textbook.Entropy.complexNormal
      (complexVariance (complexNormal.toExp a)) (complexPseudo (complexNormal.toExp a)) := by
  have hp := (complexNormalDom_iff a).1 ha
  have e : complexNormal.entropyN complexNormalEcm a =
      (mvNormal 2).entropyN mvNormalEcm (complexNormalReal a) := by
    rw [ExpFam.entropyN, ExpFam.entropyN, ExpFam.crossEntropy, ExpFam.crossEntropy, complexNormal_dot_real ha,
      complexNormal_logNormalizer ha]
    rfl
  obtain ⟨-, h2⟩ := complexNormal_params ha
  have hd : ((1 / 2 : ℝ) • (1 : Matrix (Fin 2) (Fin 2) ℝ)).det = 1 / 4 := by
    rw [det_smul, det_one]; norm_num
  have hB : 0 < (-(complexNormalReal a).2).det := (show (-(complexNormalReal a).2).PosDef from hp).det_pos
  have h3 := congrArg det (mvNormal_params hp).2.1
  rw [det_mul, hd, h2] at h3
  rw [e, mvNormal_entropy hp, h2, Textbook.Entropy.mvNormal, Textbook.Entropy.complexNormal]
  have hc : (Textbook.complexCov (complexVariance (complexNormal.toExp a))
      (complexPseudo (complexNormal.toExp a))).det = 1 / 4 * (complexVariance (complexNormal.toExp a) ^ 2 -
        Complex.normSq (complexPseudo (complexNormal.toExp a))) := by
    rw [Textbook.complexCov, Complex.normSq_apply, det_fin_two]
    simp
    ring
  rw [hc] at h3 ⊢
  have hv : 0 < complexVariance (complexNormal.toExp a) ^ 2 -
      Complex.normSq (complexPseudo (complexNormal.toExp a)) := by
    by_contra hn
    nlinarith [not_lt.1 hn]
  rw [Fintype.card_fin, show (2 * Real.pi * Real.exp 1) ^ 2 * (1 / 4 * (complexVariance (complexNormal.toExp a) ^ 2 -
      Complex.normSq (complexPseudo (complexNormal.toExp a)))) = (Real.pi * Real.exp 1) ^ 2 *
        (complexVariance (complexNormal.toExp a) ^ 2 - Complex.normSq (complexPseudo (complexNormal.toExp a))) by ring,
    Real.log_mul (by positivity) hv.ne', Real.log_pow, Real.log_mul (by positivity) (Real.sqrt_pos.2 hv).ne',
    Real.log_sqrt hv.le]
  push_cast
  ring

/-! ### Circularly symmetric complex normal -/

theorem cmv_dot_trace {d : ℕ} (P Q : Matrix (Fin d) (Fin d) ℂ) : ∑ i, ∑ j, P i j * Q i j = (Pᵀ * Q).trace := by
  simp only [trace, diag_apply, mul_apply, transpose_apply]
  exact Finset.sum_comm

open scoped ComplexOrder in
theorem cmvCircular_params {d : ℕ} {q : Matrix (Fin d) (Fin d) ℂ} (hq : q ∈ cmvCircularDom d) :
    ((cmvCircular d).toExp q)⁻¹ = -qᵀ ∧ (-q)ᵀ * (cmvCircular d).toExp q = 1 ∧ 0 < (-q).det.re ∧
      ((cmvCircular d).toExp q).det.re = 1 / (-q).det.re := by
  have hq : (-q).PosDef := hq
  have hd : 0 < (-q).det := hq.det_pos
  have hu : IsUnit (-q).det := isUnit_iff_ne_zero.2 hd.ne'
  have hH : (-q).map (starRingEnd ℂ) = (-q)ᵀ := by
    have := congrArg transpose hq.1
    exact this
  have hV : (-q)ᵀ * (cmvCircular d).toExp q = 1 := by
    rw [← hH]
    show (-q).map (starRingEnd ℂ) * (-q)⁻¹.map (starRingEnd ℂ) = 1
    rw [← Matrix.map_mul, mul_nonsing_inv _ hu]
    simp
  obtain ⟨hr, hi⟩ := Complex.pos_iff.1 hd
  refine ⟨by rw [inv_eq_left_inv hV, transpose_neg], hV, hr, ?_⟩
  have h := congrArg det hV
  rw [det_mul, det_transpose, det_one] at h
  have e : (-q).det = ((-q).det.re : ℂ) := Complex.ext rfl (by rw [Complex.ofReal_im, ← hi])
  have h' := congrArg Complex.re h
  rw [e, Complex.re_ofReal_mul, Complex.one_re] at h'
  rw [eq_div_iff hr.ne', mul_comm]
  exact h'

theorem cmvCircular_kl {d : ℕ} {a b : Matrix (Fin d) (Fin d) ℂ} (ha : a ∈ cmvCircularDom d)
    (hb : b ∈ cmvCircularDom d) : (cmvCircular d).kl a b =
      Textbook.KL.circular ((cmvCircular d).toExp a) ((cmvCircular d).toExp b) := by
  obtain ⟨-, ha2, ha3, ha4⟩ := cmvCircular_params ha
  obtain ⟨hb1, -, hb3, hb4⟩ := cmvCircular_params hb
  have e : (cmvCircular d).dot (a - b) ((cmvCircular d).toExp a) =
      -d + (-bᵀ * (cmvCircular d).toExp a).trace.re := by
    show (∑ i, ∑ j, (a - b) i j * (cmvCircular d).toExp a i j).re = _
    rw [cmv_dot_trace, show (a - b)ᵀ = -(-a)ᵀ + -bᵀ by simp [sub_eq_add_neg], add_mul, neg_mul, ha2, trace_add,
      Complex.add_re, trace_neg, trace_one]
    simp
  rw [ExpFam.kl, ExpFam.klWith, e, Textbook.KL.circular, hb1, ha4, hb4,
    show 1 / (-b).det.re / (1 / (-a).det.re) = (-a).det.re / (-b).det.re by
      have := ha3.ne'; have := hb3.ne'; field_simp,
    Real.log_div ha3.ne' hb3.ne']
  simp only [cmvCircular]
  ring

theorem cmvCircular_entropy {d : ℕ} {a : Matrix (Fin d) (Fin d) ℂ} (ha : a ∈ cmvCircularDom d) :
    (cmvCircular d).entropyN cmvCircularEcm a = Textbook.Entropy.circular ((cmvCircular d).toExp a) := by
  obtain ⟨-, ha2, ha3, ha4⟩ := cmvCircular_params ha
  have e : (cmvCircular d).dot a ((cmvCircular d).toExp a) = -d := by
    show (∑ i, ∑ j, a i j * (cmvCircular d).toExp a i j).re = _
    rw [cmv_dot_trace, show aᵀ = -(-a)ᵀ by simp, neg_mul, ha2, trace_neg, trace_one]
    simp
  rw [ExpFam.entropyN, ExpFam.crossEntropy, e, Textbook.Entropy.circular, ha4,
    Real.log_mul (by positivity) (by positivity), Real.log_pow, Real.log_mul (by positivity) (by positivity),
    Real.log_exp, one_div, Real.log_inv]
  simp only [cmvCircular, cmvCircularEcm]
  ring

/-! ### Multinomial -/

/-- The probabilities of all categories, from those of all but the last. -/
noncomputable abbrev categories {d : ℕ} (p : Fin (d + 1) → ℝ) : Fin (d + 2) → ℝ :=
  Fin.snoc (α := fun _ => ℝ) p (1 - ∑ i, p i)

theorem multinomial_categories {d : ℕ} (q : Fin (d + 1) → ℝ) (k : Fin (d + 2)) :
    0 < categories ((multinomial d).toExp q) k ∧ Real.log (categories ((multinomial d).toExp q) k) =
      (Fin.snoc (α := fun _ => ℝ) q 0 : Fin (d + 2) → ℝ) k - (multinomial d).logNormalizer q := by
  have hs : 0 < 1 + ∑ i, Real.exp (q i) := by positivity
  have ht : ∀ i, (multinomial d).toExp q i = Real.exp (q i) / (1 + ∑ j, Real.exp (q j)) :=
    toExp_multinomial q
  have hl : (multinomial d).logNormalizer q = Real.log (1 + ∑ i, Real.exp (q i)) :=
    logNormalizer_multinomial q
  rw [hl]
  refine Fin.lastCases ?_ (fun j => ?_) k
  · have : 1 - ∑ i, (multinomial d).toExp q i = 1 / (1 + ∑ j, Real.exp (q j)) := by
      simp only [ht, ← Finset.sum_div]
      field_simp
      ring
    rw [categories, Fin.snoc_last, Fin.snoc_last, this, Real.log_div one_ne_zero hs.ne', Real.log_one]
    exact ⟨by positivity, rfl⟩
  · rw [categories, Fin.snoc_castSucc, Fin.snoc_castSucc, ht, Real.log_div (Real.exp_pos _).ne' hs.ne',
      Real.log_exp]
    exact ⟨by positivity, rfl⟩

theorem categories_sum {d : ℕ} (p : Fin (d + 1) → ℝ) : ∑ k, categories p k = 1 := by
  rw [Fin.sum_univ_castSucc]
  simp

theorem categories_dot {d : ℕ} (p v : Fin (d + 1) → ℝ) :
    ∑ k, categories p k * (Fin.snoc (α := fun _ => ℝ) v 0 : Fin (d + 2) → ℝ) k = ∑ i, v i * p i := by
  rw [Fin.sum_univ_castSucc]
  simp [mul_comm]

theorem multinomial_kl {d : ℕ} (a b : Fin (d + 1) → ℝ) : (multinomial d).kl a b =
    Textbook.KL.categorical (categories ((multinomial d).toExp a)) (categories ((multinomial d).toExp b)) := by
  rw [Textbook.KL.categorical, Finset.sum_congr rfl fun k _ => show
    categories ((multinomial d).toExp a) k *
      Real.log (categories ((multinomial d).toExp a) k / categories ((multinomial d).toExp b) k) =
    categories ((multinomial d).toExp a) k * (Fin.snoc (α := fun _ => ℝ) a 0 : Fin (d + 2) → ℝ) k -
      categories ((multinomial d).toExp a) k * (Fin.snoc (α := fun _ => ℝ) b 0 : Fin (d + 2) → ℝ) k +
      categories ((multinomial d).toExp a) k *
        ((multinomial d).logNormalizer b - (multinomial d).logNormalizer a) by
    obtain ⟨h1, h2⟩ := multinomial_categories a k
    obtain ⟨h3, h4⟩ := multinomial_categories b k
    rw [Real.log_div h1.ne' h3.ne', h2, h4]
    ring]
  rw [Finset.sum_add_distrib, Finset.sum_sub_distrib, categories_dot, categories_dot, ← Finset.sum_mul,
    categories_sum, ExpFam.kl, ExpFam.klWith, ← Finset.sum_sub_distrib]
  have : (multinomial d).dot (a - b) ((multinomial d).toExp a) =
      ∑ i, (a i * (multinomial d).toExp a i - b i * (multinomial d).toExp a i) := by
    show ∑ i, (a - b) i * _ = _
    exact Finset.sum_congr rfl fun i _ => by rw [Pi.sub_apply]; ring
  rw [this]
  ring

theorem multinomial_entropy {d : ℕ} (a : Fin (d + 1) → ℝ) : (multinomial d).entropyN multinomialEcm a =
    Textbook.Entropy.categorical (categories ((multinomial d).toExp a)) := by
  rw [Textbook.Entropy.categorical, Finset.sum_congr rfl fun k _ => show
    categories ((multinomial d).toExp a) k * Real.log (categories ((multinomial d).toExp a) k) =
    categories ((multinomial d).toExp a) k * (Fin.snoc (α := fun _ => ℝ) a 0 : Fin (d + 2) → ℝ) k -
      categories ((multinomial d).toExp a) k * (multinomial d).logNormalizer a by
    rw [(multinomial_categories a k).2]
    ring]
  rw [Finset.sum_sub_distrib, categories_dot, ← Finset.sum_mul, categories_sum, ExpFam.entropyN,
    ExpFam.crossEntropy]
  show -(∑ i, a i * (multinomial d).toExp a i) + _ - 0 = _
  ring

/-! ### Dirichlet, beta, generalized Dirichlet -/

theorem sum_add_one {n : ℕ} (q : Fin n → ℝ) : ∑ i, (q i + 1) = ∑ i, q i + n := by
  rw [Finset.sum_add_distrib]; simp

theorem dirichlet_kl {d : ℕ} (a b : Fin (d + 1) → ℝ) : (dirichlet d).kl a b =
    Textbook.KL.dirichlet (fun i => a i + 1) (fun i => b i + 1) := by
  simp only [Textbook.KL.dirichlet, sum_add_one, ExpFam.kl, ExpFam.klWith, dirichlet, dirichletLogNormalizer,
    dirichletExpHelper, gammaln, Pi.sub_apply, add_sub_add_right_eq_sub]
  ring

theorem dirichlet_entropy {d : ℕ} (a : Fin (d + 1) → ℝ) : (dirichlet d).entropyN dirichletEcm a =
    Textbook.Entropy.dirichlet (fun i => a i + 1) := by
  simp only [Textbook.Entropy.dirichlet, sum_add_one, ExpFam.entropyN, ExpFam.crossEntropy, dirichlet,
    dirichletLogNormalizer, dirichletExpHelper, gammaln, dirichletEcm, add_sub_cancel_right, mul_sub,
    Finset.sum_sub_distrib, ← Finset.sum_mul]
  ring

theorem log_betaFun {a b : ℝ} (ha : 0 < a) (hb : 0 < b) : 0 < Textbook.betaFun a b ∧
    Real.log (Textbook.betaFun a b) = betaln a b := by
  have h1 := Real.Gamma_pos_of_pos ha
  have h2 := Real.Gamma_pos_of_pos hb
  have h3 := Real.Gamma_pos_of_pos (add_pos ha hb)
  rw [Textbook.betaFun, Real.log_div (by positivity) h3.ne', Real.log_mul h1.ne' h2.ne']
  exact ⟨by positivity, rfl⟩

theorem KL_beta_eq {a b a' b' : ℝ} (ha : 0 < a) (hb : 0 < b) (ha' : 0 < a') (hb' : 0 < b') :
    Textbook.KL.beta a b a' b' = betaln a' b' - betaln a b +
      ((digamma a - digamma (a + b)) * (a - a') + (digamma b - digamma (a + b)) * (b - b')) := by
  obtain ⟨h1, h2⟩ := log_betaFun ha hb
  obtain ⟨h3, h4⟩ := log_betaFun ha' hb'
  rw [Textbook.KL.beta, Real.log_div h3.ne' h1.ne', h2, h4]
  ring

theorem Entropy_beta_eq {a b : ℝ} (ha : 0 < a) (hb : 0 < b) :
    Textbook.Entropy.beta a b = betaln a b -
      ((digamma a - digamma (a + b)) * (a - 1) + (digamma b - digamma (a + b)) * (b - 1)) := by
  rw [Textbook.Entropy.beta, (log_betaFun ha hb).2]
  ring

theorem beta_kl {a b : Fin 2 → ℝ} (ha : ∀ i, -1 < a i) (hb : ∀ i, -1 < b i) : beta.kl a b =
    Textbook.KL.beta (a 0 + 1) (a 1 + 1) (b 0 + 1) (b 1 + 1) := by
  rw [KL_beta_eq (by linarith [ha 0]) (by linarith [ha 1]) (by linarith [hb 0]) (by linarith [hb 1])]
  simp only [ExpFam.kl, ExpFam.klWith, beta, dirichletLogNormalizer, dirichletExpHelper, betaln,
    Pi.sub_apply, Fin.sum_univ_two]
  rw [show a 0 + 1 + (a 1 + 1) = a 0 + a 1 + (2 : ℕ) by push_cast; ring,
    show b 0 + 1 + (b 1 + 1) = b 0 + b 1 + (2 : ℕ) by push_cast; ring]
  ring

theorem beta_entropy {a : Fin 2 → ℝ} (ha : ∀ i, -1 < a i) : beta.entropyN dirichletEcm a =
    Textbook.Entropy.beta (a 0 + 1) (a 1 + 1) := by
  rw [Entropy_beta_eq (by linarith [ha 0]) (by linarith [ha 1])]
  simp only [ExpFam.entropyN, ExpFam.crossEntropy, beta, dirichletLogNormalizer, dirichletExpHelper, betaln,
    Fin.sum_univ_two, dirichletEcm]
  rw [show a 0 + 1 + (a 1 + 1) = a 0 + a 1 + (2 : ℕ) by push_cast; ring]
  ring

theorem betaArg_sub {k : ℕ} (a b : (Fin k → ℝ) × (Fin k → ℝ)) (i : Fin k) :
    (∑ j, if i ≤ j then (a - b).2 j else 0) + (∑ j, if i < j then (a - b).1 j else 0) =
      betaArg a.1 a.2 0 i - betaArg b.1 b.2 0 i := by
  have h := betaArg_line b (a - b) 1 i
  rw [one_smul, add_sub_cancel, one_mul] at h
  rw [h]
  ring

theorem genDirichlet_kl {k : ℕ} {a b : (Fin k → ℝ) × (Fin k → ℝ)} (ha : a ∈ genDirichletDom k)
    (hb : b ∈ genDirichletDom k) : (genDirichlet k).kl a b =
      Textbook.KL.genDirichlet (genDirichletAlphaBeta a).1 (genDirichletAlphaBeta a).2
        (genDirichletAlphaBeta b).1 (genDirichletAlphaBeta b).2 := by
  have hd : (genDirichlet k).dot (a - b) ((genDirichlet k).toExp a) = _ :=
    gradient_sums (a - b).1 (a - b).2
      (fun i => digamma ((genDirichletAlphaBeta a).1 i) -
        digamma ((genDirichletAlphaBeta a).1 i + (genDirichletAlphaBeta a).2 i))
      (fun i => digamma ((genDirichletAlphaBeta a).2 i) -
        digamma ((genDirichletAlphaBeta a).1 i + (genDirichletAlphaBeta a).2 i))
  simp only [betaArg_sub] at hd
  rw [ExpFam.kl, ExpFam.klWith, hd, Textbook.KL.genDirichlet]
  simp only [genDirichlet, ← Finset.sum_add_distrib, ← Finset.sum_sub_distrib]
  refine Finset.sum_congr rfl fun i _ => ?_
  rw [KL_beta_eq] <;> simp only [genDirichlet_alpha, genDirichlet_beta, Prod.fst_sub, Pi.sub_apply]
  · ring
  · linarith [ha.1 i]
  · exact genDirichletDom_beta ha i
  · linarith [hb.1 i]
  · exact genDirichletDom_beta hb i

theorem betaArg_direct {k : ℕ} (a : (Fin k → ℝ) × (Fin k → ℝ)) (i : Fin k) :
    (∑ j, if i ≤ j then a.2 j else 0) + (∑ j, if i < j then a.1 j else 0) =
      betaArg a.1 a.2 0 i - 1 - ∑ j : Fin k, if i < j then (1 : ℝ) else 0 := by
  have e : (∑ j, if i < j then a.1 j + 1 else 0) =
      (∑ j, if i < j then a.1 j else 0) + ∑ j : Fin k, if i < j then (1 : ℝ) else 0 := by
    rw [← Finset.sum_add_distrib]
    exact Finset.sum_congr rfl fun j _ => by split <;> simp
  rw [betaArg, e]
  ring

theorem genDirichlet_entropy {k : ℕ} {a : (Fin k → ℝ) × (Fin k → ℝ)} (ha : a ∈ genDirichletDom k) :
    (genDirichlet k).entropyN genDirichletEcm a =
      Textbook.Entropy.genDirichlet (genDirichletAlphaBeta a).1 (genDirichletAlphaBeta a).2 := by
  have hd : (genDirichlet k).dot a ((genDirichlet k).toExp a) = _ :=
    gradient_sums a.1 a.2
      (fun i => digamma ((genDirichletAlphaBeta a).1 i) -
        digamma ((genDirichletAlphaBeta a).1 i + (genDirichletAlphaBeta a).2 i))
      (fun i => digamma ((genDirichletAlphaBeta a).2 i) -
        digamma ((genDirichletAlphaBeta a).1 i + (genDirichletAlphaBeta a).2 i))
  have hs : ∑ i : Fin k, ∑ j ∈ Finset.Iio i, (digamma ((genDirichletAlphaBeta a).2 j) -
        digamma ((genDirichletAlphaBeta a).1 j + (genDirichletAlphaBeta a).2 j)) =
      ∑ i : Fin k, (digamma ((genDirichletAlphaBeta a).2 i) -
        digamma ((genDirichletAlphaBeta a).1 i + (genDirichletAlphaBeta a).2 i)) *
          ∑ j : Fin k, if i < j then (1 : ℝ) else 0 := by
    simp only [sum_Iio_eq, Finset.mul_sum]
    rw [Finset.sum_comm]
    exact Finset.sum_congr rfl fun i _ => Finset.sum_congr rfl fun j _ => by split <;> simp
  simp only [betaArg_direct] at hd
  rw [Textbook.Entropy.genDirichlet, Finset.sum_add_distrib, hs, ExpFam.entropyN, ExpFam.crossEntropy, hd]
  simp only [genDirichlet, genDirichletEcm, sub_zero]
  rw [← Finset.sum_neg_distrib, ← Finset.sum_add_distrib, ← Finset.sum_add_distrib]
  refine Finset.sum_congr rfl fun i _ => ?_
  rw [Entropy_beta_eq] <;> simp only [genDirichlet_alpha, genDirichlet_beta]
  · ring
  · linarith [ha.1 i]
  · exact genDirichletDom_beta ha i

/-! ### Von Mises-Fisher -/

theorem vmf_logNormalizer_bessel {n : ℕ} {q : EuclideanSpace ℝ (Fin (n + 1))} (hq : q ≠ 0) :
    0 < besselI (((n + 1 : ℕ) : ℝ) / 2 - 1) ‖q‖ ∧
    (vonMisesFisher (n + 1)).logNormalizer q = ((n + 1 : ℕ) : ℝ) / 2 * Real.log (2 * Real.pi) +
      Real.log (besselI (((n + 1 : ℕ) : ℝ) / 2 - 1) ‖q‖) - (((n + 1 : ℕ) : ℝ) / 2 - 1) * Real.log ‖q‖ := by
  have hk : 0 < ‖q‖ := norm_pos_iff.2 hq
  have hI : 0 < besselI (((n + 1 : ℕ) : ℝ) / 2 - 1) ‖q‖ := besselI_pos (by
    have : (0 : ℝ) < ((n + 1 : ℕ) : ℝ) / 2 := by positivity
    linarith) hk
  refine ⟨hI, ?_⟩
  simp only [vonMisesFisher, logIve]
  rw [show ((n + 1 : ℕ) : ℝ) * 0.5 = ((n + 1 : ℕ) : ℝ) / 2 by ring, Real.log_mul hI.ne' (Real.exp_pos _).ne',
    Real.log_exp]
  ring

theorem vmf_dot_toExp {n : ℕ} {q : EuclideanSpace ℝ (Fin (n + 1))} (hq : q ≠ 0)
    (v : EuclideanSpace ℝ (Fin (n + 1))) :
    (vonMisesFisher (n + 1)).dot v ((vonMisesFisher (n + 1)).toExp q) =
      besselI (((n + 1 : ℕ) : ℝ) / 2) ‖q‖ / besselI (((n + 1 : ℕ) : ℝ) / 2 - 1) ‖q‖ / ‖q‖ *
        ∑ i, v i * q i := by
  rw [vmf_toExp' hq, vmfAK, ivRatio, show ((n + 1 : ℕ) : ℝ) * 0.5 = ((n + 1 : ℕ) : ℝ) / 2 by ring]
  show ∑ i, v i * (_ * q i) = _
  rw [Finset.mul_sum]
  exact Finset.sum_congr rfl fun i _ => by ring

theorem vmf_kl {n : ℕ} {a b : EuclideanSpace ℝ (Fin (n + 1))} (ha : a ≠ 0) (hb : b ≠ 0) :
    (vonMisesFisher (n + 1)).kl a b = Textbook.KL.vonMisesFisher (fun i => a i / vmfKappa a) (vmfKappa a)
      (fun i => b i / vmfKappa b) (vmfKappa b) := by
  obtain ⟨a1, a2⟩ := vmf_logNormalizer_bessel ha
  obtain ⟨b1, b2⟩ := vmf_logNormalizer_bessel hb
  have ka : 0 < ‖a‖ := norm_pos_iff.2 ha
  have kb : 0 < ‖b‖ := norm_pos_iff.2 hb
  have hs : ∑ i, a i * a i = ‖a‖ ^ 2 := by
    rw [EuclideanSpace.real_norm_sq_eq]
    exact Finset.sum_congr rfl fun i _ => by ring
  have hd : (fun i => a i / ‖a‖) ⬝ᵥ (fun i => b i / ‖b‖) = (∑ i, b i * a i) / (‖a‖ * ‖b‖) := by
    rw [dotProduct, Finset.sum_div]
    exact Finset.sum_congr rfl fun i _ => by field_simp
  rw [ExpFam.kl, ExpFam.klWith, vmf_dot_toExp ha, a2, b2, Textbook.KL.vonMisesFisher, vmfKappa, vmfKappa,
    Real.log_div ka.ne' kb.ne', Real.log_div b1.ne' a1.ne', hd]
  simp only [PiLp.sub_apply, sub_mul, Finset.sum_sub_distrib, hs]
  have na := ka.ne'
  have nb := kb.ne'
  have na1 := a1.ne'
  field_simp
  ring

theorem vmf_entropy {n : ℕ} {a : EuclideanSpace ℝ (Fin (n + 1))} (ha : a ≠ 0) :
    (vonMisesFisher (n + 1)).entropyN vonMisesFisherEcm a =
      Textbook.Entropy.vonMisesFisher (n + 1) (vmfKappa a) := by
  obtain ⟨a1, a2⟩ := vmf_logNormalizer_bessel ha
  have ka : 0 < ‖a‖ := norm_pos_iff.2 ha
  have hs : ∑ i, a i * a i = ‖a‖ ^ 2 := by
    rw [EuclideanSpace.real_norm_sq_eq]
    exact Finset.sum_congr rfl fun i _ => by ring
  rw [ExpFam.entropyN, ExpFam.crossEntropy, vmf_dot_toExp ha, a2, hs, Textbook.Entropy.vonMisesFisher, vmfKappa,
    vonMisesFisherEcm]
  have na := ka.ne'
  have na1 := a1.ne'
  field_simp
  ring

end Efax
