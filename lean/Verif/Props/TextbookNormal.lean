import Verif.Spec.Textbook
import Verif.Lemmas.Families.CmvCircular

/-!
# The densities of the multivariate and complex normal families are the textbook ones (C57)
-/

namespace Efax

open Spec Matrix

/-- The normal density with the covariance `(2 B)⁻¹`, as the exponential of a quadratic function. -/
theorem textbook_gauss {ι : Type} [Fintype ι] [DecidableEq ι] {B S : Matrix ι ι ℝ} (hB : B.PosDef)
    (hS : S * B = (1 / 2 : ℝ) • 1) (m x : ι → ℝ) :
    Textbook.mvNormal m S x = Real.exp (2 * (m ⬝ᵥ B *ᵥ x) - x ⬝ᵥ B *ᵥ x - m ⬝ᵥ B *ᵥ m +
      (1 / 2 * Real.log B.det - Fintype.card ι / 2 * Real.log Real.pi)) := by
  have hi : S⁻¹ = (2 : ℝ) • B := inv_eq_right_inv (by rw [Matrix.mul_smul, hS, smul_smul]; norm_num)
  have hd : S.det * B.det = (1 / 2) ^ Fintype.card ι := by
    rw [← det_mul, hS, det_smul, det_one, mul_one]
  have hp : 0 < B.det := hB.det_pos
  have hq : (2 * Real.pi) ^ Fintype.card ι * S.det = Real.pi ^ Fintype.card ι / B.det := by
    rw [eq_div_iff hp.ne', mul_assoc, hd, ← mul_pow]
    congr 1
    ring
  have hsymm : x ⬝ᵥ B *ᵥ m = m ⬝ᵥ B *ᵥ x := by
    have : B.IsSymm := by
      have := hB.1
      rwa [IsHermitian, conjTranspose_eq_transpose_of_trivial] at this
    rw [dotProduct_mulVec, ← mulVec_transpose, this.eq, dotProduct_comm]
  rw [Textbook.mvNormal, hi, hq, Real.sqrt_eq_rpow, Real.rpow_def_of_pos (by positivity), ← Real.exp_sub,
    Real.log_div (by positivity) hp.ne', Real.log_pow]
  congr 1
  simp only [smul_mulVec, dotProduct_smul, smul_eq_mul, mulVec_sub, dotProduct_sub, sub_dotProduct, hsymm]
  ring

theorem mvNormal_variance {d : ℕ} (q : (Fin d → ℝ) × Matrix (Fin d) (Fin d) ℝ) :
    mvNormalVariance ((mvNormal d).toExp q) = (-0.5 : ℝ) • q.2⁻¹ := by
  simp only [mvNormalVariance, mvNormal, vecMulVec_smul, smul_vecMulVec, smul_smul]
  norm_num

/-- Arbitrary variance. -/
theorem C57_mv_normal (d : ℕ) {q : (Fin d → ℝ) × Matrix (Fin d) (Fin d) ℝ} (hq : q ∈ mvNormalDom d)
    (x : Fin d → ℝ) : (mvNormal d).pdf q x =
      Textbook.mvNormal ((mvNormal d).toExp q).1 (mvNormalVariance ((mvNormal d).toExp q)) x := by
  have hq : (-q.2).PosDef := hq
  have hu : IsUnit q.2.det := by
    have := hq.det_pos.ne'
    rw [det_neg] at this
    exact isUnit_iff_ne_zero.2 (right_ne_zero_of_mul this)
  have hm : q.2 *ᵥ ((mvNormal d).toExp q).1 = (-0.5 : ℝ) • q.1 := by
    simp only [mvNormal, mulVec_smul, mulVec_mulVec, mul_nonsing_inv _ hu, one_mulVec]
  have hs : q.2.IsSymm := by
    have := hq.1
    rw [IsHermitian, conjTranspose_eq_transpose_of_trivial, transpose_neg] at this
    exact neg_injective this
  have h1 : ∀ y, ((mvNormal d).toExp q).1 ⬝ᵥ q.2 *ᵥ y = -0.5 * (q.1 ⬝ᵥ y) := fun y => by
    rw [dotProduct_mulVec, ← mulVec_transpose, hs.eq, hm, smul_dotProduct, smul_eq_mul]
  rw [textbook_gauss hq (by
    rw [mvNormal_variance, smul_mul, mul_neg, nonsing_inv_mul _ hu, smul_neg, neg_smul, neg_neg]; norm_num), ExpFam.pdf,
    mvNormal_logPdf, mvNormal_logNormalizer]
  congr 1
  simp only [neg_mulVec, dotProduct_neg, h1, Fintype.card_fin]
  simp only [mvNormal, dotProduct_smul, smul_eq_mul]
  ring

example (x : Fin 2 → ℝ) : (mvNormal 2).pdf (0, -1) x = Textbook.mvNormal ((mvNormal 2).toExp (0, -1)).1
    (mvNormalVariance ((mvNormal 2).toExp (0, -1))) x :=
  C57_mv_normal 2 (show (- -1 : Matrix (Fin 2) (Fin 2) ℝ).PosDef by rw [neg_neg]; exact PosDef.one) x

/-- A diagonal quadratic form. -/
theorem dot_diagonal {ι : Type} [Fintype ι] [DecidableEq ι] (b x y : ι → ℝ) :
    x ⬝ᵥ diagonal b *ᵥ y = ∑ i, b i * x i * y i := by
  simp only [dotProduct, mulVec_diagonal]
  exact Finset.sum_congr rfl fun i _ => by ring

/-- Diagonal variance. -/
theorem C57_mv_diagonal (d : ℕ) {q : (Fin d → ℝ) × (Fin d → ℝ)} (hq : q ∈ mvDiagonalDom d)
    (x : Fin d → ℝ) : (mvDiagonal d).pdf q x = Textbook.mvNormal ((mvDiagonal d).toExp q).1
      (diagonal (mvDiagonalVariance ((mvDiagonal d).toExp q))) x := by
  have hq : ∀ i, q.2 i < 0 := hq
  have hB : (diagonal fun i => -q.2 i).PosDef := PosDef.diagonal fun i => neg_pos.2 (hq i)
  rw [textbook_gauss hB, ExpFam.pdf, ExpFam.logPdf]
  · congr 1
    rw [det_diagonal, Real.log_prod fun i _ => (neg_pos.2 (hq i)).ne', dot_diagonal, dot_diagonal,
      dot_diagonal, Fintype.card_fin]
    have hl : ∀ i, Real.log (-Real.pi / q.2 i) = Real.log Real.pi - Real.log (-q.2 i) := fun i => by
      rw [← Real.log_div Real.pi_pos.ne' (neg_pos.2 (hq i)).ne', div_neg, neg_div]
    simp only [mvDiagonal, hl]
    have hc : (d : ℝ) / 2 * Real.log Real.pi = ∑ _i : Fin d, 1 / 2 * Real.log Real.pi := by simp; ring
    rw [hc]
    simp only [Finset.mul_sum, ← Finset.sum_add_distrib, ← Finset.sum_sub_distrib, add_zero]
    refine Finset.sum_congr rfl fun i _ => ?_
    have := (hq i).ne
    field_simp
    ring
  · rw [diagonal_mul_diagonal]
    ext i j
    by_cases h : i = j
    · subst h
      have := (hq i).ne
      simp [mvDiagonalVariance, mvDiagonal]
      field_simp
      norm_num
    · simp [h]

example (x : Fin 2 → ℝ) : (mvDiagonal 2).pdf (0, ![-1, -2]) x =
    Textbook.mvNormal ((mvDiagonal 2).toExp (0, ![-1, -2])).1
      (diagonal (mvDiagonalVariance ((mvDiagonal 2).toExp (0, ![-1, -2])))) x :=
  C57_mv_diagonal 2 (fun i => by fin_cases i <;> norm_num) x

/-- The variance of the isotropic normal family. -/
theorem C57_mv_isotropic (d : ℕ) {q : (Fin d → ℝ) × ℝ} (hq : q ∈ mvIsotropicDom d) (x : Fin d → ℝ) :
    (mvIsotropic d).pdf q x = Textbook.mvNormal ((mvIsotropic d).toExp q).1
      (mvIsotropicVariance ((mvIsotropic d).toExp q) • (1 : Matrix (Fin d) (Fin d) ℝ)) x := by
  have hq : q.2 < 0 := hq
  have hB : (diagonal fun _ : Fin d => -q.2).PosDef := PosDef.diagonal fun i => neg_pos.2 hq
  rw [textbook_gauss hB, ExpFam.pdf, ExpFam.logPdf]
  · congr 1
    rw [det_diagonal, Finset.prod_const, Real.log_pow, dot_diagonal, dot_diagonal, dot_diagonal,
      Finset.card_univ, Fintype.card_fin]
    simp only [mvIsotropic]
    rw [Real.log_div Real.pi_pos.ne' (neg_pos.2 hq).ne']
    have e1 : ∑ i, -q.2 * (q.1 i / (-2 * q.2)) * x i = 1 / 2 * ∑ i, q.1 i * x i := by
      rw [Finset.mul_sum]
      exact Finset.sum_congr rfl fun i _ => by have := hq.ne; field_simp
    have e2 : ∑ i, -q.2 * x i * x i = -(q.2 * ∑ i, x i ^ 2) := by
      rw [Finset.mul_sum, ← Finset.sum_neg_distrib]
      exact Finset.sum_congr rfl fun i _ => by ring
    have e3 : ∑ i, -q.2 * (q.1 i / (-2 * q.2)) * (q.1 i / (-2 * q.2)) = -(∑ i, q.1 i ^ 2) / (4 * q.2) := by
      rw [← Finset.sum_neg_distrib, Finset.sum_div]
      exact Finset.sum_congr rfl fun i _ => by field_simp; ring
    rw [e1, e2, e3]
    have := hq.ne
    field_simp
    ring
  · ext i j
    have hd : (d : ℝ) ≠ 0 := Nat.cast_ne_zero.2 (Nat.ne_of_gt i.pos)
    by_cases h : i = j
    · subst h
      have := hq.ne
      simp [mvIsotropicVariance, mvIsotropic]
      field_simp
    · simp [h]

example (x : Fin 3 → ℝ) : (mvIsotropic 3).pdf (0, -1) x =
    Textbook.mvNormal ((mvIsotropic 3).toExp (0, -1)).1
      (mvIsotropicVariance ((mvIsotropic 3).toExp (0, -1)) • (1 : Matrix (Fin 3) (Fin 3) ℝ)) x :=
  C57_mv_isotropic 3 (show (-1 : ℝ) < 0 by norm_num) x

/-- Fixed variance. -/
theorem C57_mv_fixed (d : ℕ) {v : ℝ} (hv : 0 < v) (q x : Fin d → ℝ) :
    (mvFixed d v).pdf q x = Textbook.mvNormal ((mvFixed d v).toExp q)
      (v • (1 : Matrix (Fin d) (Fin d) ℝ)) x := by
  rw [(mvFixed_pdf hv q).2 x, C57_mv_diagonal d (mvFixed_dom hv q)]
  congr 1
  · funext i
    simp only [mvDiagonal, mvFixed]
    field_simp
    norm_num
    ring
  · ext i j
    by_cases h : i = j
    · subst h
      simp [mvDiagonalVariance, mvDiagonal]
      field_simp
    · simp [h]

example (x : Fin 3 → ℝ) : (mvFixed 3 2).pdf 0 x =
    Textbook.mvNormal ((mvFixed 3 2).toExp 0) ((2 : ℝ) • (1 : Matrix (Fin 3) (Fin 3) ℝ)) x :=
  C57_mv_fixed 3 two_pos 0 x

/-- Unit variance. -/
theorem C57_mv_unit (d : ℕ) (q x : Fin d → ℝ) :
    (mvUnit d).pdf q x = Textbook.mvNormal ((mvUnit d).toExp q) (1 : Matrix (Fin d) (Fin d) ℝ) x := by
  rw [mvUnit_eq, C57_mv_fixed d one_pos, one_smul]

/-- Complex normal: variance and pseudo-variance from the second moments. -/
theorem C57_complex_normal {q : ComplexNormalParams} (hq : q ∈ complexNormalDom) (z : ℂ) :
    complexNormal.pdf q z = Textbook.complexNormal (complexNormal.toExp q).1
      ((complexNormal.toExp q).2.1 - Complex.normSq (complexNormal.toExp q).1)
      ((complexNormal.toExp q).2.2 - (complexNormal.toExp q).1 ^ 2) z := by
  obtain ⟨hh, hD⟩ := complexNormal_dom hq
  obtain ⟨hs, hr, hi⟩ := complexNormal_mu hh.ne hD.ne'
  have hu := complexNormal_u hh.ne hD.ne'
  have e : complexNormal.pdf q z = (mvNormal 2).pdf (complexNormalReal q) (Textbook.parts z) := by
    rw [ExpFam.pdf, ExpFam.pdf, mvNormal_logPdf, ExpFam.logPdf, complexNormal_logNormalizer hq]
    congr 1
    simp [complexNormal, complexNormalReal, Textbook.parts, Complex.normSq_apply, dotProduct, mulVec,
      Fin.sum_univ_two, pow_two]
    ring
  rw [e, C57_mv_normal 2 ((complexNormalDom_iff q).1 hq), Textbook.complexNormal]
  congr 1
  · funext i
    simp only [mvNormal, complexNormal, Pi.smul_apply, smul_eq_mul]
    rw [complexNormal_inv hD.ne']
    simp only [Textbook.parts, hr, hi]
    generalize hg : q.2.1 ^ 2 - Complex.normSq q.2.2 = D at *
    have hD' := hD.ne'
    fin_cases i <;> simp [complexNormalReal, mulVec, dotProduct, Fin.sum_univ_two] <;> field_simp <;>
      ring
  · rw [mvNormal_variance, complexNormal_inv hD.ne']
    simp only [complexNormal, add_sub_cancel_right, hu]
    rw [hs]
    generalize hg : q.2.1 ^ 2 - Complex.normSq q.2.2 = D at *
    have hD' := hD.ne'
    ext i j
    fin_cases i <;> fin_cases j <;>
      simp [Textbook.complexCov, Complex.div_ofReal_re, Complex.div_ofReal_im] <;> field_simp <;> ring

example (z : ℂ) : complexNormal.pdf (1, -2, Complex.I) z =
    Textbook.complexNormal (complexNormal.toExp (1, -2, Complex.I)).1
      ((complexNormal.toExp (1, -2, Complex.I)).2.1 -
        Complex.normSq (complexNormal.toExp (1, -2, Complex.I)).1)
      ((complexNormal.toExp (1, -2, Complex.I)).2.2 - (complexNormal.toExp (1, -2, Complex.I)).1 ^ 2) z :=
  C57_complex_normal (show ‖Complex.I‖ < - -2 by norm_num) z

/-- Complex normal with unit variance. -/
theorem C57_complex_unit (q z : ℂ) :
    complexUnit.pdf q z = Textbook.complexNormal (complexUnit.toExp q) 1 0 z := by
  have hB : (1 : Matrix (Fin 2) (Fin 2) ℝ).PosDef := PosDef.one
  rw [Textbook.complexNormal, textbook_gauss hB, ExpFam.pdf, ExpFam.logPdf]
  · congr 1
    simp [complexUnit, Textbook.parts, Complex.normSq_apply]
    norm_num
    ring
  · ext i j
    fin_cases i <;> fin_cases j <;> simp [Textbook.complexCov]

/-- The real matrix of a complex linear map in the real and imaginary parts. -/
def realify {d : ℕ} (M : Matrix (Fin d) (Fin d) ℂ) : Matrix (Fin d ⊕ Fin d) (Fin d ⊕ Fin d) ℝ :=
  fromBlocks (M.map Complex.re) (-M.map Complex.im) (M.map Complex.im) (M.map Complex.re)

theorem realify_mul {d : ℕ} (M N : Matrix (Fin d) (Fin d) ℂ) :
    realify M * realify N = realify (M * N) := by
  rw [realify, realify, fromBlocks_multiply, realify]
  congr 1 <;> ext i j <;>
    simp [mul_apply, Complex.mul_re, Complex.mul_im, Finset.sum_sub_distrib, Finset.sum_add_distrib] <;> ring

theorem realify_one {d : ℕ} : realify (1 : Matrix (Fin d) (Fin d) ℂ) = 1 := by
  rw [realify, ← fromBlocks_one]
  congr 1 <;> ext i j <;> by_cases h : i = j <;> simp [h, one_apply]

theorem realify_mulVec {d : ℕ} (M : Matrix (Fin d) (Fin d) ℂ) (z : Fin d → ℂ) :
    realify M *ᵥ Textbook.mvParts z = Textbook.mvParts (M *ᵥ z) := by
  funext k
  rcases k with i | i <;>
    simp [realify, Textbook.mvParts, mulVec, dotProduct, Fintype.sum_sum_type, Finset.sum_sub_distrib,
      Finset.sum_add_distrib] <;> ring

theorem dot_mvParts {d : ℕ} (z w : Fin d → ℂ) :
    Textbook.mvParts z ⬝ᵥ Textbook.mvParts w = (star z ⬝ᵥ w).re := by
  simp [Textbook.mvParts, dotProduct, Fintype.sum_sum_type, Finset.sum_add_distrib]

theorem realify_det {d : ℕ} (M : Matrix (Fin d) (Fin d) ℂ) :
    (realify M).det = Complex.normSq M.det := by
  have h1 : (realify M).map Complex.ofRealHom = fromBlocks (M.map fun z => (z.re : ℂ))
      (-M.map fun z => (z.im : ℂ)) (M.map fun z => (z.im : ℂ)) (M.map fun z => (z.re : ℂ)) := by
    ext (i | i) (j | j) <;> simp [realify]
  have h2 : fromBlocks 1 (Complex.I • (1 : Matrix (Fin d) (Fin d) ℂ)) 0 1 *
      (realify M).map Complex.ofRealHom * fromBlocks 1 (-Complex.I • (1 : Matrix (Fin d) (Fin d) ℂ)) 0 1 =
      fromBlocks M 0 (M.map fun z => (z.im : ℂ)) (M.map (starRingEnd ℂ)) := by
    rw [h1, fromBlocks_multiply, fromBlocks_multiply]
    congr 1 <;> ext i j <;> apply Complex.ext <;> simp
  have h3 := congrArg det h2
  rw [det_mul, det_mul, det_fromBlocks_zero₂₁, det_fromBlocks_zero₂₁, det_fromBlocks_zero₁₂] at h3
  simp only [det_one, one_mul, mul_one] at h3
  have h4 : (M.map (starRingEnd ℂ)).det = starRingEnd ℂ M.det := (RingHom.map_det _ M).symm
  have h5 : ((realify M).map Complex.ofRealHom).det = ((realify M).det : ℂ) :=
    (RingHom.map_det Complex.ofRealHom _).symm
  rw [h4, h5, Complex.mul_conj] at h3
  exact_mod_cast h3

theorem mvParts_surjective {d : ℕ} (x : Fin d ⊕ Fin d → ℝ) :
    Textbook.mvParts (fun i => (⟨x (.inl i), x (.inr i)⟩ : ℂ)) = x := by
  funext k
  rcases k with i | i <;> rfl

open scoped ComplexOrder in
theorem realify_posDef {d : ℕ} {M : Matrix (Fin d) (Fin d) ℂ} (h : M.PosDef) : (realify M).PosDef := by
  rw [posDef_iff_dotProduct_mulVec]
  constructor
  · rw [IsHermitian, conjTranspose_eq_transpose_of_trivial]
    have hM : ∀ i j, star (M j i) = M i j := fun i j => h.1.apply i j
    ext (i | i) (j | j) <;> simp [realify, ← hM i j]
  · intro x hx
    rw [star_trivial, ← mvParts_surjective x, realify_mulVec, dot_mvParts]
    have hz : (fun i => (⟨x (.inl i), x (.inr i)⟩ : ℂ)) ≠ 0 := by
      intro h0
      apply hx
      rw [← mvParts_surjective x, h0]
      funext k
      rcases k with i | i <;> rfl
    exact (Complex.pos_iff.1 ((posDef_iff_dotProduct_mulVec.1 h).2 hz)).1

theorem complexMvCov_realify {d : ℕ} (V : Matrix (Fin d) (Fin d) ℂ) :
    Textbook.complexMvCov V 0 = (1 / 2 : ℝ) • realify V := by
  ext (i | i) (j | j) <;> simp [Textbook.complexMvCov, realify] <;> ring

/-- Several complex components with unit variance. -/
theorem C57_cmv_unit (d : ℕ) (q z : Fin d → ℂ) :
    (cmvUnit d).pdf q z = Textbook.complexMvNormal ((cmvUnit d).toExp q) 1 0 z := by
  have hB : (1 : Matrix (Fin d ⊕ Fin d) (Fin d ⊕ Fin d) ℝ).PosDef := PosDef.one
  rw [Textbook.complexMvNormal, textbook_gauss hB (by rw [complexMvCov_realify, realify_one, mul_one]),
    ExpFam.pdf, ExpFam.logPdf]
  congr 1
  simp only [one_mulVec, dot_mvParts, det_one, Real.log_one, Fintype.card_sum, Fintype.card_fin, re_star_dot]
  have e : (star ((cmvUnit d).toExp q) ⬝ᵥ z).re = 0.5 * (∑ i, q i * z i).re := by
    simp only [dotProduct, cmvUnit, Pi.star_apply, Complex.re_sum, Finset.mul_sum]
    refine Finset.sum_congr rfl fun i _ => ?_
    have : (0.5 : ℂ) = ((0.5 : ℝ) : ℂ) := by norm_num
    rw [this, star_mul', Complex.star_def, Complex.conj_conj, Complex.conj_ofReal,
      mul_right_comm, mul_comm, Complex.re_ofReal_mul]
  have e2 : ∑ i, Complex.normSq ((cmvUnit d).toExp q i) = ∑ i, Complex.normSq (q i * 0.5) :=
    Finset.sum_congr rfl fun i _ => by simp [cmvUnit]
  rw [e, e2]
  simp only [cmvUnit]
  push_cast
  ring

open scoped ComplexOrder in
/-- Circularly symmetric complex normal. -/
theorem C57_cmv_circular (d : ℕ) {q : Matrix (Fin d) (Fin d) ℂ} (hq : q ∈ cmvCircularDom d)
    (z : Fin d → ℂ) :
    (cmvCircular d).pdf q z = Textbook.complexMvNormal 0 ((cmvCircular d).toExp q) 0 z := by
  have hq : (-q).PosDef := hq
  have hd : 0 < (-q).det := hq.det_pos
  have hu : IsUnit (-q).det := isUnit_iff_ne_zero.2 hd.ne'
  have hH : (-q).map (starRingEnd ℂ) = (-q)ᵀ := by
    have := congrArg transpose hq.1
    exact this
  have hV : (cmvCircular d).toExp q * (-q)ᵀ = 1 := by
    rw [← hH]
    show (-q)⁻¹.map (starRingEnd ℂ) * (-q).map (starRingEnd ℂ) = 1
    rw [← Matrix.map_mul, nonsing_inv_mul _ hu]
    simp
  rw [Textbook.complexMvNormal, textbook_gauss (realify_posDef hq.transpose) (by
    rw [complexMvCov_realify, smul_mul, realify_mul, hV, realify_one]), ExpFam.pdf, ExpFam.logPdf]
  congr 1
  have h0 : Textbook.mvParts (0 : Fin d → ℂ) = 0 := by funext k; rcases k with i | i <;> rfl
  have hn : Complex.normSq (-q).det = (-q).det.re ^ 2 := by
    rw [Complex.normSq_apply, ← (Complex.pos_iff.1 hd).2]; ring
  rw [h0, realify_mulVec, dot_mvParts, realify_det, det_transpose, hn, Real.log_pow]
  simp only [cmvCircular, cmv_form, zero_dotProduct, transpose_neg, neg_mulVec, dotProduct_neg,
    Complex.neg_re, Fintype.card_sum, Fintype.card_fin]
  push_cast
  ring

open scoped ComplexOrder in
example (z : Fin 2 → ℂ) : (cmvCircular 2).pdf (-1) z =
    Textbook.complexMvNormal 0 ((cmvCircular 2).toExp (-1)) 0 z :=
  C57_cmv_circular 2 (show (- -1 : Matrix (Fin 2) (Fin 2) ℂ).PosDef by rw [neg_neg]; exact PosDef.one) z

end Efax
