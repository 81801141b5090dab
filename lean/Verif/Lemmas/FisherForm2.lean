import Verif.Lemmas.FisherForm
import Verif.Lemmas.ClosedForm3
import Verif.Props.Families.Multivariate

/-!
# Derivatives of the expectation parameters of multivariate families in closed form
-/

namespace Efax

open MeasureTheory Spec Set Filter Topology Matrix

/-- The line through a number. -/
theorem hasDerivAt_line (a w : ℝ) : HasDerivAt (fun t : ℝ => a + t * w) w 0 := by
  simpa using ((hasDerivAt_id (0 : ℝ)).mul_const w).const_add a

theorem gamma_info {q : ℝ × ℝ} (hq : q ∈ gammaDom) :
    HasInfo gamma ⊤ q (Textbook.Info.gamma (q.2 + 1) (-1 / q.1)) := by
  intro v _ w _
  have h1 : q.1 < 0 := hq.1
  have h2 : -1 < q.2 := hq.2
  have hp : 0 < q.2 + 1 := by linarith
  have l1 := hasDerivAt_line q.1 w.1
  have l2 := hasDerivAt_line (q.2 + 1) w.2
  have a1 : HasDerivAt (fun t : ℝ => -(q.2 + 1 + t * w.2) / (q.1 + t * w.1))
      (((-w.2) * q.1 - (-(q.2 + 1)) * w.1) / q.1 ^ 2) 0 := by
    simpa using l2.fun_neg.fun_div l1 (by simpa using h1.ne)
  have a2 : HasDerivAt (fun t : ℝ => digamma (q.2 + 1 + t * w.2) - Real.log (-(q.1 + t * w.1)))
      (trigamma (q.2 + 1) * w.2 - (-w.1) / (-q.1)) 0 := by
    have := (hasDerivAt_digamma_line hp w.2).fun_sub (l1.fun_neg.log (by simpa using h1.ne))
    simpa using this
  have h := (a1.const_mul v.1).fun_add (a2.const_mul v.2)
  refine HasDerivAt.congr_deriv (hasDerivAt_of_eq h (fun t => ?_) rfl) ?_
  · simp only [gamma, Prod.fst_add, Prod.snd_add, Prod.smul_fst, Prod.smul_snd, smul_eq_mul]
    rw [show q.2 + t * w.2 + 1 = q.2 + 1 + t * w.2 by ring]
  · simp only [Textbook.Info.gamma]
    have := h1.ne
    field_simp
    ring

theorem normal_info {q : ℝ × ℝ} (hq : q ∈ normalDom) : HasInfo normal ⊤ q
    (Textbook.Info.normal (normal.toExp q).1 (normalVariance (normal.toExp q))) := by
  intro v _ w _
  have h1 : q.2 < 0 := hq
  have h0 := h1.ne
  have l1 := hasDerivAt_line q.1 w.1
  have l2 := hasDerivAt_line q.2 w.2
  have a1 : HasDerivAt (fun t : ℝ => -(q.1 + t * w.1) / (2 * (q.2 + t * w.2)))
      (((-w.1) * (2 * q.2) - (-q.1) * (2 * w.2)) / (2 * q.2) ^ 2) 0 := by
    simpa using l1.fun_neg.fun_div (l2.const_mul 2) (by simpa using h0)
  have a2 : HasDerivAt (fun t : ℝ => 0.5 / (q.2 + t * w.2)) (-(0.5 * w.2) / q.2 ^ 2) 0 := by
    simpa using (hasDerivAt_const (0 : ℝ) (0.5 : ℝ)).fun_div l2 (by simpa using h0)
  have h := (a1.const_mul v.1).fun_add (((a1.fun_pow 2).fun_sub a2).const_mul v.2)
  refine HasDerivAt.congr_deriv (hasDerivAt_of_eq h (fun t => ?_) rfl) ?_
  · simp only [normal, Prod.fst_add, Prod.snd_add, Prod.smul_fst, Prod.smul_snd, smul_eq_mul]
  · simp only [Textbook.Info.normal, normal, normalVariance]
    norm_num
    field_simp
    ring

theorem mvUnit_info {d : ℕ} (q : Fin d → ℝ) : HasInfo (mvUnit d) ⊤ q fun v w => ∑ i, v i * w i := by
  intro v _ w _
  have : HasDerivAt (fun t : ℝ => ∑ i, v i * (q i + t * w i)) (∑ i, v i * w i) 0 :=
    HasDerivAt.fun_sum fun i _ => (hasDerivAt_line (q i) (w i)).const_mul (v i)
  exact this

theorem mvFixed_info {d : ℕ} (s : ℝ) (q : Fin d → ℝ) :
    HasInfo (mvFixed d s) ⊤ q fun v w => s * ∑ i, v i * w i := by
  intro v _ w _
  have : HasDerivAt (fun t : ℝ => ∑ i, v i * ((q i + t * w i) * s)) (∑ i, v i * (w i * s)) 0 :=
    HasDerivAt.fun_sum fun i _ => ((hasDerivAt_line (q i) (w i)).mul_const s).const_mul (v i)
  refine HasDerivAt.congr_deriv this ?_
  show _ = s * _
  rw [Finset.mul_sum]
  exact Finset.sum_congr rfl fun i _ => by ring

theorem complexUnit_info (q : ℂ) : HasInfo complexUnit ⊤ q Textbook.Info.complexUnit := by
  intro v _ w _
  have h := hasDerivAt_line ((v * (starRingEnd ℂ q * 0.5)).re) ((v * (starRingEnd ℂ w * 0.5)).re)
  refine HasDerivAt.congr_deriv (hasDerivAt_of_eq h (fun t => ?_) rfl) ?_
  · simp only [complexUnit, map_add, Complex.real_smul, map_mul, Complex.conj_ofReal]
    rw [← Complex.re_ofReal_mul, ← Complex.add_re]
    congr 1
    ring
  · have e : v * (starRingEnd ℂ w * 0.5) = ((1 / 2 : ℝ) : ℂ) * (v * star w) := by
      rw [Complex.star_def]
      push_cast
      ring
    rw [e, Complex.re_ofReal_mul, Textbook.Info.complexUnit]
    ring

theorem cmvUnit_info {d : ℕ} (q : Fin d → ℂ) :
    HasInfo (cmvUnit d) ⊤ q fun v w => ∑ i, Textbook.Info.complexUnit (v i) (w i) := by
  intro v _ w _
  have : HasDerivAt (fun t : ℝ => ∑ i, complexUnit.dot (v i) (complexUnit.toExp (q i + t • w i)))
      (∑ i, Textbook.Info.complexUnit (v i) (w i)) 0 :=
    HasDerivAt.fun_sum fun i _ => complexUnit_info (q i) (v i) trivial (w i) trivial
  refine hasDerivAt_of_eq this (fun t => ?_) rfl
  simp [cmvUnit, complexUnit, Complex.re_sum]

theorem mvDiagonal_info {d : ℕ} {q : (Fin d → ℝ) × (Fin d → ℝ)} (hq : q ∈ mvDiagonalDom d) :
    HasInfo (mvDiagonal d) ⊤ q fun v w => ∑ i, Textbook.Info.normal (((mvDiagonal d).toExp q).1 i)
      (mvDiagonalVariance ((mvDiagonal d).toExp q) i) (v.1 i, v.2 i) (w.1 i, w.2 i) := by
  intro v _ w _
  have : HasDerivAt (fun t : ℝ => ∑ i, normal.dot (v.1 i, v.2 i)
      (normal.toExp ((q.1 i, q.2 i) + t • (w.1 i, w.2 i))))
      (∑ i, Textbook.Info.normal (normal.toExp (q.1 i, q.2 i)).1 (normalVariance (normal.toExp (q.1 i, q.2 i)))
        (v.1 i, v.2 i) (w.1 i, w.2 i)) 0 :=
    HasDerivAt.fun_sum fun i _ => normal_info (q := (q.1 i, q.2 i)) (hq i) _ trivial _ trivial
  refine hasDerivAt_of_eq this (fun t => ?_) rfl
  simp [mvDiagonal, normal, Finset.sum_add_distrib]

theorem mvIsotropic_info {d : ℕ} {q : (Fin (d + 1) → ℝ) × ℝ} (hq : q ∈ mvIsotropicDom (d + 1)) :
    HasInfo (mvIsotropic (d + 1)) ⊤ q (Textbook.Info.spherical ((mvIsotropic (d + 1)).toExp q).1
      (mvIsotropicVariance ((mvIsotropic (d + 1)).toExp q))) := by
  intro v _ w _
  have h1 : q.2 < 0 := hq
  have h0 := h1.ne
  have l2 : HasDerivAt (fun t : ℝ => -2 * (q.2 + t * w.2)) (-2 * w.2) 0 :=
    (hasDerivAt_line q.2 w.2).const_mul (-2)
  have a1 : ∀ i, HasDerivAt (fun t : ℝ => (q.1 i + t * w.1 i) / (-2 * (q.2 + t * w.2)))
      ((w.1 i * (-2 * q.2) - q.1 i * (-2 * w.2)) / (-2 * q.2) ^ 2) 0 := fun i => by
    simpa using (hasDerivAt_line (q.1 i) (w.1 i)).fun_div l2 (by simpa using h0)
  have a2 : HasDerivAt (fun t : ℝ => (((d + 1 : ℕ) : ℝ)) / (-2 * (q.2 + t * w.2)))
      (-((d + 1 : ℕ) * (-2 * w.2)) / (-2 * q.2) ^ 2) 0 := by
    simpa using (hasDerivAt_const (0 : ℝ) ((d + 1 : ℕ) : ℝ)).fun_div l2 (by simpa using h0)
  have h := (HasDerivAt.fun_sum fun i (_ : i ∈ Finset.univ) => (a1 i).const_mul (v.1 i)).fun_add
    (((HasDerivAt.fun_sum fun i (_ : i ∈ Finset.univ) => (a1 i).fun_pow 2).fun_add a2).const_mul v.2)
  refine HasDerivAt.congr_deriv (hasDerivAt_of_eq h (fun t => ?_) rfl) ?_
  · simp only [mvIsotropic, Prod.fst_add, Prod.snd_add, Prod.smul_fst, Prod.smul_snd, smul_eq_mul, Pi.add_apply,
      Pi.smul_apply]
  · have hs : mvIsotropicVariance ((mvIsotropic (d + 1)).toExp q) = 1 / (-2 * q.2) := by
      simp only [mvIsotropicVariance, mvIsotropic, add_sub_cancel_left]
      have : ((d + 1 : ℕ) : ℝ) ≠ 0 := by positivity
      field_simp
    rw [hs]
    simp only [Textbook.Info.spherical, mvIsotropic, zero_mul, add_zero]
    have e1 : ∑ i, v.1 i * ((w.1 i * (-2 * q.2) - q.1 i * (-2 * w.2)) / (-2 * q.2) ^ 2) =
        1 / (-2 * q.2) * (∑ i, v.1 i * w.1 i) + 2 * (1 / (-2 * q.2)) *
          ((∑ i, q.1 i / (-2 * q.2) * v.1 i) * w.2) := by
      rw [Finset.mul_sum, Finset.sum_mul, Finset.mul_sum, ← Finset.sum_add_distrib]
      refine Finset.sum_congr rfl fun i _ => ?_
      field_simp
      ring
    have e2 : ∑ i, ((2 : ℕ) : ℝ) * (q.1 i / (-2 * q.2)) ^ (2 - 1) *
        ((w.1 i * (-2 * q.2) - q.1 i * (-2 * w.2)) / (-2 * q.2) ^ 2) =
        2 * (1 / (-2 * q.2)) * (∑ i, q.1 i / (-2 * q.2) * w.1 i) +
          4 * (1 / (-2 * q.2)) * (∑ i, (q.1 i / (-2 * q.2)) ^ 2) * w.2 := by
      rw [Finset.mul_sum, Finset.mul_sum, Finset.sum_mul, ← Finset.sum_add_distrib]
      refine Finset.sum_congr rfl fun i _ => ?_
      norm_num
      field_simp
      ring
    rw [e1, e2]
    field_simp
    ring

theorem dirichletExp_line {n : ℕ} {q : Fin n → ℝ} (hn : 0 < n) (hq : ∀ i, -1 < q i) (w : Fin n → ℝ) (i : Fin n) :
    HasDerivAt (fun t : ℝ => dirichletExpHelper (q + t • w) i)
      (trigamma (q i + 1) * w i - trigamma (∑ j, (q j + 1)) * ∑ j, w j) 0 := by
  have hs : 0 < ∑ j, (q j + 1) := by
    have : Nonempty (Fin n) := ⟨⟨0, hn⟩⟩
    exact Finset.sum_pos (fun j _ => by have := hq j; linarith) Finset.univ_nonempty
  have h := (hasDerivAt_digamma_line (a := q i + 1) (by have := hq i; linarith) (w i)).fun_sub
    (hasDerivAt_digamma_line hs (∑ j, w j))
  refine hasDerivAt_of_eq h (fun t => ?_) rfl
  simp only [dirichletExpHelper, Pi.add_apply, Pi.smul_apply, smul_eq_mul]
  rw [show q i + t * w i + 1 = q i + 1 + t * w i by ring]
  congr 2
  simp only [Finset.sum_add_distrib, Finset.mul_sum, Finset.sum_const, Finset.card_univ, Fintype.card_fin,
    nsmul_eq_mul, mul_one]
  ring

theorem dirichlet_sum {n : ℕ} {q : Fin n → ℝ} (hn : 0 < n) (hq : ∀ i, -1 < q i) (v w : Fin n → ℝ) :
    HasDerivAt (fun t : ℝ => ∑ i, v i * dirichletExpHelper (q + t • w) i)
      (Textbook.Info.dirichlet (fun i => q i + 1) v w) 0 := by
  have h := HasDerivAt.fun_sum fun i (_ : i ∈ Finset.univ) => (dirichletExp_line hn hq w i).const_mul (v i)
  refine HasDerivAt.congr_deriv h ?_
  simp only [Textbook.Info.dirichlet]
  generalize trigamma (∑ j, (q j + 1)) = T
  generalize ∑ j, w j = W
  rw [Finset.sum_mul, Finset.mul_sum, ← Finset.sum_sub_distrib]
  exact Finset.sum_congr rfl fun i _ => by ring

theorem dirichlet_info {d : ℕ} {q : Fin (d + 1) → ℝ} (hq : q ∈ dirichletDom (d + 1)) :
    HasInfo (dirichlet d) ⊤ q (Textbook.Info.dirichlet fun i => q i + 1) :=
  fun v _ w _ => dirichlet_sum d.succ_pos hq v w

theorem beta_info {q : Fin 2 → ℝ} (hq : q ∈ dirichletDom 2) :
    HasInfo beta ⊤ q fun v w => Textbook.Info.beta (q 0 + 1) (q 1 + 1) (v 0, v 1) (w 0, w 1) := by
  intro v _ w _
  refine HasDerivAt.congr_deriv (dirichlet_sum (n := 2) (by norm_num) hq v w) ?_
  simp [Textbook.Info.beta, Textbook.Info.dirichlet, Fin.sum_univ_two]

end Efax
