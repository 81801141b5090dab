import Verif.Props.Analysis
import Verif.Lemmas.Graded

/-!
# The derivatives of the log-normalizers in all directions

The parameters of the library's matrix families are symmetric or Hermitian.  Automatic differentiation perturbs
single entries, which is also differentiable: the derivatives are the same expressions.
-/

namespace Efax

open MeasureTheory Spec Set Matrix Complex ClassTable ComplexOrder

theorem sum_sum_trace_left {d : ℕ} {M V : Matrix (Fin d) (Fin d) ℝ} (h : M.IsSymm) :
    ∑ i, ∑ j, V i j * M i j = (M * V).trace := by
  rw [trace_mul_comm]
  simp only [trace, diag, mul_apply]
  exact Finset.sum_congr rfl fun i _ => Finset.sum_congr rfl fun j _ => by rw [h.apply j i]

theorem mvNormal_gradient_all {d : ℕ} {q v : (Fin d → ℝ) × Matrix (Fin d) (Fin d) ℝ}
    (h : q ∈ mvNormalDom d) :
    HasDerivAt (fun t : ℝ => (mvNormal d).logNormalizer (q + t • v))
      ((mvNormal d).dot v ((mvNormal d).toExp q)) 0 := by
  have h : (-q.2).PosDef := h
  have hs : q.2.IsSymm := by
    have := h.isHermitian.neg
    rwa [neg_neg, IsHermitian, conjTranspose_eq_transpose_of_trivial] at this
  have hun : IsUnit (-q.2).det := (isUnit_iff_isUnit_det _).1 h.isUnit
  have hu : IsUnit q.2.det := by
    rw [← isUnit_iff_isUnit_det] at hun ⊢
    simpa using hun.neg
  have h1 := (quad_perturb (V := v.2) hu hs q.1 v.1).const_mul (-0.25)
  have h2 := ((det_perturb (V := -v.2) hun).log (by simpa using hun.ne_zero)).const_mul 0.5
  have h3 := (h1.sub h2).add_const (0.5 * d * Real.log Real.pi)
  refine (h3.congr_deriv ?_).congr_of_eventuallyEq (Filter.Eventually.of_forall fun t => ?_)
  · have hd : (-q.2).det ≠ 0 := hun.ne_zero
    have hi : (-q.2)⁻¹ = -q.2⁻¹ := matrix_inv_neg hu
    simp only [zero_smul, add_zero, mvNormal]
    rw [mul_div_cancel_left₀ _ hd, hi, neg_mul_neg]
    have e1 : ∑ i, ∑ j, v.2 i j * ((0.25 : ℝ) • vecMulVec (q.2⁻¹ *ᵥ q.1) (q.2⁻¹ *ᵥ q.1) -
        (0.5 : ℝ) • q.2⁻¹) i j = 0.25 * ((q.2⁻¹ *ᵥ q.1) ⬝ᵥ v.2 *ᵥ (q.2⁻¹ *ᵥ q.1)) -
        0.5 * (q.2⁻¹ * v.2).trace := by
      rw [← sum_sum_outer, ← sum_sum_trace_left hs.inv]
      simp only [Finset.mul_sum, ← Finset.sum_sub_distrib, Matrix.sub_apply, Matrix.smul_apply, smul_eq_mul]
      exact Finset.sum_congr rfl fun i _ => Finset.sum_congr rfl fun j _ => by ring
    rw [e1]
    have e2 : ∑ i, v.1 i * ((-0.5 : ℝ) • q.2⁻¹ *ᵥ q.1) i = -0.5 * (v.1 ⬝ᵥ q.2⁻¹ *ᵥ q.1) := by
      simp only [dotProduct, Finset.mul_sum, Pi.smul_apply, smul_eq_mul]
      exact Finset.sum_congr rfl fun i _ => by ring
    rw [e2]
    ring
  · simp only [mvNormal_logNormalizer, Prod.fst_add, Prod.snd_add, Prod.smul_fst, Prod.smul_snd,
      neg_add, smul_neg, Pi.sub_apply]

theorem cmvCircular_gradient_all {d : ℕ} {q v : Matrix (Fin d) (Fin d) ℂ}
    (h : q ∈ cmvCircularDom d) :
    HasDerivAt (fun t : ℝ => (cmvCircular d).logNormalizer (q + t • v))
      ((cmvCircular d).dot v ((cmvCircular d).toExp q)) 0 := by
  have h : (-q).PosDef := h
  have hun : IsUnit (-q).det := (isUnit_iff_isUnit_det _).1 h.isUnit
  obtain ⟨hdp, hdi⟩ := Complex.pos_iff.1 h.det_pos
  have h1 := reCLM.hasFDerivAt.comp_hasDerivAt (0 : ℝ) (det_perturb (V := -v) hun)
  have h2 := ((h1.log (by simpa using hdp.ne')).neg).add_const (d * Real.log Real.pi)
  refine (h2.congr_deriv ?_).congr_of_eventuallyEq (Filter.Eventually.of_forall fun t => ?_)
  · have hinv : ((-q)⁻¹).IsHermitian := h.isHermitian.inv
    have e1 : ∑ i, ∑ j, v i j * ((-q)⁻¹.map (starRingEnd ℂ)) i j = ((-q)⁻¹ * v).trace := by
      rw [Matrix.trace_mul_comm]
      simp only [trace, diag, mul_apply]
      refine Finset.sum_congr rfl fun i _ => Finset.sum_congr rfl fun j _ => ?_
      rw [map_apply, ← hinv.apply j i]
      rfl
    simp only [cmvCircular, e1, reCLM_apply, Function.comp_apply, zero_smul, add_zero, mul_re, ← hdi,
      zero_mul, sub_zero, mul_neg, trace_neg, neg_re]
    field_simp
  · simp only [cmvCircular, Function.comp_apply, reCLM_apply, neg_add, smul_neg, Pi.neg_apply]


variable [MachEps] {solve : Solver}

/-- The log-normalizer is differentiable in all directions. -/
def AllDirections {K : Kind Cls} (S : Setting K) : Prop :=
  ∀ p q e, S.ok p → q ∈ S.dom p →
    HasDerivAt (fun t : ℝ => (K.F p).logNormalizer (S.line q e t)) ((K.F p).dot e ((K.F p).toExp q)) 0

theorem allDirections_library {K : Kind Cls} {S : Setting K} (hS : LibrarySetting solve K S) : AllDirections S := by
  induction hS with
  | simple s =>
    cases s
    case mvNormal d => exact fun p q e _ hq => mvNormal_gradient_all hq
    case cmvCircular d => exact fun p q e _ hq => cmvCircular_gradient_all hq
    all_goals exact fun p q e hp hq => (library_lawful (.simple _)).gradient hp hq trivial
  | @joint l _ _ _ ih =>
    suffices h : ∀ (l : List (String × Σ K : Kind Cls, Setting K)), (∀ s ∈ l, AllDirections s.2.2) →
        AllDirections (Setting.joint Cls.jointN Cls.jointE (Settings.ofList l)) from h l ih
    intro l ih
    induction l with
    | nil => exact fun p q e _ _ => hasDerivAt_const _ _
    | cons s l ih' =>
      intro p q e hp hq
      exact (ih s List.mem_cons_self p.1 q.1 e.1 hp.1 hq.1).add
        (ih' (fun s' h' => ih s' (List.mem_cons_of_mem _ h')) p.2 q.2 e.2 hp.2 hq.2)

end Efax
