import Verif.Model.Tests.Bodies4
import Verif.Model.Families.Conjugate
import Verif.Lemmas.Slots
import Verif.Props.Analysis

/-! # Stationary points of densities -/

namespace Efax

open Spec Tests ClassTable Calc

/-- An array of numbers. -/
theorem stationary_scalar [MachEps] {L : Library Cls} {d : Dist Cls} {rs : List ℕ} {f : List ℕ → ℝ → ℝ} {x : List ℕ → ℝ}
    (hp : ∀ y : List ℕ → ℝ, d.pdf L (.leaf (.real (scalars rs y))) = ok (scalars rs fun i => f i (y i)))
    (h : ∀ i, inB rs i = true → HasDerivAt (f i) 0 (x i)) : Stationary L d (.real (scalars rs x)) rs := by
  intro j hj
  have hj : inB rs j = true := hj
  have e : (Val.real (scalars rs x)).rshape.length - rs.length = 0 := Nat.sub_self _
  rw [e]
  have h1 : (fun t : ℝ => entryAt (j.drop 0) (d.pdf L (.leaf ((Val.real (scalars rs x)).nudge j (t * 1))))) =
      fun t => f j (x j + t) := by
    funext t
    rw [nudge_scalars, hp]
    change (Arr.ofFn rs _).get j = _
    rw [Arr.ofFn_get hj, Function.update_self]
  rw [h1]
  have h2 := h j hj
  rw [← add_zero (x j)] at h2
  exact h2.comp_const_add (x j) 0

/-- An array of vectors. -/
theorem stationary_vector [MachEps] {L : Library Cls} {d : Dist Cls} {rs : List ℕ} {n : ℕ}
    {f : List ℕ → (Fin n → ℝ) → ℝ} {x : List ℕ → Fin n → ℝ}
    (hp : ∀ y : List ℕ → Fin n → ℝ, d.pdf L (.leaf (.real (vectors rs y))) = ok (scalars rs fun i => f i (y i)))
    (h : ∀ i, inB rs i = true → ∀ k, HasDerivAt (fun t => f i (Function.update (x i) k t)) 0 (x i k)) :
    Stationary L d (.real (vectors rs x)) rs := by
  intro j hj
  have hj : inB (n :: rs) j = true := hj
  obtain ⟨k, i, rfl, hk, hi⟩ := inB_cons_elim hj
  have e : (Val.real (vectors rs x)).rshape.length - rs.length = 1 :=
    Nat.add_sub_cancel_left _ _
  rw [e]
  have h1 : (fun t : ℝ => entryAt ((k :: i).drop 1) (d.pdf L (.leaf ((Val.real (vectors rs x)).nudge (k :: i) (t * 1))))) =
      fun t => f i (Function.update (x i) ⟨k, hk⟩ (x i ⟨k, hk⟩ + t)) := by
    funext t
    have e1 : (Val.real (vectors rs x)).nudge (k :: i) (t * 1) = .real (vectors rs
        (Function.update x i (Function.update (x i) ⟨k, hk⟩ (x i ⟨k, hk⟩ + t)))) := by
      refine congrArg Val.real (vectors_ext (by rw [Arr.ofFn_rshape, vectors_rshape]) fun l m hm => ?_)
      rw [Arr.ofFn_get (by rw [vectors_rshape]; exact (inB_cons ..).2 ⟨l.2, hm⟩), Calc.vectors_get x l.2 hm]
      by_cases e : m = i
      · subst e
        by_cases e : l = ⟨k, hk⟩
        · subst e; simp
        · have e' : l.val ≠ k := fun h => e (Fin.ext h)
          simp [e, e']
      · simp [e]
    rw [e1, hp]
    change (Arr.ofFn rs _).get i = _
    rw [Arr.ofFn_get hi, Function.update_self]
  rw [h1]
  have h2 := h i hi ⟨k, hk⟩
  rw [← add_zero (x i ⟨k, hk⟩)] at h2
  exact h2.comp_const_add (x i ⟨k, hk⟩) 0

/-! ### Stationary points of the priors -/

theorem hasDerivAt_pdf {N E X : Type} (F : ExpFam N E X) {q : N} {u : ℝ → X} {a : ℝ}
    (h : HasDerivAt (fun t => F.dot q (F.stat (u t)) + F.carrier (u t)) 0 a) :
    HasDerivAt (fun t => F.pdf q (u t)) 0 a := by
  have h1 : HasDerivAt (fun t => F.logPdf q (u t)) 0 a := by
    have e : (fun t => F.logPdf q (u t)) =
        fun t => F.dot q (F.stat (u t)) + F.carrier (u t) - F.logNormalizer q := by
      funext t
      rw [ExpFam.logPdf]
      ring
    rw [e]
    exact h.sub_const _
  have h2 := h1.exp
  rw [mul_zero] at h2
  exact h2

/-- The derivative of a sum over the coordinates in one of them. -/
theorem hasDerivAt_coordinate {n : ℕ} (F : Fin n → ℝ → ℝ) {x : Fin n → ℝ} {k : Fin n} {D : ℝ}
    (h : HasDerivAt (F k) D (x k)) : HasDerivAt (fun t => ∑ l, F l (Function.update x k t l)) D (x k) := by
  have e : (fun t => ∑ l, F l (Function.update x k t l)) =
      fun t => F k t + ∑ l ∈ Finset.univ.erase k, F l (x l) := by
    funext t
    rw [← Finset.add_sum_erase _ _ (Finset.mem_univ k), Function.update_self]
    refine congrArg _ (Finset.sum_congr rfl fun l hl => ?_)
    rw [Function.update_of_ne (Finset.ne_of_mem_erase hl)]
  rw [e]
  exact h.add_const _

theorem beta_stationary {p : ℝ} (h : p ∈ Set.Ioo (0 : ℝ) 1) (n : ℝ) :
    HasDerivAt (beta.pdf (bernoulliPrior p n)) 0 p := by
  refine hasDerivAt_pdf beta (u := id) ?_
  have h1 : HasDerivAt (fun t : ℝ => n * p * Real.log t + n * (1 - p) * Real.log (1 + -t) + 0)
      (n * p * p⁻¹ + n * (1 - p) * (-1 / (1 + -p))) p :=
    (((Real.hasDerivAt_log h.1.ne').const_mul _).add
      ((((hasDerivAt_id p).neg.const_add 1).log (ne_of_gt (show 0 < 1 + -p by linarith [h.2]))).const_mul _)).add_const _
  have e : n * p * p⁻¹ + n * (1 - p) * (-1 / (1 + -p)) = 0 := by
    have h1 := h.1.ne'
    have h2 : 1 + -p ≠ 0 := by linarith [h.2]
    field_simp
    ring
  rw [e] at h1
  refine h1.congr_of_eventuallyEq (.of_forall fun t => ?_)
  simp [beta, bernoulliPrior, log1p, Fin.sum_univ_two]

theorem gamma_stationary {q : ℝ × ℝ} {x : ℝ} (hx : 0 < x) (h : q.1 * x + q.2 = 0) :
    HasDerivAt (gamma.pdf q) 0 x := by
  refine hasDerivAt_pdf gamma (u := id) ?_
  have h1 : HasDerivAt (fun t : ℝ => q.1 * t + q.2 * Real.log t + 0) (q.1 * 1 + q.2 * x⁻¹) x :=
    (((hasDerivAt_id x).const_mul _).add ((Real.hasDerivAt_log hx.ne').const_mul _)).add_const _
  have e : q.1 * 1 + q.2 * x⁻¹ = 0 := by
    field_simp
    linarith
  rw [e] at h1
  exact h1

theorem normal_stationary {q : ℝ × ℝ} {x : ℝ} (h : q.1 + 2 * q.2 * x = 0) : HasDerivAt (normal.pdf q) 0 x := by
  refine hasDerivAt_pdf normal (u := id) ?_
  have h1 : HasDerivAt (fun t : ℝ => q.1 * t + q.2 * t ^ 2 + 0) (q.1 * 1 + q.2 * (2 * x ^ 1 * 1)) x :=
    (((hasDerivAt_id x).const_mul _).add (((hasDerivAt_id x).pow 2).const_mul _)).add_const _
  have e : q.1 * 1 + q.2 * (2 * x ^ 1 * 1) = 0 := by linarith
  rw [e] at h1
  exact h1

theorem diagonal_stationary {d : ℕ} {q : (Fin d → ℝ) × (Fin d → ℝ)} {x : Fin d → ℝ} {k : Fin d}
    (h : q.1 k + 2 * q.2 k * x k = 0) :
    HasDerivAt (fun t => (mvDiagonal d).pdf q (Function.update x k t)) 0 (x k) := by
  refine hasDerivAt_pdf (mvDiagonal d) (u := fun t => Function.update x k t) ?_
  have h1 : HasDerivAt (fun t : ℝ => q.1 k * t + q.2 k * t ^ 2) (q.1 k * 1 + q.2 k * (2 * x k ^ 1 * 1)) (x k) :=
    ((hasDerivAt_id _).const_mul _).add (((hasDerivAt_id _).pow 2).const_mul _)
  have e : q.1 k * 1 + q.2 k * (2 * x k ^ 1 * 1) = 0 := by linarith
  rw [e] at h1
  refine ((hasDerivAt_coordinate (fun l t => q.1 l * t + q.2 l * t ^ 2) h1).add_const 0).congr_of_eventuallyEq
    (.of_forall fun t => ?_)
  simp only [mvDiagonal, Finset.sum_add_distrib]

theorem isotropic_stationary {d : ℕ} {q : (Fin d → ℝ) × ℝ} {x : Fin d → ℝ} {k : Fin d}
    (h : q.1 k + 2 * q.2 * x k = 0) :
    HasDerivAt (fun t => (mvIsotropic d).pdf q (Function.update x k t)) 0 (x k) := by
  refine hasDerivAt_pdf (mvIsotropic d) (u := fun t => Function.update x k t) ?_
  have h1 : HasDerivAt (fun t : ℝ => q.1 k * t + q.2 * t ^ 2) (q.1 k * 1 + q.2 * (2 * x k ^ 1 * 1)) (x k) :=
    ((hasDerivAt_id _).const_mul _).add (((hasDerivAt_id _).pow 2).const_mul _)
  have e : q.1 k * 1 + q.2 * (2 * x k ^ 1 * 1) = 0 := by linarith
  rw [e] at h1
  refine ((hasDerivAt_coordinate (fun l t => q.1 l * t + q.2 * t ^ 2) h1).add_const 0).congr_of_eventuallyEq
    (.of_forall fun t => ?_)
  simp only [mvIsotropic, Finset.sum_add_distrib, Finset.mul_sum]

theorem dirichlet_stationary {d : ℕ} {p : Fin (d + 1) → ℝ} {k : Fin (d + 1)} (hp : 0 < p k) (hs : ∑ i, p i < 1)
    (n : ℝ) :
    HasDerivAt (fun t => (dirichlet (d + 1)).pdf (multinomialPrior p n) (Function.update p k t)) 0 (p k) := by
  refine hasDerivAt_pdf (dirichlet (d + 1)) (u := fun t => Function.update p k t) ?_
  have h1 := hasDerivAt_coordinate (fun l t => n * p l * Real.log t)
    ((Real.hasDerivAt_log hp.ne').const_mul (n * p k))
  have h2 := hasDerivAt_coordinate (x := p) (k := k) (fun _ t => t) (hasDerivAt_id (p k))
  have hs' : 1 - ∑ l, Function.update p k (p k) l ≠ 0 := by
    rw [Function.update_eq_self]
    linarith
  have h3 := (h1.add (((h2.const_sub 1).log hs').const_mul (n * (1 - ∑ i, p i)))).add_const 0
  have e : n * p k * (p k)⁻¹ + n * (1 - ∑ i, p i) * (-1 / (1 - ∑ l, Function.update p k (p k) l)) = 0 := by
    rw [Function.update_eq_self] at hs' ⊢
    have := hp.ne'
    field_simp
    ring
  rw [e] at h3
  refine h3.congr_of_eventuallyEq (.of_forall fun t => ?_)
  simp only [dirichlet, multinomialPrior, Fin.sum_univ_castSucc, Fin.snoc_castSucc, Fin.snoc_last, Pi.add_apply]

end Efax
