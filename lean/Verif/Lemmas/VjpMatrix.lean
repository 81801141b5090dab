import Verif.Lemmas.Vjp
import Verif.Lemmas.Families.MvFull
import Verif.Lemmas.Families.CmvCircular

/-! # Derivatives of the expectation parameters of the families with matrices -/

noncomputable section

namespace Efax

open Spec Matrix MeasureTheory Filter Topology

/-- The derivative of the matrix inverse. -/
theorem inv_deriv {𝕜 : Type} [RCLike 𝕜] {d : ℕ} {H : Matrix (Fin d) (Fin d) 𝕜} (hH : IsUnit H.det)
    (V : Matrix (Fin d) (Fin d) 𝕜) (i j : Fin d) :
    HasDerivAt (fun t : ℝ => (H + t • V)⁻¹ i j) (-(H⁻¹ * V * H⁻¹) i j) 0 := by
  have hc := (det_perturb (V := V) hH).continuousAt
  have hu : ∀ᶠ t : ℝ in 𝓝 0, IsUnit (H + t • V).det := by
    filter_upwards [hc.eventually_ne (y := 0) (by simpa using hH.ne_zero)] with t ht
    exact isUnit_iff_ne_zero.2 ht
  have hi : ContinuousAt (fun t : ℝ => (H + t • V)⁻¹) 0 := by
    have e : (fun t : ℝ => (H + t • V)⁻¹) = fun t => ((H + t • V).det)⁻¹ • (H + t • V).adjugate := by
      funext t
      rw [inv_def, Ring.inverse_eq_inv']
    rw [e]
    refine ContinuousAt.smul (f := fun t : ℝ => ((H + t • V).det)⁻¹)
      (g := fun t : ℝ => (H + t • V).adjugate) ?_ ?_
    · refine hc.inv₀ ?_
      simpa using hH.ne_zero
    · exact Continuous.continuousAt (Continuous.matrix_adjugate (by fun_prop))
  have h := hasDerivAt_of_factor_smul (f := fun t : ℝ => (H + t • V)⁻¹ i j)
    (g := fun t : ℝ => -((H + t • V)⁻¹ * (V * H⁻¹)) i j) ?_ ?_
  · simpa [mul_assoc] using h
  · filter_upwards [hu] with t ht
    have h1 : (H + t • V)⁻¹ * (H + t • V) = 1 := nonsing_inv_mul _ ht
    have h2 : (H + t • V)⁻¹ * H = 1 - t • ((H + t • V)⁻¹ * V) := by
      rw [mul_add, Matrix.mul_smul] at h1
      exact eq_sub_of_add_eq h1
    have h3 := congrArg (· * H⁻¹) h2
    simp only [mul_assoc, mul_nonsing_inv _ hH, mul_one, sub_mul, one_mul, smul_mul] at h3
    conv_lhs => rw [h3]
    simp [sub_eq_add_neg]
  · have : ContinuousAt (fun t : ℝ => ∑ k, (H + t • V)⁻¹ i k * (V * H⁻¹) k j) 0 :=
      tendsto_finsetSum _ fun k _ =>
        Tendsto.mul (continuousAt_pi.1 (continuousAt_pi.1 hi i) k) tendsto_const_nhds
    exact this.neg

/-- In the directions of a regular family, the derivative of the pairing with `to_exp` is the
covariance. -/
theorem Spec.LocallyRegular.cov_of_deriv {N E X : Type} [AddCommGroup N] [Module ℝ N] [MeasurableSpace X]
    {F : ExpFam N E X} {μ : Measure X} {D : Set N} {dirs : Submodule ℝ N} (R : LocallyRegular F μ D dirs)
    {q v w : N} {c : ℝ} (hq : q ∈ D) (hv : v ∈ dirs) (hw : w ∈ dirs)
    (h : HasDerivAt (fun t : ℝ => F.dot v (F.toExp (q + t • w))) c 0) :
    HasCov μ (F.pdf q) (fun x => F.dot w (F.stat x)) (fun x => F.dot v (F.stat x)) c := by
  obtain ⟨c', ⟨a, b, ha, hb, hab⟩, hd⟩ := R.deriv_toExp hq hv hw
  obtain rfl := h.unique hd
  exact ⟨b, a, hb, ha, hab.congr (fun x => by ring) rfl⟩

section Normal

variable {d : ℕ} (q v : (Fin d → ℝ) × Matrix (Fin d) (Fin d) ℝ)

/-- The derivative of the inverse of the second parameter. -/
def mvInv (e : (Fin d → ℝ) × Matrix (Fin d) (Fin d) ℝ) : Matrix (Fin d) (Fin d) ℝ :=
  -(q.2⁻¹ * e.2 * q.2⁻¹)

/-- The derivative of the product of this inverse with the first parameter. -/
def mvProd (e : (Fin d → ℝ) × Matrix (Fin d) (Fin d) ℝ) : Fin d → ℝ :=
  mvInv q e *ᵥ q.1 + q.2⁻¹ *ᵥ e.1

theorem mvInv_add (a b) : mvInv q (a + b) = mvInv q a + mvInv q b := by
  simp only [mvInv, Prod.snd_add, mul_add, add_mul]
  abel

theorem mvInv_smul (t : ℝ) (a) : mvInv q (t • a) = t • mvInv q a := by
  simp only [mvInv, Prod.smul_snd, Matrix.mul_smul, smul_mul, smul_neg]

theorem mvProd_add (a b) : mvProd q (a + b) = mvProd q a + mvProd q b := by
  simp only [mvProd, mvInv_add, add_mulVec, Prod.fst_add, mulVec_add]
  abel

theorem mvProd_smul (t : ℝ) (a) : mvProd q (t • a) = t • mvProd q a := by
  simp only [mvProd, mvInv_smul, smul_mulVec, Prod.smul_fst, mulVec_smul, smul_add]

/-- The derivative of the pairing with the expectation parameters. -/
def mvDeriv : (Fin d → ℝ) × Matrix (Fin d) (Fin d) ℝ →ₗ[ℝ] ℝ where
  toFun e := ∑ i, v.1 i * ((-0.5 : ℝ) * mvProd q e i) + ∑ i, ∑ j, v.2 i j *
    (0.25 * (mvProd q e i * (q.2⁻¹ *ᵥ q.1) j + (q.2⁻¹ *ᵥ q.1) i * mvProd q e j) - 0.5 * mvInv q e i j)
  map_add' a b := by
    simp only [mvProd_add, mvInv_add, Pi.add_apply, Matrix.add_apply]
    refine Eq.trans (congrArg₂ (· + ·) ?_ ?_) (add_add_add_comm _ _ _ _)
    · rw [← Finset.sum_add_distrib]
      exact Finset.sum_congr rfl fun i _ => by ring
    · rw [← Finset.sum_add_distrib]
      refine Finset.sum_congr rfl fun i _ => ?_
      rw [← Finset.sum_add_distrib]
      exact Finset.sum_congr rfl fun j _ => by ring
  map_smul' t a := by
    simp only [mvProd_smul, mvInv_smul, Pi.smul_apply, Matrix.smul_apply, smul_eq_mul, RingHom.id_apply, mul_add,
      Finset.mul_sum]
    congr 1
    · exact Finset.sum_congr rfl fun i _ => by ring
    · exact Finset.sum_congr rfl fun i _ => Finset.sum_congr rfl fun j _ => by ring

theorem mvNormal_deriv (h : IsUnit q.2.det) (e) :
    HasDerivAt (fun t : ℝ => (mvNormal d).dot v ((mvNormal d).toExp (q + t • e))) (mvDeriv q v e) 0 := by
  have hI : ∀ i j, HasDerivAt (fun t : ℝ => (q.2 + t • e.2)⁻¹ i j) (mvInv q e i j) 0 := fun i j =>
    inv_deriv h e.2 i j
  have hP : ∀ i, HasDerivAt (fun t : ℝ => ((q.2 + t • e.2)⁻¹ *ᵥ (q.1 + t • e.1)) i) (mvProd q e i) 0 := by
    intro i
    have h1 : ∀ j, HasDerivAt (fun t : ℝ => (q.1 + t • e.1) j) (e.1 j) 0 := fun j => by
      simpa using ((hasDerivAt_id (0 : ℝ)).mul_const (e.1 j)).const_add (q.1 j)
    have h2 := HasDerivAt.fun_sum (u := Finset.univ) fun j _ => (hI i j).mul (h1 j)
    simp only [zero_smul, add_zero, Finset.sum_add_distrib] at h2
    exact h2
  have h1 := HasDerivAt.fun_sum (u := Finset.univ) fun i _ => ((hP i).const_mul (-0.5)).const_mul (v.1 i)
  have h2 := HasDerivAt.fun_sum (u := Finset.univ) fun i _ => HasDerivAt.fun_sum (u := Finset.univ) fun j _ =>
    ((((hP i).mul (hP j)).const_mul 0.25).sub ((hI i j).const_mul 0.5)).const_mul (v.2 i j)
  have h3 := h1.add h2
  simp only [zero_smul, add_zero] at h3
  exact h3

theorem mvNormal_unit (h : q ∈ mvNormalDom d) : IsUnit q.2.det := by
  have h : (-q.2).PosDef := h
  have := (isUnit_iff_isUnit_det _).1 h.isUnit.neg
  rwa [neg_neg] at this

end Normal

section Circular

variable {d : ℕ} (q v : Matrix (Fin d) (Fin d) ℂ)

/-- The derivative of the pairing with the expectation parameters. -/
def circularDeriv : Matrix (Fin d) (Fin d) ℂ →ₗ[ℝ] ℝ where
  toFun e := (∑ i, ∑ j, v i j * star (((-q)⁻¹ * e * (-q)⁻¹) i j)).re
  map_add' a b := by
    simp only [mul_add, add_mul, Matrix.add_apply, star_add, Finset.sum_add_distrib, Complex.add_re]
  map_smul' t a := by
    simp only [Matrix.mul_smul, smul_mul, Matrix.smul_apply, star_smul, star_trivial, mul_smul_comm,
      ← Finset.smul_sum, Complex.smul_re, RingHom.id_apply]

theorem cmvCircular_deriv (h : IsUnit (-q).det) (e) :
    HasDerivAt (fun t : ℝ => (cmvCircular d).dot v ((cmvCircular d).toExp (q + t • e)))
      (circularDeriv q v e) 0 := by
  have hI : ∀ i j, HasDerivAt (fun t : ℝ => (starRingEnd ℂ) ((-(q + t • e))⁻¹ i j))
      (star (((-q)⁻¹ * e * (-q)⁻¹) i j)) 0 := fun i j => by
    have h1 := Complex.conjCLE.toContinuousLinearMap.hasFDerivAt.comp_hasDerivAt (0 : ℝ) (inv_deriv h (-e) i j)
    have e1 : ∀ t : ℝ, -q + t • -e = -(q + t • e) := fun t => by rw [smul_neg, neg_add]
    simp only [Function.comp_def, e1, mul_neg, neg_mul, Matrix.neg_apply, neg_neg] at h1
    exact h1
  have h2 := HasDerivAt.fun_sum (u := Finset.univ) fun i _ => HasDerivAt.fun_sum (u := Finset.univ) fun j _ =>
    (hI i j).const_mul (v i j)
  exact Complex.reCLM.hasFDerivAt.comp_hasDerivAt (0 : ℝ) h2

end Circular

end Efax
