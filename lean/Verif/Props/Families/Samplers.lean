import Verif.Lemmas.Laws
import Verif.Model.Families.Samplers
import Verif.Props.Families.Inverse
import Verif.Props.Families.MvCarrier
import Verif.Props.Families.Normal
import Verif.Props.Families.Positive
import Verif.Props.Families.Multivariate
import Verif.Lemmas.Families.Simplex

/-!
# Samplers draw from the distribution (C46)
-/

namespace Efax

open MeasureTheory Spec Set

/-- A density that is the exponential of a known function, up to a constant. -/
theorem law_of_form {N E X : Type} [MeasurableSpace X] {μ : Measure X} {F : ExpFam N E X} {q : N}
    (hd : IsDensity μ (F.pdf q)) {g h : X → ℝ} (c : ℝ)
    (hg : ∀ᵐ x ∂μ, g x = Real.exp (h x))
    (hh : ∀ᵐ x ∂μ, F.dot q (F.stat x) + F.carrier x = h x + c) :
    proportional μ g = law F μ q := by
  refine law_eq_proportional hd (Real.exp_pos (c - F.logNormalizer q)) ?_
  filter_upwards [hg, hh] with x h1 h2
  rw [h1, ← Real.exp_add, ExpFam.pdf, ExpFam.logPdf]
  congr 1
  linarith

theorem ae_positive {p : ℝ → Prop} (h : ∀ x, 0 < x → p x) : ∀ᵐ x ∂positive, p x :=
  (ae_restrict_iff' measurableSet_Ioi).2 (ae_of_all _ h)

/-! ### Families on the positive numbers -/

theorem C46_exponential_nat {q : ℝ} (hq : q < 0) :
    exponentialSampleN q = law exponential positive q := by
  have e : (fun e : ℝ => -e / q) = fun e => e * (-1 / q) := by
    funext x
    ring
  have h1 : 0 < -1 / q := div_pos_of_neg_of_neg (by norm_num) hq
  rw [exponentialSampleN, randomExponential, e, proportional_map_scale h1]
  refine law_of_form (exponential_regular.density q hq) 0 (ae_of_all _ fun x => rfl)
    (ae_of_all _ fun x => ?_)
  have := hq.ne
  simp only [exponential]
  field_simp

theorem C46_exponential_exp {m : ℝ} (hm : 0 < m) :
    exponentialSampleE m = law exponential positive (exponentialToNat m) := by
  rw [← C46_exponential_nat (C31_exponential.2 m hm).1, exponentialSampleN, exponentialSampleE]
  congr 1
  funext e
  have := hm.ne'
  simp only [exponentialToNat]
  field_simp

theorem C46_gamma_nat {q : ℝ × ℝ} (hq : q ∈ gammaDom) :
    gammaSampleN q = law gamma positive q := by
  have hq1 : q.1 < 0 := hq.1
  have e : (fun e : ℝ => -e / q.1) = fun e => e * (-1 / q.1) := by
    funext x
    ring
  have h1 : 0 < -1 / q.1 := div_pos_of_neg_of_neg (by norm_num) hq1
  rw [gammaSampleN, randomGamma, e, proportional_map_scale h1]
  refine law_of_form (h := fun x => Real.log (x / (-1 / q.1)) * (q.2 + 1 - 1) + -(x / (-1 / q.1)))
    (gamma_regular.density q hq) (Real.log (-1 / q.1) * q.2) (ae_positive fun x hx => ?_)
    (ae_positive fun x hx => ?_)
  · rw [Real.exp_add, Real.rpow_def_of_pos (div_pos hx h1)]
  · rw [Real.log_div hx.ne' h1.ne']
    have := hq1.ne
    simp only [gamma]
    field_simp
    ring

theorem C46_gamma_var {w : ℝ × ℝ} (h1 : 0 < w.1) (h2 : 0 < w.2) :
    gammaSampleV w = law gamma positive (gammaVarToNat w) :=
  C46_gamma_nat (by
    refine ⟨?_, ?_⟩
    · show -(w.1 / w.2) < 0
      linarith [div_pos h1 h2]
    · show -1 < w.1 * (w.1 / w.2) - 1
      have := mul_pos h1 (div_pos h1 h2)
      linarith)

theorem C46_chi_square {q : ℝ} (hq : -1 < q) :
    chiSquareSampleN q = law chiSquare positive q := by
  refine law_of_form (h := fun x => Real.log x * ((q + 1) * 2 / 2 - 1) + -x / 2)
    (chiSquare_regular.density q hq) 0 (ae_positive fun x hx => ?_) (ae_positive fun x hx => ?_)
  · rw [Real.exp_add, Real.rpow_def_of_pos hx]
  · simp only [chiSquare]
    ring

theorem C46_rayleigh_nat {q : ℝ} (hq : q < 0) :
    rayleighSampleN q = law rayleigh positive q := by
  have h0 : 0 ≤ -0.5 / q := div_nonneg_of_nonpos (by norm_num) hq.le
  refine law_of_form (h := fun x => Real.log x + -x ^ 2 / (2 * (-0.5 / q)))
    (rayleigh_regular.density q hq) (Real.log 2) (ae_positive fun x hx => ?_)
    (ae_positive fun x hx => ?_)
  · rw [Real.exp_add, Real.exp_log hx, Real.sq_sqrt h0]
  · have := hq.ne
    simp only [rayleigh, transformed, exponential]
    field_simp
    ring

theorem C46_rayleigh_exp {χ : ℝ} (hχ : 0 < χ) :
    rayleighSampleE χ = law rayleigh positive (rayleighToNat χ) := by
  rw [← C46_rayleigh_nat (C31_rayleigh.2 χ hχ).1, rayleighSampleN, rayleighSampleE]
  congr 2
  have := hχ.ne'
  simp only [rayleighToNat, exponentialToNat]
  field_simp

theorem C46_weibull_exp {k χ : ℝ} (hk : 0 < k) (hχ : 0 < χ) :
    weibullSampleE k χ = law (weibull k) positive (weibullToNat χ) := by
  refine law_of_form (h := fun x => Real.log x * (k - 1) + -(x / χ ^ (1 / k)) ^ k)
    ((weibull_regular hk).density _ ((C31_weibull k).2 χ hχ).1) 0 (ae_positive fun x hx => ?_)
    (ae_positive fun x hx => ?_)
  · rw [Real.exp_add, Real.rpow_def_of_pos hx]
  · have := hχ.ne'
    rw [Real.div_rpow hx.le (Real.rpow_nonneg hχ.le _), ← Real.rpow_mul hχ.le,
      one_div_mul_cancel hk.ne', Real.rpow_one]
    simp only [weibull, weibullToNat]
    ring

theorem C46_weibull_nat {k q : ℝ} (hk : 0 < k) (hq : q < 0) :
    weibullSampleN k q = law (weibull k) positive q := by
  have h := (C31_weibull k).1 q hq
  rw [weibullSampleN, C46_weibull_exp hk h.1, h.2]

/-! ### Normal families -/

theorem C46_normal_var {w : ℝ × ℝ} (h : 0 < w.2) :
    normalSampleV w = law normal volume (normalVarToNat w) := by
  have hd : normalVarToNat w ∈ normalDom := by
    show -0.5 * (1 / w.2) < 0
    have := one_div_pos.2 h
    linarith
  rw [normalSampleV, randomNormal, proportional_map_affine (Real.sqrt_pos.2 h).ne']
  refine law_of_form (normal_regular.density _ hd) (w.1 ^ 2 / (2 * w.2)) (ae_of_all _ fun x => rfl)
    (ae_of_all _ fun x => ?_)
  have := h.ne'
  rw [div_pow, Real.sq_sqrt h.le]
  simp only [normal, normalVarToNat]
  field_simp
  ring

theorem C46_normal_exp {χ : ℝ × ℝ} (h : χ.1 ^ 2 < χ.2) :
    normalSampleE χ = law normal volume (normalToNat χ) := by
  have h1 : normalSampleE χ = normalSampleV (normalToVar χ) := rfl
  have h2 : normalVarToNat (normalToVar χ) = normalToNat χ := by
    simp only [normalVarToNat, normalToVar, normalToNat]
    refine Prod.ext ?_ ?_ <;> simp only <;> ring
  rw [h1, C46_normal_var (show 0 < χ.2 - χ.1 ^ 2 by linarith), h2]

theorem C46_normal_nat {q : ℝ × ℝ} (h : q ∈ normalDom) :
    normalSampleN q = law normal volume q := by
  have h1 := C31_normal.1 q h
  rw [show normalSampleN q = normalSampleE (normal.toExp q) from rfl, C46_normal_exp h1.1, h1.2]

theorem C46_unit_normal (m : ℝ) : unitNormalSample m = law unitNormal volume m := by
  have e : (fun z : ℝ => z + m) = fun z => z * 1 + m := by simp
  rw [unitNormalSample, randomNormal, e, proportional_map_affine one_ne_zero]
  refine law_of_form (unitNormal_regular.density m trivial) (m ^ 2 / 2) (ae_of_all _ fun x => rfl)
    (ae_of_all _ fun x => ?_)
  simp only [unitNormal]
  ring

open Matrix in
theorem C46_mv_diagonal_var {d : ℕ} {w : (Fin d → ℝ) × (Fin d → ℝ)} (h : ∀ i, 0 < w.2 i) :
    mvDiagonalSampleV w = law (mvDiagonal d) volume (mvDiagonalVarToNat w) := by
  have hd : mvDiagonalVarToNat w ∈ mvDiagonalDom d := fun i => by
    show -0.5 * (1 / w.2 i) < 0
    have := one_div_pos.2 (h i)
    linarith
  have h0 : ∀ i, Real.sqrt (w.2 i) ≠ 0 := fun i => (Real.sqrt_pos.2 (h i)).ne'
  let L : Matrix (Fin d) (Fin d) ℝ := Matrix.diagonal fun i => Real.sqrt (w.2 i)
  have hL : L.det ≠ 0 := by
    rw [Matrix.det_diagonal]
    exact Finset.prod_ne_zero_iff.2 fun i _ => h0 i
  have e : (fun z : Fin d → ℝ => z * (fun i => Real.sqrt (w.2 i)) + w.1) =
      fun z => w.1 + L *ᵥ z := by
    funext z i
    simp only [L, Matrix.mulVec_diagonal, Pi.add_apply, Pi.mul_apply]
    ring
  have hi : L⁻¹ = Matrix.diagonal fun i => (Real.sqrt (w.2 i))⁻¹ := by
    refine Matrix.inv_eq_left_inv ?_
    rw [Matrix.diagonal_mul_diagonal]
    simp [h0]
  rw [mvDiagonalSampleV]
  rw [randomNormals_eq, e, proportional_map_matrix hL, hi]
  refine law_of_form ((mvDiagonal_regular d).density _ hd) (∑ i, w.1 i ^ 2 / (2 * w.2 i))
    (ae_of_all _ fun x => rfl) (ae_of_all _ fun x => ?_)
  simp only [mvDiagonal, mvDiagonalVarToNat, Matrix.mulVec_diagonal]
  rw [neg_div, Finset.sum_div, ← Finset.sum_neg_distrib, ← Finset.sum_add_distrib,
    ← Finset.sum_add_distrib, add_zero]
  refine Finset.sum_congr rfl fun i _ => ?_
  have := (h i).ne'
  rw [mul_pow, inv_pow, Real.sq_sqrt (h i).le, Pi.sub_apply]
  field_simp
  ring

theorem C46_mv_diagonal_exp {d : ℕ} {χ : (Fin d → ℝ) × (Fin d → ℝ)} (h : ∀ i, χ.1 i ^ 2 < χ.2 i) :
    mvDiagonalSampleE χ = law (mvDiagonal d) volume (mvDiagonalToNat χ) := by
  rw [mvDiagonalSampleE, C46_mv_diagonal_var fun i => ?_, (C40_mv_diagonal_back χ).2]
  show 0 < χ.2 i - χ.1 i ^ 2
  linarith [h i]

theorem C46_mv_diagonal_nat {d : ℕ} {q : (Fin d → ℝ) × (Fin d → ℝ)} (h : q ∈ mvDiagonalDom d) :
    mvDiagonalSampleN q = law (mvDiagonal d) volume q := by
  have h1 := C31_mv_diagonal.1 q h
  rw [mvDiagonalSampleN, C46_mv_diagonal_exp h1.1, h1.2]

/-- Scaling all coordinates alike. -/
theorem proportional_map_scalar {d : ℕ} {a : ℝ} (ha : a ≠ 0) (m : Fin d → ℝ) :
    (randomNormals (Fin d)).map (fun z i => z i * a + m i) = proportional volume fun x =>
      Real.exp (-(∑ i, ((x i - m i) / a) ^ 2) / 2) := by
  have hL : (Matrix.diagonal fun _ : Fin d => a).det ≠ 0 := by
    rw [Matrix.det_diagonal]
    exact Finset.prod_ne_zero_iff.2 fun i _ => ha
  have e : (fun (z : Fin d → ℝ) i => z i * a + m i) =
      fun z => m + (Matrix.diagonal fun _ => a).mulVec z := by
    funext z i
    simp only [Matrix.mulVec_diagonal, Pi.add_apply]
    ring
  have hi : (Matrix.diagonal fun _ : Fin d => a)⁻¹ = Matrix.diagonal fun _ => a⁻¹ := by
    refine Matrix.inv_eq_left_inv ?_
    rw [Matrix.diagonal_mul_diagonal]
    simp [ha]
  rw [randomNormals_eq, e, proportional_map_matrix hL, hi]
  congr 1
  funext x
  simp only [Matrix.mulVec_diagonal, Pi.sub_apply, div_eq_inv_mul]

theorem C46_mv_fixed_exp {d : ℕ} {v : ℝ} (hv : 0 < v) (m : Fin d → ℝ) :
    mvFixedSampleE v m = law (mvFixed d v) volume (mvFixedToNat v m) := by
  rw [mvFixedSampleE, proportional_map_scalar (Real.sqrt_pos.2 hv).ne']
  refine law_of_form ((mvFixed_regular d hv).density _ trivial) ((∑ i, m i ^ 2) / (2 * v))
    (ae_of_all _ fun x => rfl) (ae_of_all _ fun x => ?_)
  have := hv.ne'
  simp only [mvFixed, mvFixedToNat]
  rw [Finset.mul_sum, Finset.sum_div, Finset.sum_div, neg_div, Finset.sum_div,
    ← Finset.sum_neg_distrib, ← Finset.sum_add_distrib, ← Finset.sum_add_distrib]
  refine Finset.sum_congr rfl fun i _ => ?_
  rw [div_pow, Real.sq_sqrt hv.le]
  field_simp
  ring

theorem C46_mv_fixed_nat {d : ℕ} {v : ℝ} (hv : 0 < v) (q : Fin d → ℝ) :
    mvFixedSampleN v q = law (mvFixed d v) volume q := by
  rw [mvFixedSampleN, C46_mv_fixed_exp hv, ((C31_mv_fixed hv).1 q trivial).2]

theorem C46_mv_unit {d : ℕ} (m : Fin d → ℝ) : mvUnitSample m = law (mvUnit d) volume m := by
  have h : mvUnitSample m = mvFixedSampleE 1 m := by
    rw [mvUnitSample, mvFixedSampleE]
    congr 1
    funext z i
    simp
  rw [h, C46_mv_fixed_exp one_pos, mvUnit_eq]
  congr 1
  funext i
  simp [mvFixedToNat]

theorem C46_mv_isotropic_exp {d : ℕ} {χ : (Fin (d + 1) → ℝ) × ℝ} (h : ∑ i, χ.1 i ^ 2 < χ.2) :
    mvIsotropicSampleE χ = law (mvIsotropic (d + 1)) volume (mvIsotropicToNat χ) := by
  have hv : 0 < mvIsotropicVariance χ := div_pos (by linarith) (by positivity)
  rw [mvIsotropicSampleE, proportional_map_scalar (Real.sqrt_pos.2 hv).ne']
  refine law_of_form ((mvIsotropic_regular d).density _ (C31_mv_isotropic.2 χ h).1)
    ((∑ i, χ.1 i ^ 2) / (2 * mvIsotropicVariance χ)) (ae_of_all _ fun x => rfl)
    (ae_of_all _ fun x => ?_)
  have := hv.ne'
  simp only [mvIsotropic, mvIsotropicToNat]
  rw [Finset.mul_sum, Finset.sum_div, neg_div (2 : ℝ), Finset.sum_div, add_zero,
    ← Finset.sum_neg_distrib, ← Finset.sum_add_distrib, ← Finset.sum_add_distrib]
  refine Finset.sum_congr rfl fun i _ => ?_
  rw [div_pow, Real.sq_sqrt hv.le]
  field_simp
  ring

theorem C46_mv_isotropic_nat {d : ℕ} {q : (Fin (d + 1) → ℝ) × ℝ} (h : q ∈ mvIsotropicDom (d + 1)) :
    mvIsotropicSampleN q = law (mvIsotropic (d + 1)) volume q := by
  have h1 := C31_mv_isotropic.1 q h
  rw [mvIsotropicSampleN, C46_mv_isotropic_exp h1.1, h1.2]

open Matrix in
/-- Any factorization of the covariance matrix will do. -/
theorem C46_mv_normal_exp {d : ℕ} {factor : Matrix (Fin d) (Fin d) ℝ → Matrix (Fin d) (Fin d) ℝ}
    {χ : (Fin d → ℝ) × Matrix (Fin d) (Fin d) ℝ} (h : (χ.2 - vecMulVec χ.1 χ.1).PosDef)
    (hf : factor (χ.2 - vecMulVec χ.1 χ.1) * (factor (χ.2 - vecMulVec χ.1 χ.1))ᵀ =
      χ.2 - vecMulVec χ.1 χ.1) :
    mvNormalSampleE factor χ = law (mvNormal d) volume (mvNormalToNat χ) := by
  have hV : (mvNormalVariance χ).PosDef := h
  have h1 : mvNormalSampleE factor χ = randomMultivariateNormal factor χ.1 (mvNormalVariance χ) := rfl
  rw [h1, randomMultivariateNormal_eq hV.det_pos.ne' hf]
  refine law_of_form ((mvNormal_regular d).density _ (C31_mv_normal.2 χ h).1)
    ((χ.1 ⬝ᵥ (mvNormalVariance χ)⁻¹ *ᵥ χ.1) / 2) (ae_of_all _ fun x => rfl)
    (ae_of_all _ fun x => ?_)
  have hs : ((mvNormalVariance χ)⁻¹)ᵀ = (mvNormalVariance χ)⁻¹ := by
    have := hV.inv.isHermitian
    rwa [Matrix.IsHermitian, Matrix.conjTranspose_eq_transpose_of_trivial] at this
  simp only [mvNormal, mvNormalToNat]
  generalize (mvNormalVariance χ)⁻¹ = P at hs
  have e1 : ∑ i, (P *ᵥ χ.1) i * x i = x ⬝ᵥ P *ᵥ χ.1 := by
    simp only [dotProduct, mul_comm]
  have e2 : ∑ i, ∑ j, ((-0.5 : ℝ) • P) i j * vecMulVec x x i j = -0.5 * (x ⬝ᵥ P *ᵥ x) := by
    simp only [dotProduct, mulVec, vecMulVec_apply, Matrix.smul_apply, smul_eq_mul, Finset.mul_sum]
    exact Finset.sum_congr rfl fun i _ => Finset.sum_congr rfl fun j _ => by ring
  have e3 : χ.1 ⬝ᵥ P *ᵥ x = x ⬝ᵥ P *ᵥ χ.1 := by
    rw [dotProduct_comm, Matrix.dotProduct_mulVec, ← Matrix.mulVec_transpose, hs, dotProduct_comm]
  rw [e1, e2, Matrix.mulVec_sub, sub_dotProduct, dotProduct_sub, dotProduct_sub, e3]
  ring

/-- The hypotheses are satisfiable. -/
example : ((-1, 2) : ℝ × ℝ) ∈ gammaDom ∧ ((3, -1) : ℝ × ℝ) ∈ normalDom ∧ (2 : ℝ) ^ 2 < 5 ∧
    ((fun _ => 1, -1) : (Fin 3 → ℝ) × ℝ) ∈ mvIsotropicDom 3 ∧
    ((fun _ => 1, fun _ => -1) : (Fin 3 → ℝ) × (Fin 3 → ℝ)) ∈ mvDiagonalDom 3 ∧
    ∑ i : Fin 3, ((fun _ => 1 : Fin 3 → ℝ) i) ^ 2 < 4 := by
  norm_num [gammaDom, normalDom, mvIsotropicDom, mvDiagonalDom]

open Matrix in
/-- A positive definite variance with its factorization. -/
example : ((1 : Matrix (Fin 3) (Fin 3) ℝ) - vecMulVec 0 0).PosDef ∧
    (1 : Matrix (Fin 3) (Fin 3) ℝ) * 1ᵀ = 1 - vecMulVec 0 0 := by
  simp [PosDef.one]

end Efax
