import Verif.Lemmas.Sampling
import Verif.Props.Batch.Positive
import Verif.Props.Batch.Scalar
import Verif.Props.Batch.Normal
import Verif.Props.Batch.Complex

/-!
# C62: samples of batches of real numbers and vectors
-/

namespace Efax

open Calc Spec Val Sampling

variable {K : Type}

theorem rshape_real_scalars (rs : List ℕ) (a : List ℕ → ℝ) : (Val.real (scalars rs a)).rshape = rs := rfl
theorem rshape_real_vectors {d : ℕ} (rs : List ℕ) (a : List ℕ → Fin d → ℝ) :
    (Val.real (vectors rs a)).rshape = d :: rs := rfl
theorem rshape_int_scalars (rs : List ℕ) (a : List ℕ → ℤ) : (Val.int (scalars rs a)).rshape = rs := rfl
theorem rshape_complex_scalars (rs : List ℕ) (a : List ℕ → ℂ) :
    (Val.complex (scalars rs a)).rshape = rs := rfl
theorem rshape_complex_vectors {d : ℕ} (rs : List ℕ) (a : List ℕ → Fin d → ℂ) :
    (Val.complex (vectors rs a)).rshape = d :: rs := rfl
theorem rshape_complex_matrices {d : ℕ} (rs : List ℕ) (a : List ℕ → Matrix (Fin d) (Fin d) ℂ) :
    (Val.complex (matrices rs a)).rshape = d :: d :: rs := rfl

theorem ofBool_ok (rs : List ℕ) (f : List ℕ → Bool) :
    Sampling.ofBool (ok (scalars rs f)) = .ok (outB rs f) := rfl

theorem ofNat_ok (rs : List ℕ) (f : List ℕ → ℕ) :
    Sampling.ofNat (ok (scalars rs f)) = .ok (outN rs f) := by
  rw [Sampling.ofNat, map_scalars]; rfl

/-- Converting first. -/
theorem Samples.via {P N M Y : Type} {sample : Random K → Sampler K} {lay : Layout P N}
    {lay' : Layout P M} {out : List ℕ → (List ℕ → Y) → Val} {draw : Draw K P N Y} {dom : P → N → Prop}
    (h : Samples sample lay out draw dom) {convert : List Val → Except Err (List Val)} {g : P → M → N}
    {dom' : P → M → Prop}
    (hc : ∀ rs p q, (∀ i, inB rs i = true → dom' (p i) (q i)) →
      convert (lay' rs p q) = .ok (lay rs p fun i => g (p i) (q i)))
    (hd : ∀ p q, dom' p q → dom p (g p q)) :
    Samples (fun rng => Sampling.via convert (sample rng)) lay' out
      (fun rng key p q => draw rng key p (g p q)) dom' := fun rng key shape rs p q hq => by
  simp only [Sampling.via, hc rs p q hq, Bind.bind, Except.bind]
  exact h rng key shape rs p _ fun i hi => hd _ _ (hq i hi)

/-- Evaluate a sampler on a batch. -/
macro "sample_simp" : tactic => `(tactic| simp only [layS, laySS, layV, layVV, layVS, layVM, layC, layCV,
  layCM, layCSC, laySFixedInt, layFixedS, layVFixed, toR_real, toR_int_scalars, toCalcC_complex,
  rshape_real_scalars, rshape_real_vectors, rshape_int_scalars, rshape_complex_scalars,
  rshape_complex_vectors, rshape_complex_matrices, List.drop_succ_cons, List.drop_zero, extendOr_eq,
  List.cons_append, sqrt_eq, im_eq, drawFree_scalars, drawFree_vectors, Calc.add_eq, Calc.sub_eq,
  Calc.mul_eq, Calc.div_eq,
  Calc.neg_eq, Calc.ofNat_eq, Calc.ofSci_eq, Calc.square, Calc.toComplex, Calc.re, Calc.absSquare,
  Calc.bin_const_const, Calc.map_const, Calc.map_scalars, Calc.bin_scalars, Calc.bin_const_scalars,
  Calc.bin_scalars_const, Calc.newaxis_scalars, Calc.map_vectors, Calc.bin_vectors,
  Calc.bin_const_vectors, Calc.bin_vectors_const, Calc.dim_vectors, Calc.sumLast_vectors,
  Calc.bin_scalars_append, Calc.bin_vectors_append, Calc.bin_vectors_one_append, Calc.draw_scalars,
  Calc.draw_scalars_some, Calc.draw2_scalars, Calc.draw2_scalars_some, Calc.drawDirichlet_vectors,
  Calc.drawCategorical_vectors, Calc.oneHot_scalars, Calc.init_vectors,
  Calc.drawMultivariateNormal_vectors, Calc.stack2_scalars, Calc.map_matrices, Calc.bin_const_matrices,
  ofBool_ok, ofNat_ok, ofR_ok, ofC_ok, Calc.at_vectors (by decide : 0 < 2),
  Calc.at_vectors (by decide : 1 < 2)])

theorem C62_bernoulli_exp : Samples (K := K) Sampling.bernoulliEP layS outB
    fun rng key _ => drawBernoulli rng key := fun rng key shape rs p q _ => by
  simp only [Sampling.bernoulliEP]; sample_simp; rfl

theorem C62_bernoulli : Samples (K := K) Sampling.bernoulliNP layS outB
    fun rng key _ q => drawBernoulli rng key (bernoulli.toExp q) :=
  Samples.via C62_bernoulli_exp C51_bernoulli.toExp fun _ _ _ => trivial

theorem C62_beta : Samples (K := K) Sampling.betaNP (layV 2) outR
    fun rng key _ => drawBeta rng key := fun rng key shape rs p q _ => by
  simp only [Sampling.betaNP]; sample_simp; rfl

theorem C62_chi_square : Samples (K := K) Sampling.chiSquareNP layS outR
    fun rng key _ => drawChiSquare rng key := fun rng key shape rs p q _ => by
  simp only [Sampling.chiSquareNP]; sample_simp; rfl

theorem C62_dirichlet (d : ℕ) : Samples (K := K) Sampling.dirichletNP (layV (d + 1)) (outV (d := d))
    fun rng key _ => Spec.drawDirichlet rng key := fun rng key shape rs p q _ => by
  simp only [Sampling.dirichletNP]; sample_simp; rfl

theorem C62_exponential : Samples (K := K) Sampling.exponentialNP layS outR
    fun rng key _ => drawExponentialN rng key := fun rng key shape rs p q _ => by
  simp only [Sampling.exponentialNP]; sample_simp; rfl

theorem C62_exponential_exp : Samples (K := K) Sampling.exponentialEP layS outR
    fun rng key _ => drawExponentialE rng key := fun rng key shape rs p q _ => by
  simp only [Sampling.exponentialEP]; sample_simp; rfl

theorem C62_gamma : Samples (K := K) Sampling.gammaNP laySS outR
    fun rng key _ => drawGamma rng key := fun rng key shape rs p q _ => by
  simp only [Sampling.gammaNP]; sample_simp; rfl

theorem C62_geometric_exp : Samples (K := K) Sampling.geometricEP layS outN
    fun rng key _ => drawGeometric rng key := fun rng key shape rs p q _ => by
  simp only [Sampling.geometricEP]; sample_simp; rfl

theorem C62_geometric : Samples (K := K) Sampling.geometricNP layS outN
    fun rng key _ q => drawGeometric rng key (geometric.toExp q) :=
  Samples.via C62_geometric_exp C51_geometric.toExp fun _ _ _ => trivial

theorem C62_mv_normal_var (d : ℕ) : Samples (K := K) Sampling.mvNormalVP (layVM d) outV
    fun rng key _ => drawMvNormal rng key := fun rng key shape rs p q _ => by
  simp only [Sampling.mvNormalVP]; sample_simp; rfl

theorem C62_mv_diagonal_var (d : ℕ) : Samples (K := K) Sampling.diagonalNormalVP (layVV d) outV
    fun rng key _ => drawDiagonal rng key := fun rng key shape rs p q _ => by
  simp only [Sampling.diagonalNormalVP]; sample_simp; rfl

theorem C62_mv_fixed_exp (d : ℕ) : Samples (K := K) Sampling.fixedVarianceNormalEP (layVFixed d) outV
    fun rng key => drawScaled rng key := fun rng key shape rs p q _ => by
  simp only [Sampling.fixedVarianceNormalEP]; sample_simp; rfl

theorem C62_mv_isotropic_exp (d : ℕ) : Samples (K := K) Sampling.isotropicNormalEP (layVS d) outV
    fun rng key _ χ => drawScaled rng key (mvIsotropicVariance χ) χ.1 := fun rng key shape rs p q _ => by
  simp only [Sampling.isotropicNormalEP, Methods.isotropicVariance]; sample_simp; rfl

theorem C62_mv_unit (d : ℕ) : Samples (K := K) Sampling.mvUnitNormalNP (layV d) outV
    fun rng key _ => drawMvUnit rng key := fun rng key shape rs p q _ => by
  simp only [Sampling.mvUnitNormalNP]; sample_simp; rfl

theorem C62_normal_var : Samples (K := K) Sampling.normalVP laySS outR
    fun rng key _ => drawNormal rng key := fun rng key shape rs p q _ => by
  simp only [Sampling.normalVP]; sample_simp; rfl

theorem C62_normal_exp : Samples (K := K) Sampling.normalEP laySS outR
    fun rng key _ χ => drawNormal rng key (normalToVar χ) := fun rng key shape rs p q _ => by
  simp only [Sampling.normalEP, Methods.normalVariance]; sample_simp; rfl

theorem C62_unit_normal : Samples (K := K) Sampling.unitNormalNP layS outR
    fun rng key _ => drawUnit rng key := fun rng key shape rs p q _ => by
  simp only [Sampling.unitNormalNP]; sample_simp; rfl

theorem C62_poisson_exp : Samples (K := K) Sampling.poissonEP layS outN
    fun rng key _ => drawPoisson rng key := fun rng key shape rs p q _ => by
  simp only [Sampling.poissonEP]; sample_simp; rfl

theorem C62_rayleigh : Samples (K := K) Sampling.rayleighNP layS outR
    fun rng key _ q => drawRayleigh rng key √(-0.5 / q) := fun rng key shape rs p q _ => by
  simp only [Sampling.rayleighNP]; sample_simp; rfl

theorem C62_rayleigh_exp : Samples (K := K) Sampling.rayleighEP layS outR
    fun rng key _ χ => drawRayleigh rng key √(0.5 * χ) := fun rng key shape rs p q _ => by
  simp only [Sampling.rayleighEP]; sample_simp; rfl

theorem C62_weibull_exp : Samples (K := K) Sampling.weibullEP layFixedS outR
    fun rng key => drawWeibull rng key := fun rng key shape rs p q _ => by
  simp only [Sampling.weibullEP]; sample_simp; rfl

theorem C62_mv_normal_exp (d : ℕ) : Samples (K := K) Sampling.mvNormalEP (layVM d) outV
    fun rng key _ χ => drawMvNormal rng key (mvNormalToVar χ) :=
  Samples.via (C62_mv_normal_var d) (fun rs p q _ => by
    simp only [Methods.mvToVar, Methods.mvVariance, layVM, toR_real]; calc_simp; rfl)
    fun _ _ _ => trivial

theorem C62_mv_diagonal_exp (d : ℕ) : Samples (K := K) Sampling.diagonalNormalEP (layVV d) outV
    fun rng key _ χ => drawDiagonal rng key (mvDiagonalToVar χ) :=
  Samples.via (C62_mv_diagonal_var d) (fun rs p q _ => by
    simp only [Methods.diagonalToVar, Methods.diagonalVariance, layVV, toR_real]; calc_simp; rfl)
    fun _ _ _ => trivial

theorem C62_mv_diagonal (d : ℕ) : Samples (K := K) Sampling.diagonalNormalNP (layVV d) outV
    fun rng key _ q => drawDiagonal rng key (mvDiagonalToVar ((mvDiagonal d).toExp q)) :=
  Samples.via (C62_mv_diagonal_exp d) (C51_mv_diagonal d).toExp fun _ _ _ => trivial

theorem C62_mv_fixed (d : ℕ) : Samples (K := K) Sampling.fixedVarianceNormalNP (layVFixed d) outV
    fun rng key v q => drawScaled rng key v ((mvFixed d v).toExp q) :=
  Samples.via (C62_mv_fixed_exp d) (C51_mv_fixed d).toExp fun _ _ _ => trivial

theorem C62_mv_isotropic (d : ℕ) : Samples (K := K) Sampling.isotropicNormalNP (layVS d) outV
    fun rng key _ q => drawScaled rng key (mvIsotropicVariance ((mvIsotropic d).toExp q))
      ((mvIsotropic d).toExp q).1 :=
  Samples.via (C62_mv_isotropic_exp d) (C51_mv_isotropic d).toExp fun _ _ _ => trivial

theorem C62_normal : Samples (K := K) Sampling.normalNP laySS outR
    fun rng key _ q => drawNormal rng key (normalNatToVar q) :=
  Samples.via (Samples.via C62_normal_var (lay' := laySS) (g := fun _ => normalToVar)
    (dom' := fun _ _ => True) (fun rs p q _ => by
    simp only [Methods.normalToVar, Methods.normalVariance, laySS, toR_real]; calc_simp; rfl)
    fun _ _ _ => trivial) C51_normal.toExp fun _ _ _ => trivial

theorem C62_gamma_var : Samples (K := K) Sampling.gammaVP laySS outR
    fun rng key _ w => drawGamma rng key (gammaVarToNat w) :=
  Samples.via C62_gamma (fun rs p q _ => by
    simp only [Methods.gammaVarToNat, laySS, toR_real]; calc_simp; rfl) fun _ _ _ => trivial

theorem C62_poisson : Samples (K := K) Sampling.poissonNP layS outN
    fun rng key _ q => drawPoisson rng key (poisson.toExp q) :=
  Samples.via C62_poisson_exp C51_poisson.toExp fun _ _ _ => trivial

theorem C62_weibull : Samples (K := K) Sampling.weibullNP layFixedS outR
    fun rng key k q => drawWeibull rng key k ((weibull k).toExp q) :=
  Samples.via C62_weibull_exp C51_weibull.toExp fun _ _ _ => trivial

theorem C62_multinomial (d : ℕ) : Samples (K := K) Sampling.multinomialNP (layV (d + 1)) outV
    fun rng key _ => drawMultinomial rng key := fun rng key shape rs p q _ => by
  simp only [Sampling.multinomialNP]; sample_simp
  refine congrArg (fun f => Except.ok (outV _ f)) (funext fun j => funext fun k => ?_)
  simp only [drawMultinomial, Fin.ext_iff]
  rfl

theorem C62_negative_binomial_exp : Samples (K := K) Sampling.negativeBinomialEP laySFixedInt outN
    fun rng key => drawNegativeBinomial rng key := fun rng key shape rs p q _ => by
  simp only [Sampling.negativeBinomialEP]; sample_simp
  simp only [Bind.bind, Except.bind]
  have h := C62_gamma rng (rng.split key 2 0) shape rs (fun _ => ())
    (fun i => (-((p i : ℤ) : ℝ) / q i, ((p i : ℤ) : ℝ) - 1)) fun _ _ => trivial
  simp only [laySS] at h
  rw [h]
  have h := C62_poisson_exp rng (rng.split key 2 1) none (rs ++ shape.getD []) (fun _ => ())
    (fun j => drawGamma (local_ rng (rs ++ shape.getD []) j) (rng.split key 2 0)
      (-((p (j.take rs.length) : ℤ) : ℝ) / q (j.take rs.length), ((p (j.take rs.length) : ℤ) : ℝ) - 1))
    fun _ _ => trivial
  refine h.trans (congrArg Except.ok ?_)
  simp only [outN, Option.getD_none, List.append_nil]
  refine congrArg Val.int (Arr.ofFn_congr fun j hj => ?_)
  have hl : j.take (rs ++ shape.getD []).length = j := by
    rw [← inB_length hj, List.take_length]
  rw [hl]
  simp only [drawNegativeBinomial, local_, Int.cast_natCast]

theorem C62_negative_binomial : Samples (K := K) Sampling.negativeBinomialNP laySFixedInt outN
    fun rng key r q => drawNegativeBinomial rng key r ((negativeBinomial r).toExp q) :=
  Samples.via C62_negative_binomial_exp C51_negative_binomial.toExp fun _ _ _ => trivial

theorem C62_complex_unit_exp : Samples (K := K) Sampling.complexUnitNormalEP layC outC
    fun rng key _ => drawComplexUnit rng key := fun rng key shape rs p q _ => by
  simp only [Sampling.complexUnitNormalEP]; sample_simp; rfl

theorem C62_complex_unit : Samples (K := K) Sampling.complexUnitNormalNP layC outC
    fun rng key _ q => drawComplexUnit rng key (complexUnit.toExp q) :=
  Samples.via C62_complex_unit_exp C51_complex_unit.toExp fun _ _ _ => trivial

theorem C62_cmv_unit_exp (d : ℕ) : Samples (K := K) Sampling.cmvUnitNormalEP (layCV d) outCV
    fun rng key _ => drawCmvUnit rng key := fun rng key shape rs p q _ => by
  simp only [Sampling.cmvUnitNormalEP]; sample_simp; rfl

theorem C62_cmv_unit (d : ℕ) : Samples (K := K) Sampling.cmvUnitNormalNP (layCV d) outCV
    fun rng key _ q => drawCmvUnit rng key ((cmvUnit d).toExp q) :=
  Samples.via (C62_cmv_unit_exp d) (C51_cmv_unit d).toExp fun _ _ _ => trivial

theorem C62_complex_normal_exp : Samples (K := K) Sampling.complexNormalEP layCSC outC
    fun rng key _ => drawComplexNormal rng key := fun rng key shape rs p q _ => by
  simp only [Sampling.complexNormalEP, Sampling.complexNormalCov]; sample_simp
  simp only [Calc.stackRows_vectors]
  sample_simp
  simp only [outC]
  congr 2

theorem C62_complex_normal : Samples (K := K) Sampling.complexNormalNP layCSC outC
    fun rng key _ q => drawComplexNormal rng key (complexNormal.toExp q) :=
  Samples.via C62_complex_normal_exp C51_complex_normal.toExp fun _ _ _ => trivial

theorem C62_cmv_circular_exp (d : ℕ) : Samples (K := K) Sampling.ccsnEP (layCM d) outCV
    fun rng key _ => drawCircular rng key := fun rng key shape rs p q _ => by
  have hm : ok (Arr.ofFn ((d * 2) :: rs) fun _ => (0 : ℝ)) =
      ok (vectors rs fun _ (_ : Fin (d + d)) => (0 : ℝ)) := by
    rw [Nat.mul_two]
    exact ofFn_vectors fun _ _ _ => rfl
  simp only [Sampling.ccsnEP, Sampling.ccsnCov]; sample_simp
  simp only [Calc.block_matrices, hm, Calc.drawMultivariateNormal_vectors, Calc.take_vectors,
    Calc.drop_vectors]
  sample_simp
  rfl

theorem C62_cmv_circular (d : ℕ) : Samples (K := K) Sampling.ccsnNP (layCM d) outCV
    fun rng key _ q => drawCircular rng key ((cmvCircular d).toExp q) :=
  Samples.via (C62_cmv_circular_exp d) (C51_cmv_circular d).toExp fun _ _ _ => trivial

end Efax
