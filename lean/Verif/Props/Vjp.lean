import Verif.Lemmas.Vjp
import Verif.Props.Batch.Kinds
import Verif.Props.Families.VonMises
import Verif.Props.Families.ComplexNormal
import Verif.Props.Families.Multivariate

/-!
# The Fisher information applied to a vector (C66)

`apply_fisher_information(vector)` of every batch returns the expectation parameters and, entry by
entry, the product of the covariance matrix of the statistics with the vector.
-/

namespace Efax

open MeasureTheory Spec Set
open scoped ComplexOrder

variable [MachEps] {n : ℕ} {search : Cls → List Val → Except Err (List Val)}

/-- Bernoulli. -/
theorem C66_bernoulli : FisherApplied (library search)
    (fun rs p q => .mk .bernoulliNP (layS rs p q) .nil) (fun rs p q => .mk .bernoulliEP (layS rs p q) .nil) (fun _ => bernoulli) Measure.count
    (fun _ => univ) ⊤ :=
  VLay.appliedTop slotS.one C51_bernoulli rfl rfl rfl (fun _ _ _ => rfl)
    fun _ _ h => ⟨_, h, bernoulli_regular.toLocallyRegular, fun _ _ => trivial⟩

/-- Poisson. -/
theorem C66_poisson : FisherApplied (library search)
    (fun rs p q => .mk .poissonNP (layS rs p q) .nil) (fun rs p q => .mk .poissonEP (layS rs p q) .nil) (fun _ => poisson) Measure.count
    (fun _ => univ) ⊤ :=
  VLay.appliedTop slotS.one C51_poisson rfl rfl rfl (fun _ _ _ => rfl)
    fun _ _ h => ⟨_, h, poisson_regular.toLocallyRegular, fun _ _ => trivial⟩

/-- Geometric. -/
theorem C66_geometric : FisherApplied (library search)
    (fun rs p q => .mk .geometricNP (layS rs p q) .nil) (fun rs p q => .mk .geometricEP (layS rs p q) .nil) (fun _ => geometric) Measure.count
    (fun _ => (Iio 0)) ⊤ :=
  VLay.appliedTop slotS.one C51_geometric rfl rfl rfl (fun _ _ _ => rfl)
    fun _ _ h => ⟨_, h, geometric_regular.toLocallyRegular, fun _ _ => trivial⟩

/-- Logarithmic, between the bounds at which `to_exp()` is cut off. -/
theorem C66_logarithmic : FisherApplied (library search)
    (fun rs p q => .mk .logarithmicNP (layS rs p q) .nil) (fun rs p q => .mk .logarithmicEP (layS rs p q) .nil) (fun _ => logarithmic) Measure.count
    (fun _ => Ioo logProbabilityFloor logProbabilityCeiling) ⊤ :=
  VLay.appliedTop slotS.one C51_logarithmic rfl rfl rfl (fun _ _ _ => rfl)
    fun _ _ h => ⟨_, h, logarithmic_regular.toLocallyRegular.restrict isOpen_Ioo
      (fun _ h => h.2.trans (by norm_num [logProbabilityCeiling])), fun _ h => ⟨h.1.le, h.2.le⟩⟩

/-- Negative binomial. -/
theorem C66_negative_binomial : FisherApplied (library search)
    (fun rs p q => .mk .negativeBinomialNP (laySFixedInt rs p q) .nil) (fun rs p q => .mk .negativeBinomialEP (laySFixedInt rs p q) .nil) (fun r => negativeBinomial r) Measure.count
    (fun r => {q | 1 ≤ r ∧ q < 0}) ⊤ :=
  VLay.appliedTop (slotS.varFixed fixedInt) C51_negative_binomial rfl rfl rfl (fun _ _ _ => rfl)
    fun _ _ h => ⟨_, h.2, (negativeBinomial_regular h.1).toLocallyRegular, fun _ _ => trivial⟩

/-- Multinomial. -/
theorem C66_multinomial (d : ℕ) : FisherApplied (library search)
    (fun rs p q => .mk .multinomialNP (layV (d + 1) rs p q) .nil) (fun rs p q => .mk .multinomialEP (layV (d + 1) rs p q) .nil) (fun _ => multinomial d) (categories d)
    (fun _ => univ) ⊤ :=
  VLay.appliedTop slotV.one (C51_multinomial d) rfl rfl rfl (fun _ _ _ => rfl)
    fun _ _ h => ⟨_, h, (multinomial_regular d).toLocallyRegular, fun _ _ => trivial⟩

/-- Exponential. -/
theorem C66_exponential : FisherApplied (library search)
    (fun rs p q => .mk .exponentialNP (layS rs p q) .nil) (fun rs p q => .mk .exponentialEP (layS rs p q) .nil) (fun _ => exponential) positive
    (fun _ => (Iio 0)) ⊤ :=
  VLay.appliedTop slotS.one C51_exponential rfl rfl rfl (fun _ _ _ => rfl)
    fun _ _ h => ⟨_, h, exponential_regular.toLocallyRegular, fun _ _ => trivial⟩

/-- Chi square. -/
theorem C66_chi_square : FisherApplied (library search)
    (fun rs p q => .mk .chiSquareNP (layS rs p q) .nil) (fun rs p q => .mk .chiSquareEP (layS rs p q) .nil) (fun _ => chiSquare) positive
    (fun _ => (Ioi (-1))) ⊤ :=
  VLay.appliedTop slotS.one C51_chi_square rfl rfl rfl (fun _ _ _ => rfl)
    fun _ _ h => ⟨_, h, chiSquare_regular.toLocallyRegular, fun _ _ => trivial⟩

/-- Chi. -/
theorem C66_chi : FisherApplied (library search)
    (fun rs p q => .mk .chiNP (layS rs p q) .nil) (fun rs p q => .mk .chiEP (layS rs p q) .nil) (fun _ => chi) positive
    (fun _ => (Ioi (-1))) ⊤ :=
  VLay.appliedTop slotS.one C51_chi rfl rfl rfl (fun _ _ _ => rfl)
    fun _ _ h => ⟨_, h, chi_regular.toLocallyRegular, fun _ _ => trivial⟩

/-- Rayleigh. -/
theorem C66_rayleigh : FisherApplied (library search)
    (fun rs p q => .mk .rayleighNP (layS rs p q) .nil) (fun rs p q => .mk .rayleighEP (layS rs p q) .nil) (fun _ => rayleigh) positive
    (fun _ => (Iio 0)) ⊤ :=
  VLay.appliedTop slotS.one C51_rayleigh rfl rfl rfl (fun _ _ _ => rfl)
    fun _ _ h => ⟨_, h, rayleigh_regular.toLocallyRegular, fun _ _ => trivial⟩

/-- Gamma. -/
theorem C66_gamma : FisherApplied (library search)
    (fun rs p q => .mk .gammaNP (laySS rs p q) .nil) (fun rs p q => .mk .gammaEP (laySS rs p q) .nil) (fun _ => gamma) positive
    (fun _ => gammaDom) ⊤ :=
  VLay.appliedTop (slotS.two slotS) C51_gamma rfl rfl rfl (fun _ _ _ => rfl)
    fun _ _ h => ⟨_, h, gamma_regular.toLocallyRegular, fun _ _ => trivial⟩

/-- Weibull. -/
theorem C66_weibull : FisherApplied (library search)
    (fun rs p q => .mk .weibullNP (layFixedS rs p q) .nil) (fun rs p q => .mk .weibullEP (layFixedS rs p q) .nil) (fun k => weibull k) positive
    (fun k => {q | 0 < k ∧ q < 0}) ⊤ :=
  VLay.appliedTop (slotS.fixedVar fixedS) C51_weibull rfl rfl rfl (fun _ _ _ => rfl)
    fun _ _ h => ⟨_, h.2, (weibull_regular h.1).toLocallyRegular, fun _ _ => trivial⟩

/-- Normal. -/
theorem C66_normal : FisherApplied (library search)
    (fun rs p q => .mk .normalNP (laySS rs p q) .nil) (fun rs p q => .mk .normalEP (laySS rs p q) .nil) (fun _ => normal) volume
    (fun _ => normalDom) ⊤ :=
  VLay.appliedTop (slotS.two slotS) C51_normal rfl rfl rfl (fun _ _ _ => rfl)
    fun _ _ h => ⟨_, h, normal_regular.toLocallyRegular, fun _ _ => trivial⟩

/-- Unit normal. -/
theorem C66_unit_normal : FisherApplied (library search)
    (fun rs p q => .mk .unitNormalNP (layS rs p q) .nil) (fun rs p q => .mk .unitNormalEP (layS rs p q) .nil) (fun _ => unitNormal) volume
    (fun _ => univ) ⊤ :=
  VLay.appliedTop slotS.one C51_unit_normal rfl rfl rfl (fun _ _ _ => rfl)
    fun _ _ h => ⟨_, h, unitNormal_regular.toLocallyRegular, fun _ _ => trivial⟩

/-- Dirichlet. -/
theorem C66_dirichlet (d : ℕ) : FisherApplied (library search)
    (fun rs p q => .mk .dirichletNP (layV (d + 2) rs p q) .nil) (fun rs p q => .mk .dirichletEP (layV (d + 2) rs p q) .nil) (fun _ => dirichlet (d + 1)) (volume.restrict (simplex (d + 1)))
    (fun _ => (dirichletDom (d + 2))) ⊤ :=
  VLay.appliedTop slotV.one (C51_dirichlet (d + 1)) rfl rfl rfl (fun _ _ _ => rfl)
    fun _ _ h => ⟨_, h, (dirichlet_regular (d + 1)).toLocallyRegular, fun _ _ => trivial⟩

/-- Beta. -/
theorem C66_beta : FisherApplied (library search)
    (fun rs p q => .mk .betaNP (layV 2 rs p q) .nil) (fun rs p q => .mk .betaEP (layV 2 rs p q) .nil) (fun _ => beta) (volume.restrict (Ioo 0 1))
    (fun _ => (dirichletDom 2)) ⊤ :=
  VLay.appliedTop slotV.one C51_beta rfl rfl rfl (fun _ _ _ => rfl)
    fun _ _ h => ⟨_, h, beta_regular.toLocallyRegular, fun _ _ => trivial⟩

/-- Gen dirichlet. -/
theorem C66_gen_dirichlet (d : ℕ) : FisherApplied (library search)
    (fun rs p q => .mk .genDirichletNP (layVV d rs p q) .nil) (fun rs p q => .mk .genDirichletEP (layVV d rs p q) .nil) (fun _ => genDirichlet d) (volume.restrict (simplex d))
    (fun _ => (genDirichletDom d)) ⊤ :=
  VLay.appliedTop (slotV.two slotV) (C51_gen_dirichlet d) rfl rfl rfl (fun _ _ _ => rfl)
    fun _ _ h => ⟨_, h, (genDirichlet_regular d).toLocallyRegular, fun _ _ => trivial⟩

/-- Von mises fisher. -/
theorem C66_von_mises_fisher : FisherApplied (library search)
    (fun rs p q => .mk .vonMisesFisherNP (layE (n + 1) rs p q) .nil) (fun rs p q => .mk .vonMisesFisherEP (layE (n + 1) rs p q) .nil) (fun _ => vonMisesFisher (n + 1)) (surface n)
    (fun _ => {q | q ≠ 0}) ⊤ :=
  VLay.appliedTop slotE.one (C51_von_mises (n + 1)) rfl rfl rfl (fun _ _ _ => rfl)
    fun _ _ h => ⟨_, h, vmf_locallyRegular, fun _ _ => trivial⟩

/-- Mv unit. -/
theorem C66_mv_unit (d : ℕ) : FisherApplied (library search)
    (fun rs p q => .mk .mvUnitNormalNP (layV d rs p q) .nil) (fun rs p q => .mk .mvUnitNormalEP (layV d rs p q) .nil) (fun _ => mvUnit d) volume
    (fun _ => univ) ⊤ :=
  VLay.appliedTop slotV.one (C51_mv_unit d) rfl rfl rfl (fun _ _ _ => rfl)
    fun _ _ h => ⟨_, h, (mvUnit_regular d).toLocallyRegular, fun _ _ => trivial⟩

/-- Mv fixed. -/
theorem C66_mv_fixed (d : ℕ) : FisherApplied (library search)
    (fun rs p q => .mk .fixedVarianceNormalNP (layVFixed d rs p q) .nil) (fun rs p q => .mk .fixedVarianceNormalEP (layVFixed d rs p q) .nil) (fun s => mvFixed d s) volume
    (fun s => {_q | 0 < s}) ⊤ :=
  VLay.appliedTop (slotV.varFixed fixedS) (C51_mv_fixed d) rfl rfl rfl (fun _ _ _ => rfl)
    fun _ _ h => ⟨_, mem_univ _, (mvFixed_regular d h).toLocallyRegular, fun _ _ => trivial⟩

/-- Mv diagonal. -/
theorem C66_mv_diagonal (d : ℕ) : FisherApplied (library search)
    (fun rs p q => .mk .diagonalNormalNP (layVV d rs p q) .nil) (fun rs p q => .mk .diagonalNormalEP (layVV d rs p q) .nil) (fun _ => mvDiagonal d) volume
    (fun _ => (mvDiagonalDom d)) ⊤ :=
  VLay.appliedTop (slotV.two slotV) (C51_mv_diagonal d) rfl rfl rfl (fun _ _ _ => rfl)
    fun _ _ h => ⟨_, h, (mvDiagonal_regular d).toLocallyRegular, fun _ _ => trivial⟩

/-- Mv isotropic. -/
theorem C66_mv_isotropic (d : ℕ) : FisherApplied (library search)
    (fun rs p q => .mk .isotropicNormalNP (layVS (d + 1) rs p q) .nil) (fun rs p q => .mk .isotropicNormalEP (layVS (d + 1) rs p q) .nil) (fun _ => mvIsotropic (d + 1)) volume
    (fun _ => (mvIsotropicDom (d + 1))) ⊤ :=
  VLay.appliedTop (slotV.two slotS) (C51_mv_isotropic (d + 1)) rfl rfl rfl (fun _ _ _ => rfl)
    fun _ _ h => ⟨_, h, (mvIsotropic_regular d).toLocallyRegular, fun _ _ => trivial⟩

/-- Complex unit. -/
theorem C66_complex_unit : FisherApplied (library search)
    (fun rs p q => .mk .complexUnitNormalNP (layC rs p q) .nil) (fun rs p q => .mk .complexUnitNormalEP (layC rs p q) .nil) (fun _ => complexUnit) volume
    (fun _ => univ) ⊤ :=
  VLay.appliedTop slotC.one C51_complex_unit rfl rfl rfl (fun _ _ _ => rfl)
    fun _ _ h => ⟨_, h, complexUnit_regular.toLocallyRegular, fun _ _ => trivial⟩

/-- Complex normal. -/
theorem C66_complex_normal : FisherApplied (library search)
    (fun rs p q => .mk .complexNormalNP (layCSC rs p q) .nil) (fun rs p q => .mk .complexNormalEP (layCSC rs p q) .nil) (fun _ => complexNormal) volume
    (fun _ => complexNormalDom) ⊤ :=
  VLay.appliedTop (slotC.three slotS slotC) C51_complex_normal rfl rfl rfl (fun _ _ _ => rfl)
    fun _ _ h => ⟨_, h, complexNormal_regular.toLocallyRegular, fun _ _ => trivial⟩

/-- Cmv unit. -/
theorem C66_cmv_unit (d : ℕ) : FisherApplied (library search)
    (fun rs p q => .mk .cmvUnitNormalNP (layCV d rs p q) .nil) (fun rs p q => .mk .cmvUnitNormalEP (layCV d rs p q) .nil) (fun _ => cmvUnit d) volume
    (fun _ => univ) ⊤ :=
  VLay.appliedTop slotCV.one (C51_cmv_unit d) rfl rfl rfl (fun _ _ _ => Complex.re_sum _ _)
    fun _ _ h => ⟨_, h, (cmvUnit_regular d).toLocallyRegular, fun _ _ => trivial⟩

-- The hypotheses can be satisfied.
example : (-1 : ℝ) ∈ Ioo logProbabilityFloor logProbabilityCeiling ∧ (1 : ℕ) ≤ 3 ∧ (-2 : ℝ) < 0 ∧
    ((-2, 3) : ℝ × ℝ) ∈ gammaDom ∧ ((5, -2) : ℝ × ℝ) ∈ normalDom ∧
    (fun _ => 1 : Fin 4 → ℝ) ∈ dirichletDom 4 ∧
    ((fun _ => 3, fun _ => -2) : (Fin 4 → ℝ) × (Fin 4 → ℝ)) ∈ mvDiagonalDom 4 ∧
    ((fun _ => 3, -2) : (Fin 4 → ℝ) × ℝ) ∈ mvIsotropicDom 4 ∧
    ((3 + Complex.I, -3, Complex.I) : ℂ × ℝ × ℂ) ∈ complexNormalDom := by
  norm_num [gammaDom, normalDom, dirichletDom, mvDiagonalDom, mvIsotropicDom, complexNormalDom,
    logProbabilityFloor, logProbabilityCeiling]

end Efax
