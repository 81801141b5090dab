import Verif.Lemmas.FisherForm3
import Verif.Props.Fisher

/-!
# The Fisher information in its textbook form (C79)
-/

namespace Efax

open MeasureTheory Spec Set
open scoped ComplexOrder

variable [MachEps] {n : ℕ} {search : Cls → List Val → Except Err (List Val)}

/-- Bernoulli. -/
theorem C79_bernoulli : FisherIs (library search)
    (fun rs p q => .mk .bernoulliNP (layS rs p q) .nil) 1
    (fun _ => univ)
    (fun _ a => Textbook.Info.bernoulli (bernoulli.toExp a)) :=
  Raw.fisherIs (Raw.one codecS rfl rfl rfl fun _ _ => rfl) C51_bernoulli rfl rfl rfl
    (simple_dot .bernoulli)
    (fun _ _ h => ⟨_, h, bernoulli_regular.toLocallyRegular, fun _ _ => trivial⟩) (fun _ _ _ => trivial) (fun _ => trivial)
    (fun _ q _ => bernoulli_info q)

/-- Poisson. -/
theorem C79_poisson : FisherIs (library search)
    (fun rs p q => .mk .poissonNP (layS rs p q) .nil) 1
    (fun _ => univ)
    (fun _ a => Textbook.Info.poisson (poisson.toExp a)) :=
  Raw.fisherIs (Raw.one codecS rfl rfl rfl fun _ _ => rfl) C51_poisson rfl rfl rfl
    (simple_dot .poisson)
    (fun _ _ h => ⟨_, h, poisson_regular.toLocallyRegular, fun _ _ => trivial⟩) (fun _ _ _ => trivial) (fun _ => trivial)
    (fun _ q _ => poisson_info q)

/-- Geometric. -/
theorem C79_geometric : FisherIs (library search)
    (fun rs p q => .mk .geometricNP (layS rs p q) .nil) 1
    (fun _ => (Iio 0))
    (fun _ a => Textbook.Info.negativeBinomial 1 (1 / (1 + geometric.toExp a))) :=
  Raw.fisherIs (Raw.one codecS rfl rfl rfl fun _ _ => rfl) C51_geometric rfl rfl rfl
    (simple_dot .geometric)
    (fun _ _ h => ⟨_, h, geometric_regular.toLocallyRegular, fun _ _ => trivial⟩) (fun _ _ _ => trivial) (fun _ => trivial)
    (fun _ q h => geometric_info h)

/-- Logarithmic.  Between the limits of the logarithm of the probability that `to_exp` uses. -/
theorem C79_logarithmic : FisherIs (library search)
    (fun rs p q => .mk .logarithmicNP (layS rs p q) .nil) 1
    (fun _ => (Ioo logProbabilityFloor logProbabilityCeiling))
    (fun _ a => Textbook.Info.logarithmic (Real.exp a)) :=
  Raw.fisherIs (Raw.one codecS rfl rfl rfl fun _ _ => rfl) C51_logarithmic rfl rfl rfl
    (simple_dot .logarithmic)
    (fun _ _ h => ⟨_, h, logarithmic_inside, fun _ h => ⟨h.1.le, h.2.le⟩⟩)
    (fun _ _ _ => trivial) (fun _ => trivial)
    (fun _ q h => logarithmic_info (h.2.trans (by norm_num [logProbabilityCeiling])))

/-- Negative binomial. -/
theorem C79_negative_binomial : FisherIs (library search)
    (fun rs p q => .mk .negativeBinomialNP (laySFixedInt rs p q) .nil) 1
    (fun r => {q | 1 ≤ r ∧ q < 0})
    (fun r a => Textbook.Info.negativeBinomial r (1 / (1 + (negativeBinomial r).toExp a / r))) :=
  Raw.fisherIs (Raw.varFixed codecS rfl rfl (by decide) rfl (fun _ _ _ => rfl) fun _ _ _ hi => int_at hi _) C51_negative_binomial rfl rfl rfl
    (simple_dot .negativeBinomial)
    (fun _ _ h => ⟨_, h.2, (negativeBinomial_regular h.1).toLocallyRegular, fun _ _ => trivial⟩) (fun _ _ _ => trivial) (fun _ => trivial)
    (fun _ q h => negativeBinomial_info h.1 h.2)

/-- Multinomial. -/
theorem C79_multinomial (d : ℕ) : FisherIs (library search)
    (fun rs p q => .mk .multinomialNP (layV (d + 1) rs p q) .nil) (d + 1)
    (fun _ => univ)
    (fun _ a v w => Textbook.Info.categorical (categories ((multinomial d).toExp a))
      (Fin.snoc (α := fun _ => ℝ) v 0) (Fin.snoc (α := fun _ => ℝ) w 0)) :=
  Raw.fisherIs (Raw.one codecV rfl rfl rfl fun _ _ => rfl) (C51_multinomial d) rfl rfl rfl
    (simple_dot (.multinomial d))
    (fun _ _ h => ⟨_, h, (multinomial_regular d).toLocallyRegular, fun _ _ => trivial⟩) (fun _ _ _ => trivial) (fun _ => trivial)
    (fun _ q _ => multinomial_info q)

/-- Exponential. -/
theorem C79_exponential : FisherIs (library search)
    (fun rs p q => .mk .exponentialNP (layS rs p q) .nil) 1
    (fun _ => (Iio 0))
    (fun _ a => Textbook.Info.exponential (exponential.toExp a)) :=
  Raw.fisherIs (Raw.one codecS rfl rfl rfl fun _ _ => rfl) C51_exponential rfl rfl rfl
    (simple_dot .exponential)
    (fun _ _ h => ⟨_, h, exponential_regular.toLocallyRegular, fun _ _ => trivial⟩) (fun _ _ _ => trivial) (fun _ => trivial)
    (fun _ q h => exponential_info h)

/-- Chi square. -/
theorem C79_chi_square : FisherIs (library search)
    (fun rs p q => .mk .chiSquareNP (layS rs p q) .nil) 1
    (fun _ => (Ioi (-1)))
    (fun _ a => Textbook.Info.chiSquare ((a + 1) * 2)) :=
  Raw.fisherIs (Raw.one codecS rfl rfl rfl fun _ _ => rfl) C51_chi_square rfl rfl rfl
    (simple_dot .chiSquare)
    (fun _ _ h => ⟨_, h, chiSquare_regular.toLocallyRegular, fun _ _ => trivial⟩) (fun _ _ _ => trivial) (fun _ => trivial)
    (fun _ q h => chiSquare_info h)

/-- Chi. -/
theorem C79_chi : FisherIs (library search)
    (fun rs p q => .mk .chiNP (layS rs p q) .nil) 1
    (fun _ => (Ioi (-1)))
    (fun _ a => Textbook.Info.chiSquare ((a + 1) * 2)) :=
  Raw.fisherIs (Raw.one codecS rfl rfl rfl fun _ _ => rfl) C51_chi rfl rfl rfl
    (simple_dot .chi)
    (fun _ _ h => ⟨_, h, chi_regular.toLocallyRegular, fun _ _ => trivial⟩) (fun _ _ _ => trivial) (fun _ => trivial)
    (fun _ q h => chi_info h)

/-- Rayleigh. -/
theorem C79_rayleigh : FisherIs (library search)
    (fun rs p q => .mk .rayleighNP (layS rs p q) .nil) 1
    (fun _ => (Iio 0))
    (fun _ a => Textbook.Info.rayleigh (Real.sqrt (rayleigh.toExp a / 2))) :=
  Raw.fisherIs (Raw.one codecS rfl rfl rfl fun _ _ => rfl) C51_rayleigh rfl rfl rfl
    (simple_dot .rayleigh)
    (fun _ _ h => ⟨_, h, rayleigh_regular.toLocallyRegular, fun _ _ => trivial⟩) (fun _ _ _ => trivial) (fun _ => trivial)
    (fun _ q h => rayleigh_info h)

/-- Gamma. -/
theorem C79_gamma : FisherIs (library search)
    (fun rs p q => .mk .gammaNP (laySS rs p q) .nil) 2
    (fun _ => gammaDom)
    (fun _ a => Textbook.Info.gamma (a.2 + 1) (-1 / a.1)) :=
  Raw.fisherIs (Raw.two codecS codecS rfl rfl (by decide) rfl (fun _ => rfl) fun _ _ _ => rfl) C51_gamma rfl rfl rfl
    (simple_dot .gamma)
    (fun _ _ h => ⟨_, h, gamma_regular.toLocallyRegular, fun _ _ => trivial⟩) (fun _ _ _ => ⟨trivial, trivial⟩) (fun _ => trivial)
    (fun _ q h => gamma_info h)

/-- Weibull. -/
theorem C79_weibull : FisherIs (library search)
    (fun rs p q => .mk .weibullNP (layFixedS rs p q) .nil) 1
    (fun k => {q | 0 < k ∧ q < 0})
    (fun k a => Textbook.Info.weibull k ((weibull k).toExp a ^ (1 / k))) :=
  Raw.fisherIs (Raw.fixedVar codecS rfl rfl (by decide) rfl (fun _ _ _ => rfl) fun _ _ _ hi => real_at hi _) C51_weibull rfl rfl rfl
    (simple_dot .weibull)
    (fun _ _ h => ⟨_, h.2, (weibull_regular h.1).toLocallyRegular, fun _ _ => trivial⟩) (fun _ _ _ => trivial) (fun _ => trivial)
    (fun _ q h => weibull_info h.1 h.2)

/-- Normal. -/
theorem C79_normal : FisherIs (library search)
    (fun rs p q => .mk .normalNP (laySS rs p q) .nil) 2
    (fun _ => normalDom)
    (fun _ a => Textbook.Info.normal (normal.toExp a).1 (normalVariance (normal.toExp a))) :=
  Raw.fisherIs (Raw.two codecS codecS rfl rfl (by decide) rfl (fun _ => rfl) fun _ _ _ => rfl) C51_normal rfl rfl rfl
    (simple_dot .normal)
    (fun _ _ h => ⟨_, h, normal_regular.toLocallyRegular, fun _ _ => trivial⟩) (fun _ _ _ => ⟨trivial, trivial⟩) (fun _ => trivial)
    (fun _ q h => normal_info h)

/-- Unit normal. -/
theorem C79_unit_normal : FisherIs (library search)
    (fun rs p q => .mk .unitNormalNP (layS rs p q) .nil) 1
    (fun _ => univ)
    (fun _ _ v w => v * w) :=
  Raw.fisherIs (Raw.one codecS rfl rfl rfl fun _ _ => rfl) C51_unit_normal rfl rfl rfl
    (simple_dot .unitNormal)
    (fun _ _ h => ⟨_, h, unitNormal_regular.toLocallyRegular, fun _ _ => trivial⟩) (fun _ _ _ => trivial) (fun _ => trivial)
    (fun _ q _ => unitNormal_info q)

/-- Dirichlet. -/
theorem C79_dirichlet (d : ℕ) : FisherIs (library search)
    (fun rs p q => .mk .dirichletNP (layV (d + 2) rs p q) .nil) (d + 2)
    (fun _ => (dirichletDom (d + 2)))
    (fun _ a => Textbook.Info.dirichlet fun i => a i + 1) :=
  Raw.fisherIs (Raw.one codecV rfl rfl rfl fun _ _ => rfl) (C51_dirichlet (d + 1)) rfl rfl rfl
    (simple_dot (.dirichlet (d + 1)))
    (fun _ _ h => ⟨_, h, (dirichlet_regular (d + 1)).toLocallyRegular, fun _ _ => trivial⟩) (fun _ _ _ => trivial) (fun _ => trivial)
    (fun _ q h => dirichlet_info h)

/-- Beta. -/
theorem C79_beta : FisherIs (library search)
    (fun rs p q => .mk .betaNP (layV 2 rs p q) .nil) 2
    (fun _ => (dirichletDom 2))
    (fun _ a v w => Textbook.Info.beta (a 0 + 1) (a 1 + 1) (v 0, v 1) (w 0, w 1)) :=
  Raw.fisherIs (Raw.one codecV rfl rfl rfl fun _ _ => rfl) C51_beta rfl rfl rfl
    (simple_dot .beta)
    (fun _ _ h => ⟨_, h, beta_regular.toLocallyRegular, fun _ _ => trivial⟩) (fun _ _ _ => trivial) (fun _ => trivial)
    (fun _ q h => beta_info h)

/-- Gen dirichlet. -/
theorem C79_gen_dirichlet (d : ℕ) : FisherIs (library search)
    (fun rs p q => .mk .genDirichletNP (layVV d rs p q) .nil) (d + d)
    (fun _ => (genDirichletDom d))
    (fun _ a => Textbook.Info.genDirichlet (genDirichletAlphaBeta a).1 (genDirichletAlphaBeta a).2) :=
  Raw.fisherIs (Raw.two codecV codecV rfl rfl (by decide) rfl (fun _ => rfl) fun _ _ _ => rfl) (C51_gen_dirichlet d) rfl rfl rfl
    (simple_dot (.genDirichlet d))
    (fun _ _ h => ⟨_, h, (genDirichlet_regular d).toLocallyRegular, fun _ _ => trivial⟩) (fun _ _ _ => ⟨trivial, trivial⟩) (fun _ => trivial)
    (fun _ q h => genDirichlet_info h)

/-- Von mises fisher. -/
theorem C79_von_mises_fisher : FisherIs (library search)
    (fun rs p q => .mk .vonMisesFisherNP (layE (n + 1) rs p q) .nil) (n + 1)
    (fun _ => {q | q ≠ 0})
    (fun _ a v w => Textbook.Info.vonMisesFisher (fun i => a i / vmfKappa a) (vmfKappa a) v w) :=
  Raw.fisherIs (Raw.one codecE rfl rfl rfl fun _ _ => rfl) (C51_von_mises (n + 1)) rfl rfl rfl
    (simple_dot (.vonMisesFisher (n + 1)))
    (fun _ _ h => ⟨_, h, vmf_locallyRegular, fun _ _ => trivial⟩) (fun _ _ _ => trivial) (fun _ => trivial)
    (fun _ q h => vmf_info h)

/-- Mv unit. -/
theorem C79_mv_unit (d : ℕ) : FisherIs (library search)
    (fun rs p q => .mk .mvUnitNormalNP (layV d rs p q) .nil) d
    (fun _ => univ)
    (fun _ _ v w => ∑ i, v i * w i) :=
  Raw.fisherIs (Raw.one codecV rfl rfl rfl fun _ _ => rfl) (C51_mv_unit d) rfl rfl rfl
    (simple_dot (.mvUnit d))
    (fun _ _ h => ⟨_, h, (mvUnit_regular d).toLocallyRegular, fun _ _ => trivial⟩) (fun _ _ _ => trivial) (fun _ => trivial)
    (fun _ q _ => mvUnit_info q)

/-- Mv fixed. -/
theorem C79_mv_fixed (d : ℕ) : FisherIs (library search)
    (fun rs p q => .mk .fixedVarianceNormalNP (layVFixed d rs p q) .nil) d
    (fun s => {_q | 0 < s})
    (fun s _ v w => s * ∑ i, v i * w i) :=
  Raw.fisherIs (Raw.varFixed codecV rfl rfl (by decide) rfl (fun _ _ _ => rfl) fun _ _ _ hi => real_at hi _) (C51_mv_fixed d) rfl rfl rfl
    (simple_dot (.mvFixed d))
    (fun _ _ h => ⟨_, mem_univ _, (mvFixed_regular d h).toLocallyRegular, fun _ _ => trivial⟩) (fun _ _ _ => trivial) (fun _ => trivial)
    (fun s q _ => mvFixed_info s q)

/-- Mv diagonal. -/
theorem C79_mv_diagonal (d : ℕ) : FisherIs (library search)
    (fun rs p q => .mk .diagonalNormalNP (layVV d rs p q) .nil) (d + d)
    (fun _ => (mvDiagonalDom d))
    (fun _ a v w => ∑ i, Textbook.Info.normal (((mvDiagonal d).toExp a).1 i)
      (mvDiagonalVariance ((mvDiagonal d).toExp a) i) (v.1 i, v.2 i) (w.1 i, w.2 i)) :=
  Raw.fisherIs (Raw.two codecV codecV rfl rfl (by decide) rfl (fun _ => rfl) fun _ _ _ => rfl) (C51_mv_diagonal d) rfl rfl rfl
    (simple_dot (.mvDiagonal d))
    (fun _ _ h => ⟨_, h, (mvDiagonal_regular d).toLocallyRegular, fun _ _ => trivial⟩) (fun _ _ _ => ⟨trivial, trivial⟩) (fun _ => trivial)
    (fun _ q h => mvDiagonal_info h)

/-- Mv isotropic. -/
theorem C79_mv_isotropic (d : ℕ) : FisherIs (library search)
    (fun rs p q => .mk .isotropicNormalNP (layVS (d + 1) rs p q) .nil) (d + 1 + 1)
    (fun _ => (mvIsotropicDom (d + 1)))
    (fun _ a => Textbook.Info.spherical ((mvIsotropic (d + 1)).toExp a).1
      (mvIsotropicVariance ((mvIsotropic (d + 1)).toExp a))) :=
  Raw.fisherIs (Raw.two codecV codecS rfl rfl (by decide) rfl (fun _ => rfl) fun _ _ _ => rfl) (C51_mv_isotropic (d + 1)) rfl rfl rfl
    (simple_dot (.mvIsotropic (d + 1)))
    (fun _ _ h => ⟨_, h, (mvIsotropic_regular d).toLocallyRegular, fun _ _ => trivial⟩) (fun _ _ _ => ⟨trivial, trivial⟩) (fun _ => trivial)
    (fun _ q h => mvIsotropic_info h)

/-- Mv normal. -/
theorem C79_mv_normal (d : ℕ) : FisherIs (library search)
    (fun rs p q => .mk .mvNormalNP (layVM d rs p q) .nil) (d + (d + 1).choose 2)
    (fun _ => (mvNormalDom d))
    (fun _ a => Textbook.Info.mvNormal ((mvNormal d).toExp a).1
      (mvNormalVariance ((mvNormal d).toExp a))) :=
  Raw.fisherIs (Raw.two codecV codecM rfl rfl (by decide) rfl (fun _ => rfl) fun _ _ _ => rfl) (C51_mv_normal d) rfl rfl rfl
    (simple_dot (.mvNormal d))
    (fun _ _ h => ⟨_, h, (mvNormal_regular d).toLocallyRegular, fun _ _ => trivial⟩) (fun _ q h => ⟨trivial, (mvNormal_regular d).mem_dirs q h⟩) (fun z => ofUpper_symm _)
    (fun _ q h => mvNormal_info h)

/-- Complex unit. -/
theorem C79_complex_unit : FisherIs (library search)
    (fun rs p q => .mk .complexUnitNormalNP (layC rs p q) .nil) 2
    (fun _ => univ)
    (fun _ _ => Textbook.Info.complexUnit) :=
  Raw.fisherIs (Raw.one codecC rfl rfl rfl fun _ _ => rfl) C51_complex_unit rfl rfl rfl
    (simple_dot .complexUnit)
    (fun _ _ h => ⟨_, h, complexUnit_regular.toLocallyRegular, fun _ _ => trivial⟩) (fun _ _ _ => trivial) (fun _ => trivial)
    (fun _ q _ => complexUnit_info q)

/-- Complex normal. -/
theorem C79_complex_normal : FisherIs (library search)
    (fun rs p q => .mk .complexNormalNP (layCSC rs p q) .nil) (2 + 1 + 2)
    (fun _ => complexNormalDom)
    (fun _ a => Textbook.Info.complexNormal (complexNormal.toExp a).1
      (complexVariance (complexNormal.toExp a)) (complexPseudo (complexNormal.toExp a))) :=
  Raw.fisherIs Raw.complexNormal C51_complex_normal rfl rfl rfl
    (simple_dot .complexNormal)
    (fun _ _ h => ⟨_, h, complexNormal_regular.toLocallyRegular, fun _ _ => trivial⟩) (fun _ _ _ => trivial) (fun _ => trivial)
    (fun _ q h => complexNormal_info h)

/-- Cmv unit. -/
theorem C79_cmv_unit (d : ℕ) : FisherIs (library search)
    (fun rs p q => .mk .cmvUnitNormalNP (layCV d rs p q) .nil) (d + d)
    (fun _ => univ)
    (fun _ _ v w => ∑ i, Textbook.Info.complexUnit (v i) (w i)) :=
  Raw.fisherIs (Raw.one codecCV rfl rfl rfl fun _ _ => rfl) (C51_cmv_unit d) rfl rfl rfl
    (simple_dot (.cmvUnit d))
    (fun _ _ h => ⟨_, h, (cmvUnit_regular d).toLocallyRegular, fun _ _ => trivial⟩) (fun _ _ _ => trivial) (fun _ => trivial)
    (fun _ q _ => cmvUnit_info q)

-- The domains are not empty.
example : (univ : Set ℝ).Nonempty ∧ (Iio (0 : ℝ)).Nonempty ∧ (Ioi (-1 : ℝ)).Nonempty ∧
    (Ioo logProbabilityFloor logProbabilityCeiling).Nonempty ∧ (1 : ℕ) ≤ 3 ∧ ((-2, 3) : ℝ × ℝ) ∈ gammaDom ∧
    ((5, -2) : ℝ × ℝ) ∈ normalDom ∧ (fun _ => 1 : Fin 4 → ℝ) ∈ dirichletDom 4 ∧
    ((fun _ => 3, fun _ => -2) : (Fin 4 → ℝ) × (Fin 4 → ℝ)) ∈ mvDiagonalDom 4 ∧
    ((fun _ => 3, -2) : (Fin 4 → ℝ) × ℝ) ∈ mvIsotropicDom 4 ∧
    ((3 + Complex.I, -3, Complex.I) : ℂ × ℝ × ℂ) ∈ complexNormalDom := by
  refine ⟨⟨0, trivial⟩, ⟨-1, by norm_num⟩, ⟨0, by norm_num⟩, ⟨-1, by norm_num [logProbabilityFloor, logProbabilityCeiling]⟩, ?_⟩
  norm_num [gammaDom, normalDom, dirichletDom, mvDiagonalDom, mvIsotropicDom, complexNormalDom]

end Efax
