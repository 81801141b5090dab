import Verif.Lemmas.Fisher
import Verif.Props.Samples2
import Verif.Props.Batch.Kinds
import Verif.Props.Families.VonMises
import Verif.Props.Families.ComplexNormal
import Verif.Props.Families.Multivariate

/-!
# The Fisher information matrix of the simple classes (C42)

`_fisher_information_matrix()` of every batch is, entry by entry, the covariance matrix of the
statistics in flat coordinates, it is positive definite, and `jeffreys_prior()` is the square root of
its determinant.
-/

namespace Efax

open MeasureTheory Spec Set
open scoped ComplexOrder

variable [MachEps] {n : ℕ} {search : Cls → List Val → Except Err (List Val)}

/-- `parameter_dot_product` for the simple classes. -/
theorem simple_dot (s : Simple) (p : List ℕ → (s.kind (solverOf zeroMinimizer)).P)
    (q : List ℕ → (s.kind (solverOf zeroMinimizer)).N) (χ : List ℕ → (s.kind (solverOf zeroMinimizer)).E) :
    paramDot ((s.kind (solverOf zeroMinimizer)).nat [] p q) ((s.kind (solverOf zeroMinimizer)).exp [] p χ) =
      .ok (scalars [] fun i => ((s.kind (solverOf zeroMinimizer)).F (p i)).dot (q i) (χ i)) :=
  (simple_ok (C51_search zeroMinimizer_returns) s).dotCalc [] p p q χ

/-- Bernoulli. -/
theorem C42_flat_bernoulli : FlatFisher (library search)
    (fun rs p q => .mk .bernoulliNP (layS rs p q) .nil) 1 (fun _ => bernoulli) Measure.count
    (fun _ => univ) :=
  Raw.flatFisher (Raw.one codecS rfl rfl rfl fun _ _ => rfl) C51_bernoulli rfl rfl rfl
    (simple_dot .bernoulli)
    (fun _ _ h => ⟨_, h, bernoulli_regular.toLocallyRegular, bernoulli_minimal, fun _ _ => trivial⟩) (fun _ _ _ => trivial) (fun _ => trivial)

/-- Poisson. -/
theorem C42_flat_poisson : FlatFisher (library search)
    (fun rs p q => .mk .poissonNP (layS rs p q) .nil) 1 (fun _ => poisson) Measure.count
    (fun _ => univ) :=
  Raw.flatFisher (Raw.one codecS rfl rfl rfl fun _ _ => rfl) C51_poisson rfl rfl rfl
    (simple_dot .poisson)
    (fun _ _ h => ⟨_, h, poisson_regular.toLocallyRegular, poisson_minimal, fun _ _ => trivial⟩) (fun _ _ _ => trivial) (fun _ => trivial)

/-- Geometric. -/
theorem C42_flat_geometric : FlatFisher (library search)
    (fun rs p q => .mk .geometricNP (layS rs p q) .nil) 1 (fun _ => geometric) Measure.count
    (fun _ => (Iio 0)) :=
  Raw.flatFisher (Raw.one codecS rfl rfl rfl fun _ _ => rfl) C51_geometric rfl rfl rfl
    (simple_dot .geometric)
    (fun _ _ h => ⟨_, h, geometric_regular.toLocallyRegular, geometric_minimal, fun _ _ => trivial⟩) (fun _ _ _ => trivial) (fun _ => trivial)

omit [MachEps] in
theorem logarithmic_inside : LocallyRegular logarithmic Measure.count
    (Ioo logProbabilityFloor logProbabilityCeiling) ⊤ := by
  have h := logarithmic_regular.toLocallyRegular
  have hs : ∀ q ∈ Ioo logProbabilityFloor logProbabilityCeiling, q ∈ Iio (0 : ℝ) := fun q hq =>
    hq.2.trans (by norm_num [logProbabilityCeiling])
  refine ⟨h.dot_add, fun η hη v _ => ?_, fun _ _ => trivial, fun η hη => h.density η (hs η hη),
    fun η hη => h.gradient η (hs η hη)⟩
  have hc : ContinuousAt (fun t : ℝ => η + t • v) 0 := by fun_prop
  refine hc.eventually_mem (isOpen_Ioo.mem_nhds ?_)
  simpa using hη

/-- Logarithmic.  Between the limits of the logarithm of the probability that `to_exp` uses. -/
theorem C42_flat_logarithmic : FlatFisher (library search)
    (fun rs p q => .mk .logarithmicNP (layS rs p q) .nil) 1 (fun _ => logarithmic) Measure.count
    (fun _ => (Ioo logProbabilityFloor logProbabilityCeiling)) :=
  Raw.flatFisher (Raw.one codecS rfl rfl rfl fun _ _ => rfl) C51_logarithmic rfl rfl rfl
    (simple_dot .logarithmic)
    (fun _ _ h => ⟨_, h, logarithmic_inside, logarithmic_minimal, fun _ h => ⟨h.1.le, h.2.le⟩⟩)
    (fun _ _ _ => trivial) (fun _ => trivial)

omit [MachEps] in
open Calc Val in
theorem logarithmic_floor (p : List ℕ → Unit) {q : List ℕ → ℝ} (h : q [] < logProbabilityFloor) :
    Methods.logarithmicNP.toExp (layS [] p q) = .ok (layS [] p fun _ => 1) := by
  simp only [Methods.logarithmicNP, layS, toR_real, whereE]
  calc_simp
  rw [finite_scalars [] _ (fun _ => 1) fun i hi => by simp [inB_nil_iff.1 hi, h]]
  rfl

/-- C42 is violated by the logarithmic distribution below the lower limit: `to_exp` returns the constant
one, so that the Fisher information, and with it the Jeffreys prior, are zero; the variance of the
statistic is positive. -/
theorem C42_logarithmic_below_limit (rs : List ℕ) (p : List ℕ → Unit) (q : List ℕ → ℝ)
    (hq : ∀ i, inB rs i = true → q i < logProbabilityFloor) :
    fisherMatrix (library search) (.mk .logarithmicNP (layS rs p q) .nil) =
      .ok (matrices rs fun _ => (0 : Matrix (Fin 1) (Fin 1) ℝ)) ∧
    jeffreysPrior (library search) (.mk .logarithmicNP (layS rs p q) .nil) = .ok (scalars rs fun _ => 0) ∧
    ∀ i, inB rs i = true → ∃ v : ℝ, 0 < v ∧ HasCov Measure.count (logarithmic.pdf (q i))
      (fun x => logarithmic.dot 1 (logarithmic.stat x)) (fun x => logarithmic.dot 1 (logarithmic.stat x)) v := by
  let r : Raw .logarithmicNP layS 1 _ := Raw.one codecS rfl rfl rfl fun _ _ => rfl
  have h := fisherMatrix_grad (L := library search) (nat := fun rs p q => .mk .logarithmicNP (layS rs p q) .nil)
    (exp := fun rs p χ => .mk .logarithmicEP (layS rs p χ) .nil)
    (F := fun _ => { logarithmic with toExp := fun _ => 1 }) (dm := fun _ q => q < logProbabilityFloor)
    (p := p) (q := q) (dec := r.dec) (r.flat rs p q fun _ _ => trivial) (r.flAt rs p) (fun i _ z => r.unflat [] _ _)
    (fun _ => rfl) rfl (fun p q => C51_logarithmic.logNormalizer [] p q) (fun p q h => ?_)
    (simple_dot .logarithmic) (fun i _ => r.dec_enc _ trivial) fun i hi => ⟨hq i hi, fun z => ?_⟩
  · have e : (fun i => gradMatrix { logarithmic with toExp := fun _ => 1 } r.dec (q i)) = fun _ => 0 := by
      funext i
      ext a b
      exact deriv_const (0 : ℝ) ((r.dec (Pi.single a 1) : ℝ) * 1)
    rw [e] at h
    refine ⟨h, (jeffreys_flat h).trans ?_, fun i hi => ?_⟩
    · simp
    · have h0 : q i ∈ Iio (0 : ℝ) := (hq i hi).trans (by norm_num [logProbabilityFloor])
      have := logarithmic_regular.toLocallyRegular.gradMatrix_posDef logarithmic_minimal r.enc_dec
        (fun _ => trivial) h0
      have hd := this.diag_pos (i := 0)
      have hcv := logarithmic_regular.toLocallyRegular.gradMatrix_cov (dec := r.dec) h0 (a := 0) (b := 0)
        trivial trivial
      have e1 : r.dec (Pi.single 0 1) = (1 : ℝ) := by
        change (Pi.single 0 1 : Fin 1 → ℝ) 0 = 1
        simp
      rw [e1] at hcv
      exact ⟨_, hd, hcv⟩
  · have e : Methods.logarithmicNP.toExp (layS [] p q) = .ok (layS [] p fun _ => 1) :=
      logarithmic_floor p h
    exact congrArg (fun x => x.bind fun v => .ok (Dist.mk Cls.logarithmicEP v .nil)) e
  · have hc : ContinuousAt (fun t : ℝ => q i + t • r.dec z) 0 := by fun_prop
    refine hc.eventually_mem (isOpen_Iio.mem_nhds ?_)
    simpa using hq i hi

/-- Negative binomial. -/
theorem C42_flat_negative_binomial : FlatFisher (library search)
    (fun rs p q => .mk .negativeBinomialNP (laySFixedInt rs p q) .nil) 1 (fun r => negativeBinomial r) Measure.count
    (fun r => {q | 1 ≤ r ∧ q < 0}) :=
  Raw.flatFisher (Raw.varFixed codecS rfl rfl (by decide) rfl (fun _ _ _ => rfl) fun _ _ _ hi => int_at hi _) C51_negative_binomial rfl rfl rfl
    (simple_dot .negativeBinomial)
    (fun _ _ h => ⟨_, h.2, (negativeBinomial_regular h.1).toLocallyRegular, negativeBinomial_minimal _, fun _ _ => trivial⟩) (fun _ _ _ => trivial) (fun _ => trivial)

/-- Multinomial. -/
theorem C42_flat_multinomial (d : ℕ) : FlatFisher (library search)
    (fun rs p q => .mk .multinomialNP (layV (d + 1) rs p q) .nil) (d + 1) (fun _ => multinomial d) (categories d)
    (fun _ => univ) :=
  Raw.flatFisher (Raw.one codecV rfl rfl rfl fun _ _ => rfl) (C51_multinomial d) rfl rfl rfl
    (simple_dot (.multinomial d))
    (fun _ _ h => ⟨_, h, (multinomial_regular d).toLocallyRegular, multinomial_minimal d, fun _ _ => trivial⟩) (fun _ _ _ => trivial) (fun _ => trivial)

/-- Exponential. -/
theorem C42_flat_exponential : FlatFisher (library search)
    (fun rs p q => .mk .exponentialNP (layS rs p q) .nil) 1 (fun _ => exponential) positive
    (fun _ => (Iio 0)) :=
  Raw.flatFisher (Raw.one codecS rfl rfl rfl fun _ _ => rfl) C51_exponential rfl rfl rfl
    (simple_dot .exponential)
    (fun _ _ h => ⟨_, h, exponential_regular.toLocallyRegular, exponential_minimal, fun _ _ => trivial⟩) (fun _ _ _ => trivial) (fun _ => trivial)

/-- Chi square. -/
theorem C42_flat_chi_square : FlatFisher (library search)
    (fun rs p q => .mk .chiSquareNP (layS rs p q) .nil) 1 (fun _ => chiSquare) positive
    (fun _ => (Ioi (-1))) :=
  Raw.flatFisher (Raw.one codecS rfl rfl rfl fun _ _ => rfl) C51_chi_square rfl rfl rfl
    (simple_dot .chiSquare)
    (fun _ _ h => ⟨_, h, chiSquare_regular.toLocallyRegular, chiSquare_minimal, fun _ _ => trivial⟩) (fun _ _ _ => trivial) (fun _ => trivial)

/-- Chi. -/
theorem C42_flat_chi : FlatFisher (library search)
    (fun rs p q => .mk .chiNP (layS rs p q) .nil) 1 (fun _ => chi) positive
    (fun _ => (Ioi (-1))) :=
  Raw.flatFisher (Raw.one codecS rfl rfl rfl fun _ _ => rfl) C51_chi rfl rfl rfl
    (simple_dot .chi)
    (fun _ _ h => ⟨_, h, chi_regular.toLocallyRegular, chi_minimal, fun _ _ => trivial⟩) (fun _ _ _ => trivial) (fun _ => trivial)

/-- Rayleigh. -/
theorem C42_flat_rayleigh : FlatFisher (library search)
    (fun rs p q => .mk .rayleighNP (layS rs p q) .nil) 1 (fun _ => rayleigh) positive
    (fun _ => (Iio 0)) :=
  Raw.flatFisher (Raw.one codecS rfl rfl rfl fun _ _ => rfl) C51_rayleigh rfl rfl rfl
    (simple_dot .rayleigh)
    (fun _ _ h => ⟨_, h, rayleigh_regular.toLocallyRegular, rayleigh_minimal, fun _ _ => trivial⟩) (fun _ _ _ => trivial) (fun _ => trivial)

/-- Gamma. -/
theorem C42_flat_gamma : FlatFisher (library search)
    (fun rs p q => .mk .gammaNP (laySS rs p q) .nil) 2 (fun _ => gamma) positive
    (fun _ => gammaDom) :=
  Raw.flatFisher (Raw.two codecS codecS rfl rfl (by decide) rfl (fun _ => rfl) fun _ _ _ => rfl) C51_gamma rfl rfl rfl
    (simple_dot .gamma)
    (fun _ _ h => ⟨_, h, gamma_regular.toLocallyRegular, gamma_minimal, fun _ _ => trivial⟩) (fun _ _ _ => ⟨trivial, trivial⟩) (fun _ => trivial)

/-- Weibull. -/
theorem C42_flat_weibull : FlatFisher (library search)
    (fun rs p q => .mk .weibullNP (layFixedS rs p q) .nil) 1 (fun k => weibull k) positive
    (fun k => {q | 0 < k ∧ q < 0}) :=
  Raw.flatFisher (Raw.fixedVar codecS rfl rfl (by decide) rfl (fun _ _ _ => rfl) fun _ _ _ hi => real_at hi _) C51_weibull rfl rfl rfl
    (simple_dot .weibull)
    (fun _ _ h => ⟨_, h.2, (weibull_regular h.1).toLocallyRegular, weibull_minimal h.1, fun _ _ => trivial⟩) (fun _ _ _ => trivial) (fun _ => trivial)

/-- Normal. -/
theorem C42_flat_normal : FlatFisher (library search)
    (fun rs p q => .mk .normalNP (laySS rs p q) .nil) 2 (fun _ => normal) volume
    (fun _ => normalDom) :=
  Raw.flatFisher (Raw.two codecS codecS rfl rfl (by decide) rfl (fun _ => rfl) fun _ _ _ => rfl) C51_normal rfl rfl rfl
    (simple_dot .normal)
    (fun _ _ h => ⟨_, h, normal_regular.toLocallyRegular, normal_minimal, fun _ _ => trivial⟩) (fun _ _ _ => ⟨trivial, trivial⟩) (fun _ => trivial)

/-- Unit normal. -/
theorem C42_flat_unit_normal : FlatFisher (library search)
    (fun rs p q => .mk .unitNormalNP (layS rs p q) .nil) 1 (fun _ => unitNormal) volume
    (fun _ => univ) :=
  Raw.flatFisher (Raw.one codecS rfl rfl rfl fun _ _ => rfl) C51_unit_normal rfl rfl rfl
    (simple_dot .unitNormal)
    (fun _ _ h => ⟨_, h, unitNormal_regular.toLocallyRegular, unitNormal_minimal, fun _ _ => trivial⟩) (fun _ _ _ => trivial) (fun _ => trivial)

/-- Dirichlet. -/
theorem C42_flat_dirichlet (d : ℕ) : FlatFisher (library search)
    (fun rs p q => .mk .dirichletNP (layV (d + 2) rs p q) .nil) (d + 2) (fun _ => dirichlet (d + 1)) (volume.restrict (simplex (d + 1)))
    (fun _ => (dirichletDom (d + 2))) :=
  Raw.flatFisher (Raw.one codecV rfl rfl rfl fun _ _ => rfl) (C51_dirichlet (d + 1)) rfl rfl rfl
    (simple_dot (.dirichlet (d + 1)))
    (fun _ _ h => ⟨_, h, (dirichlet_regular (d + 1)).toLocallyRegular, dirichlet_minimal d, fun _ _ => trivial⟩) (fun _ _ _ => trivial) (fun _ => trivial)

/-- Beta. -/
theorem C42_flat_beta : FlatFisher (library search)
    (fun rs p q => .mk .betaNP (layV 2 rs p q) .nil) 2 (fun _ => beta) (volume.restrict (Ioo 0 1))
    (fun _ => (dirichletDom 2)) :=
  Raw.flatFisher (Raw.one codecV rfl rfl rfl fun _ _ => rfl) C51_beta rfl rfl rfl
    (simple_dot .beta)
    (fun _ _ h => ⟨_, h, beta_regular.toLocallyRegular, beta_minimal, fun _ _ => trivial⟩) (fun _ _ _ => trivial) (fun _ => trivial)

/-- Gen dirichlet. -/
theorem C42_flat_gen_dirichlet (d : ℕ) : FlatFisher (library search)
    (fun rs p q => .mk .genDirichletNP (layVV d rs p q) .nil) (d + d) (fun _ => genDirichlet d) (volume.restrict (simplex d))
    (fun _ => (genDirichletDom d)) :=
  Raw.flatFisher (Raw.two codecV codecV rfl rfl (by decide) rfl (fun _ => rfl) fun _ _ _ => rfl) (C51_gen_dirichlet d) rfl rfl rfl
    (simple_dot (.genDirichlet d))
    (fun _ _ h => ⟨_, h, (genDirichlet_regular d).toLocallyRegular, genDirichlet_minimal d, fun _ _ => trivial⟩) (fun _ _ _ => ⟨trivial, trivial⟩) (fun _ => trivial)

/-- Von mises fisher. -/
theorem C42_flat_von_mises_fisher : FlatFisher (library search)
    (fun rs p q => .mk .vonMisesFisherNP (layE (n + 1) rs p q) .nil) (n + 1) (fun _ => vonMisesFisher (n + 1)) (surface n)
    (fun _ => {q | q ≠ 0}) :=
  Raw.flatFisher (Raw.one codecE rfl rfl rfl fun _ _ => rfl) (C51_von_mises (n + 1)) rfl rfl rfl
    (simple_dot (.vonMisesFisher (n + 1)))
    (fun _ _ h => ⟨_, h, vmf_locallyRegular, vmf_minimal, fun _ _ => trivial⟩) (fun _ _ _ => trivial) (fun _ => trivial)

/-- Mv unit. -/
theorem C42_flat_mv_unit (d : ℕ) : FlatFisher (library search)
    (fun rs p q => .mk .mvUnitNormalNP (layV d rs p q) .nil) d (fun _ => mvUnit d) volume
    (fun _ => univ) :=
  Raw.flatFisher (Raw.one codecV rfl rfl rfl fun _ _ => rfl) (C51_mv_unit d) rfl rfl rfl
    (simple_dot (.mvUnit d))
    (fun _ _ h => ⟨_, h, (mvUnit_regular d).toLocallyRegular, mvUnit_minimal d, fun _ _ => trivial⟩) (fun _ _ _ => trivial) (fun _ => trivial)

/-- Mv fixed. -/
theorem C42_flat_mv_fixed (d : ℕ) : FlatFisher (library search)
    (fun rs p q => .mk .fixedVarianceNormalNP (layVFixed d rs p q) .nil) d (fun s => mvFixed d s) volume
    (fun s => {_q | 0 < s}) :=
  Raw.flatFisher (Raw.varFixed codecV rfl rfl (by decide) rfl (fun _ _ _ => rfl) fun _ _ _ hi => real_at hi _) (C51_mv_fixed d) rfl rfl rfl
    (simple_dot (.mvFixed d))
    (fun _ _ h => ⟨_, mem_univ _, (mvFixed_regular d h).toLocallyRegular, mvFixed_minimal d _, fun _ _ => trivial⟩) (fun _ _ _ => trivial) (fun _ => trivial)

/-- Mv diagonal. -/
theorem C42_flat_mv_diagonal (d : ℕ) : FlatFisher (library search)
    (fun rs p q => .mk .diagonalNormalNP (layVV d rs p q) .nil) (d + d) (fun _ => mvDiagonal d) volume
    (fun _ => (mvDiagonalDom d)) :=
  Raw.flatFisher (Raw.two codecV codecV rfl rfl (by decide) rfl (fun _ => rfl) fun _ _ _ => rfl) (C51_mv_diagonal d) rfl rfl rfl
    (simple_dot (.mvDiagonal d))
    (fun _ _ h => ⟨_, h, (mvDiagonal_regular d).toLocallyRegular, mvDiagonal_minimal d, fun _ _ => trivial⟩) (fun _ _ _ => ⟨trivial, trivial⟩) (fun _ => trivial)

/-- Mv isotropic. -/
theorem C42_flat_mv_isotropic (d : ℕ) : FlatFisher (library search)
    (fun rs p q => .mk .isotropicNormalNP (layVS (d + 1) rs p q) .nil) (d + 1 + 1) (fun _ => mvIsotropic (d + 1)) volume
    (fun _ => (mvIsotropicDom (d + 1))) :=
  Raw.flatFisher (Raw.two codecV codecS rfl rfl (by decide) rfl (fun _ => rfl) fun _ _ _ => rfl) (C51_mv_isotropic (d + 1)) rfl rfl rfl
    (simple_dot (.mvIsotropic (d + 1)))
    (fun _ _ h => ⟨_, h, (mvIsotropic_regular d).toLocallyRegular, mvIsotropic_minimal d, fun _ _ => trivial⟩) (fun _ _ _ => ⟨trivial, trivial⟩) (fun _ => trivial)

/-- Mv normal. -/
theorem C42_flat_mv_normal (d : ℕ) : FlatFisher (library search)
    (fun rs p q => .mk .mvNormalNP (layVM d rs p q) .nil) (d + (d + 1).choose 2) (fun _ => mvNormal d) volume
    (fun _ => (mvNormalDom d)) :=
  Raw.flatFisher (Raw.two codecV codecM rfl rfl (by decide) rfl (fun _ => rfl) fun _ _ _ => rfl) (C51_mv_normal d) rfl rfl rfl
    (simple_dot (.mvNormal d))
    (fun _ _ h => ⟨_, h, (mvNormal_regular d).toLocallyRegular, mvNormal_minimal d, fun _ _ => trivial⟩) (fun _ q h => ⟨trivial, (mvNormal_regular d).mem_dirs q h⟩) (fun z => ofUpper_symm _)

/-- Complex unit. -/
theorem C42_flat_complex_unit : FlatFisher (library search)
    (fun rs p q => .mk .complexUnitNormalNP (layC rs p q) .nil) 2 (fun _ => complexUnit) volume
    (fun _ => univ) :=
  Raw.flatFisher (Raw.one codecC rfl rfl rfl fun _ _ => rfl) C51_complex_unit rfl rfl rfl
    (simple_dot .complexUnit)
    (fun _ _ h => ⟨_, h, complexUnit_regular.toLocallyRegular, complexUnit_minimal, fun _ _ => trivial⟩) (fun _ _ _ => trivial) (fun _ => trivial)

/-- Complex normal. -/
theorem C42_flat_complex_normal : FlatFisher (library search)
    (fun rs p q => .mk .complexNormalNP (layCSC rs p q) .nil) (2 + 1 + 2) (fun _ => complexNormal) volume
    (fun _ => complexNormalDom) :=
  Raw.flatFisher Raw.complexNormal C51_complex_normal rfl rfl rfl
    (simple_dot .complexNormal)
    (fun _ _ h => ⟨_, h, complexNormal_regular.toLocallyRegular, complexNormal_minimal, fun _ _ => trivial⟩) (fun _ _ _ => trivial) (fun _ => trivial)

/-- Cmv unit. -/
theorem C42_flat_cmv_unit (d : ℕ) : FlatFisher (library search)
    (fun rs p q => .mk .cmvUnitNormalNP (layCV d rs p q) .nil) (d + d) (fun _ => cmvUnit d) volume
    (fun _ => univ) :=
  Raw.flatFisher (Raw.one codecCV rfl rfl rfl fun _ _ => rfl) (C51_cmv_unit d) rfl rfl rfl
    (simple_dot (.cmvUnit d))
    (fun _ _ h => ⟨_, h, (cmvUnit_regular d).toLocallyRegular, cmvUnit_minimal d, fun _ _ => trivial⟩) (fun _ _ _ => trivial) (fun _ => trivial)

-- The domains are not empty.
example : (1 : ℕ) ≤ 3 ∧ (-2 : ℝ) < 0 ∧ ((-2, 3) : ℝ × ℝ) ∈ gammaDom ∧ ((5, -2) : ℝ × ℝ) ∈ normalDom ∧
    (fun _ => 1 : Fin 4 → ℝ) ∈ dirichletDom 4 ∧
    ((fun _ => 3, fun _ => -2) : (Fin 4 → ℝ) × (Fin 4 → ℝ)) ∈ mvDiagonalDom 4 ∧
    ((fun _ => 3, -2) : (Fin 4 → ℝ) × ℝ) ∈ mvIsotropicDom 4 ∧
    ((3 + Complex.I, -3, Complex.I) : ℂ × ℝ × ℂ) ∈ complexNormalDom := by
  norm_num [gammaDom, normalDom, dirichletDom, mvDiagonalDom, mvIsotropicDom, complexNormalDom]

end Efax
