import Verif.Lemmas.Simple
import Verif.Props.Batch.Scalar
import Verif.Props.Batch.Positive
import Verif.Props.Batch.Normal
import Verif.Props.Batch.Simplex
import Verif.Props.Batch.Complex
import Verif.Props.Batch.Exp
import Verif.Props.Families.Search

/-! # The simple classes as kinds -/

namespace Efax

open ClassTable Calc Spec

variable [MachEps] {solve : Solver} {search : Cls → List Val → Except Err (List Val)}
  (hs : solve.For search)

include hs

theorem simple_bernoulli : (Simple.kind solve .bernoulli).Ok (library search) := by
  refine Spec.Kind.Ok.simple (m := Methods.bernoulliNP) (C51_bernoulli) rfl (fun _ _ _ => rfl) rfl rfl rfl rfl (fun _ _ _ => rfl)
    (fun _ _ _ => rfl) (fun _ _ _ => ⟨_, rfl⟩) (fun _ _ _ => rfl) (fun _ _ _ _ _ => (.cons ⟨rfl, rfl, [], rfl, rfl⟩ .nil))
    (fun rs p q p' χ i hi => ?_) (fun _ _ _ _ _ => (.cons rfl .nil)) (fun p a b χ => ?_)
    (fun rs p χ _ => C51_bernoulli_exp.toNat _ rs p χ) (fun _ => rfl) (fun _ rs p χ => C51_bernoulli_exp.ecm _ rs p χ)
  · exact (add_zero _).trans (valDot_scalars rs i hi _ _)
  · exact sub_mul _ _ _

theorem simple_beta : (Simple.kind solve .beta).Ok (library search) := by
  refine Spec.Kind.Ok.simple (m := Methods.betaNP) (C51_beta) rfl (fun _ _ _ => rfl) rfl rfl rfl rfl (fun _ _ _ => rfl)
    (fun _ _ _ => rfl) (fun _ _ _ => ⟨_, rfl⟩) (fun _ _ _ => rfl) (fun _ _ _ _ _ => (.cons ⟨rfl, rfl, [_], rfl, rfl⟩ .nil))
    (fun rs p q p' χ i hi => ?_) (fun _ _ _ _ _ => (.cons rfl .nil)) (fun p a b χ => ?_)
    (fun rs p χ h => (C51_dirichlet_exp 2).toNat _ _ _ (hs.beta) rs p χ h) (fun _ => rfl) (fun _ rs p χ => (C51_dirichlet_exp 2).ecm _ (fun _ _ => 0) False.elim rs p χ)
  · exact (add_zero _).trans (valDot_vectors rs i hi _ _)
  · exact dot_sub_vector _ _ _

theorem simple_chi : (Simple.kind solve .chi).Ok (library search) := by
  refine Spec.Kind.Ok.simple (m := Methods.chiNP) (C51_chi) rfl (fun _ _ _ => rfl) rfl rfl rfl rfl (fun _ _ _ => rfl)
    (fun _ _ _ => rfl) (fun _ _ _ => ⟨_, rfl⟩) (fun _ _ _ => rfl) (fun _ _ _ _ _ => (.cons ⟨rfl, rfl, [], rfl, rfl⟩ .nil))
    (fun rs p q p' χ i hi => ?_) (fun _ _ _ _ _ => (.cons rfl .nil)) (fun p a b χ => ?_)
    (fun rs p χ h => C51_chi_exp.toNat _ _ _ (hs.chi) rs p χ h) (fun _ => rfl) (fun _ rs p χ => C51_chi_exp.ecm _ _ (fun _ => hs.chi) rs p χ)
  · exact (add_zero _).trans (valDot_scalars rs i hi _ _)
  · exact sub_mul _ _ _

theorem simple_chiSquare : (Simple.kind solve .chiSquare).Ok (library search) := by
  refine Spec.Kind.Ok.simple (m := Methods.chiSquareNP) (C51_chi_square) rfl (fun _ _ _ => rfl) rfl rfl rfl rfl (fun _ _ _ => rfl)
    (fun _ _ _ => rfl) (fun _ _ _ => ⟨_, rfl⟩) (fun _ _ _ => rfl) (fun _ _ _ _ _ => (.cons ⟨rfl, rfl, [], rfl, rfl⟩ .nil))
    (fun rs p q p' χ i hi => ?_) (fun _ _ _ _ _ => (.cons rfl .nil)) (fun p a b χ => ?_)
    (fun rs p χ h => C51_chi_square_exp.toNat _ _ _ (hs.chiSquare) rs p χ h) (fun _ => rfl) (fun _ rs p χ => C51_chi_square_exp.ecm _ _ (fun _ => hs.chiSquare) rs p χ)
  · exact (add_zero _).trans (valDot_scalars rs i hi _ _)
  · exact sub_mul _ _ _

theorem simple_cmvCircular (d : ℕ) : (Simple.kind solve (.cmvCircular d)).Ok (library search) := by
  refine Spec.Kind.Ok.simple (m := Methods.ccsnNP) (C51_cmv_circular d) rfl (fun _ _ _ => rfl) rfl rfl rfl rfl (fun _ _ _ => rfl)
    (fun _ _ _ => rfl) (fun _ _ _ => ⟨_, rfl⟩) (fun _ _ _ => rfl) (fun _ _ _ _ _ => (.cons ⟨rfl, rfl, [_, _], rfl, rfl⟩ .nil))
    (fun rs p q p' χ i hi => ?_) (fun _ _ _ _ _ => (.cons rfl .nil)) (fun p a b χ => ?_)
    (fun rs p χ _ => (C51_cmv_circular_exp d).toNat _ rs p χ) (fun _ => rfl) (fun _ rs p χ => (C51_cmv_circular_exp d).ecm _ rs p χ)
  · exact (add_zero _).trans (valDot_cmatrices rs i hi _ _)
  · exact dot_sub_cmatrix _ _ _

theorem simple_cmvUnit (d : ℕ) : (Simple.kind solve (.cmvUnit d)).Ok (library search) := by
  refine Spec.Kind.Ok.simple (m := Methods.cmvUnitNormalNP) (C51_cmv_unit d) rfl (fun _ _ _ => rfl) rfl rfl rfl rfl (fun _ _ _ => rfl)
    (fun _ _ _ => rfl) (fun _ _ _ => ⟨_, rfl⟩) (fun _ _ _ => rfl) (fun _ _ _ _ _ => (.cons ⟨rfl, rfl, [_], rfl, rfl⟩ .nil))
    (fun rs p q p' χ i hi => ?_) (fun _ _ _ _ _ => (.cons rfl .nil)) (fun p a b χ => ?_)
    (fun rs p χ _ => (C51_cmv_unit_exp d).toNat _ rs p χ) (fun _ => rfl) (fun _ rs p χ => (C51_cmv_unit_exp d).ecm _ rs p χ)
  · exact (add_zero _).trans (valDot_cvectors rs i hi _ _)
  · exact dot_sub_cvector _ _ _

theorem simple_complexNormal : (Simple.kind solve .complexNormal).Ok (library search) := by
  refine Spec.Kind.Ok.simple (m := Methods.complexNormalNP) (C51_complex_normal) rfl (fun _ _ _ => rfl) rfl rfl rfl rfl (fun _ _ _ => rfl)
    (fun _ _ _ => rfl) (fun _ _ _ => ⟨_, rfl⟩) (fun _ _ _ => rfl) (fun _ _ _ _ _ => (.cons ⟨rfl, rfl, [], rfl, rfl⟩ (.cons ⟨rfl, rfl, [], rfl, rfl⟩ (.cons ⟨rfl, rfl, [], rfl, rfl⟩ .nil))))
    (fun rs p q p' χ i hi => ?_) (fun _ _ _ _ _ => (.cons rfl (.cons rfl (.cons rfl .nil)))) (fun p a b χ => ?_)
    (fun rs p χ _ => C51_complex_normal_exp.toNat _ rs p χ) (fun _ => rfl) (fun _ rs p χ => C51_complex_normal_exp.ecm _ rs p χ)
  · exact (congrArg₂ (· + ·) (valDot_cscalars rs i hi _ _) (congrArg₂ (· + ·) (valDot_scalars rs i hi _ _) ((add_zero _).trans (valDot_cscalars rs i hi _ _)))).trans (add_assoc _ _ _).symm
  · exact dot_sub_add (dot_sub_add (dot_sub_cscalar _ _ _) (sub_mul _ _ _)) (dot_sub_cscalar _ _ _)

theorem simple_complexUnit : (Simple.kind solve .complexUnit).Ok (library search) := by
  refine Spec.Kind.Ok.simple (m := Methods.complexUnitNormalNP) (C51_complex_unit) rfl (fun _ _ _ => rfl) rfl rfl rfl rfl (fun _ _ _ => rfl)
    (fun _ _ _ => rfl) (fun _ _ _ => ⟨_, rfl⟩) (fun _ _ _ => rfl) (fun _ _ _ _ _ => (.cons ⟨rfl, rfl, [], rfl, rfl⟩ .nil))
    (fun rs p q p' χ i hi => ?_) (fun _ _ _ _ _ => (.cons rfl .nil)) (fun p a b χ => ?_)
    (fun rs p χ _ => C51_complex_unit_exp.toNat _ rs p χ) (fun _ => rfl) (fun _ rs p χ => C51_complex_unit_exp.ecm _ rs p χ)
  · exact (add_zero _).trans (valDot_cscalars rs i hi _ _)
  · exact dot_sub_cscalar _ _ _

theorem simple_dirichlet (d : ℕ) : (Simple.kind solve (.dirichlet d)).Ok (library search) := by
  refine Spec.Kind.Ok.simple (m := Methods.dirichletNP) (C51_dirichlet d) rfl (fun _ _ _ => rfl) rfl rfl rfl rfl (fun _ _ _ => rfl)
    (fun _ _ _ => rfl) (fun _ _ _ => ⟨_, rfl⟩) (fun _ _ _ => rfl) (fun _ _ _ _ _ => (.cons ⟨rfl, rfl, [_], rfl, rfl⟩ .nil))
    (fun rs p q p' χ i hi => ?_) (fun _ _ _ _ _ => (.cons rfl .nil)) (fun p a b χ => ?_)
    (fun rs p χ h => (C51_dirichlet_exp (d + 1)).toNat _ _ _ (hs.dirichlet _) rs p χ h) (fun _ => rfl) (fun _ rs p χ => (C51_dirichlet_exp (d + 1)).ecm _ (fun _ _ => 0) False.elim rs p χ)
  · exact (add_zero _).trans (valDot_vectors rs i hi _ _)
  · exact dot_sub_vector _ _ _

theorem simple_exponential : (Simple.kind solve .exponential).Ok (library search) := by
  refine Spec.Kind.Ok.simple (m := Methods.exponentialNP) (C51_exponential) rfl (fun _ _ _ => rfl) rfl rfl rfl rfl (fun _ _ _ => rfl)
    (fun _ _ _ => rfl) (fun _ _ _ => ⟨_, rfl⟩) (fun _ _ _ => rfl) (fun _ _ _ _ _ => (.cons ⟨rfl, rfl, [], rfl, rfl⟩ .nil))
    (fun rs p q p' χ i hi => ?_) (fun _ _ _ _ _ => (.cons rfl .nil)) (fun p a b χ => ?_)
    (fun rs p χ _ => C51_exponential_exp.toNat _ rs p χ) (fun _ => rfl) (fun _ rs p χ => C51_exponential_exp.ecm _ rs p χ)
  · exact (add_zero _).trans (valDot_scalars rs i hi _ _)
  · exact sub_mul _ _ _

theorem simple_gamma : (Simple.kind solve .gamma).Ok (library search) := by
  refine Spec.Kind.Ok.simple (m := Methods.gammaNP) (C51_gamma) rfl (fun _ _ _ => rfl) rfl rfl rfl rfl (fun _ _ _ => rfl)
    (fun _ _ _ => rfl) (fun _ _ _ => ⟨_, rfl⟩) (fun _ _ _ => rfl) (fun _ _ _ _ _ => (.cons ⟨rfl, rfl, [], rfl, rfl⟩ (.cons ⟨rfl, rfl, [], rfl, rfl⟩ .nil)))
    (fun rs p q p' χ i hi => ?_) (fun _ _ _ _ _ => (.cons rfl (.cons rfl .nil))) (fun p a b χ => ?_)
    (fun rs p χ h => C51_gamma_exp.toNat _ _ _ (hs.gamma) rs p χ h) (fun _ => rfl) (fun _ rs p χ => C51_gamma_exp.ecm _ (fun _ _ => 0) False.elim rs p χ)
  · exact congrArg₂ (· + ·) (valDot_scalars rs i hi _ _) ((add_zero _).trans (valDot_scalars rs i hi _ _))
  · exact dot_sub_add (sub_mul _ _ _) (sub_mul _ _ _)

theorem simple_genDirichlet (d : ℕ) : (Simple.kind solve (.genDirichlet d)).Ok (library search) := by
  refine Spec.Kind.Ok.simple (m := Methods.genDirichletNP) (C51_gen_dirichlet d) rfl (fun _ _ _ => rfl) rfl rfl rfl rfl (fun _ _ _ => rfl)
    (fun _ _ _ => rfl) (fun _ _ _ => ⟨_, rfl⟩) (fun _ _ _ => rfl) (fun _ _ _ _ _ => (.cons ⟨rfl, rfl, [_], rfl, rfl⟩ (.cons ⟨rfl, rfl, [_], rfl, rfl⟩ .nil)))
    (fun rs p q p' χ i hi => ?_) (fun _ _ _ _ _ => (.cons rfl (.cons rfl .nil))) (fun p a b χ => ?_)
    (fun rs p χ h => (C51_gen_dirichlet_exp d).toNat _ _ _ (hs.genDirichlet d) rs p χ h) (fun _ => rfl) (fun _ rs p χ => (C51_gen_dirichlet_exp d).ecm _ (fun _ _ => 0) False.elim rs p χ)
  · exact congrArg₂ (· + ·) (valDot_vectors rs i hi _ _) ((add_zero _).trans (valDot_vectors rs i hi _ _))
  · exact dot_sub_add (dot_sub_vector _ _ _) (dot_sub_vector _ _ _)

theorem simple_geometric : (Simple.kind solve .geometric).Ok (library search) := by
  refine Spec.Kind.Ok.simple (m := Methods.geometricNP) (C51_geometric) rfl (fun _ _ _ => rfl) rfl rfl rfl rfl (fun _ _ _ => rfl)
    (fun _ _ _ => rfl) (fun _ _ _ => ⟨_, rfl⟩) (fun _ _ _ => rfl) (fun _ _ _ _ _ => (.cons ⟨rfl, rfl, [], rfl, rfl⟩ .nil))
    (fun rs p q p' χ i hi => ?_) (fun _ _ _ _ _ => (.cons rfl .nil)) (fun p a b χ => ?_)
    (fun rs p χ _ => C51_geometric_exp.toNat _ rs p χ) (fun _ => rfl) (fun _ rs p χ => C51_geometric_exp.ecm _ rs p χ)
  · exact (add_zero _).trans (valDot_scalars rs i hi _ _)
  · exact sub_mul _ _ _

theorem simple_logarithmic : (Simple.kind solve .logarithmic).Ok (library search) := by
  refine Spec.Kind.Ok.simple (m := Methods.logarithmicNP) (C51_logarithmic) rfl (fun _ _ _ => rfl) rfl rfl rfl rfl (fun _ _ _ => rfl)
    (fun _ _ _ => rfl) (fun _ _ _ => ⟨_, rfl⟩) (fun _ _ _ => rfl) (fun _ _ _ _ _ => (.cons ⟨rfl, rfl, [], rfl, rfl⟩ .nil))
    (fun rs p q p' χ i hi => ?_) (fun _ _ _ _ _ => (.cons rfl .nil)) (fun p a b χ => ?_)
    (fun rs p χ h => (C51_logarithmic_exp (openMin_gt 1).le hs.logarithmic rs p χ h).2) False.elim False.elim
  · exact (add_zero _).trans (valDot_scalars rs i hi _ _)
  · exact sub_mul _ _ _

theorem simple_multinomial (d : ℕ) : (Simple.kind solve (.multinomial d)).Ok (library search) := by
  refine Spec.Kind.Ok.simple (m := Methods.multinomialNP) (C51_multinomial d) rfl (fun _ _ _ => rfl) rfl rfl rfl rfl (fun _ _ _ => rfl)
    (fun _ _ _ => rfl) (fun _ _ _ => ⟨_, rfl⟩) (fun _ _ _ => rfl) (fun _ _ _ _ _ => (.cons ⟨rfl, rfl, [_], rfl, rfl⟩ .nil))
    (fun rs p q p' χ i hi => ?_) (fun _ _ _ _ _ => (.cons rfl .nil)) (fun p a b χ => ?_)
    (fun rs p χ _ => (C51_multinomial_exp d).toNat _ rs p χ) (fun _ => rfl) (fun _ rs p χ => (C51_multinomial_exp d).ecm _ rs p χ)
  · exact (add_zero _).trans (valDot_vectors rs i hi _ _)
  · exact dot_sub_vector _ _ _

theorem simple_mvNormal (d : ℕ) : (Simple.kind solve (.mvNormal d)).Ok (library search) := by
  refine Spec.Kind.Ok.simple (m := Methods.mvNormalNP) (C51_mv_normal d) rfl (fun _ _ _ => rfl) rfl rfl rfl rfl (fun _ _ _ => rfl)
    (fun _ _ _ => rfl) (fun _ _ _ => ⟨_, rfl⟩) (fun _ _ _ => rfl) (fun _ _ _ _ _ => (.cons ⟨rfl, rfl, [_], rfl, rfl⟩ (.cons ⟨rfl, rfl, [_, _], rfl, rfl⟩ .nil)))
    (fun rs p q p' χ i hi => ?_) (fun _ _ _ _ _ => (.cons rfl (.cons rfl .nil))) (fun p a b χ => ?_)
    (fun rs p χ _ => (C51_mv_normal_exp d).toNat _ rs p χ) (fun _ => rfl) (fun _ rs p χ => (C51_mv_normal_exp d).ecm _ rs p χ)
  · exact congrArg₂ (· + ·) (valDot_vectors rs i hi _ _) ((add_zero _).trans (valDot_matrices rs i hi _ _))
  · exact dot_sub_add (dot_sub_vector _ _ _) (dot_sub_matrix _ _ _)

theorem simple_mvDiagonal (d : ℕ) : (Simple.kind solve (.mvDiagonal d)).Ok (library search) := by
  refine Spec.Kind.Ok.simple (m := Methods.diagonalNormalNP) (C51_mv_diagonal d) rfl (fun _ _ _ => rfl) rfl rfl rfl rfl (fun _ _ _ => rfl)
    (fun _ _ _ => rfl) (fun _ _ _ => ⟨_, rfl⟩) (fun _ _ _ => rfl) (fun _ _ _ _ _ => (.cons ⟨rfl, rfl, [_], rfl, rfl⟩ (.cons ⟨rfl, rfl, [_], rfl, rfl⟩ .nil)))
    (fun rs p q p' χ i hi => ?_) (fun _ _ _ _ _ => (.cons rfl (.cons rfl .nil))) (fun p a b χ => ?_)
    (fun rs p χ _ => (C51_mv_diagonal_exp d).toNat _ rs p χ) (fun _ => rfl) (fun _ rs p χ => (C51_mv_diagonal_exp d).ecm _ rs p χ)
  · exact congrArg₂ (· + ·) (valDot_vectors rs i hi _ _) ((add_zero _).trans (valDot_vectors rs i hi _ _))
  · exact dot_sub_add (dot_sub_vector _ _ _) (dot_sub_vector _ _ _)

theorem simple_mvFixed (d : ℕ) : (Simple.kind solve (.mvFixed d)).Ok (library search) := by
  refine Spec.Kind.Ok.simple (m := Methods.fixedVarianceNormalNP) (C51_mv_fixed d) rfl (fun _ _ _ => rfl) rfl rfl rfl rfl (fun _ _ _ => rfl)
    (fun _ _ _ => rfl) (fun _ _ _ => ⟨_, rfl⟩) (fun _ _ _ => rfl) (fun _ _ _ _ _ => (.cons ⟨rfl, rfl, [_], rfl, rfl⟩ .nil))
    (fun rs p q p' χ i hi => ?_) (fun _ _ _ _ _ => (.cons rfl .nil)) (fun p a b χ => ?_)
    (fun rs p χ _ => (C51_mv_fixed_exp d).toNat _ rs p χ) (fun _ => rfl) (fun _ rs p χ => (C51_mv_fixed_exp d).ecm _ rs p χ)
  · exact (add_zero _).trans (valDot_vectors rs i hi _ _)
  · exact dot_sub_vector _ _ _

theorem simple_mvIsotropic (d : ℕ) : (Simple.kind solve (.mvIsotropic d)).Ok (library search) := by
  refine Spec.Kind.Ok.simple (m := Methods.isotropicNormalNP) (C51_mv_isotropic d) rfl (fun _ _ _ => rfl) rfl rfl rfl rfl (fun _ _ _ => rfl)
    (fun _ _ _ => rfl) (fun _ _ _ => ⟨_, rfl⟩) (fun _ _ _ => rfl) (fun _ _ _ _ _ => (.cons ⟨rfl, rfl, [_], rfl, rfl⟩ (.cons ⟨rfl, rfl, [], rfl, rfl⟩ .nil)))
    (fun rs p q p' χ i hi => ?_) (fun _ _ _ _ _ => (.cons rfl (.cons rfl .nil))) (fun p a b χ => ?_)
    (fun rs p χ _ => (C51_mv_isotropic_exp d).toNat _ rs p χ) (fun _ => rfl) (fun _ rs p χ => (C51_mv_isotropic_exp d).ecm _ rs p χ)
  · exact congrArg₂ (· + ·) (valDot_vectors rs i hi _ _) ((add_zero _).trans (valDot_scalars rs i hi _ _))
  · exact dot_sub_add (dot_sub_vector _ _ _) (sub_mul _ _ _)

theorem simple_mvUnit (d : ℕ) : (Simple.kind solve (.mvUnit d)).Ok (library search) := by
  refine Spec.Kind.Ok.simple (m := Methods.mvUnitNormalNP) (C51_mv_unit d) rfl (fun _ _ _ => rfl) rfl rfl rfl rfl (fun _ _ _ => rfl)
    (fun _ _ _ => rfl) (fun _ _ _ => ⟨_, rfl⟩) (fun _ _ _ => rfl) (fun _ _ _ _ _ => (.cons ⟨rfl, rfl, [_], rfl, rfl⟩ .nil))
    (fun rs p q p' χ i hi => ?_) (fun _ _ _ _ _ => (.cons rfl .nil)) (fun p a b χ => ?_)
    (fun rs p χ _ => (C51_mv_unit_exp d).toNat _ rs p χ) (fun _ => rfl) (fun _ rs p χ => (C51_mv_unit_exp d).ecm _ rs p χ)
  · exact (add_zero _).trans (valDot_vectors rs i hi _ _)
  · exact dot_sub_vector _ _ _

theorem simple_negativeBinomial : (Simple.kind solve .negativeBinomial).Ok (library search) := by
  refine Spec.Kind.Ok.simple (m := Methods.negativeBinomialNP) (C51_negative_binomial) rfl (fun _ _ _ => rfl) rfl rfl rfl rfl (fun _ _ _ => rfl)
    (fun _ _ _ => rfl) (fun _ _ _ => ⟨_, rfl⟩) (fun _ _ _ => rfl) (fun _ _ _ _ _ => (.cons ⟨rfl, rfl, [], rfl, rfl⟩ .nil))
    (fun rs p q p' χ i hi => ?_) (fun _ _ _ _ _ => (.cons rfl .nil)) (fun p a b χ => ?_)
    (fun rs p χ _ => (C51_negative_binomial_exp _ rs p χ).2) False.elim False.elim
  · exact (add_zero _).trans (valDot_scalars rs i hi _ _)
  · exact sub_mul _ _ _

theorem simple_normal : (Simple.kind solve .normal).Ok (library search) := by
  refine Spec.Kind.Ok.simple (m := Methods.normalNP) (C51_normal) rfl (fun _ _ _ => rfl) rfl rfl rfl rfl (fun _ _ _ => rfl)
    (fun _ _ _ => rfl) (fun _ _ _ => ⟨_, rfl⟩) (fun _ _ _ => rfl) (fun _ _ _ _ _ => (.cons ⟨rfl, rfl, [], rfl, rfl⟩ (.cons ⟨rfl, rfl, [], rfl, rfl⟩ .nil)))
    (fun rs p q p' χ i hi => ?_) (fun _ _ _ _ _ => (.cons rfl (.cons rfl .nil))) (fun p a b χ => ?_)
    (fun rs p χ _ => C51_normal_exp.toNat _ rs p χ) (fun _ => rfl) (fun _ rs p χ => C51_normal_exp.ecm _ rs p χ)
  · exact congrArg₂ (· + ·) (valDot_scalars rs i hi _ _) ((add_zero _).trans (valDot_scalars rs i hi _ _))
  · exact dot_sub_add (sub_mul _ _ _) (sub_mul _ _ _)

theorem simple_unitNormal : (Simple.kind solve .unitNormal).Ok (library search) := by
  refine Spec.Kind.Ok.simple (m := Methods.unitNormalNP) (C51_unit_normal) rfl (fun _ _ _ => rfl) rfl rfl rfl rfl (fun _ _ _ => rfl)
    (fun _ _ _ => rfl) (fun _ _ _ => ⟨_, rfl⟩) (fun _ _ _ => rfl) (fun _ _ _ _ _ => (.cons ⟨rfl, rfl, [], rfl, rfl⟩ .nil))
    (fun rs p q p' χ i hi => ?_) (fun _ _ _ _ _ => (.cons rfl .nil)) (fun p a b χ => ?_)
    (fun rs p χ _ => C51_unit_normal_exp.toNat _ rs p χ) (fun _ => rfl) (fun _ rs p χ => C51_unit_normal_exp.ecm _ rs p χ)
  · exact (add_zero _).trans (valDot_scalars rs i hi _ _)
  · exact sub_mul _ _ _

theorem simple_poisson : (Simple.kind solve .poisson).Ok (library search) := by
  refine Spec.Kind.Ok.simple (m := Methods.poissonNP) (C51_poisson) rfl (fun _ _ _ => rfl) rfl rfl rfl rfl (fun _ _ _ => rfl)
    (fun _ _ _ => rfl) (fun _ _ _ => ⟨_, rfl⟩) (fun _ _ _ => rfl) (fun _ _ _ _ _ => (.cons ⟨rfl, rfl, [], rfl, rfl⟩ .nil))
    (fun rs p q p' χ i hi => ?_) (fun _ _ _ _ _ => (.cons rfl .nil)) (fun p a b χ => ?_)
    (fun rs p χ _ => (C51_poisson_exp _ rs p χ).2) False.elim False.elim
  · exact (add_zero _).trans (valDot_scalars rs i hi _ _)
  · exact sub_mul _ _ _

theorem simple_rayleigh : (Simple.kind solve .rayleigh).Ok (library search) := by
  refine Spec.Kind.Ok.simple (m := Methods.rayleighNP) (C51_rayleigh) rfl (fun _ _ _ => rfl) rfl rfl rfl rfl (fun _ _ _ => rfl)
    (fun _ _ _ => rfl) (fun _ _ _ => ⟨_, rfl⟩) (fun _ _ _ => rfl) (fun _ _ _ _ _ => (.cons ⟨rfl, rfl, [], rfl, rfl⟩ .nil))
    (fun rs p q p' χ i hi => ?_) (fun _ _ _ _ _ => (.cons rfl .nil)) (fun p a b χ => ?_)
    (fun rs p χ _ => C51_rayleigh_exp.toNat _ rs p χ) (fun _ => rfl) (fun _ rs p χ => C51_rayleigh_exp.ecm _ rs p χ)
  · exact (add_zero _).trans (valDot_scalars rs i hi _ _)
  · exact sub_mul _ _ _

theorem simple_vonMisesFisher (d : ℕ) : (Simple.kind solve (.vonMisesFisher d)).Ok (library search) := by
  refine Spec.Kind.Ok.simple (m := Methods.vonMisesFisherNP) (C51_von_mises d) rfl (fun _ _ _ => rfl) rfl rfl rfl rfl (fun _ _ _ => rfl)
    (fun _ _ _ => rfl) (fun _ _ _ => ⟨_, rfl⟩) (fun _ _ _ => rfl) (fun _ _ _ _ _ => (.cons ⟨rfl, rfl, [_], rfl, rfl⟩ .nil))
    (fun rs p q p' χ i hi => ?_) (fun _ _ _ _ _ => (.cons rfl .nil)) (fun p a b χ => ?_)
    (fun rs p χ h => (C51_von_mises_exp d).toNat _ _ _ (hs.vonMisesFisher d) rs p χ h) (fun _ => rfl) (fun _ rs p χ => (C51_von_mises_exp d).ecm _ (fun _ _ => 0) False.elim rs p χ)
  · exact (add_zero _).trans (valDot_vectors rs i hi _ _)
  · exact dot_sub_vector _ _ _

theorem simple_weibull : (Simple.kind solve .weibull).Ok (library search) := by
  refine Spec.Kind.Ok.simple (m := Methods.weibullNP) (C51_weibull) rfl (fun _ _ _ => rfl) rfl rfl rfl rfl (fun _ _ _ => rfl)
    (fun _ _ _ => rfl) (fun _ _ _ => ⟨_, rfl⟩) (fun _ _ _ => rfl) (fun _ _ _ _ _ => (.cons ⟨rfl, rfl, [], rfl, rfl⟩ .nil))
    (fun rs p q p' χ i hi => ?_) (fun _ _ _ _ _ => (.cons rfl .nil)) (fun p a b χ => ?_)
    (fun rs p χ _ => C51_weibull_exp.toNat _ rs p χ) (fun _ => rfl) (fun _ rs p χ => C51_weibull_exp.ecm _ rs p χ)
  · exact (add_zero _).trans (valDot_scalars rs i hi _ _)
  · exact sub_mul _ _ _

/-- Every simple class. -/
theorem simple_ok (s : Simple) : (s.kind solve).Ok (library search) := by
  cases s with
  | bernoulli => exact simple_bernoulli hs
  | beta => exact simple_beta hs
  | chi => exact simple_chi hs
  | chiSquare => exact simple_chiSquare hs
  | cmvCircular d => exact simple_cmvCircular hs d
  | cmvUnit d => exact simple_cmvUnit hs d
  | complexNormal => exact simple_complexNormal hs
  | complexUnit => exact simple_complexUnit hs
  | dirichlet d => exact simple_dirichlet hs d
  | exponential => exact simple_exponential hs
  | gamma => exact simple_gamma hs
  | genDirichlet d => exact simple_genDirichlet hs d
  | geometric => exact simple_geometric hs
  | logarithmic => exact simple_logarithmic hs
  | multinomial d => exact simple_multinomial hs d
  | mvNormal d => exact simple_mvNormal hs d
  | mvDiagonal d => exact simple_mvDiagonal hs d
  | mvFixed d => exact simple_mvFixed hs d
  | mvIsotropic d => exact simple_mvIsotropic hs d
  | mvUnit d => exact simple_mvUnit hs d
  | negativeBinomial => exact simple_negativeBinomial hs
  | normal => exact simple_normal hs
  | unitNormal => exact simple_unitNormal hs
  | poisson => exact simple_poisson hs
  | rayleigh => exact simple_rayleigh hs
  | vonMisesFisher d => exact simple_vonMisesFisher hs d
  | weibull => exact simple_weibull hs

end Efax
