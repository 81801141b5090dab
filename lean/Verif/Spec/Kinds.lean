import Verif.Spec.Kind
import Verif.Model.Ring
import Verif.Model.Classes
import Verif.Model.Families.Discrete
import Verif.Model.Families.Positive
import Verif.Model.Families.Normal
import Verif.Model.Families.MvNormal
import Verif.Model.Families.Simplex
import Verif.Model.Families.ComplexNormal
import Verif.Model.Families.VonMises

/-!
# Specification: the kinds of distributions of efax
-/

namespace Efax.Spec

/-- The simple families; `d` is the dimension (for the multinomial and the Dirichlet family, one less
than the number of parameters). -/
inductive Simple
  | bernoulli
  | beta
  | chi
  | chiSquare
  | cmvCircular (d : ℕ)
  | cmvUnit (d : ℕ)
  | complexNormal
  | complexUnit
  | dirichlet (d : ℕ)
  | exponential
  | gamma
  | genDirichlet (d : ℕ)
  | geometric
  | logarithmic
  | multinomial (d : ℕ)
  | mvNormal (d : ℕ)
  | mvDiagonal (d : ℕ)
  | mvFixed (d : ℕ)
  | mvIsotropic (d : ℕ)
  | mvUnit (d : ℕ)
  | negativeBinomial
  | normal
  | unitNormal
  | poisson
  | rayleigh
  | vonMisesFisher (d : ℕ)
  | weibull

namespace Simple

/-- The natural class. -/
def cls : Simple → Cls
  | bernoulli => .bernoulliNP
  | beta => .betaNP
  | chi => .chiNP
  | chiSquare => .chiSquareNP
  | cmvCircular _ => .ccsnNP
  | cmvUnit _ => .cmvUnitNormalNP
  | complexNormal => .complexNormalNP
  | complexUnit => .complexUnitNormalNP
  | dirichlet _ => .dirichletNP
  | exponential => .exponentialNP
  | gamma => .gammaNP
  | genDirichlet _ => .genDirichletNP
  | geometric => .geometricNP
  | logarithmic => .logarithmicNP
  | multinomial _ => .multinomialNP
  | mvNormal _ => .mvNormalNP
  | mvDiagonal _ => .diagonalNormalNP
  | mvFixed _ => .fixedVarianceNormalNP
  | mvIsotropic _ => .isotropicNormalNP
  | mvUnit _ => .mvUnitNormalNP
  | negativeBinomial => .negativeBinomialNP
  | normal => .normalNP
  | unitNormal => .unitNormalNP
  | poisson => .poissonNP
  | rayleigh => .rayleighNP
  | vonMisesFisher _ => .vonMisesFisherNP
  | weibull => .weibullNP

/-- The expectation class. -/
def ecls : Simple → Cls
  | bernoulli => .bernoulliEP
  | beta => .betaEP
  | chi => .chiEP
  | chiSquare => .chiSquareEP
  | cmvCircular _ => .ccsnEP
  | cmvUnit _ => .cmvUnitNormalEP
  | complexNormal => .complexNormalEP
  | complexUnit => .complexUnitNormalEP
  | dirichlet _ => .dirichletEP
  | exponential => .exponentialEP
  | gamma => .gammaEP
  | genDirichlet _ => .genDirichletEP
  | geometric => .geometricEP
  | logarithmic => .logarithmicEP
  | multinomial _ => .multinomialEP
  | mvNormal _ => .mvNormalEP
  | mvDiagonal _ => .diagonalNormalEP
  | mvFixed _ => .fixedVarianceNormalEP
  | mvIsotropic _ => .isotropicNormalEP
  | mvUnit _ => .mvUnitNormalEP
  | negativeBinomial => .negativeBinomialEP
  | normal => .normalEP
  | unitNormal => .unitNormalEP
  | poisson => .poissonEP
  | rayleigh => .rayleighEP
  | vonMisesFisher _ => .vonMisesFisherEP
  | weibull => .weibullEP

end Simple

/-- What the search of `ExpToNat.to_nat` (mixins/exp_to_nat/exp_to_nat.py 47-59) computes for a single
distribution, for the classes that use it. -/
structure Solver where
  gamma : ℝ × ℝ → ℝ × ℝ
  chiSquare : ℝ → ℝ
  chi : ℝ → ℝ
  logarithmic : ℝ → ℝ
  beta : (Fin 2 → ℝ) → Fin 2 → ℝ
  dirichlet (n : ℕ) : (Fin n → ℝ) → Fin n → ℝ
  genDirichlet (d : ℕ) : (Fin d → ℝ) × (Fin d → ℝ) → (Fin d → ℝ) × (Fin d → ℝ)
  vonMisesFisher (d : ℕ) : EuclideanSpace ℝ (Fin d) → EuclideanSpace ℝ (Fin d)

/-- The disk without its boundary and its center. -/
def InDisk {d : ℕ} (χ : EuclideanSpace ℝ (Fin d)) : Prop := 0 < ‖χ‖ ∧ ‖χ‖ < 1

variable [MachEps]

/-- The function on batches `search` computes `solve` for every entry, if the parameters lie inside
the bounds of their supports (the stored, slightly narrowed ones). -/
structure Solver.For (solve : Solver) (search : Cls → List Val → Except Err (List Val)) : Prop where
  gamma : Solves (search .gammaEP) laySS laySS (fun _ => solve.gamma) fun _ χ => Ring.openMin 0 < χ.1
  chiSquare : Solves (search .chiSquareEP) layS layS fun _ => solve.chiSquare
  chi : Solves (search .chiEP) layS layS fun _ => solve.chi
  logarithmic : Solves (search .logarithmicEP) layS layS (fun _ => solve.logarithmic) fun _ χ =>
    Ring.openMin 1 < χ
  beta : Solves (search .betaEP) (layV 2) (layV 2) (fun _ => solve.beta) fun _ χ =>
    ∀ k, χ k < Ring.openMax 0
  dirichlet n : Solves (search .dirichletEP) (layV n) (layV n) (fun _ => solve.dirichlet n) fun _ χ =>
    ∀ k, χ k < Ring.openMax 0
  genDirichlet d : Solves (search .genDirichletEP) (layVV d) (layVV d) (fun _ => solve.genDirichlet d)
    fun _ χ => ∀ k, χ.1 k < Ring.openMax 0 ∧ χ.2 k < Ring.openMax 0
  vonMisesFisher d : Solves (search .vonMisesFisherEP) (layE d) (layE d)
    (fun _ => solve.vonMisesFisher d) fun _ => InDisk

namespace Simple

/-- How the classes store a batch, and the family of its entries.  `to_exp()` of the logarithmic family
is claimed where the code does not switch to a limit (logarithmic.py 37-43); `to_nat()` of the families
that search is claimed for parameters inside the bounds of their supports. -/
noncomputable def kind (solve : Solver) : Simple → Kind Cls
  | bernoulli => .simple .bernoulliNP .bernoulliEP layS layS
      (fun rs x => HoldsR rs fun i => ofBool (x i)) (fun _ => Efax.bernoulli)
      (fun _ => Efax.bernoulliToNat) (fun _ => Efax.bernoulliEcm)
  | beta => .simple .betaNP .betaEP (layV 2) (layV 2)
      HoldsR (fun _ => Efax.beta)
      (fun _ => solve.beta) (fun _ => Efax.dirichletEcm) (domE := fun _ χ => ∀ k, χ k < Ring.openMax 0)
  | chi => .simple .chiNP .chiEP layS layS
      HoldsR (fun _ => Efax.chi)
      (fun _ => solve.chi) (fun _ => Efax.chiEcm solve.chi)
  | chiSquare => .simple .chiSquareNP .chiSquareEP layS layS
      HoldsR (fun _ => Efax.chiSquare)
      (fun _ => solve.chiSquare) (fun _ => Efax.chiSquareEcm solve.chiSquare)
  | cmvCircular d => .simple .ccsnNP .ccsnEP (layCM d) (layCM d)
      HoldsCV (fun _ => Efax.cmvCircular d)
      (fun _ => Efax.cmvCircularToNat) (fun _ => Efax.cmvCircularEcm)
  | cmvUnit d => .simple .cmvUnitNormalNP .cmvUnitNormalEP (layCV d) (layCV d)
      HoldsCV (fun _ => Efax.cmvUnit d)
      (fun _ => Efax.cmvUnitToNat) (fun _ => Efax.cmvUnitEcm)
  | complexNormal => .simple .complexNormalNP .complexNormalEP layCSC layCSC
      HoldsC (fun _ => Efax.complexNormal)
      (fun _ => Efax.complexNormalToNat) (fun _ => Efax.complexNormalEcm)
  | complexUnit => .simple .complexUnitNormalNP .complexUnitNormalEP layC layC
      HoldsC (fun _ => Efax.complexUnit)
      (fun _ => Efax.complexUnitToNat) (fun _ => Efax.complexUnitEcm)
  | dirichlet d => .simple .dirichletNP .dirichletEP (layV (d + 1)) (layV (d + 1))
      HoldsV (fun _ => Efax.dirichlet d)
      (fun _ => solve.dirichlet (d + 1)) (fun _ => Efax.dirichletEcm) (domE := fun _ χ => ∀ k, χ k < Ring.openMax 0)
  | exponential => .simple .exponentialNP .exponentialEP layS layS
      HoldsR (fun _ => Efax.exponential)
      (fun _ => Efax.exponentialToNat) (fun _ => Efax.exponentialEcm)
  | gamma => .simple .gammaNP .gammaEP laySS laySS
      HoldsR (fun _ => Efax.gamma)
      (fun _ => solve.gamma) (fun _ => Efax.gammaEcm) (domE := fun _ χ => Ring.openMin 0 < χ.1)
  | genDirichlet d => .simple .genDirichletNP .genDirichletEP (layVV d) (layVV d)
      HoldsV (fun _ => Efax.genDirichlet d)
      (fun _ => solve.genDirichlet d) (fun _ => Efax.genDirichletEcm) (domE := fun _ χ => ∀ k, χ.1 k < Ring.openMax 0 ∧ χ.2 k < Ring.openMax 0)
  | geometric => .simple .geometricNP .geometricEP layS layS
      (fun rs (x : List ℕ → ℕ) => HoldsR rs fun i => (x i : ℝ)) (fun _ => Efax.geometric)
      (fun _ => Efax.geometricToNat) (fun _ => Efax.geometricEcm)
  | logarithmic => .simple .logarithmicNP .logarithmicEP layS layS
      (fun rs (x : List ℕ → ℕ) => HoldsR rs fun i => (x i : ℝ) + 1) (fun _ => Efax.logarithmic)
      (fun _ => solve.logarithmic) (fun _ _ => 0) False (fun _ q => logProbabilityFloor ≤ q ∧ q ≤ logProbabilityCeiling) (domE := fun _ χ => Ring.openMin 1 < χ)
  | multinomial d => .simple .multinomialNP .multinomialEP (layV (d + 1)) (layV (d + 1))
      HoldsV (fun _ => Efax.multinomial d)
      (fun _ => Efax.multinomialToNat) (fun _ => Efax.multinomialEcm)
  | mvNormal d => .simple .mvNormalNP .mvNormalEP (layVM d) (layVM d)
      HoldsV (fun _ => Efax.mvNormal d)
      (fun _ => Efax.mvNormalToNat) (fun _ => Efax.mvNormalEcm)
  | mvDiagonal d => .simple .diagonalNormalNP .diagonalNormalEP (layVV d) (layVV d)
      HoldsV (fun _ => Efax.mvDiagonal d)
      (fun _ => Efax.mvDiagonalToNat) (fun _ => Efax.mvDiagonalEcm)
  | mvFixed d => .simple .fixedVarianceNormalNP .fixedVarianceNormalEP (layVFixed d) (layVFixed d)
      HoldsV (Efax.mvFixed d)
      Efax.mvFixedToNat Efax.mvFixedEcm
  | mvIsotropic d => .simple .isotropicNormalNP .isotropicNormalEP (layVS d) (layVS d)
      HoldsV (fun _ => Efax.mvIsotropic d)
      (fun _ => Efax.mvIsotropicToNat) (fun _ => Efax.mvIsotropicEcm)
  | mvUnit d => .simple .mvUnitNormalNP .mvUnitNormalEP (layV d) (layV d)
      HoldsV (fun _ => Efax.mvUnit d)
      (fun _ => Efax.mvUnitToNat) (fun _ => Efax.mvUnitEcm)
  | negativeBinomial => .simple .negativeBinomialNP .negativeBinomialEP laySFixedInt laySFixedInt
      (fun rs (x : List ℕ → ℕ) => HoldsR rs fun i => (x i : ℝ)) Efax.negativeBinomial
      Efax.negativeBinomialToNat (fun _ _ => 0) False
  | normal => .simple .normalNP .normalEP laySS laySS
      HoldsR (fun _ => Efax.normal)
      (fun _ => Efax.normalToNat) (fun _ => Efax.normalEcm)
  | unitNormal => .simple .unitNormalNP .unitNormalEP layS layS
      HoldsR (fun _ => Efax.unitNormal)
      (fun _ => Efax.unitNormalToNat) (fun _ => Efax.unitNormalEcm)
  | poisson => .simple .poissonNP .poissonEP layS layS
      (fun rs (x : List ℕ → ℕ) => HoldsR rs fun i => (x i : ℝ)) (fun _ => Efax.poisson)
      (fun _ => Efax.poissonToNat) (fun _ _ => 0) False
  | rayleigh => .simple .rayleighNP .rayleighEP layS layS
      HoldsR (fun _ => Efax.rayleigh)
      (fun _ => Efax.rayleighToNat) (fun _ => Efax.rayleighEcm)
  | vonMisesFisher d => .simple .vonMisesFisherNP .vonMisesFisherEP (layE d) (layE d)
      HoldsSphere (fun _ => Efax.vonMisesFisher d)
      (fun _ => solve.vonMisesFisher d) (fun _ => Efax.vonMisesFisherEcm) (domE := fun _ χ => InDisk χ)
  | weibull => .simple .weibullNP .weibullEP layFixedS layFixedS
      HoldsR Efax.weibull
      (fun _ => Efax.weibullToNat) Efax.weibullEcm

end Simple

/-- The kinds of distributions: the simple ones, and joint distributions of at least one part, with
distinct names, nested to any depth. -/
inductive LibraryKind (solve : Solver) : Kind Cls → Prop
  | simple (s : Simple) : LibraryKind solve (s.kind solve)
  | joint {l : List (String × Kind Cls)} : l ≠ [] → (l.map Prod.fst).Nodup →
      (∀ nk ∈ l, LibraryKind solve nk.2) → LibraryKind solve (.joint .jointN .jointE (.ofList l))

end Efax.Spec
