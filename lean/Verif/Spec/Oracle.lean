import Verif.Spec.Setting
import Verif.Model.Tests.Infos

/-!
# Specification: what the descriptions of the test-suite describe
-/

namespace Efax.Spec

open Tests

/-- The family that a description is about. -/
def familyOf : SimpleInfo → ℕ → Simple
  | .bernoulli, _ => .bernoulli
  | .geometric, _ => .geometric
  | .poisson, _ => .poisson
  | .negativeBinomial, _ => .negativeBinomial
  | .logarithmic, _ => .logarithmic
  | .normal, _ => .normal
  | .unitNormal, _ => .unitNormal
  | .mvFixed, n => .mvFixed n
  | .mvUnit, n => .mvUnit n
  | .isotropic, n => .mvIsotropic n
  | .mvDiagonal, n => .mvDiagonal n
  | .mvNormal, n => .mvNormal n
  | .complexUnit, _ => .complexUnit
  | .complexNormal, _ => .complexNormal
  | .cmvUnit, n => .cmvUnit n
  | .cmvCircular, n => .cmvCircular n
  | .exponential, _ => .exponential
  | .rayleigh, _ => .rayleigh
  | .beta, _ => .beta
  | .gamma, _ => .gamma
  | .dirichlet, n => .dirichlet (n - 1)
  | .genDirichlet, n => .genDirichlet n
  | .vonMises, _ => .vonMisesFisher 2
  | .vonMisesFisher, n => .vonMisesFisher n
  | .chiSquare, _ => .chiSquare
  | .chi, _ => .chi
  | .weibull, _ => .weibull

/-- The dimensions that a description can have. -/
def HasDimension : SimpleInfo → ℕ → Prop
  | .mvFixed, n | .mvUnit, n | .isotropic, n | .mvDiagonal, n | .mvNormal, n | .cmvUnit, n | .cmvCircular, n
  | .genDirichlet, n => 1 ≤ n
  | .dirichlet, n | .vonMisesFisher, n => 2 ≤ n
  | .beta, n | .vonMises, n => n = 2
  | _, n => n = 1

/-- `v` is an array of observations that `scipy.stats` can draw, one for each distribution of a batch of
shape `rs`: successes as zeros and ones, the number of the trial that succeeds (from one), angles, or all
coordinates of a point of the simplex. -/
def DrawnSimple (rs : List ℕ) : SimpleInfo → ℕ → Val → Prop
  | .bernoulli, _, v => ∃ x, HoldsR rs x v ∧ ∀ i, inB rs i = true → x i = 0 ∨ x i = 1
  | .geometric, _, v | .logarithmic, _, v =>
    ∃ x, HoldsR rs x v ∧ ∀ i, inB rs i = true → ∃ k : ℕ, 1 ≤ k ∧ x i = k
  | .poisson, _, v | .negativeBinomial, _, v => ∃ x, HoldsR rs x v ∧ ∀ i, inB rs i = true → ∃ k : ℕ, x i = k
  | .normal, _, v | .unitNormal, _, v | .vonMises, _, v => ∃ x, HoldsR rs x v
  | .mvFixed, n, v | .mvUnit, n, v | .isotropic, n, v | .mvDiagonal, n, v | .mvNormal, n, v =>
    ∃ x : List ℕ → Fin n → ℝ, HoldsV rs x v
  | .complexUnit, _, v | .complexNormal, _, v => ∃ x, HoldsC rs x v
  | .cmvUnit, n, v | .cmvCircular, n, v => ∃ x : List ℕ → Fin n → ℂ, HoldsCV rs x v
  | .exponential, _, v | .rayleigh, _, v | .gamma, _, v | .chiSquare, _, v | .chi, _, v | .weibull, _, v =>
    ∃ x, HoldsR rs x v ∧ ∀ i, inB rs i = true → 0 < x i
  | .beta, _, v => ∃ x, HoldsR rs x v ∧ ∀ i, inB rs i = true → 0 < x i ∧ x i < 1
  | .dirichlet, n, v => ∃ x : List ℕ → Fin n → ℝ, HoldsV rs x v ∧
    ∀ i, inB rs i = true → (∀ k, 0 < x i k) ∧ ∑ k, x i k = 1
  | .genDirichlet, n, v => ∃ x : List ℕ → Fin n → ℝ, HoldsV rs x v ∧
    ∀ i, inB rs i = true → (∀ k, 0 < x i k) ∧ ∑ k, x i k < 1
  | .vonMisesFisher, n, v => ∃ x : List ℕ → Fin n → ℝ, HoldsV rs x v ∧
    ∀ i, inB rs i = true → ∑ k, x i k ^ 2 = 1

/-- The descriptions of families whose entropy both sides compute: efax has none for the Poisson, the
negative binomial and the logarithmic family, the replacement of `scipy.stats` none for the generalized
Dirichlet family. -/
def EntropicSimple : SimpleInfo → Prop
  | .poisson | .negativeBinomial | .logarithmic | .genDirichlet => False
  | _ => True

variable [MachEps] (solve : Solver)

mutual
/-- The kind of distributions that a description is about: joint distributions have the parts of the
description, in the same order. -/
noncomputable def settingOf : TestInfo → Σ K : Kind Cls, Setting K
  | .simple s n => ⟨(familyOf s n).kind solve, (familyOf s n).setting solve⟩
  | .joint infos => ⟨.joint .jointN .jointE (.ofList (partsOf (settingsOf infos))),
      .joint _ _ (.ofList (settingsOf infos))⟩
/-- The same for the parts. -/
noncomputable def settingsOf : TestInfos → List (String × Σ K : Kind Cls, Setting K)
  | .nil => []
  | .cons name info rest => (name, settingOf info) :: settingsOf rest
end

mutual
/-- A description is sound: the dimensions are possible; joint distributions have parts, with distinct
names. -/
def Sound : TestInfo → Prop
  | .simple s n => HasDimension s n
  | .joint infos => (∃ name info rest, infos = .cons name info rest) ∧ infos.names.Nodup ∧ Sounds infos
/-- The same for the parts. -/
def Sounds : TestInfos → Prop
  | .nil => True
  | .cons _ info rest => Sound info ∧ Sounds rest
end

/-- Parts that are not joint distributions. -/
def AllSimple : TestInfos → Prop
  | .nil => True
  | .cons _ (.simple _ _) rest => AllSimple rest
  | .cons _ (.joint _) _ => False

/-- A simple distribution, or a joint distribution of simple ones. -/
def Shallow : TestInfo → Prop
  | .simple _ _ => True
  | .joint infos => AllSimple infos

mutual
/-- Observations that can be drawn: for joint distributions dictionaries with one item for each part, in
any order. -/
def Drawn (rs : List ℕ) : TestInfo → Tree Val → Prop
  | .simple s n, t => ∃ v, t = .leaf v ∧ DrawnSimple rs s n v
  | .joint infos, t => ∃ f : Forest Val, t = .node f ∧ (f.toList.map Prod.fst).Perm infos.names ∧
      Drawns rs infos f.toList
/-- The same for the parts. -/
def Drawns (rs : List ℕ) : TestInfos → Dict String (Tree Val) → Prop
  | .nil, _ => True
  | .cons name info rest, l => (∃ t, (name, t) ∈ l ∧ Drawn rs info t) ∧ Drawns rs rest l
end

mutual
/-- All parts have entropies. -/
def Entropic : TestInfo → Prop
  | .simple s _ => EntropicSimple s
  | .joint infos => Entropics infos
/-- The same for the parts. -/
def Entropics : TestInfos → Prop
  | .nil => True
  | .cons _ info rest => Entropic info ∧ Entropics rest
end

mutual
/-- `P` holds for all simple parts. -/
def Everywhere (P : SimpleInfo → Prop) : TestInfo → Prop
  | .simple s _ => P s
  | .joint infos => Everywheres P infos
/-- `Everywhere` for all parts. -/
def Everywheres (P : SimpleInfo → Prop) : TestInfos → Prop
  | .nil => True
  | .cons _ info rest => Everywhere P info ∧ Everywheres P rest
end

/-- The families that can be sampled given their natural parameters (`true`) or their expectation
parameters. -/
def Sampled (natural : Bool) : SimpleInfo → Prop
  | .chi | .genDirichlet | .logarithmic | .vonMises | .vonMisesFisher => False
  | .mvNormal => natural = false
  | _ => True

/-- The classes whose observations are Booleans or integers (a multinomial observation is a vector of real
numbers). -/
def Counts : Cls → Prop
  | .bernoulliNP | .bernoulliEP | .geometricNP | .geometricEP | .logarithmicNP | .logarithmicEP
  | .negativeBinomialNP | .negativeBinomialEP | .poissonNP | .poissonEP => True
  | _ => False

/-- The samplable families with continuous observations whose maximum likelihood estimates are tested:
not those with `to_nat()` by search, nor those that are excluded by name. -/
def EstimateTested : SimpleInfo → Prop
  | .bernoulli | .geometric | .negativeBinomial | .poisson => False
  | .cmvCircular | .beta | .dirichlet | .chiSquare | .gamma => False
  | _ => True

/-- The families with a conjugate prior. -/
def HasPrior : SimpleInfo → Prop
  | .bernoulli | .exponential | .mvFixed | .mvUnit | .poisson | .unitNormal => True
  | _ => False

/-- The families with a generalized conjugate prior. -/
def HasGeneralPrior : SimpleInfo → Prop
  | .mvFixed | .mvUnit => True
  | _ => False

end Efax.Spec
