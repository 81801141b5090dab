import Verif.Model.Classes

/-!
# Specification: the observations of a family, and the values that a support declares
-/

namespace Efax.Spec

/-- Arrays of observations of the distributions of a class, with `d` dimensions, one for each entry of
the batch `rs`: the values on which the density of the family is positive. -/
def Observation (c : Cls) (d : ℕ) (rs : List ℕ) (v : Val) : Prop :=
  match c, v with
  | .bernoulliNP, .bool a | .bernoulliEP, .bool a => a.rshape = rs
  | .geometricNP, .int a | .geometricEP, .int a | .poissonNP, .int a | .poissonEP, .int a
  | .negativeBinomialNP, .int a | .negativeBinomialEP, .int a =>
      a.rshape = rs ∧ ∀ i, inB rs i = true → 0 ≤ a.get i
  | .logarithmicNP, .int a | .logarithmicEP, .int a =>
      a.rshape = rs ∧ ∀ i, inB rs i = true → 1 ≤ a.get i
  | .chiNP, .real a | .chiEP, .real a | .chiSquareNP, .real a | .chiSquareEP, .real a
  | .exponentialNP, .real a | .exponentialEP, .real a | .gammaNP, .real a | .gammaEP, .real a
  | .gammaVP, .real a | .rayleighNP, .real a | .rayleighEP, .real a
  | .weibullNP, .real a | .weibullEP, .real a =>
      a.rshape = rs ∧ ∀ i, inB rs i = true → 0 < a.get i
  | .betaNP, .real a | .betaEP, .real a =>
      a.rshape = rs ∧ ∀ i, inB rs i = true → 0 < a.get i ∧ a.get i < 1
  | .normalNP, .real a | .normalEP, .real a | .normalVP, .real a
  | .unitNormalNP, .real a | .unitNormalEP, .real a => a.rshape = rs
  | .complexNormalNP, .complex a | .complexNormalEP, .complex a
  | .complexUnitNormalNP, .complex a | .complexUnitNormalEP, .complex a => a.rshape = rs
  | .ccsnNP, .complex a | .ccsnEP, .complex a
  | .cmvUnitNormalNP, .complex a | .cmvUnitNormalEP, .complex a => a.rshape = d :: rs
  | .mvNormalNP, .real a | .mvNormalEP, .real a | .mvNormalVP, .real a
  | .diagonalNormalNP, .real a | .diagonalNormalEP, .real a | .diagonalNormalVP, .real a
  | .fixedVarianceNormalNP, .real a | .fixedVarianceNormalEP, .real a
  | .isotropicNormalNP, .real a | .isotropicNormalEP, .real a
  | .mvUnitNormalNP, .real a | .mvUnitNormalEP, .real a => a.rshape = d :: rs
  | .dirichletNP, .real a | .dirichletEP, .real a =>
      a.rshape = (d - 1) :: rs ∧ ∀ i, inB rs i = true →
        (∀ k < d - 1, 0 < a.get (k :: i)) ∧ ∑ k ∈ Finset.range (d - 1), a.get (k :: i) < 1
  | .genDirichletNP, .real a | .genDirichletEP, .real a =>
      a.rshape = d :: rs ∧ ∀ i, inB rs i = true →
        (∀ k < d, 0 < a.get (k :: i)) ∧ ∑ k ∈ Finset.range d, a.get (k :: i) < 1
  | .multinomialNP, .real a | .multinomialEP, .real a =>
      a.rshape = d :: rs ∧ ∀ i, inB rs i = true →
        (∀ k < d, a.get (k :: i) = 0 ∨ a.get (k :: i) = 1) ∧ ∑ k ∈ Finset.range d, a.get (k :: i) ≤ 1
  | .vonMisesFisherNP, .real a | .vonMisesFisherEP, .real a =>
      a.rshape = d :: rs ∧ ∀ i, inB rs i = true → ∑ k ∈ Finset.range d, a.get (k :: i) ^ 2 = 1
  | _, _ => False

/-- The entries are elements of the ring, up to the tolerance `e` at its bounds. -/
def Elements (e : ℝ) : Ring → Val → Prop
  | .real mn mx _, .real a => ∀ i, inB a.rshape i = true →
      (∀ m ∈ mn, m - e ≤ a.get i) ∧ (∀ M ∈ mx, a.get i ≤ M + e)
  | .complex mn none, .complex a => ∀ i, inB a.rshape i = true → mn.get [] - e ≤ ‖a.get i‖
  | .boolean, .bool _ => True
  | .integral mn mx, .int a => ∀ i, inB a.rshape i = true →
      (∀ m ∈ mn, m ≤ a.get i) ∧ (∀ M ∈ mx, a.get i ≤ M)
  | _, _ => False

/-- The arrays of values, one for each entry of the batch `rs`, that a support for vectors of `d`
dimensions declares: the number of entries, their ring, and for the simplex the sum. -/
def Declared (s : Support) (e : ℝ) (d : ℕ) (rs : List ℕ) (v : Val) : Prop :=
  match s with
  | .scalar r => v.rshape = rs ∧ Elements e r v
  | .vector r => v.rshape = d :: rs ∧ Elements e r v
  | .simplex r => v.rshape = (d - 1) :: rs ∧ Elements e r v ∧ ∀ a, v = .real a → ∀ i, inB rs i = true →
      (∀ k < d - 1, 0 < a.get (k :: i)) ∧ ∑ k ∈ Finset.range (d - 1), a.get (k :: i) < 1
  | _ => False

/-- The classes whose `domain_support()` is larger than the set of observations. -/
def Loose (c : Cls) : Prop :=
  c ∈ [Cls.geometricNP, .geometricEP, .poissonNP, .poissonEP, .negativeBinomialNP, .negativeBinomialEP,
    .chiSquareNP, .chiSquareEP, .exponentialNP, .exponentialEP, .gammaNP, .gammaEP, .gammaVP,
    .rayleighNP, .rayleighEP, .weibullNP, .weibullEP, .genDirichletNP, .genDirichletEP,
    .multinomialNP, .multinomialEP, .vonMisesFisherNP, .vonMisesFisherEP]

end Efax.Spec
