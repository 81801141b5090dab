import Verif.Model.Primitives
import Verif.Model.Families.Discrete
import Verif.Model.Families.Positive
import Verif.Model.Families.Simplex
import Verif.Model.Families.Normal
import Verif.Model.Families.MvNormal
import Verif.Model.Families.ComplexNormal

/-!
# The samplers (`sample`) as laws

One draw (`shape` is `None`) from one distribution (no batch axes): the law of the result for ideal
primitives.
-/

namespace Efax

open MeasureTheory

/-- `ExponentialNP.sample` (exponential.py 59-65). -/
noncomputable def exponentialSampleN (q : ℝ) : Measure ℝ := randomExponential.map fun e => -e / q

/-- `ExponentialEP.sample` (exponential.py 103-109). -/
noncomputable def exponentialSampleE (m : ℝ) : Measure ℝ := randomExponential.map fun e => e * m

/-- `GammaNP.sample` (gamma.py 69-73). -/
noncomputable def gammaSampleN (q : ℝ × ℝ) : Measure ℝ :=
  (randomGamma (q.2 + 1)).map fun g => -g / q.1

/-- `GammaVP.sample` (gamma.py 176-178). -/
noncomputable def gammaSampleV (w : ℝ × ℝ) : Measure ℝ := gammaSampleN (gammaVarToNat w)

/-- `ChiSquareNP.sample` (chi_square.py 65-70). -/
noncomputable def chiSquareSampleN (q : ℝ) : Measure ℝ := randomChisquare ((q + 1) * 2)

/-- `RayleighNP.sample` (rayleigh.py 65-70). -/
noncomputable def rayleighSampleN (q : ℝ) : Measure ℝ := randomRayleigh (Real.sqrt (-0.5 / q))

/-- `RayleighEP.sample` (rayleigh.py 111-116). -/
noncomputable def rayleighSampleE (χ : ℝ) : Measure ℝ := randomRayleigh (Real.sqrt (0.5 * χ))

/-- `WeibullEP.sample` (weibull.py 110-117). -/
noncomputable def weibullSampleE (k χ : ℝ) : Measure ℝ := randomWeibull (χ ^ (1 / k)) k

/-- `WeibullNP.sample` (weibull.py 65-67). -/
noncomputable def weibullSampleN (k q : ℝ) : Measure ℝ := weibullSampleE k ((weibull k).toExp q)

/-- `NormalVP.sample` (normal/normal.py 148-155). -/
noncomputable def normalSampleV (w : ℝ × ℝ) : Measure ℝ :=
  let deviation := Real.sqrt w.2
  randomNormal.map fun z => z * deviation + w.1

/-- `NormalEP.sample` (normal/normal.py 111-118). -/
noncomputable def normalSampleE (χ : ℝ × ℝ) : Measure ℝ :=
  let deviation := Real.sqrt (normalVariance χ)
  randomNormal.map fun z => z * deviation + χ.1

/-- `NormalNP.sample` (normal/normal.py 69-71). -/
noncomputable def normalSampleN (q : ℝ × ℝ) : Measure ℝ := normalSampleV (normalNatToVar q)

/-- `UnitNormalNP.sample` (normal/unit.py 64-70); `UnitNormalEP.sample` (111-113) is the same. -/
noncomputable def unitNormalSample (m : ℝ) : Measure ℝ := randomNormal.map fun z => z + m

/-- `MultivariateUnitNormalNP.sample` (multivariate_normal/unit.py 67-73);
`MultivariateUnitNormalEP.sample` (120-122) is the same. -/
noncomputable def mvUnitSample {d : ℕ} (m : Fin d → ℝ) : Measure (Fin d → ℝ) :=
  (randomNormals (Fin d)).map fun z => z + m

/-- `MultivariateDiagonalNormalVP.sample` (multivariate_normal/diagonal.py 150-157). -/
noncomputable def mvDiagonalSampleV {d : ℕ} (w : (Fin d → ℝ) × (Fin d → ℝ)) : Measure (Fin d → ℝ) :=
  let deviation : Fin d → ℝ := fun i => Real.sqrt (w.2 i)
  (randomNormals (Fin d)).map fun z => z * deviation + w.1

/-- `MultivariateDiagonalNormalEP.sample` (multivariate_normal/diagonal.py 114-116). -/
noncomputable def mvDiagonalSampleE {d : ℕ} (χ : (Fin d → ℝ) × (Fin d → ℝ)) : Measure (Fin d → ℝ) :=
  mvDiagonalSampleV (mvDiagonalToVar χ)

/-- `MultivariateDiagonalNormalNP.sample` (multivariate_normal/diagonal.py 68-70). -/
noncomputable def mvDiagonalSampleN {d : ℕ} (q : (Fin d → ℝ) × (Fin d → ℝ)) : Measure (Fin d → ℝ) :=
  mvDiagonalSampleE ((mvDiagonal d).toExp q)

/-- `MultivariateFixedVarianceNormalEP.sample` (multivariate_normal/fixed_variance.py 125-133). -/
noncomputable def mvFixedSampleE {d : ℕ} (v : ℝ) (m : Fin d → ℝ) : Measure (Fin d → ℝ) :=
  let deviation := Real.sqrt v
  (randomNormals (Fin d)).map fun z i => z i * deviation + m i

/-- `MultivariateFixedVarianceNormalNP.sample` (multivariate_normal/fixed_variance.py 73-75). -/
noncomputable def mvFixedSampleN {d : ℕ} (v : ℝ) (q : Fin d → ℝ) : Measure (Fin d → ℝ) :=
  mvFixedSampleE v ((mvFixed d v).toExp q)

/-- `IsotropicNormalEP.sample` (multivariate_normal/isotropic.py 118-125). -/
noncomputable def mvIsotropicSampleE {d : ℕ} (χ : (Fin d → ℝ) × ℝ) : Measure (Fin d → ℝ) :=
  let deviation := Real.sqrt (mvIsotropicVariance χ)
  (randomNormals (Fin d)).map fun z i => z i * deviation + χ.1 i

/-- `IsotropicNormalNP.sample` (multivariate_normal/isotropic.py 73-75). -/
noncomputable def mvIsotropicSampleN {d : ℕ} (q : (Fin d → ℝ) × ℝ) : Measure (Fin d → ℝ) :=
  mvIsotropicSampleE ((mvIsotropic d).toExp q)

section

variable {d : ℕ} (factor : Matrix (Fin d) (Fin d) ℝ → Matrix (Fin d) (Fin d) ℝ)

/-- `MultivariateNormalVP.sample` (multivariate_normal/arbitrary.py 144-150). -/
noncomputable def mvNormalSampleV (w : (Fin d → ℝ) × Matrix (Fin d) (Fin d) ℝ) :
    Measure (Fin d → ℝ) :=
  randomMultivariateNormal factor w.1 w.2

/-- `MultivariateNormalEP.sample` (multivariate_normal/arbitrary.py 108-110). -/
noncomputable def mvNormalSampleE (χ : (Fin d → ℝ) × Matrix (Fin d) (Fin d) ℝ) :
    Measure (Fin d → ℝ) :=
  mvNormalSampleV factor (mvNormalToVar χ)

end

/-- `BernoulliEP.sample` (bernoulli.py 113-117). -/
noncomputable def bernoulliSampleE (p : ℝ) : Measure Bool := randomBernoulli p

/-- `BernoulliNP.sample` (bernoulli.py 72-74). -/
noncomputable def bernoulliSampleN (q : ℝ) : Measure Bool := bernoulliSampleE (bernoulli.toExp q)

/-- `PoissonEP.sample` (poisson.py 99-105). -/
noncomputable def poissonSampleE (m : ℝ) : Measure ℕ := randomPoisson m

/-- `PoissonNP.sample` (poisson.py 60-62). -/
noncomputable def poissonSampleN (q : ℝ) : Measure ℕ := poissonSampleE (poisson.toExp q)

/-- `NegativeBinomialEP.sample` (negative_binomial.py 85-94): the two keys of `split` give independent
draws. -/
noncomputable def negativeBinomialSampleE (r : ℕ) (m : ℝ) : Measure ℕ :=
  let negativeRate := -r / m
  let shapeMinusOne := (r : ℝ) - 1
  (gammaSampleN (negativeRate, shapeMinusOne)).bind poissonSampleE

/-- `NegativeBinomialNP.sample` (negative_binomial.py 47-49). -/
noncomputable def negativeBinomialSampleN (r : ℕ) (q : ℝ) : Measure ℕ :=
  negativeBinomialSampleE r ((negativeBinomial r).toExp q)

/-- `GeometricEP.sample` (geometric.py 84-89). -/
noncomputable def geometricSampleE (m : ℝ) : Measure ℕ :=
  let p := 1 / m
  randomGeometric p

/-- `BetaNP.sample` (beta.py 49-54). -/
noncomputable def betaSampleN (q : Fin 2 → ℝ) : Measure ℝ :=
  let alpha : Fin 2 → ℝ := fun i => 1 + q i
  randomBeta (alpha 0) (alpha 1)

/-- `DirichletCommonNP.sample` (dirichlet_common.py 42-46). -/
noncomputable def dirichletSampleN {d : ℕ} (q : Fin (d + 1) → ℝ) : Measure (Fin d → ℝ) :=
  (randomDirichlet fun i => 1 + q i).map fun x i => x i.castSucc

/-- `MultinomialNP.sample` (multinomial.py 70-75): `one_hot(index, dimensions)`. -/
noncomputable def multinomialSampleN {d : ℕ} (q : Fin (d + 1) → ℝ) : Measure (Fin (d + 1) → ℝ) :=
  (randomCategorical q).map fun k i => if i = k then 1 else 0

open Complex

/-- `ComplexUnitNormalEP.sample` (complex_normal/unit.py 108-116): `a` and `b` are drawn with the same
key and shape, so they are the same number. -/
noncomputable def complexUnitSampleE (m : ℂ) : Measure ℂ :=
  randomNormal.map fun a : ℝ => (a : ℂ) + I * (a : ℂ) + m

/-- `ComplexMultivariateUnitNormalEP.sample` (cmvn/unit.py 117-125), again with one key. -/
noncomputable def cmvUnitSampleE {d : ℕ} (m : Fin d → ℂ) : Measure (Fin d → ℂ) :=
  (randomNormals (Fin d)).map fun a i => (a i : ℂ) + I * (a i : ℂ) + m i

/-- `ComplexNormalEP._multivariate_normal_cov` (complex_normal/complex_normal.py 161-169). -/
noncomputable def complexNormalCov (χ : ComplexNormalParams) : Matrix (Fin 2) (Fin 2) ℝ :=
  let variance := χ.2.1 - normSq χ.1
  let pseudoVariance := χ.2.2 - χ.1 ^ 2
  let xx := variance + pseudoVariance.re
  let xy := pseudoVariance.im
  let yy := variance - pseudoVariance.re
  (0.5 : ℝ) • !![xx, xy; xy, yy]

/-- `ComplexNormalEP.sample` (complex_normal/complex_normal.py 171-180). -/
noncomputable def complexNormalSampleE
    (factor : Matrix (Fin 2) (Fin 2) ℝ → Matrix (Fin 2) (Fin 2) ℝ) (χ : ComplexNormalParams) :
    Measure ℂ :=
  (randomMultivariateNormal factor ![χ.1.re, χ.1.im] (complexNormalCov χ)).map
    fun z => (z 0 : ℂ) + I * (z 1 : ℂ)

/-- `ComplexCircularlySymmetricNormalEP._multivariate_normal_cov` (cmvn/circularly_symmetric.py
144-148).  The first and the second half of the `2 * n` indices are the summands of
`Fin d ⊕ Fin d`. -/
noncomputable def cmvCircularCov {d : ℕ} (χ : Matrix (Fin d) (Fin d) ℂ) :
    Matrix (Fin d ⊕ Fin d) (Fin d ⊕ Fin d) ℝ :=
  let gammaR : Matrix (Fin d) (Fin d) ℝ := (0.5 : ℝ) • χ.map re
  let gammaI : Matrix (Fin d) (Fin d) ℝ := (0.5 : ℝ) • χ.map im
  Matrix.fromBlocks gammaR (-gammaI) gammaI gammaR

/-- `ComplexCircularlySymmetricNormalEP.sample` (cmvn/circularly_symmetric.py 122-133). -/
noncomputable def cmvCircularSampleE {d : ℕ}
    (factor : Matrix (Fin d ⊕ Fin d) (Fin d ⊕ Fin d) ℝ → Matrix (Fin d ⊕ Fin d) (Fin d ⊕ Fin d) ℝ)
    (χ : Matrix (Fin d) (Fin d) ℂ) : Measure (Fin d → ℂ) :=
  (randomMultivariateNormal factor (fun _ => 0) (cmvCircularCov χ)).map
    fun z i => (z (Sum.inl i) : ℂ) + I * (z (Sum.inr i) : ℂ)

end Efax
