import Verif.Model.Sampling.Random
import Verif.Model.Methods.Table

/-!
# The method `sample` on arrays

`sample(key, shape)` of every subclass of `Samplable`.  Shapes are stored last axis first, so
`shape += self.shape` appends at the other end.
-/

namespace Efax

/-- The method `sample(key, shape=None)`, as a function of the parameters. -/
abbrev Sampler (K : Type) := List Val → K → Option (List ℕ) → Except Err Val

namespace Sampling

open Calc Val Methods

variable {K : Type}

/-- `if shape is not None: shape += s`. -/
def extend (s : List ℕ) (shape : Option (List ℕ)) : Option (List ℕ) := shape.map (s ++ ·)

/-- `if shape is not None: shape += s`, `else: shape = s`. -/
def extendOr (s : List ℕ) : Option (List ℕ) → List ℕ
  | some shape => s ++ shape
  | none => s

/-- The result of `self.to_exp().sample(key, shape)`, and similarly for the other conversions. -/
def via (convert : List Val → Except Err (List Val)) (sample : Sampler K) : Sampler K :=
  fun v key shape => do
    let w ← convert v
    sample w key shape

/-- A Boolean array as a result. -/
def ofBool (x : Calc Bool) : Except Err Val := Val.bool <$> x.run

/-- An integer array as a result. -/
def ofNat (x : Calc ℕ) : Except Err Val := Val.int <$> (x.map fun n : ℕ => (n : ℤ)).run

variable (rng : Random K)

/-- `BernoulliEP.sample` (bernoulli.py 113-117). -/
noncomputable def bernoulliEP : Sampler K
  | [p], key, shape => ofBool (draw (rng.bernoulli key) p.toR (extend p.rshape shape))
  | _, _, _ => .error .typeError

/-- `BernoulliNP.sample` (bernoulli.py 72-74). -/
noncomputable def bernoulliNP : Sampler K := via Methods.bernoulliNP.toExp (bernoulliEP rng)

/-- `BetaNP.sample` (beta.py 49-54). -/
noncomputable def betaNP : Sampler K
  | [a], key, shape =>
    let alpha := 1 + a.toR
    ofR (draw2 (rng.beta key) (at_ 0 alpha) (at_ 1 alpha) (extend (a.rshape.drop 1) shape))
  | _, _, _ => .error .typeError

/-- `ChiSquareNP.sample` (chi_square.py 65-70). -/
noncomputable def chiSquareNP : Sampler K
  | [a], key, shape =>
    let degrees_of_freedom := (a.toR + 1) * 2
    ofR (draw (rng.chisquare key) degrees_of_freedom (extend a.rshape shape))
  | _, _, _ => .error .typeError

/-- `ComplexCircularlySymmetricNormalEP._multivariate_normal_cov` (cmvn/circularly_symmetric.py
144-148). -/
noncomputable def ccsnCov (v : Val) : Calc ℝ :=
  let gamma_r := 0.5 * re v.toCalcC
  let gamma_i := 0.5 * im v.toCalcC
  block gamma_r (-gamma_i) gamma_i gamma_r

/-- `ComplexCircularlySymmetricNormalEP.sample` (cmvn/circularly_symmetric.py 122-133), with
`dimensions` (135-137) and `_multivariate_normal_mean` (139-142). -/
noncomputable def ccsnEP : Sampler K
  | [v], key, shape =>
    match v.rshape with
    | n :: _ =>
      let self_shape := v.rshape.drop 2
      let mean := ok (Arr.ofFn ((n * 2) :: self_shape) fun _ => (0 : ℝ))
      let xy_rvs := drawMultivariateNormal rng key mean (ccsnCov v) (extendOr self_shape shape)
      ofC (toComplex (take n xy_rvs) + (Complex.I : Calc ℂ) * toComplex (drop n xy_rvs))
    | [] => .error .indexError
  | _, _, _ => .error .typeError

/-- `ComplexCircularlySymmetricNormalNP.sample` (cmvn/circularly_symmetric.py 73-75). -/
noncomputable def ccsnNP : Sampler K := via Methods.ccsnNP.toExp (ccsnEP rng)

/-- `ComplexMultivariateUnitNormalEP.sample` (cmvn/unit.py 117-125). -/
noncomputable def cmvUnitNormalEP : Sampler K
  | [m], key, shape =>
    let shape := extendOr m.rshape shape
    let a := drawFree (rng.normal key) shape
    let b := drawFree (rng.normal key) shape
    ofC (toComplex a + (Complex.I : Calc ℂ) * toComplex b + m.toCalcC)
  | _, _, _ => .error .typeError

/-- `ComplexMultivariateUnitNormalNP.sample` (cmvn/unit.py 70-72). -/
noncomputable def cmvUnitNormalNP : Sampler K :=
  via Methods.cmvUnitNormalNP.toExp (cmvUnitNormalEP rng)

/-- `ComplexNormalEP._multivariate_normal_cov` (complex_normal/complex_normal.py 161-169). -/
noncomputable def complexNormalCov (a b c : Val) : Calc ℝ :=
  let variance := b.toR - absSquare a.toCalcC
  let pseudo_variance := c.toCalcC - square a.toCalcC
  let xx := variance + re pseudo_variance
  let xy := im pseudo_variance
  let yy := variance - re pseudo_variance
  let xx_xy := stack2 xx xy
  let yx_yy := stack2 xy yy
  0.5 * stackRows xx_xy yx_yy

/-- `ComplexNormalEP.sample` (complex_normal/complex_normal.py 171-180). -/
noncomputable def complexNormalEP : Sampler K
  | [a, b, c], key, shape =>
    let mn_mean := stack2 (re a.toCalcC) (im a.toCalcC)
    let mn_cov := complexNormalCov a b c
    let mn_sample := drawMultivariateNormal rng key mn_mean mn_cov (extendOr a.rshape shape)
    ofC (toComplex (at_ 0 mn_sample) + (Complex.I : Calc ℂ) * toComplex (at_ 1 mn_sample))
  | _, _, _ => .error .typeError

/-- `ComplexNormalNP.sample` (complex_normal/complex_normal.py 98-100). -/
noncomputable def complexNormalNP : Sampler K :=
  via Methods.complexNormalNP.toExp (complexNormalEP rng)

/-- `ComplexUnitNormalEP.sample` (complex_normal/unit.py 108-116). -/
noncomputable def complexUnitNormalEP : Sampler K
  | [m], key, shape =>
    let shape := extendOr m.rshape shape
    let a := drawFree (rng.normal key) shape
    let b := drawFree (rng.normal key) shape
    ofC (toComplex a + (Complex.I : Calc ℂ) * toComplex b + m.toCalcC)
  | _, _, _ => .error .typeError

/-- `ComplexUnitNormalNP.sample` (complex_normal/unit.py 66-68). -/
noncomputable def complexUnitNormalNP : Sampler K :=
  via Methods.complexUnitNormalNP.toExp (complexUnitNormalEP rng)

/-- `DirichletCommonNP.sample` (dirichlet_common.py 42-46), inherited by `DirichletNP`. -/
noncomputable def dirichletNP : Sampler K
  | [a], key, shape =>
    ofR (init (drawDirichlet rng key (1 + a.toR) (extend (a.rshape.drop 1) shape)))
  | _, _, _ => .error .typeError

/-- `ExponentialNP.sample` (exponential.py 59-65). -/
noncomputable def exponentialNP : Sampler K
  | [a], key, shape => ofR (-drawFree (rng.exponential key) (extendOr a.rshape shape) / a.toR)
  | _, _, _ => .error .typeError

/-- `ExponentialEP.sample` (exponential.py 103-109). -/
noncomputable def exponentialEP : Sampler K
  | [m], key, shape => ofR (drawFree (rng.exponential key) (extendOr m.rshape shape) * m.toR)
  | _, _, _ => .error .typeError

/-- `GammaNP.sample` (gamma.py 69-73). -/
noncomputable def gammaNP : Sampler K
  | [a, b], key, shape => ofR (-draw (rng.gamma key) (b.toR + 1) (extend a.rshape shape) / a.toR)
  | _, _, _ => .error .typeError

/-- `GammaVP.sample` (gamma.py 176-178). -/
noncomputable def gammaVP : Sampler K := via Methods.gammaVarToNat (gammaNP rng)

/-- `GeometricEP.sample` (geometric.py 84-89). -/
noncomputable def geometricEP : Sampler K
  | [m], key, shape =>
    let p := 1 / m.toR
    ofNat (draw (rng.geometric key) p (extend m.rshape shape))
  | _, _, _ => .error .typeError

/-- `GeometricNP.sample` (geometric.py 50-52). -/
noncomputable def geometricNP : Sampler K := via Methods.geometricNP.toExp (geometricEP rng)

/-- `MultinomialNP.sample` (multinomial.py 70-75). -/
noncomputable def multinomialNP : Sampler K
  | [a], key, shape =>
    match a.rshape with
    | n :: _ => ofR (oneHot (drawCategorical rng key a.toR (extend (a.rshape.drop 1) shape)) n)
    | [] => .error .indexError
  | _, _, _ => .error .typeError

/-- `MultivariateNormalVP.sample` (multivariate_normal/arbitrary.py 144-150). -/
noncomputable def mvNormalVP : Sampler K
  | [m, v], key, shape =>
    ofR (drawMultivariateNormal rng key m.toR v.toR (extendOr (m.rshape.drop 1) shape))
  | _, _, _ => .error .typeError

/-- `MultivariateNormalEP.sample` (multivariate_normal/arbitrary.py 108-110). -/
noncomputable def mvNormalEP : Sampler K := via mvToVar (mvNormalVP rng)

/-- `MultivariateDiagonalNormalVP.sample` (multivariate_normal/diagonal.py 150-157). -/
noncomputable def diagonalNormalVP : Sampler K
  | [m, v], key, shape =>
    let deviation := sqrt v.toR
    ofR (drawFree (rng.normal key) (extendOr m.rshape shape) * deviation + m.toR)
  | _, _, _ => .error .typeError

/-- `MultivariateDiagonalNormalEP.sample` (multivariate_normal/diagonal.py 114-116). -/
noncomputable def diagonalNormalEP : Sampler K := via diagonalToVar (diagonalNormalVP rng)

/-- `MultivariateDiagonalNormalNP.sample` (multivariate_normal/diagonal.py 68-70). -/
noncomputable def diagonalNormalNP : Sampler K :=
  via Methods.diagonalNormalNP.toExp (diagonalNormalEP rng)

/-- `MultivariateFixedVarianceNormalEP.sample` (multivariate_normal/fixed_variance.py 125-133). -/
noncomputable def fixedVarianceNormalEP : Sampler K
  | [m, v], key, shape =>
    let variance := newaxis v.toR
    let deviation := sqrt variance
    ofR (drawFree (rng.normal key) (extendOr m.rshape shape) * deviation + m.toR)
  | _, _, _ => .error .typeError

/-- `MultivariateFixedVarianceNormalNP.sample` (multivariate_normal/fixed_variance.py 73-75). -/
noncomputable def fixedVarianceNormalNP : Sampler K :=
  via Methods.fixedVarianceNormalNP.toExp (fixedVarianceNormalEP rng)

/-- `IsotropicNormalEP.sample` (multivariate_normal/isotropic.py 118-125). -/
noncomputable def isotropicNormalEP : Sampler K
  | [m, s], key, shape =>
    let deviation := sqrt (isotropicVariance m s)
    ofR (drawFree (rng.normal key) (extendOr m.rshape shape) * newaxis deviation + m.toR)
  | _, _, _ => .error .typeError

/-- `IsotropicNormalNP.sample` (multivariate_normal/isotropic.py 73-75). -/
noncomputable def isotropicNormalNP : Sampler K :=
  via Methods.isotropicNormalNP.toExp (isotropicNormalEP rng)

/-- `MultivariateUnitNormalNP.sample` (multivariate_normal/unit.py 67-73). -/
noncomputable def mvUnitNormalNP : Sampler K
  | [m], key, shape => ofR (drawFree (rng.normal key) (extendOr m.rshape shape) + m.toR)
  | _, _, _ => .error .typeError

/-- `PoissonEP.sample` (poisson.py 99-105). -/
noncomputable def poissonEP : Sampler K
  | [m], key, shape => ofNat (draw (rng.poisson key) m.toR (some (extendOr m.rshape shape)))
  | _, _, _ => .error .typeError

/-- `PoissonNP.sample` (poisson.py 60-62). -/
noncomputable def poissonNP : Sampler K := via Methods.poissonNP.toExp (poissonEP rng)

/-- `NegativeBinomialEP.sample` (negative_binomial.py 85-94). -/
noncomputable def negativeBinomialEP : Sampler K
  | [m, r], key, shape => do
    let gamma_key := rng.split key 2 0
    let poisson_key := rng.split key 2 1
    let negative_rate ← ofR (-r.toR / m.toR)
    let shape_minus_one ← ofR (r.toR - 1)
    let lambda_ ← gammaNP rng [negative_rate, shape_minus_one] gamma_key shape
    poissonEP rng [lambda_] poisson_key none
  | _, _, _ => .error .typeError

/-- `NegativeBinomialNP.sample` (negative_binomial.py 47-49). -/
noncomputable def negativeBinomialNP : Sampler K :=
  via Methods.negativeBinomialNP.toExp (negativeBinomialEP rng)

/-- `NormalVP.sample` (normal/normal.py 148-155). -/
noncomputable def normalVP : Sampler K
  | [m, v], key, shape =>
    let deviation := sqrt v.toR
    ofR (drawFree (rng.normal key) (extendOr m.rshape shape) * deviation + m.toR)
  | _, _, _ => .error .typeError

/-- `NormalEP.sample` (normal/normal.py 111-118). -/
noncomputable def normalEP : Sampler K
  | [m, s], key, shape =>
    let deviation := sqrt (normalVariance m s)
    ofR (drawFree (rng.normal key) (extendOr m.rshape shape) * deviation + m.toR)
  | _, _, _ => .error .typeError

/-- `NormalNP.sample` (normal/normal.py 69-71), with `to_var` (66-67). -/
noncomputable def normalNP : Sampler K :=
  via Methods.normalNP.toExp (via normalToVar (normalVP rng))

/-- `UnitNormalNP.sample` (normal/unit.py 64-70). -/
noncomputable def unitNormalNP : Sampler K
  | [m], key, shape => ofR (drawFree (rng.normal key) (extendOr m.rshape shape) + m.toR)
  | _, _, _ => .error .typeError

/-- `RayleighNP.sample` (rayleigh.py 65-70). -/
noncomputable def rayleighNP : Sampler K
  | [a], key, shape =>
    let sigma := sqrt (-0.5 / a.toR)
    ofR (draw (rng.rayleigh key) sigma (extend a.rshape shape))
  | _, _, _ => .error .typeError

/-- `RayleighEP.sample` (rayleigh.py 111-116). -/
noncomputable def rayleighEP : Sampler K
  | [c], key, shape =>
    let sigma := sqrt (0.5 * c.toR)
    ofR (draw (rng.rayleigh key) sigma (extend c.rshape shape))
  | _, _, _ => .error .typeError

/-- `WeibullEP.sample` (weibull.py 110-117). -/
noncomputable def weibullEP : Sampler K
  | [k, c], key, shape =>
    let lambda_ := bin (fun a b : ℝ => a ^ b) c.toR (1 / k.toR)
    ofR (draw2 (rng.weibull key) lambda_ k.toR (some (extendOr c.rshape shape)))
  | _, _, _ => .error .typeError

/-- `WeibullNP.sample` (weibull.py 65-67). -/
noncomputable def weibullNP : Sampler K := via Methods.weibullNP.toExp (weibullEP rng)

end Sampling

open Sampling in
/-- The method `sample` of every class, for a given conversion by search (`ExpToNat.to_nat`).  The
classes that convert with `to_nat` first: `BetaEP` and `DirichletEP` (dirichlet_common.py 81-83),
`ChiSquareEP` (chi_square.py 110-112), `GammaEP` (gamma.py 117-119), `MultinomialEP` (multinomial.py
156-158), `MultivariateUnitNormalEP` (multivariate_normal/unit.py 120-122), `UnitNormalEP`
(normal/unit.py 111-113).  The classes that are no subclasses of `Samplable` have no such method
(`AttributeError`, here `TypeError`). -/
noncomputable def Cls.sample (search : Cls → List Val → Except Err (List Val)) {K : Type}
    (rng : Random K) : Cls → Sampler K
  | bernoulliNP => Sampling.bernoulliNP rng
  | bernoulliEP => Sampling.bernoulliEP rng
  | betaNP => Sampling.betaNP rng
  | betaEP => via (Methods.dirichletEP.toNat (search betaEP)) (Sampling.betaNP rng)
  | chiSquareNP => Sampling.chiSquareNP rng
  | chiSquareEP => via (Methods.chiSquareEP.toNat (search chiSquareEP)) (Sampling.chiSquareNP rng)
  | ccsnNP => Sampling.ccsnNP rng
  | ccsnEP => Sampling.ccsnEP rng
  | cmvUnitNormalNP => Sampling.cmvUnitNormalNP rng
  | cmvUnitNormalEP => Sampling.cmvUnitNormalEP rng
  | complexNormalNP => Sampling.complexNormalNP rng
  | complexNormalEP => Sampling.complexNormalEP rng
  | complexUnitNormalNP => Sampling.complexUnitNormalNP rng
  | complexUnitNormalEP => Sampling.complexUnitNormalEP rng
  | dirichletNP => Sampling.dirichletNP rng
  | dirichletEP => via (Methods.dirichletEP.toNat (search dirichletEP)) (Sampling.dirichletNP rng)
  | exponentialNP => Sampling.exponentialNP rng
  | exponentialEP => Sampling.exponentialEP rng
  | gammaNP => Sampling.gammaNP rng
  | gammaEP => via (Methods.gammaEP.toNat (search gammaEP)) (Sampling.gammaNP rng)
  | gammaVP => Sampling.gammaVP rng
  | geometricNP => Sampling.geometricNP rng
  | geometricEP => Sampling.geometricEP rng
  | multinomialNP => Sampling.multinomialNP rng
  | multinomialEP =>
    via (Methods.multinomialEP.toNat (search multinomialEP)) (Sampling.multinomialNP rng)
  | mvNormalEP => Sampling.mvNormalEP rng
  | mvNormalVP => Sampling.mvNormalVP rng
  | diagonalNormalNP => Sampling.diagonalNormalNP rng
  | diagonalNormalEP => Sampling.diagonalNormalEP rng
  | diagonalNormalVP => Sampling.diagonalNormalVP rng
  | fixedVarianceNormalNP => Sampling.fixedVarianceNormalNP rng
  | fixedVarianceNormalEP => Sampling.fixedVarianceNormalEP rng
  | isotropicNormalNP => Sampling.isotropicNormalNP rng
  | isotropicNormalEP => Sampling.isotropicNormalEP rng
  | mvUnitNormalNP => Sampling.mvUnitNormalNP rng
  | mvUnitNormalEP =>
    via (Methods.mvUnitNormalEP.toNat (search mvUnitNormalEP)) (Sampling.mvUnitNormalNP rng)
  | negativeBinomialNP => Sampling.negativeBinomialNP rng
  | negativeBinomialEP => Sampling.negativeBinomialEP rng
  | normalNP => Sampling.normalNP rng
  | normalEP => Sampling.normalEP rng
  | normalVP => Sampling.normalVP rng
  | unitNormalNP => Sampling.unitNormalNP rng
  | unitNormalEP =>
    via (Methods.unitNormalEP.toNat (search unitNormalEP)) (Sampling.unitNormalNP rng)
  | poissonNP => Sampling.poissonNP rng
  | poissonEP => Sampling.poissonEP rng
  | rayleighNP => Sampling.rayleighNP rng
  | rayleighEP => Sampling.rayleighEP rng
  | weibullNP => Sampling.weibullNP rng
  | weibullEP => Sampling.weibullEP rng
  | chiNP | chiEP | genDirichletNP | genDirichletEP | logarithmicNP | logarithmicEP | mvNormalNP
  | vonMisesFisherNP | vonMisesFisherEP | jointN | jointE => fun _ _ _ => .error .typeError

/-- `x.sample(key, shape)` of a simple distribution. -/
noncomputable def Dist.sample (search : Cls → List Val → Except Err (List Val)) {K : Type}
    (rng : Random K) (shape : Option (List ℕ)) (x : Dist Cls) (key : K) : Except Err Val :=
  Cls.sample search rng x.cls x.vals key shape

/-- `JointDistribution.general_sample(key, shape)` (transform/joint.py 35-53) with the classes of
efax. -/
noncomputable def Subs.sample [MachEps] (search : Cls → List Val → Except Err (List Val)) {K : Type}
    (rng : Random K) (shape : Option (List ℕ)) (subs : Subs Cls) (key : K) :
    Except Err (Forest Val) :=
  generalSample Cls.isSamplable (fun k n => List.ofFn (rng.split k n))
    (Dist.sample search rng shape) subs key

end Efax
