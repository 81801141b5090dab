import Verif.Model.Checked.Basic
import Verif.Model.Families.Positive
import Verif.Model.Families.Discrete
import Verif.Model.Families.Simplex
import Verif.Model.Families.VonMises
import Verif.Model.Families.ComplexNormal
import Verif.Model.Families.MvNormal

/-!
# The families with checked arithmetic

The formulas of `efax/_src/distributions`, one operation at a time, with `none` for a result that is not
finite.  One distribution (no batch axes), real arithmetic.  Where a family searches for its natural
parameters, `toNat` is what the search returns; the functions that the search evaluates are below.
-/

namespace Efax.Checked

open Complex (normSq)

/-- Bernoulli (bernoulli.py 45-61, 105-111). -/
noncomputable def bernoulli : CheckedFam ℝ ℝ Bool where
  logNormalizer q := some (logaddexp q 0)
  toExp q := some (expit q)
  stat x := some (if x then 1 else 0)
  carrier _ := some 0
  toNat p := logit? p
  ecm _ := some 0

/-- `BernoulliNP.nat_to_surprisal` (bernoulli.py 63-70). -/
noncomputable def bernoulliSurprisal (q : ℝ) : Option (Fin 2 → ℝ) := do
  let p := expit q
  let total : Fin 2 → ℝ := ![p, 1 - p]
  vec? fun i => do return -(← log? (total i))

/-- Poisson (poisson.py 42-58, 92-94); the expectation class has no `expected_carrier_measure`. -/
noncomputable def poisson : CheckedFam ℝ ℝ ℕ where
  logNormalizer q := some (Real.exp q)
  toExp q := some (Real.exp q)
  stat x := some (x : ℝ)
  carrier x := do return -(← gammaln? (x + 1))
  toNat m := log? m
  ecm _ := none

/-- Negative binomial (negative_binomial_common.py 35-46, 74-75, negative_binomial.py 37-45, 77-79); the
expectation class has no `expected_carrier_measure`. -/
noncomputable def negativeBinomial (r : ℕ) : CheckedFam ℝ ℝ ℕ where
  logNormalizer q := do return -r * (← log1p? (-Real.exp q))
  toExp q := div? (r : ℝ) (expm1 (-q))
  stat x := some (x : ℝ)
  carrier x := do
    let a : ℝ := x + r - 1
    let u ← gammaln? (a + 1)
    let v ← gammaln? (x + 1)
    let w ← gammaln? (a - x + 1)
    return u - v - w
  toNat m := do return -(← log1p? (← div? (r : ℝ) m))
  ecm _ := none

/-- Geometric (geometric.py 36-48, 76-82). -/
noncomputable def geometric : CheckedFam ℝ ℝ ℕ := { negativeBinomial 1 with ecm := fun _ => some 0 }

/-- Logarithmic (logarithmic.py 41-62); `x` stands for the observation `x + 1`.  The expectation class
has no `expected_carrier_measure`, and `to_exp` is infinite above the ceiling. -/
noncomputable def logarithmic (toNat : ℝ → ℝ) : CheckedFam ℝ ℝ ℕ where
  logNormalizer q := do log? (-(← log1p? (-Real.exp q)))
  toExp q := do
    let probability := Real.exp q
    if q < logProbabilityFloor then return 1
    else if q > logProbabilityCeiling then none
    else div? probability (expm1 q * (← log1p? (-probability)))
  stat x := some ((x : ℝ) + 1)
  carrier x := do return -(← log? (x + 1))
  toNat χ := some (toNat χ)
  ecm _ := none

/-- Multinomial with `d + 2` categories (multinomial.py 46-68, 123-130).  `jss.logsumexp` of finite
numbers is finite. -/
noncomputable def multinomial (d : ℕ) :
    CheckedFam (Fin (d + 1) → ℝ) (Fin (d + 1) → ℝ) (Fin (d + 1) → ℝ) where
  logNormalizer q := some (maxQ q + logScaledA q)
  toExp q := some fun i => Real.exp (q i - maxQ q - logScaledA q)
  stat x := some x
  carrier _ := some 0
  toNat p := do
    let pk := 1 - ∑ j, p j
    vec? fun i => do log? (← div? (p i) pk)
  ecm _ := some 0

/-- `MultinomialNP.nat_to_surprisal` (multinomial.py 81-91). -/
noncomputable def multinomialSurprisal {d : ℕ} (q : Fin (d + 1) → ℝ) : Option (Fin (d + 2) → ℝ) := do
  let p : Fin (d + 1) → ℝ := fun i => Real.exp (q i - maxQ q - logScaledA q)
  let total : Fin (d + 2) → ℝ := Fin.snoc p (1 - ∑ i, p i)
  vec? fun i => do return -(← log? (total i))

/-- Exponential (exponential.py 41-57, 95-101). -/
noncomputable def exponential : CheckedFam ℝ ℝ ℝ where
  logNormalizer q := do return -(← log? (-q))
  toExp q := div? (-1) q
  stat x := some x
  carrier _ := some 0
  toNat m := div? (-1) m
  ecm _ := some 0

/-- Rayleigh (rayleigh.py 46-63, 99-109). -/
noncomputable def rayleigh : CheckedFam ℝ ℝ ℝ where
  logNormalizer := exponential.logNormalizer
  toExp := exponential.toExp
  stat x := exponential.stat (x ^ 2)
  carrier x := do return (← log? x) + (← log? 2)
  toNat := exponential.toNat
  ecm χ := do
    return 0.5 * (← log? (χ * 0.5)) + (1.5 * (← log? 2) - 0.5 * Real.eulerMascheroniConstant)

/-- Weibull with concentration `k` (weibull.py 44-63, 100-108). -/
noncomputable def weibull (k : ℝ) : CheckedFam ℝ ℝ ℝ where
  logNormalizer q := do return -(← log? (-q)) - (← log? k)
  toExp q := div? (-1) q
  stat x := pow? x k
  carrier x := do return (k - 1) * (← log? x)
  toNat χ := div? (-1) χ
  ecm χ := do
    let c := 1 - (← div? 1 k)
    return c * (← log? χ) - Real.eulerMascheroniConstant * c

/-- Gamma (gamma.py 48-67, 113-115). -/
noncomputable def gamma (toNat : ℝ × ℝ → ℝ × ℝ) : CheckedFam (ℝ × ℝ) (ℝ × ℝ) ℝ where
  logNormalizer q := do
    let shape := q.2 + 1
    return (← gammaln? shape) - shape * (← log? (-q.1))
  toExp q := do
    let shape := q.2 + 1
    return (← div? (-shape) q.1, (← digamma? shape) - (← log? (-q.1)))
  stat x := do return (x, ← log? x)
  carrier _ := some 0
  toNat χ := some (toNat χ)
  ecm _ := some 0

/-- `GammaEP.search_to_natural` (gamma.py 121-125). -/
noncomputable def gammaSearchToNatural (χ : ℝ × ℝ) (s : ℝ) : Option (ℝ × ℝ) := do
  let shape := softplus s
  let rate ← div? shape χ.1
  return (-rate, shape - 1)

/-- `GammaEP.search_gradient` (gamma.py 127-131). -/
noncomputable def gammaSearchGradient (χ : ℝ × ℝ) (s : ℝ) : Option ℝ := do
  let shape := softplus s
  let m := (← log? χ.1) - χ.2
  return m - (← log? shape) + (← digamma? shape)

/-- Chi-square (chi_square.py 45-63, 104-108). -/
noncomputable def chiSquare (toNat : ℝ → ℝ) : CheckedFam ℝ ℝ ℝ where
  logNormalizer q := do
    let kOverTwo := q + 1
    return (← gammaln? kOverTwo) - kOverTwo * (← log? 0.5)
  toExp q := do
    let kOverTwo := q + 1
    return (← digamma? kOverTwo) - (← log? 0.5)
  stat x := log? x
  carrier x := some (-x * 0.5)
  toNat χ := some (toNat χ)
  ecm χ := some (-(toNat χ + 1))

/-- Chi (chi.py 46-62, 99-103). -/
noncomputable def chi (toNat : ℝ → ℝ) : CheckedFam ℝ ℝ ℝ where
  logNormalizer := (chiSquare toNat).logNormalizer
  toExp := (chiSquare toNat).toExp
  stat x := (chiSquare toNat).stat (x ^ 2)
  carrier x := do return (← log? (2 * x)) - x ^ 2 * 0.5
  toNat χ := some (toNat χ)
  ecm χ := do
    let kOverTwo := toNat χ + 1
    return (-1) * kOverTwo + 0.5 * (← digamma? kOverTwo) + 1.5 * (← log? 2)

/-- `DirichletCommonNP.log_normalizer` (dirichlet_common.py 36-40). -/
noncomputable def dirichletLogNormalizer {n : ℕ} (q : Fin n → ℝ) : Option ℝ := do
  let a ← vec? fun i => gammaln? (q i + 1)
  return ∑ i, a i - (← gammaln? (∑ i, q i + n))

/-- `DirichletCommonNP._exp_helper` (dirichlet_common.py 52-54). -/
noncomputable def dirichletExpHelper {n : ℕ} (q : Fin n → ℝ) : Option (Fin n → ℝ) := do
  let a ← vec? fun i => digamma? (q i + 1)
  let b ← digamma? (∑ j, q j + n)
  return fun i => a i - b

/-- Dirichlet (dirichlet.py 29-42, dirichlet_common.py 73-75). -/
noncomputable def dirichlet (d : ℕ) (toNat : (Fin (d + 1) → ℝ) → Fin (d + 1) → ℝ) :
    CheckedFam (Fin (d + 1) → ℝ) (Fin (d + 1) → ℝ) (Fin d → ℝ) where
  logNormalizer := dirichletLogNormalizer
  toExp := dirichletExpHelper
  stat x := do
    let l ← vec? fun i => log? (x i)
    let r ← log? (1 - ∑ i, x i)
    return Fin.snoc (α := fun _ => ℝ) l r
  carrier _ := some 0
  toNat χ := some (toNat χ)
  ecm _ := some 0

/-- Beta (beta.py 35-47, dirichlet_common.py 73-75). -/
noncomputable def beta (toNat : (Fin 2 → ℝ) → Fin 2 → ℝ) : CheckedFam (Fin 2 → ℝ) (Fin 2 → ℝ) ℝ where
  logNormalizer := dirichletLogNormalizer
  toExp := dirichletExpHelper
  stat x := do return ![← log? x, ← log1p? (-x)]
  carrier _ := some 0
  toNat χ := some (toNat χ)
  ecm _ := some 0

/-- Generalized Dirichlet (gen_dirichlet.py 46-77, 128-130); `alpha_beta` (83-90) sums only. -/
noncomputable def genDirichlet (k : ℕ)
    (toNat : (Fin k → ℝ) × (Fin k → ℝ) → (Fin k → ℝ) × (Fin k → ℝ)) :
    CheckedFam ((Fin k → ℝ) × (Fin k → ℝ)) ((Fin k → ℝ) × (Fin k → ℝ)) (Fin k → ℝ) where
  logNormalizer q := do
    let alpha := (genDirichletAlphaBeta q).1
    let beta := (genDirichletAlphaBeta q).2
    let b ← vec? fun i => betaln? (alpha i) (beta i)
    return ∑ i, b i
  toExp q := do
    let alpha := (genDirichletAlphaBeta q).1
    let beta := (genDirichletAlphaBeta q).2
    let digammaSum ← vec? fun i => digamma? (alpha i + beta i)
    let a ← vec? fun i => digamma? (alpha i)
    let b ← vec? fun i => digamma? (beta i)
    let betaBar : Fin k → ℝ := fun i => b i - digammaSum i
    return (fun i => a i - digammaSum i + ∑ j ∈ Finset.Iio i, betaBar j,
      fun i => ∑ j ∈ Finset.Iic i, betaBar j)
  stat x := do
    let l ← vec? fun i => log? (x i)
    let r ← vec? fun i => log1p? (-∑ j ∈ Finset.Iic i, x j)
    return (l, r)
  carrier _ := some 0
  toNat χ := some (toNat χ)
  ecm _ := some 0

/-- Normal (normal/normal.py 45-64, 103-109, 120-121). -/
noncomputable def normal : CheckedFam (ℝ × ℝ) (ℝ × ℝ) ℝ where
  logNormalizer q := do
    return (← div? (-q.1 ^ 2) (4 * q.2)) + 0.5 * (← log? (← div? (-Real.pi) q.2))
  toExp q := do
    let mean ← div? (-q.1) (2 * q.2)
    return (mean, mean ^ 2 - (← div? 0.5 q.2))
  stat x := some (x, x ^ 2)
  carrier _ := some 0
  toNat χ := do
    let variance := χ.2 - χ.1 ^ 2
    return (← div? χ.1 variance, ← div? (-0.5) variance)
  ecm _ := some 0

/-- Unit normal (normal/unit.py 44-62, 102-109). -/
noncomputable def unitNormal : CheckedFam ℝ ℝ ℝ where
  logNormalizer q := do return 0.5 * (q ^ 2 + (← log? (Real.pi * 2)))
  toExp q := some q
  stat x := some x
  carrier x := some (-0.5 * x ^ 2)
  toNat m := some m
  ecm m := some (-0.5 * (m ^ 2 + 1))

/-- Multivariate normal with unit variance (multivariate_normal/unit.py 47-65, 111-118). -/
noncomputable def mvUnit (d : ℕ) : CheckedFam (Fin d → ℝ) (Fin d → ℝ) (Fin d → ℝ) where
  logNormalizer q := do return 0.5 * (∑ i, q i ^ 2 + d * (← log? (Real.pi * 2)))
  toExp q := some q
  stat x := some x
  carrier x := some (-0.5 * ∑ i, x i ^ 2)
  toNat m := some m
  ecm m := some (-0.5 * (∑ i, m i ^ 2 + d))

/-- Multivariate normal with fixed variance `v` (fixed_variance.py 51-71, 116-123). -/
noncomputable def mvFixed (d : ℕ) (v : ℝ) : CheckedFam (Fin d → ℝ) (Fin d → ℝ) (Fin d → ℝ) where
  logNormalizer q := do return 0.5 * ((∑ i, q i ^ 2) * v + d * (← log? (Real.pi * 2 * v)))
  toExp q := some fun i => q i * v
  stat x := some x
  carrier x := div? (-0.5 * ∑ i, x i ^ 2) v
  toNat m := vec? fun i => div? (m i) v
  ecm m := do return -0.5 * ((← div? (∑ i, m i ^ 2) v) + d)

/-- Multivariate normal with diagonal variance (diagonal.py 46-66, 106-112, 122-123). -/
noncomputable def mvDiagonal (d : ℕ) :
    CheckedFam ((Fin d → ℝ) × (Fin d → ℝ)) ((Fin d → ℝ) × (Fin d → ℝ)) (Fin d → ℝ) where
  logNormalizer q := do
    let components ← vec? fun i => do
      return (← div? (-q.1 i ^ 2) (4 * q.2 i)) + 0.5 * (← log? (← div? (-Real.pi) (q.2 i)))
    return ∑ i, components i
  toExp q := do
    let mean ← vec? fun i => div? (-q.1 i) (2 * q.2 i)
    let secondMoment ← vec? fun i => do return mean i ^ 2 - (← div? 0.5 (q.2 i))
    return (mean, secondMoment)
  stat x := some (x, fun i => x i ^ 2)
  carrier _ := some 0
  toNat χ := do
    let variance : Fin d → ℝ := fun i => χ.2 i - χ.1 i ^ 2
    let a ← vec? fun i => div? (χ.1 i) (variance i)
    let b ← vec? fun i => div? (-0.5) (variance i)
    return (a, b)
  ecm _ := some 0

/-- Isotropic multivariate normal (isotropic.py 45-67, 107-116, 131-133). -/
noncomputable def mvIsotropic (d : ℕ) : CheckedFam ((Fin d → ℝ) × ℝ) ((Fin d → ℝ) × ℝ) (Fin d → ℝ) where
  logNormalizer q := do
    return 0.5 * ((← div? (-0.5 * ∑ i, q.1 i ^ 2) q.2) + d * (← log? (← div? Real.pi (-q.2))))
  toExp q := do
    let precision := -2 * q.2
    let mean ← vec? fun i => div? (q.1 i) precision
    let totalVariance ← div? (d : ℝ) precision
    return (mean, ∑ i, mean i ^ 2 + totalVariance)
  stat x := some (x, ∑ i, x i ^ 2)
  carrier _ := some 0
  toNat χ := do
    let variance ← div? (χ.2 - ∑ i, χ.1 i ^ 2) (d : ℝ)
    let negativeHalfPrecision ← div? (-0.5) variance
    let meanTimesPrecision ← vec? fun i => div? (χ.1 i) variance
    return (meanTimesPrecision, negativeHalfPrecision)
  ecm _ := some 0

open Matrix in
/-- Multivariate normal (arbitrary.py 44-68, 98-106, 116-117). -/
noncomputable def mvNormal (d : ℕ) :
    CheckedFam ((Fin d → ℝ) × Matrix (Fin d) (Fin d) ℝ) ((Fin d → ℝ) × Matrix (Fin d) (Fin d) ℝ)
      (Fin d → ℝ) where
  logNormalizer q := do
    let hInv ← inv? q.2
    let a := ∑ i, ∑ j, hInv i j * vecMulVec q.1 q.1 i j
    let ld ← logAbsDet? (-q.2)
    return -0.25 * a - 0.5 * ld + 0.5 * d * (← log? Real.pi)
  toExp q := do
    let hInv ← inv? q.2
    let hInvTimesEta := hInv *ᵥ q.1
    return ((-0.5 : ℝ) • hInvTimesEta,
      (0.25 : ℝ) • vecMulVec hInvTimesEta hInvTimesEta - (0.5 : ℝ) • hInv)
  stat x := some (x, vecMulVec x x)
  carrier _ := some 0
  toNat χ := do
    let precision ← inv? (χ.2 - vecMulVec χ.1 χ.1)
    return (precision *ᵥ χ.1, (-0.5 : ℝ) • precision)
  ecm _ := some 0

/-- `ComplexNormalNP._r_s_mu` (complex_normal/complex_normal.py 81-88); a complex number is divided by a
real one. -/
noncomputable def complexNormalRSMu (q : ComplexNormalParams) : Option (ℂ × ℝ × ℂ) := do
  let r ← div? (-q.2.2) (q.2.1 : ℂ)
  let s ← div? 1 ((normSq r - 1) * q.2.1)
  let k ← div? q.2.2 (q.2.1 : ℂ)
  let lEta ← div? (0.5 * q.1) ((normSq k - 1) * q.2.1 : ℝ)
  let mu := starRingEnd ℂ lEta - starRingEnd ℂ (← div? q.2.2 (q.2.1 : ℂ)) * lEta
  return (r, s, mu)

/-- Complex normal (complex_normal/complex_normal.py 54-79, 135-151). -/
noncomputable def complexNormal : CheckedFam ComplexNormalParams ComplexNormalParams ℂ where
  logNormalizer q := do
    let (_, s, mu) ← complexNormalRSMu q
    return -normSq mu * q.2.1 - (mu ^ 2 * q.2.2).re + 0.5 * (← log? s) - 0.5 * (← log? (-q.2.1))
      + (← log? Real.pi)
  toExp q := do
    let (r, s, mu) ← complexNormalRSMu q
    let u := starRingEnd ℂ (r * s)
    return (mu, s + normSq mu, u + mu ^ 2)
  stat x := some (x, normSq x, x ^ 2)
  carrier _ := some 0
  toNat χ := do
    let variance := χ.2.1 - normSq χ.1
    let pseudoVariance := χ.2.2 - χ.1 ^ 2
    let r ← div? (starRingEnd ℂ pseudoVariance) (variance : ℂ)
    let pC := variance - starRingEnd ℂ (r * pseudoVariance)
    let pInvC ← div? 1 pC
    let precision := -pInvC.re
    let pseudoPrecision := r * pInvC
    let meanTimesPrecision := -2 * (precision * starRingEnd ℂ χ.1 + pseudoPrecision * χ.1)
    return (meanTimesPrecision, precision, pseudoPrecision)
  ecm _ := some 0

/-- Complex normal with unit variance (complex_normal/unit.py 47-64, 99-106). -/
noncomputable def complexUnit : CheckedFam ℂ ℂ ℂ where
  logNormalizer q := do return normSq (q * 0.5) + (← log? Real.pi)
  toExp q := some (starRingEnd ℂ q * 0.5)
  stat x := some x
  carrier x := some (-normSq x)
  toNat m := some (starRingEnd ℂ m * 2)
  ecm m := some (-(normSq m + 1))

/-- Complex multivariate normal with unit variance (cmvn/unit.py 51-68, 108-115). -/
noncomputable def cmvUnit (d : ℕ) : CheckedFam (Fin d → ℂ) (Fin d → ℂ) (Fin d → ℂ) where
  logNormalizer q := do return ∑ i, normSq (q i * 0.5) + d * (← log? Real.pi)
  toExp q := some fun i => starRingEnd ℂ (q i) * 0.5
  stat x := some x
  carrier x := some (-∑ i, normSq (x i))
  toNat m := some fun i => starRingEnd ℂ (m i) * 2
  ecm m := some (-(∑ i, normSq (m i) + d))

open Matrix in
/-- Circularly symmetric complex normal (cmvn/circularly_symmetric.py 53-71, 113-120). -/
noncomputable def cmvCircular (d : ℕ) :
    CheckedFam (Matrix (Fin d) (Fin d) ℂ) (Matrix (Fin d) (Fin d) ℂ) (Fin d → ℂ) where
  logNormalizer q := do return -(← log? (-q).det.re) + d * (← log? Real.pi)
  toExp q := do return (← inv? (-q)).map (starRingEnd ℂ)
  stat x := some (vecMulVec x (star x))
  carrier _ := some 0
  toNat χ := do return -(← inv? χ).map (starRingEnd ℂ)
  ecm _ := some 0

/-- `_a_k` (von_mises.py 147-148). -/
noncomputable def vmfAK (k kappa : ℝ) : Option ℝ := ivRatio? (k * 0.5) kappa

/-- von Mises-Fisher (von_mises.py 42-72, 115-117). -/
noncomputable def vonMisesFisher (d : ℕ)
    (toNat : EuclideanSpace ℝ (Fin d) → EuclideanSpace ℝ (Fin d)) :
    CheckedFam (EuclideanSpace ℝ (Fin d)) (EuclideanSpace ℝ (Fin d))
      (Metric.sphere (0 : EuclideanSpace ℝ (Fin d)) 1) where
  logNormalizer q := do
    let halfK := (d : ℝ) * 0.5
    let kappa := ‖q‖
    return kappa - (halfK - 1) * (← log? kappa) + halfK * (← log? (2 * Real.pi))
      + (← logIve? (halfK - 1) kappa)
  toExp q := do
    let kappa := ‖q‖
    if kappa = 0 then return q
    else return (← div? (← vmfAK d kappa) kappa) • q
  stat x := some x.1
  carrier _ := some 0
  toNat χ := some (toNat χ)
  ecm _ := some 0

/-- `VonMisesFisherEP.search_to_natural` (von_mises.py 128-133). -/
noncomputable def vmfSearchToNatural {d : ℕ} (mean : EuclideanSpace ℝ (Fin d)) (s : ℝ) :
    Option (EuclideanSpace ℝ (Fin d)) := do
  let kappa := softplus s
  let mu := ‖mean‖
  return (← div? kappa mu) • mean

/-- `VonMisesFisherEP.search_gradient` (von_mises.py 135-139). -/
noncomputable def vmfSearchGradient {d : ℕ} (mean : EuclideanSpace ℝ (Fin d)) (s : ℝ) : Option ℝ := do
  let kappa := softplus s
  return (← vmfAK d kappa) - ‖mean‖

/-- `GammaNP.to_var` (gamma.py 75-80). -/
noncomputable def gammaToVar (q : ℝ × ℝ) : Option (ℝ × ℝ) := do
  let shape := q.2 + 1
  let rate := -q.1
  let mean ← div? shape rate
  return (mean, ← div? mean rate)

/-- `GammaVP.to_nat` (gamma.py 166-171). -/
noncomputable def gammaVarToNat (w : ℝ × ℝ) : Option (ℝ × ℝ) := do
  let rate ← div? w.1 w.2
  return (-rate, w.1 * rate - 1)

/-- `NormalVP.to_nat` (normal/normal.py 167-171). -/
noncomputable def normalVarToNat (w : ℝ × ℝ) : Option (ℝ × ℝ) := do
  let precision ← div? 1 w.2
  return (w.1 * precision, -0.5 * precision)

/-- `MultivariateDiagonalNormalVP.to_nat` (diagonal.py 170-174). -/
noncomputable def mvDiagonalVarToNat {d : ℕ} (w : (Fin d → ℝ) × (Fin d → ℝ)) :
    Option ((Fin d → ℝ) × (Fin d → ℝ)) := do
  let precision ← vec? fun i => div? 1 (w.2 i)
  return (fun i => w.1 i * precision i, fun i => -0.5 * precision i)

end Efax.Checked
