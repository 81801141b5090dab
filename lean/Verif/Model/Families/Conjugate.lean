import Verif.Model.Families.Discrete
import Verif.Model.Families.Positive
import Verif.Model.Families.Simplex
import Verif.Model.Families.Normal
import Verif.Model.Families.MvNormal

/-!
# Conjugate priors (`efax/_src/interfaces/conjugate_prior.py`)

One distribution (no batch axes), real arithmetic.
-/

namespace Efax

/-- `BernoulliEP.conjugate_prior_distribution` (bernoulli.py 119-122). -/
def bernoulliPrior (p n : ℝ) : Fin 2 → ℝ := ![n * p, n * (1 - p)]

/-- `PoissonEP.conjugate_prior_distribution` (poisson.py 107-109). -/
def poissonPrior (m n : ℝ) : ℝ × ℝ := (-n, n * m)

/-- `ExponentialEP.conjugate_prior_distribution` (exponential.py 111-113). -/
noncomputable def exponentialPrior (m n : ℝ) : ℝ × ℝ := (-n / m, n)

/-- `MultinomialEP.conjugate_prior_distribution` (multinomial.py 132-136). -/
def multinomialPrior {d : ℕ} (p : Fin (d + 1) → ℝ) (n : ℝ) : Fin (d + 2) → ℝ :=
  let finalP := 1 - ∑ i, p i
  fun i => n * Fin.snoc (α := fun _ => ℝ) p finalP i

/-- `UnitNormalEP.conjugate_prior_distribution` (normal/unit.py 115-118). -/
noncomputable def unitNormalPrior (m n : ℝ) : ℝ × ℝ := (n * m, -0.5 * n)

/-- `MultivariateUnitNormalEP.conjugate_prior_distribution` (multivariate_normal/unit.py 124-127). -/
noncomputable def mvUnitPrior {d : ℕ} (m : Fin d → ℝ) (n : ℝ) : (Fin d → ℝ) × ℝ :=
  (fun i => n * m i, -0.5 * n * 1)

/-- `MultivariateUnitNormalEP.generalized_conjugate_prior_distribution` (multivariate_normal/unit.py
129-133). -/
noncomputable def mvUnitGeneralPrior {d : ℕ} (m n : Fin d → ℝ) : (Fin d → ℝ) × (Fin d → ℝ) :=
  (fun i => n i * m i, fun i => -0.5 * n i)

/-- `MultivariateFixedVarianceNormalEP.conjugate_prior_distribution` (fixed_variance.py 135-140). -/
noncomputable def mvFixedPrior {d : ℕ} (v : ℝ) (m : Fin d → ℝ) (n : ℝ) : (Fin d → ℝ) × ℝ :=
  let nOverVariance := n / v
  (fun i => nOverVariance * m i, -0.5 * nOverVariance)

/-- `MultivariateFixedVarianceNormalEP.generalized_conjugate_prior_distribution` (fixed_variance.py
142-147). -/
noncomputable def mvFixedGeneralPrior {d : ℕ} (v : ℝ) (m n : Fin d → ℝ) :
    (Fin d → ℝ) × (Fin d → ℝ) :=
  let nOverVariance : Fin d → ℝ := fun i => n i / v
  (fun i => nOverVariance i * m i, fun i => -0.5 * nOverVariance i)

/-- `conjugate_prior_observation`: the mean or the probability itself (bernoulli.py 124-126,
poisson.py 111-113, exponential.py 115-117, multinomial.py 148-150, normal/unit.py 120-122,
multivariate_normal/unit.py 135-137, fixed_variance.py 149-151). -/
def priorObservation {E : Type} (p : E) : E := p

/-- An elementwise operation on two vectors with NumPy broadcasting: equal lengths, or one of them has
length one; otherwise a `TypeError` (here `none`). -/
def broadcast (f : ℝ → ℝ → ℝ) (a b : List ℝ) : Option (List ℝ) :=
  if a.length = b.length then some (List.zipWith f a b)
  else if a.length = 1 then some (b.map (f (a.headD 0)))
  else if b.length = 1 then some (a.map fun x => f x (b.headD 0))
  else none

/-- `jnp.roll(x, -1)` followed by setting the last entry to zero. -/
def rollZero : List ℝ → List ℝ
  | [] => []
  | _ :: xs => xs ++ [0]

/-- `jnp.diff(x, append=a)`. -/
def diffAppend (x : List ℝ) (a : ℝ) : List ℝ :=
  List.zipWith (fun y z => z - y) x (x.tail ++ [a])

/-- `MultinomialEP.generalized_conjugate_prior_distribution(n)` (multinomial.py 138-146), with its
vectors as lists: `alpha_minus_one` and `gamma` of the generalized Dirichlet distribution. -/
noncomputable def multinomialGeneralPrior (p n : List ℝ) : Option (List ℝ × List ℝ) := do
  let finalP := 1 - p.sum
  let allP := p ++ [finalP]
  let alpha ← broadcast (· * ·) n allP
  let beta ← broadcast (· * ·) n (allP.map (1 - ·))
  let alphaRoll := rollZero alpha
  let gamma ← broadcast (· - ·) ((diffAppend beta 1).map (- ·)) alphaRoll
  some (alpha.map (· - 1), gamma)

end Efax
