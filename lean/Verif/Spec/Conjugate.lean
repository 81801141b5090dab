import Verif.Spec.ExpFam

/-!
# Specification: conjugate priors
-/

namespace Efax.Spec

/-- The prior `cp p n` on `θ ∈ thetas` that stands for `n` pseudo-observations with mean statistics
`p`; the observation `θ` of the prior stands for the natural parameters `nat θ` of the family `F`.

* it is a valid distribution for every positive number of pseudo-observations;
* its logarithm is `n` times the expected logarithm of the likelihood, up to a constant;
* `obs p` is its mode. -/
structure ConjugateCorrect {N E X N' E' Θ : Type} (F : ExpFam N E X) (nat : Θ → N) (mdom : Set E)
    (prior : ExpFam N' E' Θ) (priorDom : Set N') (thetas : Set Θ) (cp : E → ℝ → N') (obs : E → Θ) :
    Prop where
  valid : ∀ p ∈ mdom, ∀ n > 0, cp p n ∈ priorDom
  conj : ∀ p ∈ mdom, ∀ n > 0, ∃ c, ∀ θ ∈ thetas,
    prior.logPdf (cp p n) θ = n * (F.dot (nat θ) p - F.logNormalizer (nat θ)) + c
  mode : ∀ p ∈ mdom, ∀ n > 0, obs p ∈ thetas ∧
    ∀ θ ∈ thetas, prior.logPdf (cp p n) θ ≤ prior.logPdf (cp p n) (obs p)

/-- The prior with the mean statistics of the data, and as many pseudo-observations as there are data,
is proportional to the likelihood of the data. -/
def LikelihoodCorrect {N E X N' E' Θ : Type} (F : ExpFam N E X) (nat : Θ → N) (mdom : Set E)
    (prior : ExpFam N' E' Θ) (thetas : Set Θ) (cp : E → ℝ → N') : Prop :=
  ∀ data : List X, data ≠ [] → ∀ p ∈ mdom,
    (∀ q, data.length * F.dot q p = (data.map fun x => F.dot q (F.stat x)).sum) →
    ∃ c > 0, ∀ θ ∈ thetas,
      (data.map (F.pdf (nat θ))).prod = c * prior.pdf (cp p data.length) θ

end Efax.Spec
