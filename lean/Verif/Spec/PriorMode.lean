import Verif.Model.Tests.Bodies4

/-!
# Specification: stationary points of conjugate priors
-/

namespace Efax.Spec

open Tests ClassTable

variable [MachEps]

/-- The method returns one prior for each distribution of the batch, and the prior observation is a stationary point
of its density. -/
def PriorStationary (L : Library Cls) (table : Cls → Option (Methods.PriorMethod × Cls)) (p : Dist Cls) (n : Val)
    (rs : List ℕ) : Prop :=
  ∃ q x, callPrior table p n = .ok q ∧ q.shape L = .ok rs ∧ Methods.priorObservation p.vals = .ok x ∧
    Stationary L q x rs

end Efax.Spec
