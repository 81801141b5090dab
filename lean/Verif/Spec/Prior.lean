import Verif.Spec.Refines

/-!
# Specification: conjugate priors on arrays
-/

namespace Efax.Spec

/-- A method that takes a batch of distributions and an array of counts, one for each distribution
(laid out by `counts`), returns a batch of priors of the same shape, each computed by `f` from the
distribution and the counts at its index. -/
def RefinesPrior {P E V M : Type} (m : List Val → Val → Except Err (List Val)) (exp : Layout P E)
    (counts : List ℕ → (List ℕ → V) → Val) (prior : Layout Unit M) (f : P → E → V → M) : Prop :=
  ∀ rs p χ n, m (exp rs p χ) (counts rs n) =
    .ok (prior rs (fun _ => ()) fun i => f (p i) (χ i) (n i))

/-- One count for each distribution. -/
def countS (rs : List ℕ) (n : List ℕ → ℝ) : Val := .real (scalars rs n)

/-- One count for each coordinate of each distribution. -/
def countV {d : ℕ} (rs : List ℕ) (n : List ℕ → Fin d → ℝ) : Val := .real (vectors rs n)

end Efax.Spec
