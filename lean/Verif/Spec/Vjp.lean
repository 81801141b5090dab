import Verif.Spec.ExpFam
import Verif.Spec.Refines
import Verif.Model.Vjp
import Verif.Model.Classes

/-!
# Specification: the Fisher information applied to a vector
-/

namespace Efax.Spec

open MeasureTheory

variable [MachEps]

/-- `apply_fisher_information(vector)` returns the expectation parameters and the Fisher information
applied to the vector.

For every entry `i` of the batch, the result `u i` is the vector whose pairing with a direction `w` is
the covariance of the statistics in the directions `w` and `v i`: this is the product of the covariance matrix of the
statistics with the vector `v i`.  (`p'` are the fixed parameters of the result; `p₁` those of the
vector.) -/
def FisherApplied {P N X : Type} [AddCommGroup N] [Module ℝ N] [MeasurableSpace X] (L : Library Cls)
    (nat exp : List ℕ → (List ℕ → P) → (List ℕ → N) → Dist Cls) (F : P → ExpFam N N X)
    (μ : Measure X) (dom : P → Set N) (dirs : Submodule ℝ N) : Prop :=
  ∀ rs p q p₁ v, (∀ i, inB rs i = true → q i ∈ dom (p i) ∧ v i ∈ dirs) → ∃ p' u,
    (nat rs p q).applyFisher L (exp rs p₁ v) =
      .ok (exp rs p fun i => (F (p i)).toExp (q i), nat rs p' u) ∧
    ∀ i, inB rs i = true → ∀ w ∈ dirs, HasCov μ ((F (p i)).pdf (q i))
      (fun x => (F (p i)).dot w ((F (p i)).stat x)) (fun x => (F (p i)).dot (v i) ((F (p i)).stat x))
      ((F (p i)).dot w (u i))

/-- `to_exp()` does not raise when an entry of a parameter changes by a small amount. -/
def Steady (L : Library Cls) (d : Dist Cls) : Prop :=
  ∀ path k i z, ∀ᶠ t : ℝ in nhds 0, ∃ e, (d.nudge k i (t * z) path).toExp L.toExp = .ok e

/-- The parts of a joint distribution, the vectors for the parts, and the results for every part. -/
inductive PartsApplied (L : Library Cls) : Subs Cls → Subs Cls → Subs Cls → Subs Cls → Prop
  | nil : PartsApplied L .nil .nil .nil .nil
  | cons {name d v e u parts vectors exps results} : d.applyFisher L v = .ok (e, u) → Steady L d →
      PartsApplied L parts vectors exps results →
      PartsApplied L (.cons name d parts) (.cons name v vectors) (.cons name e exps) (.cons name u results)

end Efax.Spec
