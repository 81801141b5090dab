import Verif.Spec.Batch
import Verif.Model.Methods.Basic
import Mathlib.Analysis.InnerProductSpace.PiL2

/-!
# Specification: methods on arrays that act entry by entry
-/

namespace Efax.Spec

open Calc

/-- How a class stores a batch of distributions: the shape of the batch (last axis first), the fixed
and the variable parameters of every entry, and the resulting list of parameter arrays. -/
abbrev Layout (P N : Type) := List ℕ → (List ℕ → P) → (List ℕ → N) → List Val

/-- The methods of a natural class, applied to a batch of distributions, compute for every entry what
the family `F` (for the fixed parameters of this entry) computes for one distribution.

* `nat` and `exp` say how the natural and the expectation class store a batch, `fixed` which keyword
  arguments hold the fixed parameters;
* `obs rs x v`: the array `v` holds the observations `x`, one per entry.  Statistics are compared as
  complex numbers, because the statistics of a Boolean or integer observation may be returned as a
  Boolean or integer array;
* `dom`: the parameters for which `to_exp()` returns finite numbers. -/
structure Refines {P N E X : Type} (m : NatMethods) (nat : Layout P N) (exp : Layout P E)
    (fixed : List ℕ → (List ℕ → P) → Dict String Val) (obs : List ℕ → (List ℕ → X) → Val → Prop)
    (F : P → ExpFam N E X) (dom : P → N → Prop := fun _ _ => True) : Prop where
  shape : ∀ rs p q, m.shape (nat rs p q) = .ok rs
  logNormalizer : ∀ rs p q, m.logNormalizer (nat rs p q) =
    ok (scalars rs fun i => (F (p i)).logNormalizer (q i))
  toExp : ∀ rs p q, (∀ i, inB rs i = true → dom (p i) (q i)) → m.toExp (nat rs p q) = .ok (exp rs p fun i => (F (p i)).toExp (q i))
  carrier : ∀ rs p q x v, obs rs x v → m.carrier (nat rs p q) v =
    ok (scalars rs fun i => (F (p i)).carrier (x i))
  stat : ∀ rs p x v, obs rs x v → ∃ w, m.stat v (fixed rs p) = .ok w ∧
    w.map Val.toC = (exp rs p fun i => (F (p i)).stat (x i)).map Val.toC

/-- The closed-form methods of an expectation class, applied to a batch, compute for every entry the
functions `toNat` and `ecm` for one distribution. -/
structure RefinesE {P N E : Type} (m : ExpMethods) (nat : Layout P N) (exp : Layout P E)
    (toNat : P → E → N) (ecm : P → E → ℝ) : Prop where
  shape : ∀ rs p χ, m.shape (exp rs p χ) = .ok rs
  toNat : ∀ search rs p χ, m.toNat search (exp rs p χ) = .ok (nat rs p fun i => toNat (p i) (χ i))
  ecm : ∀ search rs p χ, m.ecm search (exp rs p χ) = ok (scalars rs fun i => ecm (p i) (χ i))

/-- The function `search` (the conversion by `ExpToNat`) computes `solve` for every entry of a batch all
of whose entries satisfy `dom`. -/
def Solves {P N E : Type} (search : List Val → Except Err (List Val)) (nat : Layout P N)
    (exp : Layout P E) (solve : P → E → N) (dom : P → E → Prop := fun _ _ => True) : Prop :=
  ∀ rs p χ, (∀ i, inB rs i = true → dom (p i) (χ i)) →
    search (exp rs p χ) = .ok (nat rs p fun i => solve (p i) (χ i))

/-- The methods of an expectation class that converts by search, applied to a batch, compute for every
entry what they compute for one distribution.  `uses`: the expected carrier measure uses the result of
the search. -/
structure RefinesS {P N E : Type} (m : ExpMethods) (nat : Layout P N) (exp : Layout P E)
    (ecm : (P → E → N) → P → E → ℝ) (uses : Prop := False) : Prop where
  shape : ∀ rs p χ, m.shape (exp rs p χ) = .ok rs
  toNat : ∀ search solve dom, Solves search nat exp solve dom →
    Solves (m.toNat search) nat exp solve dom
  ecm : ∀ search solve, (uses → Solves search nat exp solve) → ∀ rs p χ,
    m.ecm search (exp rs p χ) = ok (scalars rs fun i => ecm solve (p i) (χ i))

/-- The array holds these numbers, as real numbers, integers or Booleans. -/
def HoldsR (rs : List ℕ) (x : List ℕ → ℝ) (v : Val) : Prop := v.toR = ok (scalars rs x)

/-- The array holds these real vectors. -/
def HoldsV {d : ℕ} (rs : List ℕ) (x : List ℕ → Fin d → ℝ) (v : Val) : Prop :=
  v.toR = ok (vectors rs x)

/-- The array holds these points of the sphere. -/
def HoldsSphere {d : ℕ} (rs : List ℕ) (x : List ℕ → Metric.sphere (0 : EuclideanSpace ℝ (Fin d)) 1)
    (v : Val) : Prop := v.toR = ok (vectors rs fun i k => (x i).1 k)

/-- The array holds these complex numbers. -/
def HoldsC (rs : List ℕ) (x : List ℕ → ℂ) (v : Val) : Prop := v.toC = scalars rs x

/-- The array holds these complex vectors. -/
def HoldsCV {d : ℕ} (rs : List ℕ) (x : List ℕ → Fin d → ℂ) (v : Val) : Prop := v.toC = vectors rs x

/-- One real number per distribution. -/
def layS : Layout Unit ℝ := fun rs _ q => [.real (scalars rs q)]

/-- Two real numbers per distribution. -/
def laySS : Layout Unit (ℝ × ℝ) := fun rs _ q =>
  [.real (scalars rs fun i => (q i).1), .real (scalars rs fun i => (q i).2)]

/-- A real vector per distribution. -/
def layV (d : ℕ) : Layout Unit (Fin d → ℝ) := fun rs _ q => [.real (vectors rs q)]

/-- A vector of Euclidean space per distribution. -/
def layE (d : ℕ) : Layout Unit (EuclideanSpace ℝ (Fin d)) := fun rs _ q => [.real (vectors rs fun i k => q i k)]

/-- Two real vectors per distribution. -/
def layVV (d : ℕ) : Layout Unit ((Fin d → ℝ) × (Fin d → ℝ)) := fun rs _ q =>
  [.real (vectors rs fun i => (q i).1), .real (vectors rs fun i => (q i).2)]

/-- A real vector and a number per distribution. -/
def layVS (d : ℕ) : Layout Unit ((Fin d → ℝ) × ℝ) := fun rs _ q =>
  [.real (vectors rs fun i => (q i).1), .real (scalars rs fun i => (q i).2)]

/-- A real vector and a matrix per distribution. -/
def layVM (d : ℕ) : Layout Unit ((Fin d → ℝ) × Matrix (Fin d) (Fin d) ℝ) := fun rs _ q =>
  [.real (vectors rs fun i => (q i).1), .real (matrices rs fun i => (q i).2)]

/-- A complex number per distribution. -/
def layC : Layout Unit ℂ := fun rs _ q => [.complex (scalars rs q)]

/-- A complex vector per distribution. -/
def layCV (d : ℕ) : Layout Unit (Fin d → ℂ) := fun rs _ q => [.complex (vectors rs q)]

/-- A complex matrix per distribution. -/
def layCM (d : ℕ) : Layout Unit (Matrix (Fin d) (Fin d) ℂ) := fun rs _ q => [.complex (matrices rs q)]

/-- A complex, a real and a complex number per distribution. -/
def layCSC : Layout Unit (ℂ × ℝ × ℂ) := fun rs _ q =>
  [.complex (scalars rs fun i => (q i).1), .real (scalars rs fun i => (q i).2.1),
    .complex (scalars rs fun i => (q i).2.2)]

/-- A real number and a fixed positive integer per distribution. -/
def laySFixedInt : Layout ℕ ℝ := fun rs p q => [.real (scalars rs q), .int (scalars rs fun i => (p i : ℤ))]

/-- A fixed real number and a real number per distribution. -/
def layFixedS : Layout ℝ ℝ := fun rs p q => [.real (scalars rs p), .real (scalars rs q)]

/-- A real vector and a fixed real number per distribution. -/
def layVFixed (d : ℕ) : Layout ℝ (Fin d → ℝ) := fun rs p q => [.real (vectors rs q), .real (scalars rs p)]

/-- No fixed parameters. -/
def noFixed {P : Type} : List ℕ → (List ℕ → P) → Dict String Val := fun _ _ => []

end Efax.Spec
