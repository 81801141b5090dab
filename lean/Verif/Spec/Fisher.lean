import Verif.Spec.ExpFam
import Verif.Spec.Refines
import Verif.Model.Fisher
import Verif.Model.Classes
import Mathlib.LinearAlgebra.Matrix.PosDef

/-!
# Specification: the Fisher information in flat coordinates
-/

namespace Efax.Spec

open MeasureTheory

variable [MachEps]

/-- The vector of length `n` whose entry `k` is one and whose other entries are zero. -/
def unitVector (n k : ℕ) : Arr ℝ := Arr.ofFn [n] fun i => if i = [k] then 1 else 0

/-- `_fisher_information_matrix()` is the covariance matrix of the statistics in flat coordinates, and
it is positive definite.

`nat rs p q` is the batch of shape `rs` with the fixed parameters `p` and the natural parameters `q`.
Coordinate `k` of the `n` flat coordinates moves the natural parameters in the direction `u k`: this is
the parameter that a raw flattener recovers from the unit vector `k`.  The statistic that belongs to
this coordinate is the pairing of `u k` with the sufficient statistics (an off-diagonal coordinate of a
symmetric matrix counts twice). -/
def FlatFisher {P N E X : Type} [MeasurableSpace X] (L : Library Cls)
    (nat : List ℕ → (List ℕ → P) → (List ℕ → N) → Dist Cls) (n : ℕ) (F : P → ExpFam N E X)
    (μ : Measure X) (dom : P → Set N) : Prop :=
  ∃ u : Fin n → N,
    (∀ p q, q [] ∈ dom (p []) → ∃ fl y, flatten (nat [] p q) false = .ok (fl, y) ∧ y.rshape = [n] ∧
      ∀ k : Fin n, fl.unflatten (unitVector n k) = .ok (nat [] p fun _ => u k)) ∧
    ∀ rs p q, (∀ i, inB rs i = true → q i ∈ dom (p i)) → ∃ M : List ℕ → Matrix (Fin n) (Fin n) ℝ,
      fisherMatrix L (nat rs p q) = .ok (matrices rs M) ∧
      jeffreysPrior L (nat rs p q) = .ok (scalars rs fun i => Real.sqrt (M i).det) ∧
      ∀ i, inB rs i = true → (M i).PosDef ∧ ∀ k l, HasCov μ ((F (p i)).pdf (q i))
        (fun x => (F (p i)).dot (u k) ((F (p i)).stat x))
        (fun x => (F (p i)).dot (u l) ((F (p i)).stat x)) (M i k l)

/-- Like `FlatFisher`; the entries of the matrix are covariances at those coordinates that move the
natural parameters in the directions `dirs` of the family. -/
def FlatFisherIn {P N E X : Type} [AddCommGroup N] [Module ℝ N] [MeasurableSpace X] (L : Library Cls)
    (nat : List ℕ → (List ℕ → P) → (List ℕ → N) → Dist Cls) (n : ℕ) (F : P → ExpFam N E X)
    (μ : Measure X) (dom : P → Set N) (dirs : Submodule ℝ N) : Prop :=
  ∃ u : Fin n → N,
    (∀ p q, q [] ∈ dom (p []) → ∃ fl y, flatten (nat [] p q) false = .ok (fl, y) ∧ y.rshape = [n] ∧
      ∀ k : Fin n, fl.unflatten (unitVector n k) = .ok (nat [] p fun _ => u k)) ∧
    ∀ rs p q, (∀ i, inB rs i = true → q i ∈ dom (p i)) → ∃ M : List ℕ → Matrix (Fin n) (Fin n) ℝ,
      fisherMatrix L (nat rs p q) = .ok (matrices rs M) ∧
      jeffreysPrior L (nat rs p q) = .ok (scalars rs fun i => Real.sqrt (M i).det) ∧
      ∀ i, inB rs i = true → (M i).PosDef ∧ ∀ k l, u k ∈ dirs → u l ∈ dirs →
        HasCov μ ((F (p i)).pdf (q i)) (fun x => (F (p i)).dot (u k) ((F (p i)).stat x))
          (fun x => (F (p i)).dot (u l) ((F (p i)).stat x)) (M i k l)

/-- `fisher_information_diagonal()` is the diagonal of the Fisher information: the raw flat
coordinates of the result are, for every entry of the batch, the diagonal of the Fisher information
matrix. -/
def DiagonalCorrect (L : Library Cls) (p : Dist Cls) : Prop :=
  ∃ (n : ℕ) (rs : List ℕ) (M : List ℕ → Matrix (Fin n) (Fin n) ℝ) (r : Dist Cls) (fl : Flattener Cls),
    fisherMatrix L p = .ok (matrices rs M) ∧ fisherDiagonal L p = .ok r ∧
    flatten r false = .ok (fl, vectors rs fun i k => M i k k)

/-- The classes of natural parameters with a bound for some variable parameter. -/
def Bounded : Cls → Prop
  | .betaNP | .chiNP | .chiSquareNP | .complexNormalNP | .dirichletNP | .exponentialNP | .gammaNP
  | .genDirichletNP | .geometricNP | .logarithmicNP | .diagonalNormalNP | .isotropicNormalNP
  | .negativeBinomialNP | .normalNP | .rayleighNP | .weibullNP => True
  | _ => False

/-- The sum of the entries of one array: a number, a vector, or the upper triangle of a matrix. -/
def entrySum {α : Type} [Inhabited α] [AddCommMonoid α] (a : Arr α) : α :=
  match a.rshape with
  | [] => a.get []
  | [n] => ∑ k : Fin n, a.get [k.1]
  | [n, m] => ∑ r : Fin m, ∑ c : Fin n, if r.1 ≤ c.1 then a.get [c.1, r.1] else 0
  | _ => 0

/-- The array that holds `entrySum`. -/
def upperSum : Val → Val
  | .real a => .real (scalars [] fun _ => entrySum a)
  | .complex a => .complex (scalars [] fun _ => entrySum a)
  | v => v

/-- The real and imaginary parts of a number, added. -/
def amount : Val → ℝ
  | .real a => a.get []
  | .complex a => (a.get []).re + (a.get []).im
  | _ => 0

end Efax.Spec
