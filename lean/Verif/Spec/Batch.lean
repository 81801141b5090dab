import Verif.Model.Calc
import Verif.Model.ExpFam

/-!
# Specification: arrays that hold one value per batch entry

A batch of shape `rs` (last axis first) of numbers, vectors or matrices, stored as one array: the
axes of the value are the last axes of the array.
-/

namespace Efax.Spec

variable {α : Type} [Inhabited α]

/-- A batch of numbers. -/
def scalars (rs : List ℕ) (f : List ℕ → α) : Arr α := Arr.ofFn rs f

/-- A batch of vectors with `d` entries. -/
def vectors {d : ℕ} (rs : List ℕ) (f : List ℕ → Fin d → α) : Arr α :=
  Arr.ofFn (d :: rs) fun
    | k :: i => if h : k < d then f i ⟨k, h⟩ else default
    | [] => default

/-- A batch of matrices with `m` rows and `n` columns; the row axis comes before the column axis. -/
def matrices {m n : ℕ} (rs : List ℕ) (f : List ℕ → Matrix (Fin m) (Fin n) α) : Arr α :=
  Arr.ofFn (n :: m :: rs) fun
    | c :: r :: i => if h : r < m ∧ c < n then f i ⟨r, h.1⟩ ⟨c, h.2⟩ else default
    | _ => default

end Efax.Spec
