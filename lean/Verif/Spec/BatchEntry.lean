import Verif.Model.Arr
import Mathlib.LinearAlgebra.Matrix.Defs
import Mathlib.Data.Matrix.Diagonal

/-!
# Specification: the parameters of one distribution of an array

Given by arrays, the axes of the distributions first, or left out.  Indices are last axis first.
-/

namespace Efax.Spec

variable {α : Type} [Inhabited α]

/-- A number for each distribution, or the default `x`. -/
def scalarAt (a : Option (Arr α)) (x : α) (i : List ℕ) : α := a.elim x fun a => a.get i

/-- A vector for each distribution, or zero. -/
def vectorAt [Zero α] (n : ℕ) (a : Option (Arr α)) (i : List ℕ) : Fin n → α :=
  a.elim 0 fun a k => a.get (k.val :: i)

/-- A square matrix for each distribution, or the default `m`. -/
def matrixAt {n : ℕ} (a : Option (Arr α)) (m : Matrix (Fin n) (Fin n) α) (i : List ℕ) :
    Matrix (Fin n) (Fin n) α := a.elim m fun a => Matrix.of fun r c => a.get (c.val :: r.val :: i)

end Efax.Spec
