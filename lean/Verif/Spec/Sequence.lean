import Verif.Model.Arr

/-!
# Going through an array in order

Which list of indices goes through an array in row-major order, and what it means to draw from one
distribution after the other with one generator.
-/

namespace Efax.Spec

/-- The list contains every index (Python order) of an array of the given shape once, and the last axis
varies fastest. -/
structure RowMajor (shape : List ℕ) (l : List (List ℕ)) : Prop where
  mem : ∀ i, i ∈ l ↔ List.Forall₂ (· < ·) i shape
  sorted : l.Pairwise (List.Lex (· < ·))

/-- Drawing from the distributions in turn, from the state `g` of the generator, gives the values and
leaves the generator in the last state. -/
inductive DrawsInTurn {α G : Type} : List (G → Except Err (α × G)) → G → List α → G → Prop
  | nil (g : G) : DrawsInTurn [] g [] g
  | cons {d : G → Except Err (α × G)} {ds : List (G → Except Err (α × G))} {g g₁ g₂ : G} {v : α}
      {vs : List α} : d g = .ok (v, g₁) → DrawsInTurn ds g₁ vs g₂ → DrawsInTurn (d :: ds) g (v :: vs) g₂

end Efax.Spec
