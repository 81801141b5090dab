import Verif.Spec.Setting
import Mathlib.Data.Matrix.Block
import Mathlib.LinearAlgebra.Matrix.Defs
import Mathlib.Logic.Equiv.Fin.Basic
import Mathlib.Topology.Instances.Real.Lemmas

/-!
# Specification: the distributions whose flat coordinates are those of a vector space
-/

namespace Efax.Spec

/-- The block-diagonal matrix with two blocks. -/
def blockDiag {m n : ℕ} (A : Matrix (Fin m) (Fin m) ℝ) (B : Matrix (Fin n) (Fin n) ℝ) :
    Matrix (Fin (m + n)) (Fin (m + n)) ℝ :=
  Matrix.reindex finSumFinEquiv finSumFinEquiv (Matrix.fromBlocks A 0 0 B)

/-- `to_exp()` is exact for all natural parameters near `q`, in every direction.  (This restricts the
logarithmic distribution only, whose `to_exp()` clamps the parameter: see C77_exact_near.) -/
def Setting.ExactNear {C : Type} {K : Kind C} (S : Setting K) (p : K.P) (q : K.N) : Prop :=
  letI := S.grp
  letI := S.mod
  ∀ v : K.N, ∀ᶠ t in nhds (0 : ℝ), K.dom p (q + t • v)

/-- All entries of the batch are valid, and `to_exp()` is exact near them. -/
def Setting.InsideNear {C : Type} {K : Kind C} (S : Setting K) (rs : List ℕ) (p : List ℕ → K.P)
    (q : List ℕ → K.N) : Prop :=
  ∀ i, inB rs i = true → S.ok (p i) ∧ q i ∈ S.dom (p i) ∧ S.ExactNear (p i) (q i)

variable [MachEps]

/-- Like `LibrarySetting`, without the circularly symmetric complex normal distributions: their flat
vector has coordinates for the imaginary parts of the diagonal (see C42). -/
inductive FlatSetting (solve : Solver) : (K : Kind Cls) → Setting K → Prop
  | simple (s : Simple) (h : ∀ d, s ≠ .cmvCircular d) : FlatSetting solve (s.kind solve) (s.setting solve)
  | joint {l : List (String × Σ K : Kind Cls, Setting K)} (h0 : l ≠ []) (hn : (l.map Prod.fst).Nodup)
      (hS : ∀ s ∈ l, FlatSetting solve s.2.1 s.2.2) :
      FlatSetting solve (.joint .jointN .jointE (.ofList (partsOf l))) (.joint _ _ (.ofList l))

end Efax.Spec
