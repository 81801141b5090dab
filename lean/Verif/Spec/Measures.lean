import Mathlib.MeasureTheory.Constructions.HaarToSphere
import Mathlib.MeasureTheory.Measure.Haar.InnerProductSpace
import Mathlib.MeasureTheory.Measure.WithDensity
import Mathlib.MeasureTheory.Measure.Dirac
import Mathlib.MeasureTheory.Constructions.BorelSpace.Basic
import Mathlib.MeasureTheory.Measure.Lebesgue.Basic
import Mathlib.Analysis.SpecialFunctions.Pow.Real
import Mathlib.LinearAlgebra.Matrix.PosDef
import Mathlib.Analysis.Complex.Order
import Mathlib.LinearAlgebra.Matrix.Symmetric

/-!
# Specification: reference measures and natural domains of the families
-/

namespace Efax

open MeasureTheory

/-- The observation of the category `k`: one indicator for each category but the last. -/
def Spec.oneHot {d : ℕ} (k : Fin (d + 2)) : Fin (d + 1) → ℝ :=
  fun i => if i.castSucc = k then 1 else 0

/-- Counting the `d + 2` observations. -/
noncomputable def Spec.categories (d : ℕ) : Measure (Fin (d + 1) → ℝ) :=
  ∑ k : Fin (d + 2), Measure.dirac (oneHot k)

/-- Lebesgue measure on the positive numbers. -/
noncomputable abbrev Spec.positive : Measure ℝ := volume.restrict (Set.Ioi 0)

/-- The natural domain of the gamma family. -/
def Spec.gammaDom : Set (ℝ × ℝ) := {q | q.1 < 0 ∧ -1 < q.2}

/-- The natural domain of the normal family. -/
def Spec.normalDom : Set (ℝ × ℝ) := {q | q.2 < 0}

/-- The natural domain of the normal family with diagonal variance. -/
def Spec.mvDiagonalDom (d : ℕ) : Set ((Fin d → ℝ) × (Fin d → ℝ)) := {q | ∀ i, q.2 i < 0}

/-- The natural domain of the isotropic normal family. -/
def Spec.mvIsotropicDom (d : ℕ) : Set ((Fin d → ℝ) × ℝ) := {q | q.2 < 0}

/-- The natural domain of the multivariate normal family: symmetric, negative definite matrices. -/
def Spec.mvNormalDom (d : ℕ) : Set ((Fin d → ℝ) × Matrix (Fin d) (Fin d) ℝ) := {q | (-q.2).PosDef}

/-- A vector and a symmetric matrix. -/
def Spec.symmetricDirs (d : ℕ) : Submodule ℝ ((Fin d → ℝ) × Matrix (Fin d) (Fin d) ℝ) where
  carrier := {v | v.2.IsSymm}
  add_mem' := fun ha hb => Matrix.IsSymm.add ha hb
  zero_mem' := Matrix.isSymm_zero
  smul_mem' := fun c _ h => Matrix.IsSymm.smul h c

/-- The natural domain of the complex normal family. -/
def Spec.complexNormalDom : Set (ℂ × ℝ × ℂ) := {q | ‖q.2.2‖ < -q.2.1}

open scoped ComplexOrder in
/-- The natural domain of the circularly symmetric complex normal family: Hermitian, negative definite
matrices. -/
def Spec.cmvCircularDom (d : ℕ) : Set (Matrix (Fin d) (Fin d) ℂ) := {q | (-q).PosDef}

/-- The Hermitian matrices. -/
def Spec.hermitianDirs (d : ℕ) : Submodule ℝ (Matrix (Fin d) (Fin d) ℂ) where
  carrier := {v | v.IsHermitian}
  add_mem' := fun ha hb => Matrix.IsHermitian.add ha hb
  zero_mem' := Matrix.isHermitian_zero
  smul_mem' := fun c v h => by
    show (c • v).conjTranspose = c • v
    rw [Matrix.conjTranspose_smul, star_trivial, (show v.IsHermitian from h).eq]

/-- `x` has the density `f` and `x ^ p` has the density `g`. -/
def Spec.PowerOf (p : ℝ) (f g : ℝ → ℝ) : Prop := ∀ x, 0 < x → f x = g (x ^ p) * (p * x ^ (p - 1))

/-- The open simplex: positive entries with a sum below one. -/
def Spec.simplex (k : ℕ) : Set (Fin k → ℝ) := {x | (∀ i, 0 < x i) ∧ ∑ i, x i < 1}

/-- The parameters for which the Dirichlet density is integrable. -/
def Spec.dirichletDom (n : ℕ) : Set (Fin n → ℝ) := {q | ∀ i, -1 < q i}

/-- The parameters for which all beta functions are finite. -/
def Spec.genDirichletDom (k : ℕ) : Set ((Fin k → ℝ) × (Fin k → ℝ)) :=
  {q | (∀ i, -1 < q.1 i) ∧
    ∀ i, 0 < (∑ j, if i ≤ j then q.2 j else 0) + (∑ j, if i < j then q.1 j + 1 else 0) + 1}

/-- The law with density `f` on the positive numbers. -/
noncomputable def Spec.lawOf (f : ℝ → ℝ) : Measure ℝ :=
  positive.withDensity fun x => ENNReal.ofReal (f x)

/-- The surface measure of the unit sphere of the Euclidean space of dimension `n + 1`. -/
noncomputable def surface (n : ℕ) :
    Measure (Metric.sphere (0 : EuclideanSpace ℝ (Fin (n + 1))) 1) :=
  (volume : Measure (EuclideanSpace ℝ (Fin (n + 1)))).toSphere

end Efax
