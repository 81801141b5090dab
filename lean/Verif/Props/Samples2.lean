import Verif.Lemmas.Objects
import Verif.Props.Batch.Search
import Verif.Props.Dot

/-!
# Concrete batches of distributions used to show that the theorems are not vacuous
-/

namespace Efax

open ClassTable Calc Spec

variable [MachEps]

/-- A minimizer that returns zeros. -/
noncomputable def zeroMinimizer (c : Cls) (v : List Val) : Arr ℝ :=
  scalars [match c, v with
    | .betaEP, _ => 2
    | .dirichletEP, v => firstDim v
    | .genDirichletEP, v => firstDim v + firstDim v
    | _, _ => 1] fun _ => 0

theorem zeroMinimizer_returns : ReturnsSearchVectors zeroMinimizer where
  gamma _ := rfl
  chiSquare _ := rfl
  logarithmic _ := rfl
  beta _ := rfl
  dirichlet _ _ := rfl
  genDirichlet _ _ := rfl
  vonMisesFisher _ _ := rfl

/-- Non-vacuity of `C51_search`. -/
example : (solverOf zeroMinimizer).For (searchFor zeroMinimizer) := C51_search zeroMinimizer_returns

/-- A batch of natural parametrizations. -/
abbrev NaturalBatch (rs : List ℕ) (d : Dist Cls) : Prop :=
  WF d ∧ IsBatch (fun c => (expCls c).isSome = true) rs d

/-- A batch of expectation parametrizations. -/
abbrev ExpectationBatch (rs : List ℕ) (d : Dist Cls) : Prop :=
  WF d ∧ IsBatch (fun c => (natCls c).isSome = true) rs d

namespace Samples

/-- The nested joint distribution is a batch of three distributions. -/
theorem joint_batch : NaturalBatch [3] joint := by
  refine ⟨joint_wf, rfl, ⟨0, trivial, .nil⟩, ⟨rfl, ⟨0, trivial, ?_⟩, trivial⟩,
    ⟨rfl, ⟨0, trivial, .nil⟩, ⟨rfl, ⟨0, trivial, ?_⟩, trivial⟩, ⟨rfl, ⟨2, trivial, ?_⟩, trivial⟩, trivial⟩, trivial⟩
  all_goals exact .cons ⟨rfl, fun h => absurd h (by simp)⟩ (.cons ⟨rfl, fun h => absurd h (by simp)⟩ .nil)

theorem jointE_batch : ExpectationBatch [3] jointE := by
  refine ⟨jointE_wf, rfl, ⟨0, trivial, .nil⟩, ⟨rfl, ⟨0, trivial, ?_⟩, trivial⟩,
    ⟨rfl, ⟨0, trivial, .nil⟩, ⟨rfl, ⟨0, trivial, ?_⟩, trivial⟩, ⟨rfl, ⟨2, trivial, ?_⟩, trivial⟩, trivial⟩, trivial⟩
  all_goals exact .cons ⟨rfl, fun h => absurd h (by simp)⟩ (.cons ⟨rfl, fun h => absurd h (by simp)⟩ .nil)

theorem joint_regular : EachLeaf RegularVals joint := by
  intro l hl
  simp only [joint, leaves, leavesOf, gamma, weibull, normal2, isJoint, Cls.isJoint] at hl
  simp at hl
  rcases hl with rfl | rfl | rfl <;> trivial

theorem joint_ecm : EachLeaf (fun c _ => HasEcm c) joint := by
  intro l hl
  simp only [joint, leaves, leavesOf, gamma, weibull, normal2, isJoint, Cls.isJoint] at hl
  simp at hl
  rcases hl with rfl | rfl | rfl <;> trivial

theorem jointE_ecm : EachLeaf (fun c _ => HasEcm c) jointE := by
  intro l hl
  simp only [jointE, leaves, leavesOf, isJoint, Cls.isJoint] at hl
  simp at hl
  rcases hl with rfl | rfl | rfl <;> trivial

theorem jointE_searchable : EachLeaf SearchableVals jointE := by
  intro l hl
  simp only [jointE, leaves, leavesOf, isJoint, Cls.isJoint] at hl
  simp at hl
  rcases hl with rfl | rfl | rfl
  · intro i hi
    have hi : inB [3] i = true := hi
    rw [full_get hi]
    have h1 := MachEps.pos
    have h2 := MachEps.lt
    simp only [Ring.openMin, zero_add, zero_mul]
    rw [max_lt_iff]
    constructor <;> linarith
  · trivial
  · trivial

/-- Another natural object with the same parts and the same fixed parameter. -/
def joint' : Dist Cls :=
  .mk .jointN [] (.cons "g" (.mk .gammaNP [c [3] (-2), c [3] 3] .nil) (.cons "j"
    (.mk .jointN [] (.cons "w" (.mk .weibullNP [c [3] 2, c [3] (-5)] .nil)
      (.cons "n" (.mk .mvNormalNP [c [2, 3] 1, c [2, 2, 3] (-2)] .nil) .nil))) .nil))

theorem joint_alike : Alike (· = ·) joint joint' := by
  refine ⟨rfl, .nil, rfl, ⟨rfl, ?_, trivial⟩, rfl, ⟨rfl, .nil, rfl, ⟨rfl, ?_, trivial⟩, rfl,
    ⟨rfl, ?_, trivial⟩, trivial⟩, trivial⟩
  · exact .cons ⟨rfl, fun h => by cases h⟩ (.cons ⟨rfl, fun h => by cases h⟩ .nil)
  · exact .cons ⟨rfl, fun _ => rfl⟩ (.cons ⟨rfl, fun h => by cases h⟩ .nil)
  · exact .cons ⟨rfl, fun h => by cases h⟩ (.cons ⟨rfl, fun h => by cases h⟩ .nil)

theorem jointE_alike : Alike (fun c c' => natCls c = some c') jointE joint' := by
  refine ⟨rfl, .nil, rfl, ⟨rfl, ?_, trivial⟩, rfl, ⟨rfl, .nil, rfl, ⟨rfl, ?_, trivial⟩, rfl,
    ⟨rfl, ?_, trivial⟩, trivial⟩, trivial⟩
  · exact .cons ⟨rfl, fun h => by cases h⟩ (.cons ⟨rfl, fun h => by cases h⟩ .nil)
  · exact .cons ⟨rfl, fun _ => rfl⟩ (.cons ⟨rfl, fun h => by cases h⟩ .nil)
  · exact .cons ⟨rfl, fun h => by cases h⟩ (.cons ⟨rfl, fun h => by cases h⟩ .nil)

/-- Observations for the nested joint distribution, in another order. -/
def observation : Tree Val := .node (.cons "j" (.node (.cons "n" (.leaf (c [2, 3] 4))
  (.cons "w" (.leaf (c [3] 1)) .nil))) (.cons "g" (.leaf (c [3] 2)) .nil))

theorem observed : Observed [3] joint observation := by
  have hc : ∀ (rs : List ℕ) (x : ℝ) (a : Arr ℂ), c rs x ≠ .complex a := fun _ _ _ h => by cases h
  refine ⟨by simp [Forest.keys, Forest.toList], by simp [Forest.keys, Forest.toList, Subs.names],
    ⟨_, .tail _ (.head _), ?_⟩, ⟨_, .head _, ?_⟩, trivial⟩
  · exact ⟨hc _ _, rfl⟩
  · refine ⟨by simp [Forest.keys, Forest.toList], by simp [Forest.keys, Forest.toList, Subs.names],
      ⟨_, .tail _ (.head _), ?_⟩, ⟨_, .head _, ?_⟩, trivial⟩
    · exact ⟨hc _ _, rfl⟩
    · exact ⟨hc _ _, rfl⟩

/-- The same simple distributions without nesting. -/
def flatJoint : Dist Cls :=
  .mk .jointN [] (.cons "g" gamma (.cons "w" weibull (.cons "n" normal2 .nil)))

theorem flatJoint_batch : NaturalBatch [3] flatJoint := by
  refine ⟨?_, rfl, ⟨0, trivial, .nil⟩, ⟨rfl, ⟨0, trivial, ?_⟩, trivial⟩,
    ⟨rfl, ⟨0, trivial, ?_⟩, trivial⟩, ⟨rfl, ⟨2, trivial, ?_⟩, trivial⟩, trivial⟩
  · simp [flatJoint, gamma, weibull, normal2, WF, WFs, ClassTable.fields, ClassTable.isJoint,
      Cls.fields, Cls.isJoint, Subs.names]
  all_goals exact .cons ⟨rfl, fun h => absurd h (by simp)⟩ (.cons ⟨rfl, fun h => absurd h (by simp)⟩ .nil)

theorem flatJoint_leaves : leaves flatJoint = leaves joint := rfl

end Samples

end Efax
