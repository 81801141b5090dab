import Verif.Lemmas.Classes
import Verif.Lemmas.Flat4

/-!
# Concrete distributions used to show that the theorems are not vacuous
-/

namespace Efax.Samples

open Spec

variable [MachEps]

/-- An array filled with one number. -/
def c (rs : List ℕ) (x : ℝ) : Val := .real (Arr.full rs x)

/-- A gamma distribution with batch shape (3,). -/
def gamma : Dist Cls := .mk .gammaNP [c [3] (-1), c [3] 0] .nil

/-- A Weibull distribution (concentration 2 is a fixed parameter) with batch shape (3,). -/
def weibull : Dist Cls := .mk .weibullNP [c [3] 2, c [3] (-1)] .nil

/-- A two-dimensional normal distribution with batch shape (3,). -/
def normal2 : Dist Cls := .mk .mvNormalNP [c [2, 3] 5, c [2, 2, 3] (-1)] .nil

/-- A joint distribution inside a joint distribution. -/
def joint : Dist Cls :=
  .mk .jointN [] (.cons "g" gamma (.cons "j"
    (.mk .jointN [] (.cons "w" weibull (.cons "n" normal2 .nil))) .nil))

theorem joint_wf : WF joint := by
  simp [joint, gamma, weibull, normal2, WF, WFs, ClassTable.fields, ClassTable.isJoint, Cls.fields,
    Cls.isJoint, Subs.names]

theorem full_get {rs i : List ℕ} {x : ℝ} (h : inB rs i = true) : (Arr.full rs x).get i = x :=
  Arr.ofFn_get h

theorem openMax_zero : Ring.openMax 0 = -MachEps.eps := by
  have := MachEps.pos
  simp [Ring.openMax]
  linarith

theorem openMin_zero : Ring.openMin 0 = MachEps.eps := by
  have := MachEps.pos
  simp [Ring.openMin]
  linarith

theorem openMin_neg_one : Ring.openMin (-1) = -1 + MachEps.eps := by
  simp only [Ring.openMin, copysign]
  rw [if_neg (by norm_num)]
  rw [show (-1 : ℝ) * (1 + -MachEps.eps) = -1 + MachEps.eps by ring, max_self]

theorem joint_fits (mapped : Bool) : FitsAll mapped [3] joint := by
  have h1 := MachEps.pos
  have h2 := MachEps.lt
  have adj : ∀ (k : Cls) (f : Field) (kw : Dict String Val), f ∈ Cls.fields k →
      k ≠ .complexNormalNP → ClassTable.adjust k f.name kw = .ok f.support := by
    intro k f kw hf hk
    exact Cls.adjust_eq hf kw (fun h => hk h.1)
  have hg : FitsAll mapped [3] gamma := by
    refine ⟨⟨1, rfl, ⟨_, adj .gammaNP ⟨"negative_rate", .scalar Ring.negativeSupport, false⟩ _
      (by simp [Cls.fields]) (by simp), ?_⟩, ⟨_, adj .gammaNP
      ⟨"shape_minus_one", .scalar (Ring.mkReal (some (-1)) none), false⟩ _
      (by simp [Cls.fields]) (by simp), ?_⟩, trivial⟩, trivial⟩
    · refine ⟨rfl, fun _ i hi => ⟨by simp, ?_⟩⟩
      simp only [if_true, Option.map_some, Option.mem_def, Option.some.injEq, forall_eq',
        openMax_zero]
      rw [full_get (rs := [3]) hi]; linarith
    · refine ⟨rfl, fun _ i hi => ⟨?_, by simp⟩⟩
      simp only [if_true, Option.map_some, Option.mem_def, Option.some.injEq, forall_eq',
        openMin_neg_one]
      rw [full_get (rs := [3]) hi]; linarith
  have hw : FitsAll mapped [3] weibull := by
    refine ⟨⟨1, rfl, ⟨_, adj .weibullNP ⟨"eta", .scalar Ring.negativeSupport, false⟩ _
      (by simp [Cls.fields]) (by simp), ?_⟩, trivial⟩, trivial⟩
    refine ⟨rfl, fun _ i hi => ⟨by simp, ?_⟩⟩
    simp only [if_true, Option.map_some, Option.mem_def, Option.some.injEq, forall_eq',
      openMax_zero]
    rw [full_get (rs := [3]) hi]; linarith
  have hn : FitsAll mapped [3] normal2 := by
    refine ⟨⟨2, rfl, ⟨_, adj .mvNormalNP ⟨"mean_times_precision", .vector Ring.realField, false⟩ _
      (by simp [Cls.fields]) (by simp), ?_⟩, ⟨_, adj .mvNormalNP
      ⟨"negative_half_precision", .symmetric Ring.realField false true false, false⟩ _
      (by simp [Cls.fields]) (by simp), ?_⟩, trivial⟩, trivial⟩
    · exact ⟨rfl, fun _ i hi => ⟨by simp, by simp⟩⟩
    · refine ⟨⟨rfl, fun _ i hi => ⟨by simp, by simp⟩⟩, fun r k j hr hk hj => ?_⟩
      rw [full_get (by simp [inB, hr, hk, hj]), full_get (by simp [inB, hr, hk, hj])]
  exact ⟨⟨1, rfl, trivial⟩, hg, ⟨⟨1, rfl, trivial⟩, hw, hn, trivial⟩, trivial⟩

end Efax.Samples
