import Verif.Spec.Reach
import Verif.Spec.Flat
import Verif.Lemmas.Objects
import Verif.Lemmas.Classes

/-!
# Parameters strictly inside their supports can be reached and searched for
-/

namespace Efax

open Spec ClassTable

variable [MachEps]

section

variable {P : Cls → List Val → Prop} {R : ℕ → Support → Val → Prop}

mutual
theorem eachParam_leaf (hP : ∀ c vals, (∃ d, dimensions c vals = .ok d ∧ EachField (R d) c (varPairs c vals) []) →
    P c vals) : (d : Dist Cls) → EachParam R d → ∀ l ∈ leaves d, match l with | .mk c vals _ => P c vals
  | .mk c vals subs, h => by
    simp only [EachParam] at h
    intro l hl
    by_cases hc : isJoint c = true
    · simp only [leaves, hc, if_true] at hl
      exact eachParams_leaf hP subs h.2 l hl
    · simp only [leaves, hc, if_false, List.mem_singleton, Bool.false_eq_true] at hl
      subst hl
      exact hP c vals h.1
theorem eachParams_leaf (hP : ∀ c vals, (∃ d, dimensions c vals = .ok d ∧ EachField (R d) c (varPairs c vals) []) →
    P c vals) : (s : Subs Cls) → EachParams R s → ∀ l ∈ leavesOf s, match l with | .mk c vals _ => P c vals
  | .nil, _ => fun l hl => by simp [leavesOf] at hl
  | .cons n d rest, h => by
    simp only [EachParams] at h
    intro l hl
    simp only [leavesOf, List.mem_append] at hl
    rcases hl with hl | hl
    · exact eachParam_leaf hP d h.1 l hl
    · exact eachParams_leaf hP rest h.2 l hl
end

end

theorem each_first {c : Cls} {name : String} {s : Support} {v : Val} {r : List (Field × Val)} {R : Support → Val → Prop}
    {kw : Dict String Val} (h : EachField R c ((⟨name, s, false⟩, v) :: r) kw) (hm : ⟨name, s, false⟩ ∈ Cls.fields c)
    (hn : ¬(c = .complexNormalNP ∧ name = "pseudo_precision")) : R s v := by
  obtain ⟨⟨s', h1, h2⟩, -⟩ := h
  obtain rfl := Except.ok.inj (h1.symm.trans (Cls.adjust_eq hm kw hn))
  exact h2

theorem above_of {mn : ℝ} {mx : Option ℝ} {g : ℝ} {sup batch : List ℕ} {a : Arr ℝ}
    (h : InRing (.real (some mn) mx g) true sup batch (.real a)) (i : List ℕ) (hi : inB a.rshape i = true) :
    mn < a.get i :=
  (h.2 rfl i (h.1 ▸ hi)).1 _ rfl

theorem below_of {mn : Option ℝ} {mx : ℝ} {g : ℝ} {sup batch : List ℕ} {a : Arr ℝ}
    (h : InRing (.real mn (some mx) g) true sup batch (.real a)) (i : List ℕ) (hi : inB a.rshape i = true) :
    a.get i < mx :=
  (h.2 rfl i (h.1 ▸ hi)).2 _ rfl

theorem fits_reachable {batch : List ℕ} {d : Dist Cls} (h : FitsAll true batch d) : EachLeaf ReachableVals d := by
  refine eachParam_leaf (fun c vals h => ?_) d h
  unfold ReachableVals
  split
  all_goals try trivial
  all_goals obtain ⟨d, -, h⟩ := h
  · exact above_of (g := 1) (each_first (name := "k_over_two_minus_one") h (by simp [Cls.fields]) (by simp))
  · exact above_of (g := 1) (each_first (name := "k_over_two_minus_one") h (by simp [Cls.fields]) (by simp))
  · exact above_of (g := 1) (each_first (name := "alpha_minus_one") h (by simp [Cls.fields]) (by simp))
  · exact above_of (g := 1) (each_first (name := "alpha_minus_one") h (by simp [Cls.fields]) (by simp))
  · exact below_of (g := 1) (each_first (name := "log_probability") h (by simp [Cls.fields]) (by simp))
  · have h1 := above_of (g := 1) (each_first (name := "gamma") h.2 (by simp [Cls.fields]) (by simp))
    exact fun i hi => lt_trans (lt_of_lt_of_le (by linarith [MachEps.pos]) (le_max_left _ _)) (h1 i hi)

theorem fits_searchable {batch : List ℕ} {d : Dist Cls} (h : FitsAll true batch d) :
    EachLeaf (fun c v => (c = .vonMisesFisherEP → dimensions c v ≠ .ok 0) → SearchableVals c v) d := by
  refine eachParam_leaf (fun c vals h hz => ?_) d h
  unfold SearchableVals
  split
  all_goals try trivial
  all_goals obtain ⟨d, h0, h⟩ := h
  · exact above_of (g := 1) (each_first (name := "chi") h (by simp [Cls.fields]) (by simp))
  · exact above_of (g := 1) (each_first (name := "mean") h (by simp [Cls.fields]) (by simp))
  · exact below_of (g := 1) (each_first (name := "mean_log_probability") h (by simp [Cls.fields]) (by simp))
  · exact below_of (g := 1) (each_first (name := "mean_log_probability") h (by simp [Cls.fields]) (by simp))
  · exact ⟨below_of (g := 1) (each_first (name := "mean_log_probability") h (by simp [Cls.fields]) (by simp)),
      below_of (g := 1) (each_first (name := "mean_log_cumulative_probability") h.2 (by simp [Cls.fields]) (by simp))⟩
  · next a =>
    obtain ⟨h1, h2⟩ := each_first (name := "mean") h (by simp [Cls.fields]) (by simp)
    have h1 : a.rshape = d :: batch := h1
    have hd : 0 < d := Nat.pos_of_ne_zero fun e => hz rfl (e ▸ h0)
    intro i hi
    rw [h1] at hi ⊢
    simpa using (h2 rfl).2 i hd hi

end Efax
