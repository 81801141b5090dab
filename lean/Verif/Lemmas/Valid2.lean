import Verif.Lemmas.ValidLeaf
import Verif.Props.Structures

/-!
# Objects with parameters in their supports are valid
-/

namespace Efax

open Spec ClassTable

variable [MachEps] {solve : Solver} {rs rs₀ : List ℕ}

theorem GoodField.of_lies {d : ℕ} {t : Support} {v : Val} (h : Lies t true d rs v) : GoodField d rs t v := by
  have key : ∀ {r : Ring} {sup : List ℕ}, InRing r true sup rs v → GoodRing r sup rs v := by
    intro r sup h
    obtain ⟨h1, h2⟩ := h
    match r, v, h1, h2 with
    | .real mn mx _, .real a, h1, h2 =>
      exact .inr ⟨h1, fun i hi => ⟨fun m hm => ((h2 rfl i hi).1 m hm).le, fun M hM => ((h2 rfl i hi).2 M hM).le⟩⟩
    | .complex mn mx, .complex a, h1, h2 =>
      obtain ⟨_, _, h3⟩ := h2 rfl
      exact .inr ⟨h1, fun i j hi hj => ⟨(h3 i j hi hj).2.1.le, (h3 i j hi hj).2.2⟩⟩
    | .boolean, .bool _, h1, _ => exact .inr ⟨h1, trivial⟩
    | .integral mn mx, _, _, _ => exact .inl ⟨mn, mx, rfl⟩
  cases t with
  | scalar r => exact key h
  | vector r => exact key h
  | symmetric r _ _ _ => exact key h
  | simplex r => trivial
  | square r => trivial
  | circular r => trivial

mutual
theorem SameTree.classes {P : Cls → Prop} : {p q : Dist Cls} → SameTree p q → AllClasses P p → AllClasses P q
  | .mk _ _ _, .mk _ _ _, ⟨rfl, h⟩, ⟨h1, h2⟩ => ⟨h1, SameTrees.classes h h2⟩
theorem SameTrees.classes {P : Cls → Prop} : {p q : Subs Cls} → SameTrees p q → AllClassess P p →
    AllClassess P q
  | .nil, .nil, _, _ => trivial
  | .cons _ _ _, .cons _ _ _, ⟨_, h, h'⟩, ⟨h1, h2⟩ => ⟨SameTree.classes h h1, SameTrees.classes h' h2⟩
  | .nil, .cons .., h, _ => h.elim
  | .cons .., .nil, h, _ => h.elim
end

mutual
theorem eachNode_of {Q : Cls → ℕ → List Val → Prop} {P : Cls → Prop} {R : ℕ → Support → Val → Prop}
    (h : ∀ c d v, P c → EachField (R d) c (varPairs c v) [] → Definite rs c v → Q c d v) :
    {q : Dist Cls} → AllClasses P q → EachParam R q → AllDefinite rs q → EachNode Q q
  | .mk _ _ _, ⟨h1, h2⟩, ⟨⟨d, h3, h4⟩, h5⟩, ⟨h6, h7⟩ => ⟨⟨d, h3, h _ d _ h1 h4 h6⟩, eachNodes_of h h2 h5 h7⟩
theorem eachNodes_of {Q : Cls → ℕ → List Val → Prop} {P : Cls → Prop} {R : ℕ → Support → Val → Prop}
    (h : ∀ c d v, P c → EachField (R d) c (varPairs c v) [] → Definite rs c v → Q c d v) :
    {q : Subs Cls} → AllClassess P q → EachParams R q → AllDefinites rs q → EachNodes Q q
  | .nil, _, _, _ => trivial
  | .cons _ _ _, ⟨h1, h2⟩, ⟨h3, h4⟩, ⟨h5, h6⟩ => ⟨eachNode_of h h1 h3 h5, eachNodes_of h h2 h4 h6⟩
end

mutual
theorem allDefinite_of : {q : Dist Cls} → AllClasses NeedsNothing q → AllDefinite rs q
  | .mk c v s, ⟨⟨h1, h2, h3⟩, h⟩ => by
    refine ⟨?_, allDefinites_of h⟩
    unfold Definite
    split
    · exact absurd rfl h1
    · exact absurd rfl h2
    · exact absurd rfl h3
    · trivial
theorem allDefinites_of : {q : Subs Cls} → AllClassess NeedsNothing q → AllDefinites rs q
  | .nil, _ => trivial
  | .cons _ _ _, ⟨h1, h2⟩ => ⟨allDefinite_of h1, allDefinites_of h2⟩
end

mutual
theorem allClasses_const {P : Cls → Prop} (h : ∀ c, P c) : (q : Dist Cls) → AllClasses P q
  | .mk c _ s => ⟨h c, allClassess_const h s⟩
theorem allClassess_const {P : Cls → Prop} (h : ∀ c, P c) : (q : Subs Cls) → AllClassess P q
  | .nil => trivial
  | .cons _ d r => ⟨allClasses_const h d, allClassess_const h r⟩
end

mutual
theorem EachParam.imp' {R R' : ℕ → Support → Val → Prop} (h : ∀ d t v, R d t v → R' d t v) :
    {q : Dist Cls} → EachParam R q → EachParam R' q
  | .mk _ _ _, ⟨⟨d, h1, h2⟩, h3⟩ => ⟨⟨d, h1, EachField.imp (h d) h2⟩, EachParams.imp' h h3⟩
theorem EachParams.imp' {R R' : ℕ → Support → Val → Prop} (h : ∀ d t v, R d t v → R' d t v) :
    {q : Subs Cls} → EachParams R q → EachParams R' q
  | .nil, _ => trivial
  | .cons _ _ _, ⟨h1, h2⟩ => ⟨EachParam.imp' h h1, EachParams.imp' h h2⟩
end

theorem fixedOf_nil {c : Cls} (h : NoFixed c) (v : List Val) : fixedOf c v = [] := by
  have : ((fields c).zip v).filter (fun fv => keep (some true) fv.1) = [] := by
    rw [List.filter_eq_nil_iff]
    intro fv hfv
    have := h fv.1 (List.of_mem_zip hfv).1
    simp [keep, this]
  simp [fixedOf, nodeParams, this]

/-- Simple distributions. -/
theorem transfers_simple (hne : rs = rs₀ ∨ ∃ i, inB rs₀ i = true) (s : Simple) :
    Transfers solve (SameLeaf true fun c d v => EachField (GoodField d rs) c (varPairs c v) [] ∧
      Definite rs c v ∧ (rs = rs₀ ∨ NoFixed c)) rs₀ rs (s.kind solve) (s.setting solve) := by
  intro p₀ q₀ hi d hw h
  obtain ⟨vals₀, e, hj⟩ : ∃ vals₀, (s.kind solve).nat rs₀ p₀ q₀ = .mk s.cls vals₀ .nil ∧
      isJoint s.cls = false := by
    cases s <;> exact ⟨_, rfl, rfl⟩
  match d, hw, h with
  | .mk c vals subs, hw, h =>
    rw [e] at h
    obtain ⟨rfl, h1, h2⟩ := h
    obtain ⟨h3, h4, d, h5, h6, h7, h8, h9⟩ := h1 hj
    cases subs with
    | cons => exact h2.elim
    | nil =>
      refine leaf_valid s h3 (rs₀ := rs₀) (p₀ := p₀) (q₀ := q₀) (by rw [e]; exact h5) h7 ?_ h8
      by_cases hrs : rs = rs₀
      · subst hrs
        exact ⟨p₀, fun i h => (hi i h).1, by rw [e]; exact h4 rfl⟩
      · obtain ⟨i, hi'⟩ := hne.resolve_left hrs
        exact ⟨fun _ => p₀ i, fun _ _ => (hi i hi').1, (fixedOf_nil (h9.resolve_left hrs) _).trans
          (fixedOf_nil (h9.resolve_left hrs) _).symm⟩

/-- Whatever has the structure and the fixed parameters of a valid object, and parameters of the types,
shapes and bounds of their supports, is valid. -/
theorem valid_of_same {K : Kind Cls} {S : Setting K} (hS : LibrarySetting solve K S) {p q : Dist Cls}
    (hp : ValidOf K S rs₀ p) (hw : WF p) (hwq : WF q) (ht : SameTree p q) {L : List (Info Cls)}
    (hL : infosOf p = .ok L) (hL' : infosOf q = .ok L)
    (hf : parameters q (some true) = parameters p (some true))
    (hg : EachParam (fun d t v => GoodField d rs t v) q) (hd : AllDefinite rs q)
    (hne : rs = rs₀ ∨ (∃ i, inB rs₀ i = true) ∧ AllClasses NoFixed p) : ValidOf K S rs q := by
  obtain ⟨p₀, q₀, rfl, hi⟩ := hp
  have hn : AllClasses (fun c => rs = rs₀ ∨ NoFixed c) q := by
    refine SameTree.classes ht ?_
    rcases hne with h | ⟨_, h⟩
    · exact allClasses_const (fun _ => .inl h) _
    · exact AllClasses.imp (fun _ => .inr) h
  refine transfers hS (fun s => transfers_simple (hne.imp_right And.left) s) p₀ q₀ hi q hwq ?_
  refine Dist.sameLeaf hw hwq ht hL hL' (fun _ => ?_)
    (eachNode_of (fun c d v h1 h2 h3 => ⟨h2, h3, h1⟩) hn hg hd)
  rw [parameters_eq hw, parameters_eq hwq] at hf
  exact hf.symm

end Efax
