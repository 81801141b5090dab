import Verif.Lemmas.Dot
import Verif.Model.Joint
import Verif.Props.Samples
import Verif.Lemmas.Classes

/-!
# C19, C27: structures of natural and expectation parametrizations; fixed parameters under conversion
-/

namespace Efax

open ClassTable Spec

variable {C : Type} [ClassTable C]

namespace Spec

mutual
/-- `Converted p q`: `q` has the names of `p`, and each class is replaced by the expectation class;
the dimension of every node is the same. -/
def Converted : Dist C → Dist C → Prop
  | .mk c v s, .mk c' v' s' => expCls c = some c' ∧ dimensions c' v' = dimensions c v ∧
      Converteds s s'
/-- `Converted` for all sub-distributions. -/
def Converteds : Subs C → Subs C → Prop
  | .nil, .nil => True
  | .cons n d r, .cons n' d' r' => n = n' ∧ Converted d d' ∧ Converteds r r'
  | _, _ => False
end

mutual
/-- Every class in the tree satisfies `P`. -/
def AllClasses (P : C → Prop) : Dist C → Prop
  | .mk c _ s => P c ∧ AllClassess P s
/-- `AllClasses` for all sub-distributions. -/
def AllClassess (P : C → Prop) : Subs C → Prop
  | .nil => True
  | .cons _ d r => AllClasses P d ∧ AllClassess P r
end

/-- Natural and expectation classes correspond. -/
def Corresponds (C : Type) [ClassTable C] : Prop :=
  ∀ c c' : C, expCls c = some c' ↔ natCls c' = some c

end Spec

/-- **C19.** In efax, `expectation_parametrization_cls` and `natural_parametrization_cls` are inverse
to each other. -/
theorem C19_classes [MachEps] : Corresponds Cls := by
  intro c c'
  change Cls.expCls c = some c' ↔ Cls.natCls c' = some c
  cases c <;> cases c' <;> simp [Cls.expCls, Cls.natCls]

/-- **C19.** For each family the two classes declare the same number of parameters, with the same axes
and the same fixed flags, in the same order; both or none are joint; both or none are
multidimensional; and they have the same domain. -/
theorem C19_fields [MachEps] {c c' : Cls} (h : Cls.expCls c = some c') :
    List.Forall₂ (fun f g => f.fixed = g.fixed ∧ f.support.axes = g.support.axes)
      (Cls.fields c) (Cls.fields c') ∧ c.isJoint = c'.isJoint ∧
    c.isMultidimensional = c'.isMultidimensional ∧ Cls.domainSupport c = Cls.domainSupport c' := by
  cases c <;> simp only [Cls.expCls, Option.some.injEq, reduceCtorEq] at h <;> subst h <;>
    simp [Cls.fields, Cls.isJoint, Cls.isMultidimensional, Support.axes, Cls.domainSupport]

/-- **C19.** Every family of efax has a natural and an expectation class. -/
theorem C19_families : ∀ c : Cls, (∃ c', Cls.expCls c = some c') ∨ (∃ c', Cls.natCls c = some c') ∨
    c ∈ [Cls.gammaVP, Cls.mvNormalVP, Cls.diagonalNormalVP, Cls.normalVP] := by
  intro c
  cases c <;> simp [Cls.expCls, Cls.natCls]

theorem infosToExp_eq {L L' : List (Info C)} (h : infosToExp L = .ok L') :
    List.Forall₂ (fun i i' => expCls i.cls = some i'.cls ∧ i'.path = i.path ∧ i'.dims = i.dims ∧
      i'.subNames = i.subNames) L L' := by
  refine (mapM_eq_ok h).imp fun i i' e => ?_
  cases hc : expCls i.cls with
  | none => simp [hc] at e
  | some c =>
    simp only [hc, Except.ok.injEq] at e
    subst e
    exact ⟨rfl, rfl, rfl, rfl⟩

theorem infosToNat_eq {L L' : List (Info C)} (h : infosToNat L = .ok L') :
    List.Forall₂ (fun i i' => natCls i.cls = some i'.cls ∧ i'.path = i.path ∧ i'.dims = i.dims ∧
      i'.subNames = i.subNames) L L' := by
  refine (mapM_eq_ok h).imp fun i i' e => ?_
  cases hc : natCls i.cls with
  | none => simp [hc] at e
  | some c =>
    simp only [hc, Except.ok.injEq] at e
    subst e
    exact ⟨rfl, rfl, rfl, rfl⟩

/-- **C19.** `to_exp` keeps the paths, dimensions and names, in order, and replaces every class by its
expectation class. -/
theorem C19_to_exp {L L' : List (Info C)} (h : infosToExp L = .ok L') :
    List.Forall₂ (fun i i' => expCls i.cls = some i'.cls ∧ i'.path = i.path ∧ i'.dims = i.dims ∧
      i'.subNames = i.subNames) L L' := infosToExp_eq h

/-- **C19.** `to_nat` keeps the paths, dimensions and names, in order, and replaces every class by its
natural class. -/
theorem C19_to_nat {L L' : List (Info C)} (h : infosToNat L = .ok L') :
    List.Forall₂ (fun i i' => natCls i.cls = some i'.cls ∧ i'.path = i.path ∧ i'.dims = i.dims ∧
      i'.subNames = i.subNames) L L' := infosToNat_eq h

theorem forall₂_mapM {A B : Type} {f : A → Except Err B} {l : List A} {r : List B}
    (h : List.Forall₂ (fun a b => f a = .ok b) l r) : l.mapM f = .ok r := by
  induction h with
  | nil => rfl
  | cons h _ ih => rw [List.mapM_cons, h, ih]; rfl

/-- **C19.** `Structure.to_nat(Structure.to_exp(s)) == s` and the other way round. -/
theorem C19_inverse (hc : Corresponds C) {L L' : List (Info C)} :
    infosToExp L = .ok L' ↔ infosToNat L' = .ok L := by
  constructor
  · intro h
    refine forall₂_mapM ((infosToExp_eq h).flip.imp ?_)
    rintro i' i ⟨h1, h2, h3, h4⟩
    rw [(hc _ _).1 h1]
    obtain ⟨p, c, d, s⟩ := i
    simp_all
  · intro h
    refine forall₂_mapM ((infosToNat_eq h).flip.imp ?_)
    rintro i' i ⟨h1, h2, h3, h4⟩
    rw [(hc _ _).2 h1]
    obtain ⟨p, c, d, s⟩ := i
    simp_all

mutual
theorem Dist.infos_classes {P : C → Prop} {base : Path} : {p : Dist C} → {L : List (Info C)} →
    AllClasses P p → p.walk makeInfo base = .ok L → ∀ i ∈ L, P i.cls
  | .mk c v s, L, h, hw, i, hi => by
    obtain ⟨a, b, h1, h2, rfl⟩ := Dist.walk_eq_ok hw
    rcases List.mem_append.1 hi with hi | hi
    · exact Subs.infos_classes h.2 h1 i hi
    · rw [List.mem_singleton.1 hi]
      have := makeInfo_eq_ok h2
      obtain ⟨d, hd⟩ := this
      simp_all [AllClasses, Dist.cls]
theorem Subs.infos_classes {P : C → Prop} {base : Path} : {s : Subs C} → {L : List (Info C)} →
    AllClassess P s → s.walk makeInfo base = .ok L → ∀ i ∈ L, P i.cls
  | .nil, L, _, hw, i, hi => by
    rw [Subs.walk] at hw
    cases hw
    simp at hi
  | .cons n d r, L, h, hw, i, hi => by
    obtain ⟨a, b, h1, h2, rfl⟩ := Subs.walk_eq_ok hw
    rcases List.mem_append.1 hi with hi | hi
    · exact Dist.infos_classes h.1 h1 i hi
    · exact Subs.infos_classes h.2 h2 i hi
end

/-- **C19.** `to_exp` is defined on the structures of natural parametrizations. -/
theorem C19_to_exp_defined {p : Dist C} (h : AllClasses (fun c => ∃ c', expCls c = some c') p)
    {L : List (Info C)} (hL : infosOf p = .ok L) : ∃ L', infosToExp L = .ok L' := by
  have hcls := Dist.infos_classes h hL
  clear hL
  induction L with
  | nil => exact ⟨[], rfl⟩
  | cons i L ih =>
    obtain ⟨c', hc'⟩ := hcls i (by simp)
    obtain ⟨L', hL'⟩ := ih fun j hj => hcls j (by simp [hj])
    refine ⟨{ i with cls := c' } :: L', ?_⟩
    rw [infosToExp] at hL' ⊢
    rw [List.mapM_cons, hL']
    simp only [hc']
    rfl

/-- **C19.** `to_nat` is defined on the structures of expectation parametrizations. -/
theorem C19_to_nat_defined {p : Dist C} (h : AllClasses (fun c => ∃ c', natCls c = some c') p)
    {L : List (Info C)} (hL : infosOf p = .ok L) : ∃ L', infosToNat L = .ok L' := by
  have hcls := Dist.infos_classes h hL
  clear hL
  induction L with
  | nil => exact ⟨[], rfl⟩
  | cons i L ih =>
    obtain ⟨c', hc'⟩ := hcls i (by simp)
    obtain ⟨L', hL'⟩ := ih fun j hj => hcls j (by simp [hj])
    refine ⟨{ i with cls := c' } :: L', ?_⟩
    rw [infosToNat] at hL' ⊢
    rw [List.mapM_cons, hL']
    simp only [hc']
    rfl

mutual
theorem Dist.converted_infos {base : Path} : {p q : Dist C} → {L : List (Info C)} → Converted p q →
    p.walk makeInfo base = .ok L → ∃ L', q.walk makeInfo base = .ok L' ∧ infosToExp L = .ok L'
  | .mk c v s, .mk c' v' s', L, h, hw => by
    obtain ⟨a, b, h1, h2, rfl⟩ := Dist.walk_eq_ok hw
    obtain ⟨a', a1, a2⟩ := Subs.converted_infos h.2.2 h1
    have hn := Subs.converted_names h.2.2
    cases hd : dimensions c v with
    | error e => simp [makeInfo, Dist.cls, Dist.vals, hd, bind, Except.bind] at h2
    | ok d =>
      simp only [makeInfo, Dist.cls, Dist.vals, Dist.subs, hd, bind, Except.bind,
        Except.ok.injEq] at h2
      subst h2
      refine ⟨a' ++ [⟨base, c', d, s'.names⟩], ?_, ?_⟩
      · refine Dist.walk_ok a1 ?_
        simp [makeInfo, Dist.cls, Dist.vals, Dist.subs, h.2.1, hd, bind, Except.bind]
      · rw [infosToExp] at a2 ⊢
        rw [List.mapM_append, a2]
        simp only [List.mapM_cons, List.mapM_nil, h.1, hn]
        rfl
theorem Subs.converted_infos {base : Path} : {s t : Subs C} → {L : List (Info C)} →
    Converteds s t → s.walk makeInfo base = .ok L →
    ∃ L', t.walk makeInfo base = .ok L' ∧ infosToExp L = .ok L'
  | .nil, .nil, L, _, hw => by
    rw [Subs.walk] at hw
    cases hw
    exact ⟨[], rfl, rfl⟩
  | .cons n d r, .cons n' d' r', L, h, hw => by
    obtain ⟨rfl, h1, h2⟩ := h
    obtain ⟨a, b, w1, w2, rfl⟩ := Subs.walk_eq_ok hw
    obtain ⟨a', a1, a2⟩ := Dist.converted_infos h1 w1
    obtain ⟨b', b1, b2⟩ := Subs.converted_infos h2 w2
    refine ⟨a' ++ b', Subs.walk_ok a1 b1, ?_⟩
    rw [infosToExp] at a2 b2 ⊢
    rw [List.mapM_append, a2, b2]
    rfl
theorem Subs.converted_names : {s t : Subs C} → Converteds s t → s.names = t.names
  | .nil, .nil, _ => rfl
  | .cons n d r, .cons n' d' r', h => by
    obtain ⟨rfl, _, h2⟩ := h
    simp [Subs.names, Subs.converted_names h2]
end

mutual
theorem Dist.toExp_converted {leaf : C → List Val → Except Err (List Val)}
    (hl : ∀ c c' v v', expCls c = some c' → leaf c v = .ok v' → dimensions c' v' = dimensions c v)
    (hj : ∀ (c c' : C) v v', isJoint c = true → expCls c = some c' → dimensions c' v' = dimensions c v) :
    {p q : Dist C} → WF p → p.toExp leaf = .ok q → Converted p q
  | .mk c v s, q, hw, h => by
    rw [Dist.toExp] at h
    cases hc : expCls c with
    | none => simp [hc] at h
    | some c' =>
      simp only [hc] at h
      split_ifs at h with hji
      · cases hs : Subs.toExp leaf s with
        | error e => simp [hs, bind, Except.bind] at h
        | ok s' =>
          simp only [hs, bind, Except.bind, Except.ok.injEq] at h
          subst h
          exact ⟨hc, hj c c' v [] hji hc, Subs.toExp_converted hl hj hw.2.2.2 hs⟩
      · cases hv : leaf c v with
        | error e => simp [hv, bind, Except.bind] at h
        | ok v' =>
          simp only [hv, bind, Except.bind, Except.ok.injEq] at h
          subst h
          have : s = .nil := by
            by_contra hs
            exact hji (hw.2.1.2 hs)
          subst this
          exact ⟨hc, hl c c' v v' hc hv, trivial⟩
theorem Subs.toExp_converted {leaf : C → List Val → Except Err (List Val)}
    (hl : ∀ c c' v v', expCls c = some c' → leaf c v = .ok v' → dimensions c' v' = dimensions c v)
    (hj : ∀ (c c' : C) v v', isJoint c = true → expCls c = some c' → dimensions c' v' = dimensions c v) :
    {s t : Subs C} → WFs s → s.toExp leaf = .ok t → Converteds s t
  | .nil, t, _, h => by
    rw [Subs.toExp] at h
    cases h
    trivial
  | .cons n d r, t, hw, h => by
    rw [Subs.toExp] at h
    cases hd : Dist.toExp leaf d with
    | error e => simp [hd, bind, Except.bind] at h
    | ok d' =>
      cases hr : Subs.toExp leaf r with
      | error e => simp [hd, hr, bind, Except.bind] at h
      | ok r' =>
        simp only [hd, hr, bind, Except.bind, Except.ok.injEq] at h
        subst h
        exact ⟨rfl, Dist.toExp_converted hl hj hw.1 hd, Subs.toExp_converted hl hj hw.2 hr⟩
end

/-- **C19.** Converting the structure is the same as taking the structure of the converted
distribution: `Structure.create(p).to_exp() == Structure.create(p.to_exp())`, when `to_exp` of the
simple classes keeps the dimension. -/
theorem C19_commute [MachEps] {leaf : Cls → List Val → Except Err (List Val)}
    (hl : ∀ c c' v v', Cls.expCls c = some c' → leaf c v = .ok v' →
      Cls.dimensions c' v' = Cls.dimensions c v)
    {p q : Dist Cls} (hw : WF p) (h : p.toExp leaf = .ok q) {L : List (Info Cls)}
    (hL : infosOf p = .ok L) : ∃ L', infosOf q = .ok L' ∧ infosToExp L = .ok L' := by
  refine Dist.converted_infos (Dist.toExp_converted hl (fun c c' v v' hj hc => ?_) hw h) hL
  have hj : Cls.isJoint c = true := hj
  have hc : Cls.expCls c = some c' := hc
  cases c <;> simp [Cls.isJoint] at hj <;> cases c' <;> simp [Cls.expCls] at hc
  rfl

/-- Non-vacuity of C19: a conversion that keeps the shapes exists, and is defined on the nested
sample. -/
example [MachEps] : ∃ q L, Samples.joint.toExp (fun _ v => .ok v) = .ok q ∧
    infosOf Samples.joint = .ok L ∧ AllClasses (fun c => ∃ c', expCls c = some c') Samples.joint ∧
    ∀ (c c' : Cls) (v v' : List Val), Cls.expCls c = some c' → (Except.ok v : Except Err _) = .ok v' →
      Cls.dimensions c' v' = Cls.dimensions c v := by
  refine ⟨_, _, rfl, rfl, ?_, ?_⟩
  · exact ⟨⟨.jointE, rfl⟩, ⟨⟨.gammaEP, rfl⟩, trivial⟩, ⟨⟨.jointE, rfl⟩, ⟨⟨.weibullEP, rfl⟩, trivial⟩,
      ⟨⟨.mvNormalEP, rfl⟩, trivial⟩, trivial⟩, trivial⟩
  · rintro c c' v _ hc ⟨⟩
    have hm := (C19_fields hc).2.2.1
    simp only [Cls.dimensions, hm]

end Efax
