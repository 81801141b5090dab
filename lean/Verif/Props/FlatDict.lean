import Verif.Model.FlatDict
import Verif.Spec.Clamped
import Verif.Props.Sampling
import Verif.Props.Trees

/-!
# C78: distributions and observations by path
-/

namespace Efax

open ClassTable Spec

variable {C : Type} [ClassTable C]

/-! ## The simple parts -/

theorem subAt_simple {c : C} {vals : List Val} {k : Path} {q : Dist C} :
    SubAt (.mk c vals .nil) k q ↔ k = [] ∧ q = .mk c vals .nil := by
  constructor
  · rintro (_ | ⟨h, _⟩)
    · exact ⟨rfl, rfl⟩
    · simp [Subs.toList] at h
  · rintro ⟨rfl, rfl⟩
    exact .here _

mutual
theorem mem_simpleParts {pre k : Path} {q : Dist C} : {p : Dist C} → WF p → ((k, q) ∈ simpleParts pre p ↔
    ∃ k', k = pre ++ k' ∧ SubAt p k' q ∧ isJoint q.cls = false)
  | .mk c vals subs, hw => by
    rw [simpleParts]
    by_cases hc : isJoint c = true
    · rw [if_pos hc, mem_subParts hw.2.2.2]
      constructor
      · rintro ⟨n, d, k', h, rfl, h1, h2⟩
        exact ⟨_, rfl, .sub h h1, h2⟩
      · rintro ⟨k', rfl, h1, h2⟩
        cases h1 with
        | here => exact absurd hc (by rw [← Dist.cls.eq_1 c vals subs, h2]; simp)
        | sub h h1 => exact ⟨_, _, _, h, rfl, h1, h2⟩
    · rw [if_neg hc]
      have hs : subs = .nil := by
        by_contra h
        exact hc (hw.2.1.2 h)
      subst hs
      rw [List.mem_singleton, Prod.mk.injEq]
      constructor
      · rintro ⟨rfl, rfl⟩
        exact ⟨[], by simp, .here _, by simpa [Dist.cls] using hc⟩
      · rintro ⟨k', rfl, h1, h2⟩
        obtain ⟨rfl, rfl⟩ := subAt_simple.1 h1
        simp
theorem mem_subParts {pre k : Path} {q : Dist C} : {s : Subs C} → WFs s → ((k, q) ∈ subParts pre s ↔
    ∃ n d k', (n, d) ∈ s.toList ∧ k = pre ++ n :: k' ∧ SubAt d k' q ∧ isJoint q.cls = false)
  | .nil, _ => by simp [subParts, Subs.toList]
  | .cons n d r, hw => by
    rw [subParts, List.mem_append, mem_simpleParts hw.1, mem_subParts hw.2]
    constructor
    · rintro (⟨k', rfl, h⟩ | ⟨n', d', k', h1, h⟩)
      · exact ⟨n, d, k', by simp [Subs.toList], by simp, h⟩
      · exact ⟨n', d', k', by simp [Subs.toList, h1], h⟩
    · rintro ⟨n', d', k', h1, rfl, h⟩
      rw [Subs.toList, List.mem_cons] at h1
      rcases h1 with h1 | h1
      · cases h1
        exact .inl ⟨k', by simp, h⟩
      · exact .inr ⟨n', d', k', h1, rfl, h⟩
end

theorem mem_names {s : Subs C} {n : String} : n ∈ s.names ↔ ∃ d, (n, d) ∈ s.toList := by
  induction s using Subs.rec (motive_1 := fun _ => True) with
  | mk => trivial
  | nil => simp [Subs.names, Subs.toList]
  | cons m d r _ ih =>
    simp only [Subs.names, Subs.toList, List.mem_cons, ih, Prod.mk.injEq]
    constructor
    · rintro (rfl | ⟨d', h⟩)
      · exact ⟨d, .inl ⟨rfl, rfl⟩⟩
      · exact ⟨d', .inr h⟩
    · rintro ⟨d', ⟨rfl, rfl⟩ | h⟩
      · exact .inl rfl
      · exact .inr ⟨d', h⟩

theorem names_unique {s : Subs C} (h : s.names.Nodup) {n : String} {d d' : Dist C} (h1 : (n, d) ∈ s.toList)
    (h2 : (n, d') ∈ s.toList) : d = d' := by
  induction s using Subs.rec (motive_1 := fun _ => True) with
  | mk => trivial
  | nil => simp [Subs.toList] at h1
  | cons m e r _ ih =>
    rw [Subs.names, List.nodup_cons] at h
    rw [Subs.toList, List.mem_cons] at h1 h2
    rcases h1 with h1 | h1 <;> rcases h2 with h2 | h2
    · cases h1; cases h2; rfl
    · cases h1; exact absurd (mem_names.2 ⟨_, h2⟩) h.1
    · cases h2; exact absurd (mem_names.2 ⟨_, h1⟩) h.1
    · exact ih h.2 h1 h2

mutual
theorem simpleParts_nodup (pre : Path) : {p : Dist C} → WF p → ((simpleParts pre p).map Prod.fst).Nodup
  | .mk c vals subs, hw => by
    rw [simpleParts]
    split_ifs
    · exact subParts_nodup pre hw.2.2.1 hw.2.2.2
    · simp
theorem subParts_nodup (pre : Path) : {s : Subs C} → s.names.Nodup → WFs s →
    ((subParts pre s).map Prod.fst).Nodup
  | .nil, _, _ => by simp [subParts]
  | .cons n d r, hn, hw => by
    rw [Subs.names, List.nodup_cons] at hn
    rw [subParts, List.map_append, List.nodup_append]
    refine ⟨simpleParts_nodup _ hw.1, subParts_nodup pre hn.2 hw.2, ?_⟩
    intro k hk k' hk' he
    subst he
    obtain ⟨⟨k1, q1⟩, h1, rfl⟩ := List.mem_map.1 hk
    obtain ⟨⟨k2, q2⟩, h2, h3⟩ := List.mem_map.1 hk'
    obtain rfl : k2 = k1 := h3
    obtain ⟨a, rfl, -⟩ := (mem_simpleParts hw.1).1 h1
    obtain ⟨n', d', b, h4, h5, -⟩ := (mem_subParts hw.2).1 h2
    have : n = n' := by simpa using congrArg (fun l => l.drop pre.length |>.head?) h5
    subst this
    exact hn.1 (mem_names.2 ⟨_, h4⟩)
end

/-! ## The dictionaries -/

/-- **C78.** `flat_dict_of_parameters(d)` lists every simple part of a distribution once, under its path. -/
theorem C78_parameters {p : Dist C} (hp : WF p) : ∃ d, flatDictOfParameters p = .ok d ∧ d.keys.Nodup ∧
    ∀ k q, (k, q) ∈ d ↔ SubAt p k q ∧ isJoint q.cls = false := by
  have h : flatDictOfParameters p = .ok (simpleParts [] p) := by
    obtain ⟨c, vals, subs⟩ := p
    rw [flatDictOfParameters, simpleParts]
    split_ifs with hc
    · obtain ⟨r, h1, h2, -⟩ := C26_as_dict subs
      rw [h1]
      change Except.ok (flattenMapping r) = _
      rw [flattenMapping, h2, Dict.ofList_eq (subParts_nodup [] hp.2.2.1 hp.2.2.2)]
    · rfl
  refine ⟨_, h, simpleParts_nodup [] hp, fun k q => ?_⟩
  rw [mem_simpleParts hp]
  simp

/-- **C78.** A simple distribution is listed under the empty path. -/
theorem C78_simple (c : C) (vals : List Val) (subs : Subs C) (hc : isJoint c = false) :
    flatDictOfParameters (.mk c vals subs) = .ok [([], .mk c vals subs)] := by
  rw [flatDictOfParameters, if_neg (by simp [hc])]

theorem flatDictOfObservations_eq {A : Type} {x : Tree A} (hx : Tree.Distinct x) :
    flatDictOfObservations x = x.leaves [] := by
  cases x with
  | leaf a => rfl
  | node f => exact Dict.ofList_eq (Forest.leaves_nodup hx)

/-- **C78.** `flat_dict_of_observations(x)` lists every array of a nested observation once, under its path;
a single array under the empty path. -/
theorem C78_observations {A : Type} {x : Tree A} (hx : Tree.Distinct x) :
    (flatDictOfObservations x).keys.Nodup ∧ ∀ k a, (k, a) ∈ flatDictOfObservations x ↔
      (x = .leaf a ∧ k = []) ∨ ∃ f, x = .node f ∧ LeafAt f k a := by
  rw [flatDictOfObservations_eq hx]
  exact ⟨Tree.leaves_nodup hx, fun k a => Tree.mem_leaves⟩

mutual
theorem Spec.Observes.mem {A : Type} {k : Path} : {d : Dist C} → {x : Tree A} → WF d → Observes d x →
    ((∃ a, (k, a) ∈ x.leaves []) ↔ ∃ q, SubAt d k q ∧ isJoint q.cls = false)
  | .mk c vals subs, .leaf a, hw, h => by
    have hc : isJoint c = false := h
    have hs : subs = .nil := by
      by_contra h'
      exact absurd (hw.2.1.2 h') (by simp [hc])
    subst hs
    simp only [Tree.leaves, List.mem_singleton, Prod.mk.injEq]
    constructor
    · rintro ⟨_, rfl, -⟩
      exact ⟨_, .here _, hc⟩
    · rintro ⟨q, h1, -⟩
      exact ⟨a, (subAt_simple.1 h1).1, rfl⟩
  | .mk c vals subs, .node f, hw, h => by
    rw [Tree.leaves, Spec.ObservesAll.mem hw.2.2.1 hw.2.2.2 h.2.2]
    constructor
    · rintro ⟨n, d, k', q, -, h1, rfl, h2, h3⟩
      exact ⟨q, .sub h1 h2, h3⟩
    · rintro ⟨q, h1, h2⟩
      cases h1 with
      | here => exact absurd h2 (by rw [h.1]; simp)
      | sub h3 h4 => exact ⟨_, _, _, q, (h.2.1 _).2 (mem_names.2 ⟨_, h3⟩), h3, rfl, h4, h2⟩
theorem Spec.ObservesAll.mem {A : Type} {k : Path} : {s : Subs C} → {f : Forest A} → s.names.Nodup → WFs s →
    ObservesAll s f → ((∃ a, (k, a) ∈ f.leaves []) ↔
      ∃ n d k' q, n ∈ f.keys ∧ (n, d) ∈ s.toList ∧ k = n :: k' ∧ SubAt d k' q ∧ isJoint q.cls = false)
  | s, .nil, _, _, _ => by simp [Forest.leaves, Forest.keys]
  | s, .cons n t r, hn, hw, h => by
    obtain ⟨⟨d, hd, ht⟩, hr⟩ := h
    have hwd : WF d := by
      clear * - hw hd
      induction s using Subs.rec (motive_1 := fun _ => True) with
      | mk => trivial
      | nil => simp [Subs.toList] at hd
      | cons m e r _ ih =>
        rw [Subs.toList, List.mem_cons] at hd
        rcases hd with hd | hd
        · cases hd; exact hw.1
        · exact ih hw.2 hd
    have h1 := fun k' => Spec.Observes.mem (k := k') hwd ht
    have h2 := Spec.ObservesAll.mem (k := k) hn hw hr
    rw [Forest.leaves_cons]
    simp only [List.mem_append, exists_or, h2, List.mem_map, Prod.mk.injEq, Forest.keys, List.mem_cons]
    constructor
    · rintro (⟨a, ⟨k', a'⟩, h3, rfl, rfl⟩ | ⟨m, d', k', q, h3, h4⟩)
      · obtain ⟨q, h4⟩ := (h1 k').1 ⟨a', h3⟩
        exact ⟨n, d, k', q, .inl rfl, hd, rfl, h4⟩
      · exact ⟨m, d', k', q, .inr h3, h4⟩
    · rintro ⟨m, d', k', q, rfl | h3, h4, rfl, h5⟩
      · obtain rfl := names_unique hn h4 hd
        obtain ⟨a, ha⟩ := (h1 k').2 ⟨q, h5⟩
        exact .inl ⟨a, (k', a), ha, rfl, rfl⟩
      · exact .inr ⟨m, d', k', q, h3, h4, rfl, h5⟩
end

/-- **C78.** The dictionaries of a distribution and of an observation that is nested as the distribution
have the same paths. -/
theorem C78_same_paths {A : Type} {p : Dist C} (hp : WF p) {x : Tree A} (hx : Tree.Distinct x)
    (h : Observes p x) : ∃ d, flatDictOfParameters p = .ok d ∧ d.keys.Perm (flatDictOfObservations x).keys := by
  obtain ⟨d, h1, h2, h3⟩ := C78_parameters hp
  obtain ⟨h4, -⟩ := C78_observations hx
  refine ⟨d, h1, (List.perm_ext_iff_of_nodup h2 h4).2 fun k => ?_⟩
  rw [flatDictOfObservations_eq hx]
  have h5 := Spec.Observes.mem (k := k) hp h
  simp only [Dict.keys, List.mem_map, Prod.exists, exists_and_right, exists_eq_right]
  rw [h5]
  exact exists_congr fun q => h3 k q

/-! ## Clamping -/

/-- The part at a path, with the clamped value. -/
def Hit (e : ℝ) (d : Dist C) (k : Path) (v v' : Val) : Prop :=
  ∃ q s, SubAt d k q ∧ isJoint q.cls = false ∧ domainSupport q.cls = some s ∧ s.clamp e v = .ok v'

/-- The items of a flat dictionary, clamped one by one. -/
def Hits (R : Path → Val → Val → Prop) (l l' : List (Path × Val)) : Prop :=
  List.Forall₂ (fun kv kv' => kv'.1 = kv.1 ∧ R kv.1 kv.2 kv'.2) l l'

theorem wf_of_mem {s : Subs C} (hw : WFs s) {n : String} {d : Dist C} (hd : (n, d) ∈ s.toList) : WF d := by
  induction s using Subs.rec (motive_1 := fun _ => True) with
  | mk => trivial
  | nil => simp [Subs.toList] at hd
  | cons m e r _ ih =>
    rw [Subs.toList, List.mem_cons] at hd
    rcases hd with hd | hd
    · cases hd; exact hw.1
    · exact ih hw.2 hd

theorem hits_below {R R' : Path → Val → Val → Prop} {n : String} (h : ∀ k v v', R (n :: k) v v' ↔ R' k v v') :
    {l l' : List (Path × Val)} → (Hits R (l.map fun kv => (n :: kv.1, kv.2)) l' ↔
      ∃ m, Hits R' l m ∧ l' = m.map fun kv => (n :: kv.1, kv.2))
  | [], l' => by
    constructor
    · rintro ⟨⟩
      exact ⟨[], .nil, rfl⟩
    · rintro ⟨m, ⟨⟩, rfl⟩
      exact .nil
  | (k, v) :: l, l' => by
    constructor
    · rintro (_ | @⟨_, ⟨k', v'⟩, _, l', ⟨rfl, h2⟩, h3⟩)
      obtain ⟨m, h4, rfl⟩ := (hits_below h).1 h3
      exact ⟨(k, v') :: m, .cons ⟨rfl, (h _ _ _).1 h2⟩ h4, rfl⟩
    · rintro ⟨m, _ | @⟨_, ⟨k', v'⟩, _, m, ⟨rfl, h2⟩, h3⟩, rfl⟩
      exact .cons ⟨rfl, (h _ _ _).2 h2⟩ ((hits_below h).2 ⟨m, h3, rfl⟩)

theorem hits_append {R : Path → Val → Val → Prop} {l m r : List (Path × Val)} :
    Hits R (l ++ m) r ↔ ∃ a b, r = a ++ b ∧ Hits R l a ∧ Hits R m b := by
  induction l generalizing r with
  | nil =>
    constructor
    · exact fun h => ⟨[], r, rfl, .nil, h⟩
    · rintro ⟨a, b, rfl, ⟨⟩, h⟩
      exact h
  | cons x l ih =>
    constructor
    · rintro (_ | @⟨_, y, _, r, h1, h2⟩)
      obtain ⟨a, b, rfl, h3, h4⟩ := ih.1 h2
      exact ⟨y :: a, b, rfl, .cons h1 h3, h4⟩
    · rintro ⟨a, b, rfl, _ | @⟨_, y, _, a, h1, h2⟩, h3⟩
      exact .cons h1 (ih.2 ⟨a, b, rfl, h2, h3⟩)

/-- The part at a path of a dictionary of parts, with the clamped value. -/
def HitIn (e : ℝ) (s : Subs C) : Path → Val → Val → Prop
  | [], _, _ => False
  | n :: k, v, v' => ∃ d, (n, d) ∈ s.toList ∧ Hit e d k v v'

mutual
theorem clamped_iff {e : ℝ} {l : List (Path × Val)} : {d : Dist C} → {x : Tree Val} → WF d → Tree.Ok x →
    (Hits (Hit e d) (x.leaves []) l ↔ ∃ y, Clamped e d x y ∧ l = y.leaves [])
  | .mk c vals subs, .leaf v, hw, _ => by
    constructor
    · rintro (_ | @⟨_, ⟨k', v'⟩, _, m, ⟨rfl, q, s, h1, h2, h3, h4⟩, h5⟩)
      cases h5
      cases h1 with
      | here => exact ⟨.leaf v', ⟨h2, s, v', h3, h4, rfl⟩, rfl⟩
    · rintro ⟨y, ⟨h2, s, v', h3, h4, rfl⟩, rfl⟩
      exact .cons ⟨rfl, _, s, .here _, h2, h3, h4⟩ .nil
  | .mk c vals subs, .node f, hw, hx => by
    have hne := Spec.Forest.Ok.leaves hx.1 hx.2
    have hR : ∀ k ≠ [], ∀ v v', Hit e (.mk c vals subs) k v v' ↔ HitIn e subs k v v' := by
      intro k hk v v'
      obtain ⟨n, k, rfl⟩ := List.exists_cons_of_ne_nil hk
      constructor
      · rintro ⟨q, s, h1, h2⟩
        cases h1 with
        | sub h h1 => exact ⟨_, h, q, s, h1, h2⟩
      · rintro ⟨d, h, q, s, h1, h2⟩
        exact ⟨q, s, .sub h h1, h2⟩
    have hH : Hits (Hit e (.mk c vals subs)) (f.leaves []) l ↔ Hits (HitIn e subs) (f.leaves []) l := by
      have key : ∀ l' : List (Path × Val), (∀ kv ∈ l', kv.1 ≠ []) → ∀ m,
          (Hits (Hit e (.mk c vals subs)) l' m ↔ Hits (HitIn e subs) l' m) := by
        intro l'
        induction l' with
        | nil => exact fun _ m => by cases m <;> simp [Hits]
        | cons x l' ih =>
          intro hl m
          cases m with
          | nil => simp [Hits]
          | cons y m =>
            simp only [Hits, List.forall₂_cons]
            rw [hR _ (hl x List.mem_cons_self)]
            exact and_congr_right fun _ => ih (fun kv h => hl kv (List.mem_cons_of_mem _ h)) m
      exact key _ (Forest.leaves_ne_nil f) l
    rw [Tree.leaves, hH, clampedAll_iff hw.2.2.1 hw.2.2.2 hx.2]
    constructor
    · rintro ⟨g, h1, h2⟩
      refine ⟨.node g, ⟨hw.2.1.2 ?_, g, rfl, h1⟩, h2⟩
      rintro rfl
      obtain ⟨k, t, r, rfl⟩ : ∃ k t r, f = .cons k t r := by
        cases f with
        | nil => exact absurd rfl hx.1
        | cons k t r => exact ⟨k, t, r, rfl⟩
      obtain ⟨d, -, -, h3, -⟩ := h1
      simp [Subs.toList] at h3
    · rintro ⟨y, ⟨-, g, rfl, h1⟩, h2⟩
      exact ⟨g, h1, h2⟩
theorem clampedAll_iff {e : ℝ} {l : List (Path × Val)} : {s : Subs C} → {f : Forest Val} → s.names.Nodup →
    WFs s → Forest.Ok f → (Hits (HitIn e s) (f.leaves []) l ↔ ∃ g, ClampedAll e s f g ∧ l = g.leaves [])
  | s, .nil, _, _, _ => by
    constructor
    · rintro ⟨⟩
      exact ⟨.nil, rfl, rfl⟩
    · rintro ⟨g, h, rfl⟩
      obtain rfl : g = .nil := h
      exact .nil
  | s, .cons n t r, hn, hw, hf => by
    rw [Forest.leaves_cons, hits_append]
    constructor
    · rintro ⟨a, b, rfl, h1, h2⟩
      obtain ⟨g, h3, rfl⟩ := (clampedAll_iff hn hw hf.2.2).1 h2
      obtain ⟨d, hd⟩ : ∃ d, (n, d) ∈ s.toList := by
        obtain ⟨kv, l', h4⟩ := List.exists_cons_of_ne_nil (Spec.Tree.Ok.leaves hf.2.1)
        rw [h4, List.map_cons] at h1
        cases h1 with
        | cons h5 _ => exact ⟨_, h5.2.choose_spec.1⟩
      obtain ⟨m, h4, rfl⟩ := (hits_below (R' := Hit e d) fun k v v' =>
        ⟨fun ⟨d', h, h'⟩ => names_unique hn h hd ▸ h', fun h => ⟨d, hd, h⟩⟩).1 h1
      obtain ⟨t', h5, rfl⟩ := (clamped_iff (wf_of_mem hw hd) hf.2.1).1 h4
      exact ⟨.cons n t' g, ⟨d, t', g, hd, rfl, h5, h3⟩, (Forest.leaves_cons ..).symm⟩
    · rintro ⟨_, ⟨d, t', g, hd, rfl, h5, h3⟩, rfl⟩
      refine ⟨_, _, Forest.leaves_cons .., (hits_below (R' := Hit e d) fun k v v' =>
        ⟨fun ⟨d', h, h'⟩ => names_unique hn h hd ▸ h', fun h => ⟨d, hd, h⟩⟩).2
          ⟨_, (clamped_iff (wf_of_mem hw hd) hf.2.1).2 ⟨t', h5, rfl⟩, rfl⟩,
        (clampedAll_iff hn hw hf.2.2).2 ⟨g, h3, rfl⟩⟩
end

mutual
theorem Spec.Clamped.ok {e : ℝ} {d : Dist C} : {x y : Tree Val} → Clamped e d x y → Tree.Ok x → Tree.Ok y
  | .leaf v, y, h, _ => by
    obtain ⟨-, s, v', -, -, rfl⟩ := h
    trivial
  | .node f, y, h, hx => by
    obtain ⟨-, g, rfl, h⟩ := h
    obtain ⟨h1, h2⟩ := Spec.ClampedAll.ok h hx.2
    refine ⟨?_, h1⟩
    rintro rfl
    cases f with
    | nil => exact hx.1 rfl
    | cons => simp [Forest.keys] at h2
theorem Spec.ClampedAll.ok {e : ℝ} {s : Subs C} : {f g : Forest Val} → ClampedAll e s f g → Forest.Ok f →
    Forest.Ok g ∧ g.keys = f.keys
  | .nil, g, h, _ => by
    obtain rfl : g = .nil := h
    exact ⟨trivial, rfl⟩
  | .cons k t r, g, h, hf => by
    obtain ⟨d, t', r', -, rfl, h1, h2⟩ := h
    obtain ⟨h3, h4⟩ := Spec.ClampedAll.ok h2 hf.2.2
    exact ⟨⟨by rw [h4]; exact hf.1, Spec.Clamped.ok h1 hf.2.1, h3⟩, by simp [Forest.keys, h4]⟩
end

theorem mapM_hits {F : Path → Val → Except Err Val} {l l' : List (Path × Val)} :
    (l.mapM fun kv => do .ok (kv.1, ← F kv.1 kv.2)) = .ok l' ↔ Hits (fun k v v' => F k v = .ok v') l l' := by
  induction l generalizing l' with
  | nil =>
    constructor
    · rintro ⟨⟩
      exact .nil
    · rintro ⟨⟩
      rfl
  | cons kv l ih =>
    rw [List.mapM_cons]
    constructor
    · intro h
      cases h1 : F kv.1 kv.2 with
      | error e => rw [h1] at h; cases h
      | ok v' =>
        cases h2 : (l.mapM fun kv => do .ok (kv.1, ← F kv.1 kv.2)) with
        | error e => rw [h1] at h; simp only [bind, Except.bind] at h h2; rw [h2] at h; cases h
        | ok m =>
          rw [h1] at h
          simp only [bind, Except.bind] at h h2
          rw [h2] at h
          cases h
          exact .cons ⟨rfl, h1⟩ (ih.1 h2)
    · rintro (_ | @⟨_, ⟨k', v'⟩, _, m, ⟨rfl, h1⟩, h2⟩)
      have h3 := ih.2 h2
      simp only [bind, Except.bind] at h3
      simp only [bind, Except.bind, h3, h1]
      rfl

/-- **C78.** The tests' clamping of an observation succeeds with `y` exactly if every array of the
observation belongs to a simple part of the distribution and can be clamped to its domain; `y` is nested as
the observation and has the clamped arrays. -/
theorem C78_clamp {e : ℝ} {p : Dist C} (hp : WF p) {x y : Tree Val} (hx : Tree.Ok x) :
    clampObservation e p x = .ok y ↔ Clamped e p x y := by
  obtain ⟨ps, h1, h2, h3⟩ := C78_parameters hp
  have hF : ∀ k v v', clampAt e ps k v = .ok v' ↔ Hit e p k v v' := by
    intro k v v'
    unfold clampAt Dict.get
    constructor
    · intro h
      cases hg : ps.get? k with
      | none => rw [hg] at h; cases h
      | some q =>
        rw [hg] at h
        obtain ⟨h4, h5⟩ := (h3 k q).1 (Dict.mem_of_get? hg)
        simp only [bind, Except.bind] at h
        cases hs : domainSupport q.cls with
        | none => rw [hs] at h; cases h
        | some s => rw [hs] at h; exact ⟨q, s, h4, h5, hs, h⟩
    · rintro ⟨q, s, h4, h5, h6, h7⟩
      rw [Dict.get?_of_mem h2 ((h3 k q).2 ⟨h4, h5⟩)]
      simp only [bind, Except.bind, h6]
      exact h7
  have hM : ∀ l, ((flatDictOfObservations x).mapM fun kv => do .ok (kv.1, ← clampAt e ps kv.1 kv.2)) = .ok l ↔
      ∃ y, Clamped e p x y ∧ l = y.leaves [] := by
    intro l
    rw [mapM_hits, flatDictOfObservations_eq hx.distinct, ← clamped_iff hp hx]
    simp only [hF]
  have hE : clampObservation e p x = (do
      let clamped ← (flatDictOfObservations x).mapM fun kv => do .ok (kv.1, ← clampAt e ps kv.1 kv.2)
      if (∀ k ∈ Dict.keys clamped, k = []) ∧ ([] : Path) ∈ Dict.keys clamped then do
        .ok (.leaf (← Dict.get clamped []))
      else do
        .ok (.node (← unflattenMapping clamped))) := by
    rw [clampObservation, h1]
    rfl
  have hT : ∀ y, Clamped e p x y → clampObservation e p x = .ok y := by
    intro y hy
    rw [hE, (hM _).2 ⟨y, hy, rfl⟩]
    change (if (∀ k ∈ Dict.keys (y.leaves []), k = []) ∧ ([] : Path) ∈ Dict.keys (y.leaves []) then _ else _) = _
    cases y with
    | leaf v => rfl
    | node g =>
      have hok : Tree.Ok (.node g) := hy.ok hx
      rw [if_neg]
      · have h4 : unflattenMapping (g.leaves []) = .ok g := by
          have := C23_unflatten_flatten hok.2
          rwa [flattenMapping, Dict.ofList_eq (Forest.leaves_nodup hok.2.distinct)] at this
        rw [Tree.leaves, h4]
        rfl
      · rintro ⟨-, h5⟩
        obtain ⟨kv, h6, h7⟩ := List.mem_map.1 h5
        exact Forest.leaves_ne_nil g kv h6 h7
  refine ⟨fun h => ?_, hT y⟩
  cases hm : ((flatDictOfObservations x).mapM fun kv => do .ok (kv.1, ← clampAt e ps kv.1 kv.2)) with
  | error e' =>
    rw [hE, hm] at h
    cases h
  | ok l =>
    obtain ⟨y', hy', -⟩ := (hM l).1 hm
    rw [hT y' hy'] at h
    cases h
    exact hy'

theorem clamp_defined (s : Support) (e : ℝ) (v : Val)
    (h : ∀ r, s = .simplex r → ∃ a, v = .real a ∧ a.rshape ≠ []) : ∃ v', s.clamp e v = .ok v' := by
  cases s with
  | simplex r =>
    obtain ⟨a, rfl, ha⟩ := h r rfl
    simp only [Support.clamp, Support.simplexClamp]
    cases hs : a.rshape with
    | nil => exact absurd hs ha
    | cons n rs => exact ⟨_, rfl⟩
  | _ => cases v <;> exact ⟨_, rfl⟩

/-- **C78.** In efax every observation that is nested as the distribution can be clamped, if the arrays that
belong to parts with a simplex as domain are real vectors. -/
theorem C78_clamp_defined [MachEps] {e : ℝ} {p : Dist Cls} (hp : WF p) {x : Tree Val} (hx : Tree.Ok x)
    (ho : Observes p x) (hv : ∀ k v q r, (k, v) ∈ flatDictOfObservations x → SubAt p k q →
      ClassTable.domainSupport q.cls = some (.simplex r) → ∃ a, v = .real a ∧ a.rshape ≠ []) :
    ∃ y, clampObservation e p x = .ok y ∧ Clamped e p x y := by
  have h : ∀ kv ∈ x.leaves [], ∃ v', Hit e p kv.1 kv.2 v' := by
    rintro ⟨k, v⟩ hk
    obtain ⟨q, h1, h2⟩ := (Spec.Observes.mem hp ho).1 ⟨v, hk⟩
    obtain ⟨s, hs⟩ := Option.isSome_iff_exists.1 ((C21_simple_classes q.cls).2 h2)
    obtain ⟨v', h3⟩ := clamp_defined s e v fun r hr =>
      hv k v q r (by rwa [flatDictOfObservations_eq hx.distinct]) h1 (by rw [hs, hr])
    exact ⟨v', q, s, h1, h2, hs, h3⟩
  have h' : ∃ l, Hits (Hit e p) (x.leaves []) l := by
    generalize x.leaves [] = l at h
    induction l with
    | nil => exact ⟨[], .nil⟩
    | cons kv l ih =>
      obtain ⟨v', h1⟩ := h kv List.mem_cons_self
      obtain ⟨m, h2⟩ := ih fun kv hk => h kv (List.mem_cons_of_mem _ hk)
      exact ⟨(kv.1, v') :: m, .cons ⟨rfl, h1⟩ h2⟩
  obtain ⟨l, hl⟩ := h'
  obtain ⟨y, hy, -⟩ := (clamped_iff hp hx).1 hl
  exact ⟨y, (C78_clamp hp hx).2 hy, hy⟩

/-- Non-vacuity of C78: observations of the nested joint distribution, in another order. -/
def Samples.clampedObservation : Tree Val := .node (.cons "j" (.node (.cons "n" (.leaf (c [2, 3] 4))
  (.cons "w" (.leaf (c [3] 1)) .nil))) (.cons "g" (.leaf (c [3] 2)) .nil))

example [MachEps] : Tree.Ok Samples.clampedObservation ∧ Observes Samples.joint Samples.clampedObservation ∧
    (∀ k v q r, (k, v) ∈ flatDictOfObservations Samples.clampedObservation → SubAt Samples.joint k q →
      ClassTable.domainSupport q.cls = some (.simplex r) → ∃ a, v = .real a ∧ a.rshape ≠ []) ∧
    (flatDictOfObservations Samples.clampedObservation).keys = [["j", "n"], ["j", "w"], ["g"]] := by
  refine ⟨?_, ?_, ?_, rfl⟩
  · simp [Samples.clampedObservation, Tree.Ok, Forest.Ok, Forest.keys]
  · refine ⟨rfl, ?_, ⟨_, List.mem_cons_of_mem _ (List.mem_singleton_self _), rfl, ?_,
      ⟨Samples.normal2, List.mem_cons_of_mem _ (List.mem_singleton_self _), rfl⟩,
      ⟨Samples.weibull, List.mem_cons_self, rfl⟩, trivial⟩, ⟨Samples.gamma, List.mem_cons_self, rfl⟩, trivial⟩
    · intro n
      simp [Forest.keys, Samples.joint, Dist.subs, Subs.names, or_comm]
    · intro n
      simp [Forest.keys, Dist.subs, Subs.names, or_comm]
  · intro k v q r hk _ _
    have : ∀ kv ∈ flatDictOfObservations Samples.clampedObservation, ∃ a, kv.2 = .real a ∧ a.rshape ≠ [] := by
      intro kv h
      simp only [Samples.clampedObservation, flatDictOfObservations, flattenMapping, Forest.leaves, Tree.leaves,
        List.nil_append, List.cons_append, List.append_nil] at h
      rw [Dict.ofList_eq (by decide)] at h
      simp only [List.mem_cons, List.not_mem_nil, or_false] at h
      rcases h with rfl | rfl | rfl <;> exact ⟨_, rfl, by simp [Arr.full, Arr.ofFn]⟩
    exact this _ hk

end Efax
