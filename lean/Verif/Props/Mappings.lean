import Verif.Lemmas.Tree3
import Verif.Model.Mapping

/-!
# C23, C24: nested dictionaries and joining dictionaries
-/

namespace Efax

namespace Spec

variable {A : Type}

mutual
/-- Keys are distinct at every level and no sub-dictionary is empty. -/
def Tree.Ok : Tree A → Prop
  | .leaf _ => True
  | .node f => f ≠ .nil ∧ Forest.Ok f
/-- `Tree.Ok` for all items of a dictionary with distinct keys. -/
def Forest.Ok : Forest A → Prop
  | .nil => True
  | .cons k t r => k ∉ r.keys ∧ Tree.Ok t ∧ Forest.Ok r
end

mutual
/-- Keys are distinct at every level (Python dictionaries); sub-dictionaries may be empty. -/
def Tree.Distinct : Tree A → Prop
  | .leaf _ => True
  | .node f => Forest.Distinct f
/-- `Tree.Distinct` for all items. -/
def Forest.Distinct : Forest A → Prop
  | .nil => True
  | .cons k t r => k ∉ r.keys ∧ Tree.Distinct t ∧ Forest.Distinct r
end

/-- `LeafAt m path a`: following the keys of the path in the nested dictionary leads to the value
`a`. -/
inductive LeafAt : Forest A → Path → A → Prop
  | leaf {m : Forest A} {k : String} {a : A} : (k, Tree.leaf a) ∈ m.toList → LeafAt m [k] a
  | node {m f : Forest A} {k : String} {ks : Path} {a : A} :
      (k, Tree.node f) ∈ m.toList → LeafAt f ks a → LeafAt m (k :: ks) a

mutual
/-- The nested dictionary without its empty sub-dictionaries (recursively). -/
def Tree.pruned : Tree A → Option (Tree A)
  | .leaf a => some (.leaf a)
  | .node f => match Forest.pruned f with
    | .nil => none
    | .cons k t r => some (.node (.cons k t r))
/-- `Tree.pruned` for all items. -/
def Forest.pruned : Forest A → Forest A
  | .nil => .nil
  | .cons k t r => match Tree.pruned t with
    | some t' => .cons k t' (Forest.pruned r)
    | none => Forest.pruned r
end

end Spec

open Spec

variable {A : Type}

namespace Forest

theorem keys_eq (m : Forest A) : m.keys = m.toList.map Prod.fst := by
  induction m using Forest.rec (motive_1 := fun _ => True) with
  | leaf => trivial
  | node => trivial
  | nil => rfl
  | cons k t r _ ih => simp [keys, toList, ih]

/-- Concatenation of dictionaries. -/
def append : Forest A → Forest A → Forest A
  | .nil, g => g
  | .cons k t r, g => .cons k t (append r g)

theorem append_nil (f : Forest A) : f.append .nil = f := by
  induction f using Forest.rec (motive_1 := fun _ => True) with
  | leaf => trivial
  | node => trivial
  | nil => rfl
  | cons k t r _ ih => simp [append, ih]

theorem append_assoc (f g h : Forest A) : (f.append g).append h = f.append (g.append h) := by
  induction f using Forest.rec (motive_1 := fun _ => True) with
  | leaf => trivial
  | node => trivial
  | nil => rfl
  | cons k t r _ ih => simp [append, ih]

theorem keys_append (f g : Forest A) : (f.append g).keys = f.keys ++ g.keys := by
  induction f using Forest.rec (motive_1 := fun _ => True) with
  | leaf => trivial
  | node => trivial
  | nil => rfl
  | cons k t r _ ih => simp [append, keys, ih]

theorem set_new {f : Forest A} {k : String} {t : Tree A} (h : k ∉ f.keys) :
    f.set k t = f.append (.cons k t .nil) := by
  induction f using Forest.rec (motive_1 := fun _ => True) with
  | leaf => trivial
  | node => trivial
  | nil => rfl
  | cons k' t' r _ ih =>
    simp only [keys, List.mem_cons, not_or] at h
    rw [set, if_neg (Ne.symm h.1), ih h.2]
    rfl

theorem get?_new {f : Forest A} {k : String} (h : k ∉ f.keys) : f.get? k = none := by
  induction f using Forest.rec (motive_1 := fun _ => True) with
  | leaf => trivial
  | node => trivial
  | nil => rfl
  | cons k' t' r _ ih =>
    simp only [keys, List.mem_cons, not_or] at h
    rw [get?, if_neg (Ne.symm h.1), ih h.2]

theorem get?_set (f : Forest A) (k k' : String) (t : Tree A) :
    (f.set k t).get? k' = if k = k' then some t else f.get? k' := by
  induction f using Forest.rec (motive_1 := fun _ => True) with
  | leaf => trivial
  | node => trivial
  | nil => simp [set, get?]
  | cons k₀ t₀ r _ ih =>
    by_cases h : k₀ = k
    · subst h
      simp only [set, if_true, get?]
      split_ifs <;> rfl
    · simp only [set, h, if_false, get?, ih]
      split_ifs with h1 h2
      · exact absurd (h1.trans h2.symm) h
      · rfl
      · rfl
      · rfl

theorem set_set (f : Forest A) (k : String) (t t' : Tree A) : (f.set k t).set k t' = f.set k t' := by
  induction f using Forest.rec (motive_1 := fun _ => True) with
  | leaf => trivial
  | node => trivial
  | nil => simp [set]
  | cons k₀ t₀ r _ ih =>
    by_cases h : k₀ = k <;> simp [set, h, ih]

end Forest

/-- The fold of `unflatten_mapping`. -/
def insertAll (f : Forest A) (l : List (Path × A)) : Except Err (Forest A) :=
  l.foldlM (fun f kv => insertPath f kv.1 kv.2) f

theorem insertAll_append {f g : Forest A} {l m : List (Path × A)} (h : insertAll f l = .ok g) :
    insertAll f (l ++ m) = insertAll g m := foldlM_append_ok h

/-- Insertions below one key happen in the sub-dictionary. -/
theorem insertAll_below {g h h' : Forest A} {k : String} {l : List (Path × A)}
    (hg : g.get? k = some (.node h)) (hl : ∀ kv ∈ l, kv.1 ≠ []) (hh : insertAll h l = .ok h') :
    insertAll g (l.map fun kv => (k :: kv.1, kv.2)) = .ok (g.set k (.node h')) := by
  induction l generalizing g h with
  | nil =>
    have hh : h = h' := Except.ok.inj hh
    subst hh
    have : g.set k (.node h) = g := by
      clear * - hg
      induction g using Forest.rec (motive_1 := fun _ => True) with
      | leaf => trivial
      | node => trivial
      | nil => simp [Forest.get?] at hg
      | cons k₀ t₀ r _ ih =>
        by_cases hk : k₀ = k
        · simp only [Forest.get?, hk, if_true, Option.some.injEq] at hg
          simp [Forest.set, hk, hg]
        · simp only [Forest.get?, hk, if_false] at hg
          simp [Forest.set, hk, ih hg]
    rw [this]
    rfl
  | cons kv l ih =>
    obtain ⟨p, a⟩ := kv
    obtain ⟨k', ks, rfl⟩ : ∃ k' ks, p = k' :: ks := by
      cases p with
      | nil => exact absurd rfl (hl ([], a) (by simp))
      | cons k' ks => exact ⟨k', ks, rfl⟩
    have hh : (insertPath h (k' :: ks) a >>= fun f => insertAll f l) = .ok h' := by
      rw [insertAll, List.foldlM_cons] at hh
      exact hh
    cases h1 : insertPath h (k' :: ks) a with
    | error e => rw [h1] at hh; cases hh
    | ok h1' =>
      rw [h1] at hh
      have hh : insertAll h1' l = .ok h' := hh
      have e1 : insertPath g (k :: k' :: ks) a = .ok (g.set k (.node h1')) := by
        simp only [insertPath, hg, h1, bind, Except.bind]
      have := ih (g := g.set k (.node h1')) (h := h1') (by rw [Forest.get?_set]; simp)
        (fun kv hkv => hl kv (by simp [hkv])) hh
      rw [List.map_cons, insertAll, List.foldlM_cons]
      simp only [e1]
      change insertAll (g.set k (.node h1')) _ = _
      rw [this, Forest.set_set]

/-- The first insertion below a new key creates the sub-dictionary. -/
theorem insertAll_new {g h' : Forest A} {k : String} {l : List (Path × A)} (hne : l ≠ [])
    (hg : k ∉ g.keys) (hl : ∀ kv ∈ l, kv.1 ≠ []) (hh : insertAll .nil l = .ok h') :
    insertAll g (l.map fun kv => (k :: kv.1, kv.2)) = .ok (g.append (.cons k (.node h') .nil)) := by
  cases l with
  | nil => exact absurd rfl hne
  | cons kv l =>
    obtain ⟨p, a⟩ := kv
    obtain ⟨k', ks, rfl⟩ : ∃ k' ks, p = k' :: ks := by
      cases p with
      | nil => exact absurd rfl (hl ([], a) (by simp))
      | cons k' ks => exact ⟨k', ks, rfl⟩
    have hh : (insertPath .nil (k' :: ks) a >>= fun f => insertAll f l) = .ok h' := by
      rw [insertAll, List.foldlM_cons] at hh
      exact hh
    cases h1 : insertPath (.nil : Forest A) (k' :: ks) a with
    | error e => rw [h1] at hh; cases hh
    | ok h1' =>
      rw [h1] at hh
      have hh : insertAll h1' l = .ok h' := hh
      have e1 : insertPath g (k :: k' :: ks) a = .ok (g.set k (.node h1')) := by
        simp only [insertPath, Forest.get?_new hg, h1, bind, Except.bind]
      have := insertAll_below (g := g.set k (.node h1')) (h := h1') (k := k)
        (by rw [Forest.get?_set]; simp) (fun kv hkv => hl kv (by simp [hkv])) hh
      rw [List.map_cons, insertAll, List.foldlM_cons]
      simp only [e1]
      change insertAll (g.set k (.node h1')) _ = _
      rw [this, Forest.set_set, Forest.set_new hg]

mutual
theorem Tree.leaves_pre (pre : Path) : (t : Tree A) →
    t.leaves pre = (t.leaves []).map fun kv => (pre ++ kv.1, kv.2)
  | .leaf a => by simp [Tree.leaves]
  | .node f => by rw [Tree.leaves, Tree.leaves, Forest.leaves_pre pre f]
theorem Forest.leaves_pre (pre : Path) : (f : Forest A) →
    f.leaves pre = (f.leaves []).map fun kv => (pre ++ kv.1, kv.2)
  | .nil => rfl
  | .cons k t r => by
    rw [Forest.leaves, Forest.leaves, List.map_append, ← Forest.leaves_pre pre r,
      Tree.leaves_pre (pre ++ [k]) t, Tree.leaves_pre ([] ++ [k]) t, List.map_map]
    simp [Function.comp_def]
end

theorem Forest.leaves_ne_nil : (f : Forest A) → ∀ kv ∈ f.leaves [], kv.1 ≠ []
  | .nil, kv, h => by simp [Forest.leaves] at h
  | .cons k t r, kv, h => by
    rw [Forest.leaves, List.mem_append] at h
    rcases h with h | h
    · rw [Tree.leaves_pre] at h
      obtain ⟨kv', _, rfl⟩ := List.mem_map.1 h
      simp
    · exact Forest.leaves_ne_nil r kv h

theorem Forest.leaves_cons (k : String) (t : Tree A) (r : Forest A) :
    (Forest.cons k t r).leaves [] =
      ((t.leaves []).map fun kv => (k :: kv.1, kv.2)) ++ r.leaves [] := by
  rw [Forest.leaves, Tree.leaves_pre ([] ++ [k]) t]
  rfl

mutual
theorem Spec.Tree.Ok.leaves : {t : Tree A} → Tree.Ok t → t.leaves [] ≠ []
  | .leaf a, _ => by simp [Tree.leaves]
  | .node f, h => by rw [Tree.leaves]; exact Spec.Forest.Ok.leaves h.1 h.2
theorem Spec.Forest.Ok.leaves : {f : Forest A} → f ≠ .nil → Forest.Ok f → f.leaves [] ≠ []
  | .nil, h, _ => absurd rfl h
  | .cons k t r, _, h => by
    rw [Forest.leaves_cons]
    have := Spec.Tree.Ok.leaves h.2.1
    simp [this]
end

mutual
theorem Tree.insert_leaves : {t : Tree A} → Tree.Ok t → {g : Forest A} → {k : String} → k ∉ g.keys →
    insertAll g ((t.leaves []).map fun kv => (k :: kv.1, kv.2)) = .ok (g.append (.cons k t .nil))
  | .leaf a, _, g, k, hk => by
    simp only [Tree.leaves, List.map_cons, List.map_nil, insertAll, List.foldlM_cons,
      List.foldlM_nil, insertPath]
    rw [Forest.set_new hk]
    rfl
  | .node f, h, g, k, hk => by
    have := Forest.insert_leaves (g := .nil) h.2 (by simp [Forest.keys])
    exact insertAll_new (Spec.Tree.Ok.leaves h) hk
      (fun kv hkv => Forest.leaves_ne_nil f kv (by rwa [Tree.leaves] at hkv))
      (by rw [Tree.leaves]; exact this)
theorem Forest.insert_leaves : {f : Forest A} → Forest.Ok f → {g : Forest A} →
    (∀ k ∈ f.keys, k ∉ g.keys) → insertAll g (f.leaves []) = .ok (g.append f)
  | .nil, _, g, _ => by rw [Forest.append_nil]; rfl
  | .cons k t r, h, g, hk => by
    rw [Forest.leaves_cons, insertAll_append (Tree.insert_leaves h.2.1 (hk k (by simp [Forest.keys]))),
      Forest.insert_leaves h.2.2 (fun k' hk' => ?_), Forest.append_assoc]
    · rfl
    · rw [Forest.keys_append]
      simp only [Forest.keys, List.mem_append, List.mem_singleton, not_or]
      refine ⟨hk k' (by simp [Forest.keys, hk']), ?_⟩
      rintro rfl
      exact h.1 hk'
end

mutual
theorem Tree.leaves_nodup : {t : Tree A} → Tree.Distinct t → ((t.leaves []).map Prod.fst).Nodup
  | .leaf a, _ => by simp [Tree.leaves]
  | .node f, h => by rw [Tree.leaves]; exact Forest.leaves_nodup h
theorem Forest.leaves_nodup : {f : Forest A} → Forest.Distinct f →
    ((f.leaves []).map Prod.fst).Nodup
  | .nil, _ => by simp [Forest.leaves]
  | .cons k t r, h => by
    rw [Forest.leaves_cons, List.map_append, List.nodup_append]
    refine ⟨?_, Forest.leaves_nodup h.2.2, ?_⟩
    · have := Tree.leaves_nodup h.2.1
      rw [List.map_map]
      have e : (Prod.fst ∘ fun kv : Path × A => (k :: kv.1, kv.2)) = (k :: ·) ∘ Prod.fst := rfl
      rw [e, ← List.map_map]
      exact this.map fun a b hab => by simpa using hab
    · intro a ha b hb hab
      subst hab
      obtain ⟨kv, hkv, rfl⟩ := List.mem_map.1 ha
      obtain ⟨kv', _, rfl⟩ := List.mem_map.1 hkv
      obtain ⟨kv'', h'', e⟩ := List.mem_map.1 hb
      apply h.1
      have : ∀ (r : Forest A) (kv : Path × A), kv ∈ r.leaves [] → ∃ k ∈ r.keys, ∃ ks, kv.1 = k :: ks := by
        intro r
        induction r using Forest.rec (motive_1 := fun _ => True) with
        | leaf => trivial
        | node => trivial
        | nil => intro kv h; simp [Forest.leaves] at h
        | cons k₀ t₀ r₀ _ ih =>
          intro kv h
          rw [Forest.leaves_cons, List.mem_append] at h
          rcases h with h | h
          · obtain ⟨x, _, rfl⟩ := List.mem_map.1 h
            exact ⟨k₀, by simp [Forest.keys], _, rfl⟩
          · obtain ⟨k₁, h1, h2⟩ := ih kv h
            exact ⟨k₁, by simp [Forest.keys, h1], h2⟩
      obtain ⟨k₁, h1, ks, h2⟩ := this r kv'' h''
      rw [e] at h2
      simp only [List.cons.injEq] at h2
      rw [h2.1]
      exact h1
end

mutual
theorem Spec.Tree.Ok.distinct : {t : Tree A} → Tree.Ok t → Tree.Distinct t
  | .leaf _, _ => trivial
  | .node _, h => Spec.Forest.Ok.distinct h.2
theorem Spec.Forest.Ok.distinct : {f : Forest A} → Forest.Ok f → Forest.Distinct f
  | .nil, _ => trivial
  | .cons _ _ _, h => ⟨h.1, Spec.Tree.Ok.distinct h.2.1, Spec.Forest.Ok.distinct h.2.2⟩
end

/-- **C23.** `unflatten_mapping(flatten_mapping(m)) == m` for a nested dictionary without empty
sub-dictionaries. -/
theorem C23_unflatten_flatten {m : Forest A} (h : Forest.Ok m) :
    unflattenMapping (flattenMapping m) = .ok m := by
  have h1 : flattenMapping m = m.leaves [] := Dict.ofList_eq (Forest.leaves_nodup h.distinct)
  rw [h1]
  exact Forest.insert_leaves (g := .nil) h (by simp [Forest.keys])

mutual
theorem Tree.leaves_pruned : (t : Tree A) →
    (match Tree.pruned t with | some t' => t'.leaves [] | none => []) = t.leaves []
  | .leaf a => rfl
  | .node f => by
    have := Forest.leaves_pruned f
    rw [Tree.pruned, Tree.leaves, ← this]
    cases Forest.pruned f with
    | nil => rfl
    | cons k t r => rfl
theorem Forest.leaves_pruned : (f : Forest A) → (Forest.pruned f).leaves [] = f.leaves []
  | .nil => rfl
  | .cons k t r => by
    have h1 := Tree.leaves_pruned t
    rw [Forest.pruned, Forest.leaves_cons, ← h1]
    cases Tree.pruned t with
    | none => simpa using Forest.leaves_pruned r
    | some t' => simp only [Forest.leaves_cons, Forest.leaves_pruned r]
end

mutual
theorem Tree.pruned_ok : {t : Tree A} → Tree.Distinct t → ∀ t' ∈ Tree.pruned t, Tree.Ok t'
  | .leaf a, _, t', h => by
    simp only [Tree.pruned, Option.mem_def, Option.some.injEq] at h
    subst h
    trivial
  | .node f, h, t', ht' => by
    have := (Forest.pruned_ok h).1
    rw [Tree.pruned] at ht'
    cases hp : Forest.pruned f with
    | nil => rw [hp] at ht'; cases ht'
    | cons k t r =>
      rw [hp] at ht' this
      cases ht'
      exact ⟨by simp, this⟩
theorem Forest.pruned_ok : {f : Forest A} → Forest.Distinct f →
    Forest.Ok (Forest.pruned f) ∧ ∀ k ∈ (Forest.pruned f).keys, k ∈ f.keys
  | .nil, _ => ⟨trivial, fun _ h => h⟩
  | .cons k t r, h => by
    have h1 := Tree.pruned_ok h.2.1
    have h2 := Forest.pruned_ok h.2.2
    rw [Forest.pruned]
    cases hp : Tree.pruned t with
    | none => exact ⟨h2.1, fun k' hk' => by simp [Forest.keys, h2.2 k' hk']⟩
    | some t' =>
      refine ⟨⟨fun hk => h.1 (h2.2 k hk), h1 t' hp, h2.1⟩, fun k' hk' => ?_⟩
      simp only [Forest.keys, List.mem_cons] at hk' ⊢
      exact hk'.imp id (h2.2 k')
end

/-- **C23.** In general the round trip loses exactly the empty sub-dictionaries. -/
theorem C23_empty_lost {m : Forest A} (h : Forest.Distinct m) :
    unflattenMapping (flattenMapping m) = .ok (Forest.pruned m) := by
  have h1 : flattenMapping m = m.leaves [] := Dict.ofList_eq (Forest.leaves_nodup h)
  rw [h1, ← Forest.leaves_pruned]
  exact Forest.insert_leaves (g := .nil) (Forest.pruned_ok h).1 (by simp [Forest.keys])

/-- Non-vacuity of C23: a nested dictionary with an empty sub-dictionary. -/
example : Forest.Distinct (A := ℕ) (.cons "a" (.node (.cons "b" (.leaf 1) .nil)) (.cons "e" (.node .nil) .nil)) ∧
    Forest.pruned (A := ℕ) (.cons "a" (.node (.cons "b" (.leaf 1) .nil)) (.cons "e" (.node .nil) .nil)) =
      .cons "a" (.node (.cons "b" (.leaf 1) .nil)) .nil ∧
    Forest.Ok (A := ℕ) (.cons "a" (.node (.cons "b" (.leaf 1) .nil)) .nil) := by
  simp [Forest.Distinct, Tree.Distinct, Forest.keys, Forest.Ok, Tree.Ok, Forest.pruned, Tree.pruned]

mutual
theorem Tree.mem_leaves : {t : Tree A} → {k : Path} → {a : A} → ((k, a) ∈ t.leaves [] ↔
    (t = .leaf a ∧ k = []) ∨ ∃ f, t = .node f ∧ LeafAt f k a)
  | .leaf b, k, a => by simp [Tree.leaves, and_comm, eq_comm]
  | .node f, k, a => by
    rw [Tree.leaves, Forest.mem_leaves]
    simp
theorem Forest.mem_leaves : {f : Forest A} → {k : Path} → {a : A} →
    ((k, a) ∈ f.leaves [] ↔ LeafAt f k a)
  | .nil, k, a => by
    simp only [Forest.leaves, List.not_mem_nil, false_iff]
    rintro (h | ⟨h, _⟩) <;> simp [Forest.toList] at h
  | .cons n t r, k, a => by
    rw [Forest.leaves_cons, List.mem_append, Forest.mem_leaves]
    constructor
    · rintro (h | h)
      · obtain ⟨⟨k', a'⟩, h1, h2⟩ := List.mem_map.1 h
        cases h2
        rcases Tree.mem_leaves.1 h1 with ⟨rfl, rfl⟩ | ⟨f, rfl, hf⟩
        · exact .leaf (by simp [Forest.toList])
        · exact .node (f := f) (by simp [Forest.toList]) hf
      · cases h with
        | leaf h => exact .leaf (by simp [Forest.toList, h])
        | node h h' => exact .node (by simp [Forest.toList, h]) h'
    · intro h
      cases h with
      | leaf h =>
        rcases List.mem_cons.1 h with h | h
        · cases h
          exact .inl (List.mem_map.2 ⟨([], a), Tree.mem_leaves.2 (.inl ⟨rfl, rfl⟩), rfl⟩)
        · exact .inr (.leaf h)
      | @node _ f _ ks _ h h' =>
        rcases List.mem_cons.1 h with h | h
        · cases h
          exact .inl (List.mem_map.2 ⟨(ks, a), Tree.mem_leaves.2 (.inr ⟨f, rfl, h'⟩), rfl⟩)
        · exact .inr (.node h h')
end

theorem Forest.get?_mem {f : Forest A} (hd : f.keys.Nodup) {k : String} {t : Tree A} :
    (k, t) ∈ f.toList ↔ f.get? k = some t := by
  induction f using Forest.rec (motive_1 := fun _ => True) with
  | leaf => trivial
  | node => trivial
  | nil => simp [Forest.toList, Forest.get?]
  | cons k₀ t₀ r _ ih =>
    simp only [Forest.keys, List.nodup_cons] at hd
    simp only [Forest.toList, List.mem_cons, Prod.mk.injEq, Forest.get?]
    by_cases h : k₀ = k
    · subst h
      simp only [true_and, if_true, Option.some.injEq]
      constructor
      · rintro (h | h)
        · exact h.symm
        · exact absurd (by rw [Forest.keys_eq]; exact List.mem_map.2 ⟨_, h, rfl⟩) hd.1
      · intro h; exact .inl h.symm
    · simp only [h, if_false, ← ih hd.2]
      constructor
      · rintro (⟨h', _⟩ | h')
        · exact absurd h'.symm h
        · exact h'
      · exact .inr

theorem Spec.Forest.Ok.keys_nodup : {f : Forest A} → Forest.Ok f → f.keys.Nodup
  | .nil, _ => by simp [Forest.keys]
  | .cons _ _ _, h => by
    simp only [Forest.keys, List.nodup_cons]
    exact ⟨h.1, h.2.2.keys_nodup⟩

theorem Spec.Forest.Ok.mem {f : Forest A} (h : Forest.Ok f) {k : String} {t : Tree A}
    (hm : (k, t) ∈ f.toList) : Tree.Ok t := by
  induction f using Forest.rec (motive_1 := fun _ => True) with
  | leaf => trivial
  | node => trivial
  | nil => simp [Forest.toList] at hm
  | cons k₀ t₀ r _ ih =>
    rcases List.mem_cons.1 hm with hm | hm
    · cases hm; exact h.2.1
    · exact ih h.2.2 hm

theorem Forest.keys_set (f : Forest A) (k : String) (t : Tree A) (k' : String) :
    k' ∈ (f.set k t).keys ↔ k' = k ∨ k' ∈ f.keys := by
  induction f using Forest.rec (motive_1 := fun _ => True) with
  | leaf => trivial
  | node => trivial
  | nil => simp [Forest.set, Forest.keys]
  | cons k₀ t₀ r _ ih =>
    by_cases h : k₀ = k
    · subst h; simp [Forest.set, Forest.keys]
    · simp only [Forest.set, h, if_false, Forest.keys, List.mem_cons, ih]
      tauto

theorem Forest.set_ok {f : Forest A} (h : Forest.Ok f) {k : String} {t : Tree A} (ht : Tree.Ok t) :
    Forest.Ok (f.set k t) := by
  induction f using Forest.rec (motive_1 := fun _ => True) with
  | leaf => trivial
  | node => trivial
  | nil => exact ⟨by simp [Forest.keys], ht, trivial⟩
  | cons k₀ t₀ r _ ih =>
    by_cases hk : k₀ = k
    · simp only [Forest.set, hk, if_true]
      exact ⟨hk ▸ h.1, ht, h.2.2⟩
    · simp only [Forest.set, hk, if_false]
      refine ⟨?_, h.2.1, ih h.2.2⟩
      rw [Forest.keys_set]
      rintro (h' | h')
      · exact hk h'
      · exact h.1 h'

/-- The leaves of a dictionary in terms of look-up. -/
theorem leafAt_iff {f : Forest A} (h : Forest.Ok f) {p : Path} {a : A} : LeafAt f p a ↔
    ∃ k ks, p = k :: ks ∧ ((ks = [] ∧ f.get? k = some (.leaf a)) ∨
      ∃ g, f.get? k = some (.node g) ∧ LeafAt g ks a) := by
  constructor
  · rintro (h' | ⟨h', h''⟩)
    · exact ⟨_, _, rfl, .inl ⟨rfl, (Forest.get?_mem h.keys_nodup).1 h'⟩⟩
    · exact ⟨_, _, rfl, .inr ⟨_, (Forest.get?_mem h.keys_nodup).1 h', h''⟩⟩
  · rintro ⟨k, ks, rfl, (⟨rfl, h'⟩ | ⟨g, h', h''⟩)⟩
    · exact .leaf ((Forest.get?_mem h.keys_nodup).2 h')
    · exact .node ((Forest.get?_mem h.keys_nodup).2 h') h''

/-- A non-empty dictionary without empty sub-dictionaries has a leaf. -/
theorem Spec.Forest.Ok.has_leaf {f : Forest A} (h : Forest.Ok f) (hne : f ≠ .nil) :
    ∃ p a, LeafAt f p a := by
  have := Spec.Forest.Ok.leaves hne h
  obtain ⟨⟨p, a⟩, l, hl⟩ := List.exists_cons_of_ne_nil this
  exact ⟨p, a, Forest.mem_leaves.1 (by rw [hl]; simp)⟩

theorem LeafAt.ne_nil {f : Forest A} {p : Path} {a : A} (h : LeafAt f p a) : p ≠ [] := by
  cases h <;> simp

/-- Insertion at a path that is no prefix of a present path and has no present path as a prefix adds
this leaf and keeps the others. -/
theorem insertPath_spec {f : Forest A} (h : Forest.Ok f) {p : Path} {a : A} (hp : p ≠ [])
    (hfree : ∀ q b, LeafAt f q b → ¬ q <+: p ∧ ¬ p <+: q) :
    ∃ f', insertPath f p a = .ok f' ∧ Forest.Ok f' ∧ f' ≠ .nil ∧
      ∀ q b, LeafAt f' q b ↔ (q = p ∧ b = a) ∨ LeafAt f q b := by
  induction p generalizing f with
  | nil => exact absurd rfl hp
  | cons k ks ih =>
    cases ks with
    | nil =>
      have hok : Forest.Ok (f.set k (.leaf a)) := Forest.set_ok h trivial
      have hnone : f.get? k = none := by
        cases hk : f.get? k with
        | none => rfl
        | some t =>
          exfalso
          have hm := (Forest.get?_mem h.keys_nodup).2 hk
          cases t with
          | leaf b => exact (hfree [k] b (.leaf hm)).1 List.prefix_rfl
          | node g =>
            obtain ⟨hg, hg'⟩ := h.mem hm
            obtain ⟨q, b, hq⟩ := hg'.has_leaf hg
            exact (hfree (k :: q) b (.node hm hq)).2 (by simp)
      refine ⟨_, rfl, hok, ?_, fun q b => ?_⟩
      · intro e
        have := Forest.get?_set f k k (.leaf a)
        rw [e] at this
        simp [Forest.get?] at this
      · rw [leafAt_iff hok, leafAt_iff h]
        simp only [Forest.get?_set]
        constructor
        · rintro ⟨k', ks', rfl, h'⟩
          by_cases hk : k = k'
          · subst hk
            simp only [if_true, Option.some.injEq] at h'
            rcases h' with ⟨rfl, h'⟩ | ⟨g, h', _⟩
            · cases h'; exact .inl ⟨rfl, rfl⟩
            · cases h'
          · simp only [hk, if_false] at h'
            exact .inr ⟨k', ks', rfl, h'⟩
        · rintro (⟨rfl, rfl⟩ | ⟨k', ks', rfl, h'⟩)
          · exact ⟨k, [], rfl, .inl ⟨rfl, by simp⟩⟩
          · have hk : k ≠ k' := by
              rintro rfl
              rw [hnone] at h'
              simp at h'
            exact ⟨k', ks', rfl, by simpa [hk] using h'⟩
    | cons k' ks =>
      -- the sub-dictionary in which the insertion continues
      obtain ⟨g, hg, hrun, hleaf⟩ : ∃ g : Forest A, Forest.Ok g ∧
          (insertPath f (k :: k' :: ks) a = (insertPath g (k' :: ks) a >>= fun sub =>
            .ok (f.set k (.node sub)))) ∧
          ∀ q b, LeafAt g q b ↔ ∃ g', f.get? k = some (.node g') ∧ LeafAt g' q b := by
        cases hk : f.get? k with
        | none =>
          refine ⟨.nil, trivial, ?_, fun q b => ?_⟩
          · simp only [insertPath, hk]
          · simp only [reduceCtorEq, false_and, exists_false, iff_false]
            rintro (h | ⟨h, _⟩) <;> simp [Forest.toList] at h
        | some t =>
          have hm := (Forest.get?_mem h.keys_nodup).2 hk
          cases t with
          | leaf b => exact absurd (by simp) (hfree [k] b (.leaf hm)).1
          | node g =>
            refine ⟨g, (h.mem hm).2, ?_, fun q b => by simp⟩
            simp only [insertPath, hk]
      obtain ⟨g', h1, h2, h3, h4⟩ := ih hg (by simp) (fun q b hq => by
        obtain ⟨g'', e1, e2⟩ := (hleaf q b).1 hq
        have := hfree (k :: q) b (.node ((Forest.get?_mem h.keys_nodup).2 e1) e2)
        simpa using this)
      have hok : Forest.Ok (f.set k (.node g')) := Forest.set_ok h ⟨h3, h2⟩
      refine ⟨f.set k (.node g'), ?_, hok, ?_, fun q b => ?_⟩
      · rw [hrun, h1]; rfl
      · intro e
        have := Forest.get?_set f k k (.node g')
        rw [e] at this
        simp [Forest.get?] at this
      · rw [leafAt_iff hok, leafAt_iff h]
        simp only [Forest.get?_set]
        constructor
        · rintro ⟨k₁, ks₁, rfl, h'⟩
          by_cases hk : k = k₁
          · subst hk
            simp only [if_true, Option.some.injEq] at h'
            rcases h' with ⟨rfl, h'⟩ | ⟨g₁, h', h''⟩
            · cases h'
            · cases h'
              rcases (h4 ks₁ b).1 h'' with ⟨rfl, rfl⟩ | h5
              · exact .inl ⟨rfl, rfl⟩
              · obtain ⟨g₂, e1, e2⟩ := (hleaf _ _).1 h5
                exact .inr ⟨k, ks₁, rfl, .inr ⟨g₂, e1, e2⟩⟩
          · simp only [hk, if_false] at h'
            exact .inr ⟨k₁, ks₁, rfl, h'⟩
        · rintro (⟨rfl, rfl⟩ | ⟨k₁, ks₁, rfl, h'⟩)
          · exact ⟨k, _, rfl, .inr ⟨g', by simp, (h4 _ _).2 (.inl ⟨rfl, rfl⟩)⟩⟩
          · by_cases hk : k = k₁
            · subst hk
              rcases h' with ⟨rfl, h'⟩ | ⟨g₂, e1, e2⟩
              · exact absurd (by simp) (hfree [k] b
                  (.leaf ((Forest.get?_mem h.keys_nodup).2 h'))).1
              · exact ⟨k, ks₁, rfl, .inr ⟨g', by simp, (h4 _ _).2 (.inr ((hleaf _ _).2 ⟨g₂, e1, e2⟩))⟩⟩
            · exact ⟨k₁, ks₁, rfl, by simpa [hk] using h'⟩

/-- **C23.** For a dictionary of non-empty paths none of which is a prefix of another,
`unflatten_mapping` succeeds, and `flatten_mapping` of the result has the same items (the order may
differ, which Python's `==` on dictionaries ignores). -/
theorem C23_flatten_unflatten {d : Dict Path A} (hne : ∀ kv ∈ d, kv.1 ≠ [])
    (hfree : d.Pairwise fun x y => ¬ x.1 <+: y.1 ∧ ¬ y.1 <+: x.1) :
    ∃ m, unflattenMapping d = .ok m ∧ Forest.Ok m ∧ (flattenMapping m).Perm d := by
  have key : ∀ (l : List (Path × A)) (f : Forest A), Forest.Ok f → (∀ kv ∈ l, kv.1 ≠ []) →
      l.Pairwise (fun x y => ¬ x.1 <+: y.1 ∧ ¬ y.1 <+: x.1) →
      (∀ q b, LeafAt f q b → ∀ kv ∈ l, ¬ q <+: kv.1 ∧ ¬ kv.1 <+: q) →
      ∃ m, insertAll f l = .ok m ∧ Forest.Ok m ∧
        ∀ q b, LeafAt m q b ↔ (q, b) ∈ l ∨ LeafAt f q b := by
    intro l
    induction l with
    | nil => intro f hf _ _ _; exact ⟨f, rfl, hf, by simp⟩
    | cons kv l ih =>
      intro f hf h1 h2 h3
      rw [List.pairwise_cons] at h2
      obtain ⟨f', e1, e2, _, e3⟩ := insertPath_spec hf (a := kv.2) (h1 kv (by simp))
        (fun q b hq => h3 q b hq kv (by simp))
      obtain ⟨m, m1, m2, m3⟩ := ih f' e2 (fun x hx => h1 x (by simp [hx])) h2.2 (fun q b hq x hx => by
        rcases (e3 q b).1 hq with ⟨rfl, rfl⟩ | hq
        · exact h2.1 x hx
        · exact h3 q b hq x (by simp [hx]))
      refine ⟨m, ?_, m2, fun q b => ?_⟩
      · rw [insertAll, List.foldlM_cons, e1]
        exact m1
      · rw [m3, e3]
        obtain ⟨p, a⟩ := kv
        simp only [List.mem_cons, Prod.mk.injEq]
        tauto
  obtain ⟨m, h1, h2, h3⟩ := key d .nil trivial hne hfree (fun q b hq => by
    exfalso
    rcases hq with h | ⟨h, _⟩ <;> simp [Forest.toList] at h)
  refine ⟨m, h1, h2, ?_⟩
  have h4 : flattenMapping m = m.leaves [] := Dict.ofList_eq (Forest.leaves_nodup h2.distinct)
  rw [h4]
  have hd : d.Nodup := by
    refine hfree.imp fun h e => ?_
    rw [e] at h
    exact h.1 List.prefix_rfl
  refine (List.perm_ext_iff_of_nodup (List.Nodup.of_map _ (Forest.leaves_nodup h2.distinct)) hd).2 ?_
  rintro ⟨q, b⟩
  rw [Forest.mem_leaves, h3]
  constructor
  · rintro (h | h)
    · exact h
    · exfalso
      rcases h with h | ⟨h, _⟩ <;> simp [Forest.toList] at h
  · exact .inl

/-- Non-vacuity: paths that interleave, so that the order changes. -/
example : let d : Dict Path ℕ := [(["a", "x"], 1), (["b"], 2), (["a", "y"], 3)]
    (∀ kv ∈ d, kv.1 ≠ []) ∧ d.Pairwise fun x y => ¬ x.1 <+: y.1 ∧ ¬ y.1 <+: x.1 := by
  simp

/-! ## C24 -/

variable {κ ν : Type} [DecidableEq κ]

theorem joinMappings_get? {l : List (String × Dict κ ν)} (hn : (l.map Prod.fst).Nodup)
    (hd : ∀ fm ∈ l, (Dict.keys fm.2).Nodup) (k : κ) (n : String) :
    (((joinMappings l).get? k).getD []).get? n =
      ((Dict.get? l n).bind fun m => m.get? k) ∧
    (((joinMappings l).get? k).isSome ↔ ∃ fm ∈ l, k ∈ Dict.keys fm.2) ∧
    ((joinMappings l).keys).Nodup ∧ (((joinMappings l).get? k).getD []).keys.Nodup := by
  have keys_set : ∀ {κ' ν' : Type} [DecidableEq κ'] (d : Dict κ' ν') (k : κ') (v : ν'),
      d.keys.Nodup → (d.set k v).keys.Nodup := by
    intro κ' ν' _ d k v h
    by_cases hk : k ∈ d.keys
    · have : (d.set k v).keys = d.keys := by
        clear h
        induction d with
        | nil => simp [Dict.keys] at hk
        | cons p d ih =>
          by_cases hp : p.1 = k
          · simp [Dict.set, hp, Dict.keys]
          · have : k ∈ Dict.keys d := by
              simp only [Dict.keys, List.map_cons, List.mem_cons] at hk
              exact hk.resolve_left (Ne.symm hp)
            have := ih this
            simp only [Dict.keys] at this
            simp [Dict.set, hp, Dict.keys, this]
      rw [this]; exact h
    · rw [Dict.set_of_not_mem _ _ _ hk]
      simp only [Dict.keys, List.map_append, List.map_cons, List.map_nil]
      rw [List.nodup_append]
      refine ⟨h, by simp, ?_⟩
      rintro a ha b hb rfl
      simp only [List.mem_singleton] at hb
      exact hk (hb ▸ ha)
  -- the inner loop
  have inner : ∀ (name : String) (m : Dict κ ν), m.keys.Nodup → ∀ (ret : Dict κ (Dict String ν)),
      ret.keys.Nodup → (∀ k, ((ret.get? k).getD []).keys.Nodup) →
      let out := m.foldl (fun ret kv => ret.set kv.1 (((ret.get? kv.1).getD []).set name kv.2)) ret
      out.keys.Nodup ∧ (∀ k, ((out.get? k).getD []).keys.Nodup) ∧
      (∀ k n, ((out.get? k).getD []).get? n =
        if n = name then (m.get? k).or (((ret.get? k).getD []).get? n)
        else ((ret.get? k).getD []).get? n) ∧
      ∀ k, (out.get? k).isSome ↔ (k ∈ m.keys ∨ (ret.get? k).isSome) := by
    intro name m
    induction m with
    | nil =>
      intro _ ret h1 h2
      refine ⟨h1, h2, fun k n => ?_, fun k => by simp [Dict.keys]⟩
      simp [Dict.get?]
    | cons kv m ih =>
      intro hm ret h1 h2
      simp only [Dict.keys, List.map_cons, List.nodup_cons] at hm
      obtain ⟨i1, i2, i3, i4⟩ := ih hm.2
        (ret.set kv.1 (((ret.get? kv.1).getD []).set name kv.2)) (keys_set _ _ _ h1) (by
          intro k
          rw [Dict.get?_set]
          split_ifs with h
          · exact keys_set _ _ _ (h2 _)
          · exact h2 k)
      refine ⟨i1, i2, fun k n => ?_, fun k => ?_⟩
      · simp only [List.foldl_cons]
        rw [i3, Dict.get?_set]
        by_cases hk : kv.1 = k
        · subst hk
          have hmk : Dict.get? m kv.1 = none := Dict.get?_eq_none hm.1
          simp only [if_true, Option.getD_some, Dict.get?_set, hmk, Option.none_or, Dict.get?]
          by_cases hn : n = name
          · subst hn; simp
          · simp [hn, Ne.symm hn]
        · simp only [hk, if_false, Dict.get?]
      · simp only [List.foldl_cons]
        rw [i4, Dict.get?_set]
        simp only [Dict.keys, List.map_cons, List.mem_cons]
        by_cases hk : kv.1 = k
        · subst hk; simp
        · simp only [hk, if_false, Ne.symm hk, false_or]
  -- the outer loop
  have outer : ∀ (l : List (String × Dict κ ν)) (ret : Dict κ (Dict String ν)),
      (l.map Prod.fst).Nodup → (∀ fm ∈ l, (Dict.keys fm.2).Nodup) → ret.keys.Nodup →
      (∀ k, ((ret.get? k).getD []).keys.Nodup) →
      (∀ k, ∀ n ∈ l.map Prod.fst, ((ret.get? k).getD []).get? n = none) →
      let out := l.foldl (fun ret fm => fm.2.foldl (fun ret kv =>
        ret.set kv.1 (((ret.get? kv.1).getD []).set fm.1 kv.2)) ret) ret
      out.keys.Nodup ∧ (∀ k, ((out.get? k).getD []).keys.Nodup) ∧
      (∀ k n, ((out.get? k).getD []).get? n =
        ((Dict.get? l n).bind fun m => m.get? k).or (((ret.get? k).getD []).get? n)) ∧
      ∀ k, (out.get? k).isSome ↔ ((∃ fm ∈ l, k ∈ Dict.keys fm.2) ∨ (ret.get? k).isSome) := by
    intro l
    induction l with
    | nil =>
      intro ret _ _ h1 h2 _
      exact ⟨h1, h2, fun k n => by simp [Dict.get?], fun k => by simp⟩
    | cons fm l ih =>
      intro ret hn hd h1 h2 h3
      simp only [List.map_cons, List.nodup_cons] at hn
      obtain ⟨i1, i2, i3, i4⟩ := inner fm.1 fm.2 (hd fm (by simp)) ret h1 h2
      obtain ⟨o1, o2, o3, o4⟩ := ih _ hn.2 (fun x hx => hd x (by simp [hx])) i1 i2
        (fun k n hnm => by
          have hne : n ≠ fm.1 := by rintro rfl; exact hn.1 hnm
          rw [i3, if_neg hne]
          exact h3 k n (by simp only [List.map_cons, List.mem_cons]; exact .inr hnm))
      refine ⟨o1, o2, fun k n => ?_, fun k => ?_⟩
      · simp only [List.foldl_cons]
        rw [o3, i3]
        by_cases hne : fm.1 = n
        · subst hne
          have : Dict.get? l fm.1 = none := Dict.get?_eq_none hn.1
          rw [this]
          simp [Dict.get?]
        · simp [Dict.get?, hne, Ne.symm hne]
      · simp only [List.foldl_cons]
        rw [o4, i4]
        simp only [List.mem_cons, exists_eq_or_imp]
        exact or_left_comm.trans or_assoc.symm
  obtain ⟨o1, o2, o3, o4⟩ := outer l [] hn hd (by simp [Dict.keys]) (by simp [Dict.get?, Dict.keys])
    (by simp [Dict.get?])
  refine ⟨?_, ?_, o1, o2 k⟩
  · have := o3 k n
    simp only [Dict.get?, Option.getD_none, Option.or_none] at this
    exact this
  · have := o4 k
    simp only [Dict.get?, Option.isSome_none, Bool.false_eq_true, or_false] at this
    exact this

/-- **C24.** `join_mappings(**field_to_map)` has exactly the keys that occur in some mapping, and maps
the key `k` to the dictionary of exactly those fields whose mapping contains `k`, with the values
found there. -/
theorem C24_join {l : List (String × Dict κ ν)} (hn : (l.map Prod.fst).Nodup)
    (hd : ∀ fm ∈ l, (fm.2.map Prod.fst).Nodup) :
    ((joinMappings l).map Prod.fst).Nodup ∧
    (∀ k, k ∈ (joinMappings l).map Prod.fst ↔ ∃ fm ∈ l, k ∈ fm.2.map Prod.fst) ∧
    ∀ k d, (k, d) ∈ joinMappings l → (d.map Prod.fst).Nodup ∧
      ∀ n v, (n, v) ∈ d ↔ ∃ m, (n, m) ∈ l ∧ (k, v) ∈ m := by
  have hnd : ((joinMappings l).map Prod.fst).Nodup := by
    cases l with
    | nil => simp [joinMappings]
    | cons fm l' =>
      by_cases h : ∃ k : κ, True
      · obtain ⟨k, _⟩ := h
        exact (joinMappings_get? hn hd k "").2.2.1
      · have : joinMappings (fm :: l') = [] := by
          cases hj : joinMappings (fm :: l') with
          | nil => rfl
          | cons p _ => exact absurd ⟨p.1, trivial⟩ h
        rw [this]; simp
  refine ⟨hnd, fun k => ?_, fun k d hkd => ?_⟩
  · have := (joinMappings_get? hn hd k "").2.1
    rw [Option.isSome_iff_exists] at this
    exact Dict.mem_keys_iff.trans this
  · have hg : (joinMappings l).get? k = some d := Dict.get?_of_mem hnd hkd
    have hnodup : d.keys.Nodup := by
      have := (joinMappings_get? hn hd k "").2.2.2
      rwa [hg] at this
    refine ⟨hnodup, fun n v => ?_⟩
    have h1 := (joinMappings_get? hn hd k n).1
    rw [hg] at h1
    simp only [Option.getD_some] at h1
    constructor
    · intro h
      rw [Dict.get?_of_mem hnodup h] at h1
      cases hl : Dict.get? l n with
      | none => rw [hl] at h1; cases h1
      | some m =>
        rw [hl] at h1
        exact ⟨m, Dict.mem_of_get? hl, Dict.mem_of_get? h1.symm⟩
    · rintro ⟨m, hm, hv⟩
      have e1 : Dict.get? l n = some m := Dict.get?_of_mem hn hm
      have e2 : m.get? k = some v := Dict.get?_of_mem (hd _ hm) hv
      rw [e1] at h1
      simp only [Option.bind_some, e2] at h1
      exact Dict.mem_of_get? h1

/-- Non-vacuity of C24: two mappings with different keys. -/
example : let l : List (String × Dict ℕ ℕ) := [("a", [(1, 10), (2, 20)]), ("b", [(2, 21)])]
    (l.map Prod.fst).Nodup ∧ (∀ fm ∈ l, (fm.2.map Prod.fst).Nodup) ∧
    joinMappings l = [(1, [("a", 10)]), (2, [("a", 20), ("b", 21)])] := by
  simp [joinMappings, Dict.set, Dict.get?]

end Efax
