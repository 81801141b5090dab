import Verif.Lemmas.Tree2
import Verif.Model.Tools

/-! # Mapping over the parameters of a tree; reinterpretation -/

namespace Efax

open ClassTable Spec

variable {C : Type} [ClassTable C]

namespace Dict

variable {κ ν ν' : Type} [DecidableEq κ]

theorem get?_mapSnd (d : Dict κ ν) (h : ν → ν') (k : κ) :
    Dict.get? (d.map fun kv => (kv.1, h kv.2)) k = (d.get? k).map h := by
  induction d with
  | nil => rfl
  | cons a d ih => by_cases hk : a.1 = k <;> simp [Dict.get?, hk, ih]

theorem get?_keysMap (ks : List κ) (r : κ → ν) (k : κ) :
    Dict.get? (ks.map fun k => (k, r k)) k = if k ∈ ks then some (r k) else none := by
  induction ks with
  | nil => rfl
  | cons a ks ih =>
    by_cases hk : a = k
    · simp [Dict.get?, hk]
    · simp [Dict.get?, hk, ih, Ne.symm hk]

theorem values_eq {d : Dict κ ν} (h : d.keys.Nodup) (dflt : ν) :
    d.values = d.keys.map fun k => (d.get? k).getD dflt := by
  simp only [values, keys, List.map_map]
  refine List.map_congr_left fun kv hkv => ?_
  simp [get?_of_mem h (k := kv.1) (v := kv.2) hkv]

theorem get?_merge {a b : Dict κ ν} (hb : b.keys.Nodup) (k : κ) :
    (merge a b).get? k = (b.get? k).or (a.get? k) := by
  induction b generalizing a with
  | nil => rfl
  | cons p b ih =>
    simp only [keys, List.map_cons, List.nodup_cons] at hb
    simp only [merge, List.foldl_cons]
    change (merge (a.set p.1 p.2) b).get? k = _
    rw [ih hb.2, get?_set]
    by_cases hk : p.1 = k
    · subst hk
      have : Dict.get? b p.1 = none := get?_eq_none hb.1
      simp [this, get?]
    · simp [hk, get?]

theorem mem_keys_iff {d : Dict κ ν} {k : κ} : k ∈ d.keys ↔ ∃ v, d.get? k = some v := by
  constructor
  · intro h
    by_contra hn
    push Not at hn
    have : d.get? k = none := by
      cases hk : d.get? k with
      | none => rfl
      | some v => exact absurd hk (hn v)
    clear hn
    induction d with
    | nil => simp [keys] at h
    | cons p d ih =>
      by_cases hp : p.1 = k
      · simp [get?, hp] at this
      · simp only [get?, hp, if_false] at this
        simp only [keys, List.map_cons, List.mem_cons] at h
        rcases h with h | h
        · exact hp h.symm
        · exact ih h this
  · rintro ⟨v, hv⟩
    exact List.mem_map.2 ⟨_, mem_of_get? hv, rfl⟩

end Dict

/-- The result of looking up a value in a dictionary, or a default. -/
def lookupD (d : Dict Path Val) (k : Path) : Val := (d.get? k).getD (.real (Arr.full [] 0))

/-! ## Trees of the same structure -/

mutual
theorem Spec.SameTree.refl : (p : Dist C) → SameTree p p
  | .mk _ _ s => ⟨rfl, Spec.SameTrees.refl s⟩
theorem Spec.SameTrees.refl : (s : Subs C) → SameTrees s s
  | .nil => trivial
  | .cons _ d r => ⟨rfl, Spec.SameTree.refl d, Spec.SameTrees.refl r⟩
end

mutual
theorem Spec.SameTree.symm : {p q : Dist C} → SameTree p q → SameTree q p
  | .mk _ _ _, .mk _ _ _, h => ⟨h.1.symm, Spec.SameTrees.symm h.2⟩
theorem Spec.SameTrees.symm : {s t : Subs C} → SameTrees s t → SameTrees t s
  | .nil, .nil, _ => trivial
  | .cons _ _ _, .cons _ _ _, h =>
    ⟨h.1.symm, Spec.SameTree.symm h.2.1, Spec.SameTrees.symm h.2.2⟩
end

mutual
theorem Spec.SameTree.trans : {p q r : Dist C} → SameTree p q → SameTree q r → SameTree p r
  | .mk _ _ _, .mk _ _ _, .mk _ _ _, h, h' => ⟨h.1.trans h'.1, Spec.SameTrees.trans h.2 h'.2⟩
theorem Spec.SameTrees.trans : {s t u : Subs C} → SameTrees s t → SameTrees t u → SameTrees s u
  | .nil, .nil, .nil, _, _ => trivial
  | .cons _ _ _, .cons _ _ _, .cons _ _ _, h, h' =>
    ⟨h.1.trans h'.1, Spec.SameTree.trans h.2.1 h'.2.1, Spec.SameTrees.trans h.2.2 h'.2.2⟩
end

theorem Spec.SameTrees.mem {s t : Subs C} (h : SameTrees s t) {n : String} {d : Dist C}
    (hm : (n, d) ∈ s.toList) : ∃ e, (n, e) ∈ t.toList ∧ SameTree d e := by
  induction s using Subs.rec (motive_1 := fun _ => True) generalizing t with
  | mk => trivial
  | nil => simp [Subs.toList] at hm
  | cons m x r _ ih =>
    cases t with
    | nil => exact h.elim
    | cons m' x' r' =>
      obtain ⟨rfl, h1, h2⟩ := h
      rcases List.mem_cons.1 hm with hm | hm
      · cases hm
        exact ⟨x', by simp [Subs.toList], h1⟩
      · obtain ⟨e, h3, h4⟩ := ih h2 hm
        exact ⟨e, by simp [Subs.toList, h3], h4⟩

/-- Trees of the same structure have parameters at the same paths. -/
theorem Spec.ParamAt.same {p q : Dist C} {k : Path} {f : Field} {v : Val} (h : ParamAt p k f v)
    (hs : SameTree p q) (hq : WF q) : ∃ w, ParamAt q k f w := by
  induction h generalizing q with
  | @here c vals subs i f v hf hv =>
    obtain ⟨c', vals', subs'⟩ := q
    obtain ⟨rfl, _⟩ := hs
    have : i < vals'.length := by
      rw [hq.1]; exact (List.getElem?_eq_some_iff.1 hf).1
    exact ⟨vals'[i], .here (i := i) hf (List.getElem?_eq_getElem this)⟩
  | @sub c vals subs n d k f v hm hsub ih =>
    obtain ⟨c', vals', subs'⟩ := q
    obtain ⟨rfl, hs⟩ := hs
    obtain ⟨e, e1, e2⟩ := hs.mem hm
    obtain ⟨w, hw⟩ := ih e2 (WFs_iff.1 hq.2.2.2 _ e1)
    exact ⟨w, .sub e1 hw⟩

/-- Trees of the same structure have sub-distributions at the same paths. -/
theorem Spec.SubAt.same {p q d : Dist C} {k : Path} (h : SubAt p k d) (hs : SameTree p q) :
    ∃ e, SubAt q k e ∧ SameTree d e := by
  induction h generalizing q with
  | here p => exact ⟨q, .here q, hs⟩
  | @sub c vals subs n d d' k hm hsub ih =>
    obtain ⟨c', vals', subs'⟩ := q
    obtain ⟨_, hs⟩ := hs
    obtain ⟨e, h1, h2⟩ := hs.mem hm
    obtain ⟨e', h3, h4⟩ := ih h2
    exact ⟨e', .sub h1 h3, h4⟩

theorem Spec.SubAt.wf {p d : Dist C} {k : Path} (h : SubAt p k d) (hw : WF p) : WF d := by
  induction h with
  | here p => exact hw
  | @sub c vals subs n d d' k hm hsub ih => exact ih (WFs_iff.1 hw.2.2.2 _ hm)

theorem Spec.SubAt.param {p d : Dist C} {k k' : Path} {f : Field} {v : Val} (h : SubAt p k d)
    (hp : ParamAt d k' f v) : ParamAt p (k ++ k') f v := by
  induction h with
  | here p => exact hp
  | @sub c vals subs n d d' k hm hsub ih => exact .sub hm (ih hp)

theorem keep_iff {fixed : Option Bool} {f : Field} :
    keep fixed f = true ↔ ∀ b ∈ fixed, f.fixed = b := by
  cases fixed with
  | none => simp [keep]
  | some b => cases b <;> cases h : f.fixed <;> simp [keep, h]

/-! ## One function on all parameters -/

theorem mapParams_ok {p : Dist C} {L : List (Info C)} {g : Val → Except Err Val} (hw : WF p)
    (hL : L.map Info.strip = p.skel [])
    (hg : ∀ k f v, ParamAt p k f v → ∃ v', g v = .ok v') :
    ∃ ps q, ((parameters p none).mapM fun kv => do
        (.ok (kv.1, ← g kv.2) : Except Err (Path × Val))) = .ok ps ∧
      assemble L ps = .ok q ∧ WF q ∧ SameTree p q ∧
      ∀ k f v', ParamAt q k f v' ↔ ∃ v, ParamAt p k f v ∧ g v = .ok v' := by
  let g' : Val → Val := fun v => match g v with | .ok v' => v' | .error _ => v
  have hg' : ∀ k f v, ParamAt p k f v → g v = .ok (g' v) := by
    intro k f v h
    obtain ⟨v', h'⟩ := hg k f v h
    simp only [g', h']
  have h1 : ((parameters p none).mapM fun kv => do
      (.ok (kv.1, ← g kv.2) : Except Err (Path × Val))) =
      .ok ((parameters p none).map fun kv => (kv.1, g' kv.2)) := by
    refine mapM_ok fun kv hkv => ?_
    obtain ⟨f, hf, _⟩ := (mem_parameters hw (k := kv.1) (v := kv.2)).1 hkv
    simp only [hg' _ _ _ hf, bind, Except.bind]
  let lk : Path → Val := fun k => g' (lookupD (parameters p none) k)
  have hlk : ∀ k f v, ParamAt p k f v → lk k = g' v := by
    intro k f v h
    have : (parameters p none).get? k = some v := (parameters_get? hw).2 ⟨f, h, rfl⟩
    simp only [lk, lookupD, this, Option.getD_some]
  have h2 := assemble_refill (L := L) (ps := (parameters p none).map fun kv => (kv.1, g' kv.2))
    (lk := lk) hw hL (fun k f v h => by
      rw [Dict.get?_mapSnd, (parameters_get? hw).2 ⟨f, h, rfl⟩, hlk k f v h]; rfl)
  refine ⟨_, _, h1, h2, Dist.refill_wf hw, Dist.refill_same p, fun k f v' => ⟨fun h => ?_, ?_⟩⟩
  · obtain ⟨h3, v, h4⟩ := ParamAt.of_refill hw h
    refine ⟨v, h4, ?_⟩
    rw [hg' _ _ _ h4, h3, List.nil_append, hlk _ _ _ h4]
  · rintro ⟨v, h3, h4⟩
    have := ParamAt.refill (lk := lk) (base := []) h3
    rw [List.nil_append, hlk _ _ _ h3] at this
    rw [hg' _ _ _ h3] at h4
    cases h4
    exact this

theorem mapParams_eq_ok {p : Dist C} {g : Val → Except Err Val} (hw : WF p) {ps : Dict Path Val}
    (h : ((parameters p none).mapM fun kv => do
        (.ok (kv.1, ← g kv.2) : Except Err (Path × Val))) = .ok ps) :
    ∀ k f v, ParamAt p k f v → ∃ v', g v = .ok v' := by
  intro k f v hp
  have hm := (mem_parameters hw (fixed := none)).2 ⟨f, hp, rfl⟩
  obtain ⟨i, hi, he⟩ := List.getElem_of_mem hm
  have h2 := mapM_eq_ok h
  have h3 := (List.forall₂_iff_get.1 h2).2 i hi (by rw [← h2.length_eq]; exact hi)
  simp only [List.get_eq_getElem, he] at h3
  cases hg : g v with
  | ok v' => exact ⟨v', rfl⟩
  | error e => rw [hg] at h3; cases h3

/-! ## Several trees -/

mutual
theorem Dist.paramKeys_same {fixed : Option Bool} {base : Path} : {p q : Dist C} → WF p → WF q →
    SameTree p q →
      (p.paramList fixed base).map Prod.fst = (q.paramList fixed base).map Prod.fst
  | .mk c vals subs, .mk c' vals' subs', hp, hq, h => by
    obtain ⟨rfl, h⟩ := h
    rw [Dist.paramList, Dist.paramList, List.map_append, List.map_append,
      Subs.paramKeys_same hp.2.2.2 hq.2.2.2 h]
    congr 1
    have key : ∀ (fs : List Field) (vs ws : List Val), vs.length = fs.length →
        ws.length = fs.length →
        (((fs.zip vs).filter fun fv => keep fixed fv.1).map Prod.fst) =
        (((fs.zip ws).filter fun fv => keep fixed fv.1).map Prod.fst) := by
      intro fs
      induction fs with
      | nil => simp
      | cons f fs ih =>
        intro vs ws h1 h2
        cases vs with
        | nil => simp at h1
        | cons v vs =>
          cases ws with
          | nil => simp at h2
          | cons w ws =>
            have := ih vs ws (by simpa using h1) (by simpa using h2)
            simp only [List.zip_cons_cons, List.filter_cons]
            split_ifs <;> simp [this]
    have := congrArg (List.map fun f : Field => base ++ [f.name]) (key (fields c) vals vals' hp.1 hq.1)
    simpa [nodeParams, List.map_map, Function.comp_def] using this
theorem Subs.paramKeys_same {fixed : Option Bool} {base : Path} : {s t : Subs C} → WFs s → WFs t →
    SameTrees s t →
      (s.paramList fixed base).map Prod.fst = (t.paramList fixed base).map Prod.fst
  | .nil, .nil, _, _, _ => rfl
  | .cons n d r, .cons n' d' r', hs, ht, h => by
    obtain ⟨rfl, h1, h2⟩ := h
    rw [Subs.paramList, Subs.paramList, List.map_append, List.map_append,
      Dist.paramKeys_same hs.1 ht.1 h1, Subs.paramKeys_same hs.2 ht.2 h2]
end

theorem parameters_keys_same {p q : Dist C} (hp : WF p) (hq : WF q) (h : SameTree p q)
    (fixed : Option Bool) : (parameters p fixed).keys = (parameters q fixed).keys := by
  rw [parameters_eq hp, parameters_eq hq]
  simpa [Dict.keys, List.map_map, Function.comp_def] using Dist.paramKeys_same hp hq h

theorem starmapStrict_keys {A B K : Type} (op : List A → Except Err B) (ks : List K) (x : K → A)
    (ys : List (K → A)) :
    starmapStrict op (ks.map x) (ys.map fun y => ks.map y) =
      ks.mapM fun k => op (x k :: ys.map (· k)) := by
  induction ks with
  | nil =>
    have : (ys.map fun y => ([] : List K).map y).all List.isEmpty = true := by
      simp [List.all_eq_true]
    simp only [List.map_nil, starmapStrict, List.mapM_nil] at this ⊢
    rw [if_pos this]
    rfl
  | cons k ks ih =>
    have h1 : (ys.map fun y => (k :: ks).map y).any List.isEmpty = false := by
      rw [List.any_eq_false]; simp
    have h2 : (ys.map fun y => (k :: ks).map y).filterMap List.head? = ys.map (· k) := by
      rw [List.filterMap_map]
      have : (List.head? ∘ fun y : K → A => (k :: ks).map y) = fun y => some (y k) := by
        funext y; simp
      rw [this]
      clear * -
      induction ys with
      | nil => rfl
      | cons y ys ih => simp [ih]
    have h3 : (ys.map fun y => (k :: ks).map y).map List.tail = ys.map fun y => ks.map y := by
      rw [List.map_map]; rfl
    rw [List.map_cons, starmapStrict, h1, h2, h3, ih, List.mapM_cons]
    rfl

theorem zipStrict_keys {K A : Type} (ks : List K) (r : K → A) :
    zipStrict ks (ks.map r) = .ok (ks.map fun k => (k, r k)) := by
  induction ks with
  | nil => rfl
  | cons k ks ih => simp only [List.map_cons, zipStrict, ih, bind, Except.bind]

theorem zipStrict_ok {A B : Type} {as : List A} {bs : List B} (h : as.length = bs.length) :
    zipStrict as bs = .ok (as.zip bs) := by
  induction as generalizing bs with
  | nil => cases bs with
    | nil => rfl
    | cons b bs => simp at h
  | cons a as ih => cases bs with
    | nil => simp at h
    | cons b bs => simp only [zipStrict, ih (by simpa using h), bind, Except.bind, List.zip_cons_cons]

theorem zipStrict_error {A B : Type} {as : List A} {bs : List B} (h : as.length ≠ bs.length) :
    zipStrict as bs = .error .valueError := by
  induction as generalizing bs with
  | nil => cases bs with
    | nil => simp at h
    | cons b bs => rfl
  | cons a as ih => cases bs with
    | nil => rfl
    | cons b bs => simp only [zipStrict, ih (by simpa using h), bind, Except.bind]

theorem starmapStrict_error {A B : Type} {op : List A → Except Err B} (hop : ∀ l, ∃ b, op l = .ok b)
    {xs : List A} {yss : List (List A)} (h : ∃ ys ∈ yss, ys.length ≠ xs.length) :
    starmapStrict op xs yss = .error .valueError := by
  induction xs generalizing yss with
  | nil =>
    rw [starmapStrict, if_neg]
    intro hall
    obtain ⟨ys, hm, hne⟩ := h
    have := List.all_eq_true.1 hall ys hm
    simp at this
    simp [this] at hne
  | cons x xs ih =>
    rw [starmapStrict]
    split_ifs with h1
    · rfl
    · obtain ⟨b, hb⟩ := hop (x :: yss.filterMap List.head?)
      have := ih (yss := yss.map List.tail) (by
        obtain ⟨ys, hm, hne⟩ := h
        refine ⟨ys.tail, List.mem_map.2 ⟨ys, hm, rfl⟩, ?_⟩
        cases ys with
        | nil => exact absurd (List.any_eq_true.2 ⟨[], hm, rfl⟩) h1
        | cons y ys => simpa using hne)
      simp only [hb, this, bind, Except.bind]

/-! ## Reinterpretation -/

mutual
/-- The classes of one tree with the values of another. -/
def Dist.withVals : Dist C → Dist C → Dist C
  | .mk c _ s, .mk _ v' s' => .mk c v' (Subs.withVals s s')
def Subs.withVals : Subs C → Subs C → Subs C
  | .cons n d r, .cons _ d' r' => .cons n (Dist.withVals d d') (Subs.withVals r r')
  | _, _ => .nil
end

mutual
theorem Dist.withVals_spec : {p q : Dist C} → WF p → WF q → Parallel p q →
    WF (p.withVals q) ∧ SameTree p (p.withVals q) ∧ SameVals (p.withVals q) q
  | .mk c v s, .mk c' v' s', hp, hq, h => by
    obtain ⟨h1, h2⟩ := h
    obtain ⟨k1, k2, k3, k4, k5⟩ := Subs.withVals_spec hp.2.2.2 hq.2.2.2 h2
    refine ⟨⟨by rw [h1]; exact hq.1, ?_, by rw [k2]; exact hp.2.2.1, k1⟩, ⟨rfl, k4⟩, rfl, k5⟩
    rw [hp.2.1, Ne, Ne, k3]
theorem Subs.withVals_spec : {s t : Subs C} → WFs s → WFs t → Parallels s t →
    WFs (s.withVals t) ∧ (s.withVals t).names = s.names ∧ (s.withVals t = .nil ↔ s = .nil) ∧
      SameTrees s (s.withVals t) ∧ SameValss (s.withVals t) t
  | .nil, .nil, _, _, _ => ⟨trivial, rfl, Iff.rfl, trivial, trivial⟩
  | .cons n d r, .cons n' d' r', hs, ht, h => by
    obtain ⟨rfl, h1, h2⟩ := h
    obtain ⟨a1, a2, a3⟩ := Dist.withVals_spec hs.1 ht.1 h1
    obtain ⟨k1, k2, k3, k4, k5⟩ := Subs.withVals_spec hs.2 ht.2 h2
    refine ⟨⟨a1, k1⟩, by simp [Subs.withVals, Subs.names, k2], by simp [Subs.withVals],
      ⟨rfl, a2, k4⟩, rfl, a3, k5⟩
end

mutual
theorem Dist.values_same {base base' : Path} : {p q : Dist C} → WF p → WF q → SameVals p q →
    ((p.paramList none base).map fun kv => kv.2.1) = (q.paramList none base').map fun kv => kv.2.1
  | .mk c v s, .mk c' v' s', hp, hq, h => by
    obtain ⟨rfl, h⟩ := h
    have key : ∀ c'' : C, v.length = (fields c'').length →
        ((nodeParams none c'' v).map fun nv => nv.2.1) = v := by
      intro c'' hl
      rw [nodeParams_none, List.map_map]
      have : ((fun nv : String × Val × Support => nv.2.1) ∘
        fun fv : Field × Val => (fv.1.name, fv.2, fv.1.support)) = Prod.snd := rfl
      rw [this, List.map_snd_zip (by omega)]
    have k1 := key c hp.1
    have k2 := key c' hq.1
    simp only [Dist.paramList, List.map_append, List.map_map, Function.comp_def]
    rw [Subs.values_same (base := base) (base' := base') hp.2.2.2 hq.2.2.2 h]
    congr 1
    exact k1.trans k2.symm
theorem Subs.values_same {base base' : Path} : {s t : Subs C} → WFs s → WFs t → SameValss s t →
    ((s.paramList none base).map fun kv => kv.2.1) = (t.paramList none base').map fun kv => kv.2.1
  | .nil, .nil, _, _, _ => rfl
  | .cons n d r, .cons n' d' r', hs, ht, h => by
    obtain ⟨rfl, h1, h2⟩ := h
    simp only [Subs.paramList, List.map_append]
    rw [Dist.values_same (base := base ++ [n]) (base' := base' ++ [n]) hs.1 ht.1 h1,
      Subs.values_same (base := base) (base' := base') hs.2 ht.2 h2]
end

/-- The paths of the parameters of one class. -/
def ownPaths (i : Path × C × List String) : List Path :=
  ((fields i.2.1).map Field.name).map fun n => i.1 ++ [n]

mutual
theorem Dist.skel_paths {base : Path} : {p : Dist C} → WF p →
    (p.skel base).flatMap ownPaths = (p.paramList none base).map Prod.fst
  | .mk c v s, h => by
    have hs := Subs.skel_paths (base := base) (s := s) h.2.2.2
    have hn : ((nodeParams none c v).map fun nv => base ++ [nv.1]) =
        ownPaths (base, c, s.names) := by
      rw [nodeParams_none, List.map_map, ownPaths, List.map_map]
      have : ((fun nv : String × Val × Support => base ++ [nv.1]) ∘
        fun fv : Field × Val => (fv.1.name, fv.2, fv.1.support)) =
          (fun f : Field => base ++ [f.name]) ∘ Prod.fst := rfl
      rw [this, ← List.map_map, List.map_fst_zip (by rw [h.1])]
      rfl
    rw [Dist.skel, Dist.paramList, List.flatMap_append, List.map_append, hs, List.map_map]
    have hn' : List.map (Prod.fst ∘ fun nv : String × Val × Support => (base ++ [nv.1], nv.2))
        (nodeParams none c v) = ownPaths (base, c, s.names) := hn
    rw [hn']
    by_cases hf : fields c = []
    · simp [ownPaths, hf]
    · have := subs_nil_of_fields h hf
      subst this
      simp [Subs.paramList]
theorem Subs.skel_paths {base : Path} : {s : Subs C} → WFs s →
    (s.skel base).flatMap ownPaths = (s.paramList none base).map Prod.fst
  | .nil, _ => rfl
  | .cons n d r, h => by
    rw [Subs.skel, Subs.paramList, List.flatMap_append, List.map_append,
      Dist.skel_paths (base := base ++ [n]) h.1, Subs.skel_paths (base := base) h.2]
end

theorem infos_paths {p : Dist C} {L : List (Info C)} (hw : WF p)
    (hL : L.map Info.strip = p.skel []) :
    (L.flatMap fun i => (supportOf i.cls none).keys.map fun n => i.path ++ [n]) =
      (parameters p none).keys := by
  have : (fun i : Info C => (supportOf i.cls none).keys.map fun n => i.path ++ [n]) =
      fun i => ownPaths i.strip := by
    funext i
    rw [supportOf_none_keys]
    rfl
  rw [this, parameters_eq hw, Dict.keys, List.map_map]
  have h2 := Dist.skel_paths (base := []) hw
  rw [← hL, List.flatMap_map] at h2
  exact h2

theorem reinterpret_ok {p q : Dist C} {L : List (Info C)} (hp : WF p) (hq : WF q)
    (hL : L.map Info.strip = p.skel []) (h : Parallel p q) :
    reinterpret L q = .ok (p.withVals q) := by
  obtain ⟨h1, h2, h3⟩ := Dist.withVals_spec hp hq h
  have hk : (parameters p none).keys = (parameters (p.withVals q) none).keys :=
    parameters_keys_same hp h1 h2 none
  have hv : (parameters q none).values = (parameters (p.withVals q) none).values := by
    rw [parameters_eq hq, parameters_eq h1]
    simpa [Dict.values, List.map_map, Function.comp_def] using
      (Dist.values_same (base := []) (base' := []) h1 hq h3).symm
  have hz : zipStrict (parameters (p.withVals q) none).keys
      (parameters (p.withVals q) none).values = .ok (parameters (p.withVals q) none) := by
    rw [zipStrict_ok (by simp [Dict.keys, Dict.values])]
    congr 1
    exact List.zip_unzip (parameters (p.withVals q) none) |> fun h => by
      simpa [List.unzip_eq_map, Dict.keys, Dict.values] using h
  simp only [reinterpret, infos_paths hp hL, hk, hv, hz, bind, Except.bind]
  rw [Dict.ofList_eq (parameters_keys_nodup h1 none)]
  refine assemble_ok h1 (by rw [hL, Dist.skel_same h2]) fun kv hkv => ?_
  obtain ⟨k, f, v, hpa, _, rfl⟩ := Dist.mem_paramList.1 hkv
  rw [List.nil_append]
  exact (parameters_get? h1).2 ⟨f, hpa, rfl⟩

/-! ## Sub-distributions -/

mutual
theorem Dist.mem_skel {base : Path} : {p : Dist C} → {x : Path × C × List String} →
    (x ∈ p.skel base ↔ ∃ k q, SubAt p k q ∧ x = (base ++ k, q.cls, q.subs.names))
  | .mk c v s, x => by
    rw [Dist.skel, List.mem_append, Subs.mem_skel]
    constructor
    · rintro (⟨n, d, k, q, h1, h2, rfl⟩ | h)
      · exact ⟨n :: k, q, .sub h1 h2, rfl⟩
      · rw [List.mem_singleton] at h
        subst h
        exact ⟨[], _, .here _, by simp [Dist.cls, Dist.subs]⟩
    · rintro ⟨k, q, h, rfl⟩
      cases h with
      | here => right; simp [Dist.cls, Dist.subs]
      | sub h1 h2 => left; exact ⟨_, _, _, _, h1, h2, rfl⟩
theorem Subs.mem_skel {base : Path} : {s : Subs C} → {x : Path × C × List String} →
    (x ∈ s.skel base ↔ ∃ n d k q, (n, d) ∈ s.toList ∧ SubAt d k q ∧
      x = (base ++ n :: k, q.cls, q.subs.names))
  | .nil, x => by simp [Subs.skel, Subs.toList]
  | .cons n d r, x => by
    rw [Subs.skel, List.mem_append, Dist.mem_skel, Subs.mem_skel]
    constructor
    · rintro (⟨k, q, h, rfl⟩ | ⟨m, e, k, q, h1, h2, rfl⟩)
      · exact ⟨n, d, k, q, by simp [Subs.toList], h, by simp⟩
      · exact ⟨m, e, k, q, by simp [Subs.toList, h1], h2, rfl⟩
    · rintro ⟨m, e, k, q, h1, h2, rfl⟩
      rcases List.mem_cons.1 h1 with h | h
      · cases h
        left; exact ⟨k, q, h2, by simp⟩
      · right; exact ⟨m, e, k, q, h, h2, rfl⟩
end

mutual
theorem Dist.skel_nodup {base : Path} : {p : Dist C} → WF p → ((p.skel base).map Prod.fst).Nodup
  | .mk c v s, h => by
    rw [Dist.skel, List.map_append, List.nodup_append]
    refine ⟨Subs.skel_nodup h.2.2.1 h.2.2.2, by simp, ?_⟩
    intro a ha b hb hab
    subst hab
    simp only [List.map_cons, List.map_nil, List.mem_singleton] at hb
    obtain ⟨x, hx, rfl⟩ := List.mem_map.1 ha
    obtain ⟨n, d, k, q, _, _, rfl⟩ := Subs.mem_skel.1 hx
    simp at hb
theorem Subs.skel_nodup {base : Path} : {s : Subs C} → s.names.Nodup → WFs s →
    ((s.skel base).map Prod.fst).Nodup
  | .nil, _, _ => by simp [Subs.skel]
  | .cons n d r, hn, h => by
    simp only [Subs.names, List.nodup_cons] at hn
    rw [Subs.skel, List.map_append, List.nodup_append]
    refine ⟨Dist.skel_nodup h.1, Subs.skel_nodup hn.2 h.2, ?_⟩
    intro a ha b hb hab
    subst hab
    obtain ⟨x, hx, rfl⟩ := List.mem_map.1 ha
    obtain ⟨k, q, _, rfl⟩ := Dist.mem_skel.1 hx
    obtain ⟨y, hy, he⟩ := List.mem_map.1 hb
    obtain ⟨m, e, k', q', hm, _, rfl⟩ := Subs.mem_skel.1 hy
    simp only [List.append_assoc, List.singleton_append, List.append_cancel_left_eq,
      List.cons.injEq] at he
    apply hn.1
    rw [← he.1, Subs.names_eq]
    exact List.mem_map.2 ⟨_, hm, rfl⟩
end

end Efax
