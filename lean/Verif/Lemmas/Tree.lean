import Verif.Lemmas.Arr
import Verif.Model.Structure
import Verif.Spec.Tree

/-! # Lemmas about distribution trees: parameter paths and `assemble` -/

namespace Efax

open ClassTable Spec

variable {C : Type} [ClassTable C]

/-! ## Monadic list functions -/

theorem mapM_ok {A B : Type} {f : A → Except Err B} {g : A → B} {l : List A}
    (h : ∀ a ∈ l, f a = .ok (g a)) : l.mapM f = .ok (l.map g) := by
  induction l with
  | nil => rfl
  | cons a l ih =>
    rw [List.mapM_cons, h a (by simp), ih fun b hb => h b (by simp [hb])]
    rfl

theorem mapM_error {A B : Type} {f : A → Except Err B} {e : Err} {l : List A}
    (h : ∀ a ∈ l, (∃ b, f a = .ok b) ∨ f a = .error e) (h' : ∃ a ∈ l, f a = .error e) :
    l.mapM f = .error e := by
  induction l with
  | nil => simp at h'
  | cons a l ih =>
    rw [List.mapM_cons]
    rcases h a (by simp) with ⟨b, hb⟩ | he
    · obtain ⟨x, hx, hxe⟩ := h'
      rcases List.mem_cons.1 hx with rfl | hx
      · rw [hxe]; rfl
      · rw [hb, ih (fun c hc => h c (by simp [hc])) ⟨x, hx, hxe⟩]; rfl
    · rw [he]; rfl

theorem mapM_eq_ok {A B : Type} {f : A → Except Err B} {l : List A} {r : List B}
    (h : l.mapM f = .ok r) : List.Forall₂ (fun a b => f a = .ok b) l r := by
  induction l generalizing r with
  | nil => cases h; exact .nil
  | cons a l ih =>
    rw [List.mapM_cons] at h
    cases ha : f a with
    | error e => rw [ha] at h; cases h
    | ok b =>
      cases hl : l.mapM f with
      | error e => rw [ha, hl] at h; cases h
      | ok bs =>
        rw [ha, hl] at h
        cases h
        exact .cons ha (ih hl)

theorem foldlM_append_ok {A B : Type} {f : B → A → Except Err B} {l m : List A} {b b' : B}
    (h : l.foldlM f b = .ok b') : (l ++ m).foldlM f b = m.foldlM f b' := by
  rw [List.foldlM_append, h]; rfl

theorem foldlM_append_error {A B : Type} {f : B → A → Except Err B} {l m : List A} {b : B} {e : Err}
    (h : l.foldlM f b = .error e) : (l ++ m).foldlM f b = .error e := by
  rw [List.foldlM_append, h]; rfl

theorem foldlM_append_eq_ok {A B : Type} {f : B → A → Except Err B} {l m : List A} {b b'' : B}
    (h : (l ++ m).foldlM f b = .ok b'') :
    ∃ b', l.foldlM f b = .ok b' ∧ m.foldlM f b' = .ok b'' := by
  rw [List.foldlM_append] at h
  cases h1 : l.foldlM f b with
  | error e => rw [h1] at h; cases h
  | ok b' => rw [h1] at h; exact ⟨b', rfl, h⟩

theorem map_fst_zip_sublist {A B : Type} (l : List A) (m : List B) :
    ((l.zip m).map Prod.fst).Sublist l := by
  induction l generalizing m with
  | nil => simp
  | cons a l ih => cases m with
    | nil => simp
    | cons b m => simpa using ih m

/-! ## Sub-distributions as lists -/

namespace Subs

theorem ofList_toList (s : Subs C) : ofList s.toList = s := by
  induction s using Subs.rec (motive_1 := fun _ => True) with
  | mk => trivial
  | nil => rfl
  | cons n d r _ ih => simp [toList, ofList, ih]

theorem names_eq (s : Subs C) : s.names = s.toList.map Prod.fst := by
  induction s using Subs.rec (motive_1 := fun _ => True) with
  | mk => trivial
  | nil => rfl
  | cons n d r _ ih => simp [toList, names, ih]

end Subs

theorem WFs_iff {s : Subs C} : WFs s ↔ ∀ nd ∈ s.toList, WF nd.2 := by
  induction s using Subs.rec (motive_1 := fun _ => True) with
  | mk => trivial
  | nil => simp [WFs, Subs.toList]
  | cons n d r _ ih => simp [WFs, Subs.toList, ih]

/-! ## Paths of parameters -/

theorem nodeParams_none (c : C) (vals : List Val) :
    nodeParams none c vals = ((fields c).zip vals).map fun fv => (fv.1.name, fv.2, fv.1.support) := by
  simp [nodeParams, keep]

theorem nodeParams_keys_sublist (fixed : Option Bool) (c : C) (vals : List Val) :
    ((nodeParams fixed c vals).map Prod.fst).Sublist ((fields c).map Field.name) := by
  have h1 : (((fields c).zip vals).filter fun fv => keep fixed fv.1).Sublist
      ((fields c).zip vals) := List.filter_sublist
  have h2 : (((fields c).zip vals).map Prod.fst).Sublist (fields c) :=
    map_fst_zip_sublist _ _
  have := ((h1.map Prod.fst).trans h2).map Field.name
  simpa [nodeParams, List.map_map, Function.comp_def] using this

theorem nodeParams_keys_nodup (fixed : Option Bool) (c : C) (vals : List Val) :
    ((nodeParams fixed c vals).map Prod.fst).Nodup :=
  (names_nodup c).sublist (nodeParams_keys_sublist fixed c vals)

mutual
theorem Dist.paramList_prefix {fixed : Option Bool} {base : Path} :
    {p : Dist C} → {kv : Path × Val × Support} → kv ∈ p.paramList fixed base →
      base <+: kv.1 ∧ kv.1 ≠ base
  | .mk c vals subs, kv, h => by
    rw [Dist.paramList, List.mem_append] at h
    rcases h with h | h
    · obtain ⟨nv, _, rfl⟩ := List.mem_map.1 h
      exact ⟨List.prefix_append _ _, by simp⟩
    · obtain ⟨n, _, h⟩ := Subs.paramList_prefix h
      refine ⟨(List.prefix_append _ _).trans h, ?_⟩
      rintro rfl
      simpa using h.length_le
theorem Subs.paramList_prefix {fixed : Option Bool} {base : Path} :
    {s : Subs C} → {kv : Path × Val × Support} → kv ∈ s.paramList fixed base →
      ∃ n ∈ s.names, base ++ [n] <+: kv.1
  | .nil, kv, h => by simp [Subs.paramList] at h
  | .cons n d rest, kv, h => by
    rw [Subs.paramList, List.mem_append] at h
    rcases h with h | h
    · exact ⟨n, by simp [Subs.names], (Dist.paramList_prefix h).1⟩
    · obtain ⟨m, hm, h⟩ := Subs.paramList_prefix h
      exact ⟨m, by simp [Subs.names, hm], h⟩
end

theorem prefix_snoc_inj {base k : Path} {n m : String} (h1 : base ++ [n] <+: k)
    (h2 : base ++ [m] <+: k) : n = m := by
  have := List.prefix_of_prefix_length_le h1 h2 (by simp)
  have := List.IsPrefix.eq_of_length this (by simp)
  simpa using this

theorem subs_nil_of_fields {c : C} {vals : List Val} {subs : Subs C} (h : WF (.mk c vals subs))
    (hf : fields c ≠ []) : subs = .nil := by
  obtain ⟨_, h2, _⟩ := h
  by_contra hs
  exact hf (joint_fields c (h2.2 hs))

theorem nodeParams_nil_of_fields {c : C} {vals : List Val} {fixed : Option Bool}
    (hf : fields c = []) : nodeParams fixed c vals = [] := by
  simp [nodeParams, hf]

mutual
theorem Dist.paramList_nodup {fixed : Option Bool} {base : Path} :
    {p : Dist C} → WF p → ((p.paramList fixed base).map Prod.fst).Nodup
  | .mk c vals subs, h => by
    rw [Dist.paramList]
    by_cases hf : fields c = []
    · rw [nodeParams_nil_of_fields hf]
      simpa using Subs.paramList_nodup h.2.2.1 h.2.2.2
    · have := subs_nil_of_fields h hf
      subst this
      simp only [Subs.paramList, List.append_nil, List.map_map]
      have := (nodeParams_keys_nodup fixed c vals).map (f := fun n => base ++ [n])
        (fun a b h => by simpa using h)
      simpa [List.map_map, Function.comp_def] using this
theorem Subs.paramList_nodup {fixed : Option Bool} {base : Path} :
    {s : Subs C} → s.names.Nodup → WFs s → ((s.paramList fixed base).map Prod.fst).Nodup
  | .nil, _, _ => by simp [Subs.paramList]
  | .cons n d rest, hn, h => by
    rw [Subs.paramList, List.map_append, List.nodup_append]
    simp only [Subs.names, List.nodup_cons] at hn
    refine ⟨Dist.paramList_nodup h.1, Subs.paramList_nodup hn.2 h.2, ?_⟩
    rintro k hk k' hk' rfl
    obtain ⟨kv, hkv, rfl⟩ := List.mem_map.1 hk
    obtain ⟨kv', hkv', he⟩ := List.mem_map.1 hk'
    obtain ⟨m, hm, h2⟩ := Subs.paramList_prefix hkv'
    rw [he] at h2
    have := prefix_snoc_inj (Dist.paramList_prefix hkv).1 h2
    exact hn.1 (this ▸ hm)
end

theorem parameters_eq {p : Dist C} (h : WF p) (fixed : Option Bool) :
    parameters p fixed = (p.paramList fixed []).map fun kv => (kv.1, kv.2.1) :=
  Dict.ofList_eq (by simpa [List.map_map, Function.comp_def] using Dist.paramList_nodup h)

theorem parametersS_eq {p : Dist C} (h : WF p) (fixed : Option Bool) :
    parametersS p fixed = p.paramList fixed [] := Dict.ofList_eq (Dist.paramList_nodup h)

theorem parametersFlat_eq (p : Dist C) (fixed : Option Bool) :
    parametersFlat p fixed = (nodeParams fixed p.cls p.vals).map fun kv => (kv.1, kv.2.1) :=
  Dict.ofList_eq (by
    simpa [List.map_map, Function.comp_def] using nodeParams_keys_nodup fixed p.cls p.vals)

theorem supportOf_eq (c : C) (fixed : Option Bool) :
    supportOf c fixed = ((fields c).filter (keep fixed)).map fun f => (f.name, f.support) :=
  Dict.ofList_eq (by
    have := (names_nodup c).sublist ((List.filter_sublist (l := fields c) (p := keep fixed)).map
      Field.name)
    simpa [List.map_map, Function.comp_def] using this)

theorem supportOf_keys (c : C) (fixed : Option Bool) :
    (supportOf c fixed).keys = ((fields c).filter (keep fixed)).map Field.name := by
  simp [supportOf_eq, Dict.keys, List.map_map, Function.comp_def]

theorem supportOf_none_keys (c : C) : (supportOf c none).keys = (fields c).map Field.name := by
  rw [supportOf_keys]
  congr 1
  exact List.filter_eq_self.2 fun _ _ => rfl

/-! ## The skeleton of a tree -/

/-- What `assemble` uses of a `SubDistributionInfo`. -/
def Info.strip (i : Info C) : Path × C × List String := (i.path, i.cls, i.subNames)

mutual
/-- The stripped infos in post-order. -/
def Dist.skel (base : Path) : Dist C → List (Path × C × List String)
  | .mk c _ subs => Subs.skel base subs ++ [(base, c, subs.names)]
def Subs.skel (base : Path) : Subs C → List (Path × C × List String)
  | .nil => []
  | .cons n d rest => Dist.skel (base ++ [n]) d ++ Subs.skel base rest
end

theorem Dist.walk_eq_ok {T : Type} {f : Dist C → Path → Except Err T} {base : Path} {c : C}
    {vals : List Val} {subs : Subs C} {L : List T} (h : (Dist.mk c vals subs).walk f base = .ok L) :
    ∃ A b, Subs.walk f base subs = .ok A ∧ f (.mk c vals subs) base = .ok b ∧ L = A ++ [b] := by
  rw [Dist.walk] at h
  cases h1 : Subs.walk f base subs with
  | error e => rw [h1] at h; cases h
  | ok A =>
    cases h2 : f (.mk c vals subs) base with
    | error e => rw [h1, h2] at h; cases h
    | ok b => rw [h1, h2] at h; cases h; exact ⟨A, b, rfl, rfl, rfl⟩

theorem Subs.walk_eq_ok {T : Type} {f : Dist C → Path → Except Err T} {base : Path} {n : String}
    {d : Dist C} {rest : Subs C} {L : List T} (h : (Subs.cons n d rest).walk f base = .ok L) :
    ∃ A B, d.walk f (base ++ [n]) = .ok A ∧ rest.walk f base = .ok B ∧ L = A ++ B := by
  rw [Subs.walk] at h
  cases h1 : d.walk f (base ++ [n]) with
  | error e => rw [h1] at h; cases h
  | ok A =>
    cases h2 : rest.walk f base with
    | error e => rw [h1, h2] at h; cases h
    | ok b => rw [h1, h2] at h; cases h; exact ⟨A, b, rfl, rfl, rfl⟩

theorem Dist.walk_ok {T : Type} {f : Dist C → Path → Except Err T} {base : Path} {c : C}
    {vals : List Val} {subs : Subs C} {A : List T} {b : T} (h1 : Subs.walk f base subs = .ok A)
    (h2 : f (.mk c vals subs) base = .ok b) :
    (Dist.mk c vals subs).walk f base = .ok (A ++ [b]) := by
  rw [Dist.walk, h1, h2]; rfl

theorem Subs.walk_ok {T : Type} {f : Dist C → Path → Except Err T} {base : Path} {n : String}
    {d : Dist C} {rest : Subs C} {A B : List T} (h1 : d.walk f (base ++ [n]) = .ok A)
    (h2 : rest.walk f base = .ok B) : (Subs.cons n d rest).walk f base = .ok (A ++ B) := by
  rw [Subs.walk, h1, h2]; rfl

theorem makeInfo_eq_ok {q : Dist C} {path : Path} {i : Info C} (h : makeInfo q path = .ok i) :
    ∃ d, dimensions q.cls q.vals = .ok d ∧ i = ⟨path, q.cls, d, q.subs.names⟩ := by
  rw [makeInfo] at h
  cases h1 : dimensions q.cls q.vals with
  | error e => rw [h1] at h; cases h
  | ok d => rw [h1] at h; cases h; exact ⟨d, rfl, rfl⟩

mutual
theorem Dist.walk_skel {base : Path} : {p : Dist C} → {L : List (Info C)} →
    p.walk makeInfo base = .ok L → L.map Info.strip = p.skel base
  | .mk c vals subs, L, h => by
    obtain ⟨A, b, h1, h2, rfl⟩ := Dist.walk_eq_ok h
    obtain ⟨d, _, rfl⟩ := makeInfo_eq_ok h2
    simp [Dist.skel, Subs.walk_skel h1, Info.strip, Dist.cls, Dist.subs]
theorem Subs.walk_skel {base : Path} : {s : Subs C} → {L : List (Info C)} →
    s.walk makeInfo base = .ok L → L.map Info.strip = s.skel base
  | .nil, L, h => by cases h; rfl
  | .cons n d rest, L, h => by
    obtain ⟨A, B, h1, h2, rfl⟩ := Subs.walk_eq_ok h
    simp [Subs.skel, Dist.walk_skel h1, Subs.walk_skel h2]
end

/-! ## `construct` -/

theorem zip_names_get? {fs : List Field} (hn : (fs.map Field.name).Nodup) {vals : List Val}
    {i : ℕ} {f : Field} {v : Val} (hf : fs[i]? = some f) (hv : vals[i]? = some v) :
    Dict.get? ((fs.map Field.name).zip vals) f.name = some v := by
  refine Dict.get?_of_mem ?_ ?_
  · exact hn.sublist (map_fst_zip_sublist _ _)
  · refine List.mem_iff_getElem?.2 ⟨i, ?_⟩
    rw [List.getElem?_zip_eq_some]
    simp [hf, hv]

theorem lookup_all {fs : List Field} {vals : List Val} (hl : vals.length = fs.length)
    {kw : Dict String Val}
    (hkw : ∀ (i : ℕ) (f : Field) (v : Val), fs[i]? = some f → vals[i]? = some v → kw.get? f.name = some v) :
    fs.mapM (argOf kw) = .ok vals := by
  induction fs generalizing vals with
  | nil =>
    cases vals with
    | nil => rfl
    | cons _ _ => simp at hl
  | cons f fs ih =>
    cases vals with
    | nil => simp at hl
    | cons v vals =>
      rw [List.mapM_cons, argOf, hkw 0 f v rfl rfl, ih (by simpa using hl) fun i f v h1 h2 =>
        hkw (i + 1) f v (by simpa using h1) (by simpa using h2)]
      rfl

theorem construct_simple {c : C} {vals : List Val} {kw : Dict String Val}
    (hj : isJoint c = false) (hl : vals.length = (fields c).length)
    (hk : ∀ k ∈ kw.keys, k ∈ (fields c).map Field.name)
    (hkw : ∀ (i : ℕ) (f : Field) (v : Val), (fields c)[i]? = some f → vals[i]? = some v → kw.get? f.name = some v) :
    construct c kw [] = .ok (.mk c vals .nil) := by
  have h1 : kw.all (fun kv => (fields c).any (·.name == kv.1)) = true := by
    rw [List.all_eq_true]
    intro kv hkv
    obtain ⟨f, hf, he⟩ := List.mem_map.1 (hk kv.1 (List.mem_map.2 ⟨kv, hkv, rfl⟩))
    rw [List.any_eq_true]
    exact ⟨f, hf, by simp [he]⟩
  simp only [construct, hj, List.isEmpty_nil, h1, Bool.and_true, if_true, lookup_all hl hkw]
  rfl

theorem construct_joint {c : C} {subs : Subs C} (hj : isJoint c = true) (hs : subs ≠ .nil) :
    construct c [] subs.toList = .ok (.mk c [] subs) := by
  cases subs with
  | nil => exact absurd rfl hs
  | cons n d r => simp [construct, hj, Subs.toList, Subs.ofList, Subs.ofList_toList]

/-- The arguments of the constructor in the order of declaration. -/
theorem construct_node {c : C} {vals : List Val} {subs : Subs C} (h : WF (.mk c vals subs)) :
    construct c (Dict.ofList (((fields c).map Field.name).zip vals)) subs.toList =
      .ok (.mk c vals subs) := by
  obtain ⟨h1, h2, h3, h4⟩ := h
  cases hj : isJoint c with
  | true =>
    have hf := joint_fields c hj
    have : vals = [] := by simpa [hf] using h1
    subst this
    simpa [hf, Dict.ofList] using construct_joint hj (h2.1 hj)
  | false =>
    have : subs = .nil := by
      by_contra hs
      simp [hj] at h2
      exact hs h2
    subst this
    have hn := names_nodup c
    rw [Dict.ofList_eq (hn.sublist (map_fst_zip_sublist _ _))]
    refine construct_simple hj h1 (fun k hk => ?_) fun i f v hf hv => zip_names_get? hn hf hv
    exact (map_fst_zip_sublist _ _).subset hk

/-! ## `assemble` -/

theorem gatherSubs_ok {con : Dict Path (Obj C)} {info : Info C} {s : Subs C}
    (hn : info.subNames = s.names) (hnd : s.names.Nodup)
    (h : ∀ nd ∈ s.toList, con.get? (info.path ++ [nd.1]) = some (.inr nd.2)) :
    gatherSubs con info = .ok s.toList := by
  have key : ∀ l : List (String × Dist C),
      (∀ nd ∈ l, con.get? (info.path ++ [nd.1]) = some (.inr nd.2)) →
      ((l.map Prod.fst).mapM fun n => do
        (.ok (n, ← getDist con (info.path ++ [n])) : Except Err (String × Dist C))) = .ok l := by
    intro l hl
    induction l with
    | nil => rfl
    | cons nd l ih =>
      rw [List.map_cons, List.mapM_cons, ih fun x hx => hl x (by simp [hx])]
      have := hl nd (by simp)
      simp only [getDist, Dict.get, this]
      rfl
  rw [gatherSubs, hn, Subs.names_eq, key _ h]
  rw [Subs.names_eq] at hnd
  simp only [bind, Except.bind, Dict.ofList_eq hnd]

theorem getVals_ok {con : Dict Path (Obj C)} {base : Path} {fs : List Field} {vals : List Val}
    (hl : vals.length = fs.length)
    (h : ∀ fv ∈ fs.zip vals, con.get? (base ++ [fv.1.name]) = some (.inl fv.2)) :
    ((fs.map Field.name).mapM fun n => do
      (.ok (n, ← getVal con (base ++ [n])) : Except Err (String × Val))) =
        .ok ((fs.map Field.name).zip vals) := by
  induction fs generalizing vals with
  | nil => rfl
  | cons f fs ih =>
    cases vals with
    | nil => simp at hl
    | cons v vals =>
      rw [List.map_cons, List.mapM_cons,
        ih (by simpa using hl) fun x hx => h x (by simp [hx])]
      have := h (f, v) (by simp)
      simp only [getVal, Dict.get, this]
      rfl

theorem assembleStep_ok {con : Dict Path (Obj C)} {info : Info C} {c : C} {vals : List Val}
    {subs : Subs C} (hw : WF (.mk c vals subs)) (hi : info.strip = (info.path, c, subs.names))
    (hv : ∀ fv ∈ (fields c).zip vals, con.get? (info.path ++ [fv.1.name]) = some (.inl fv.2))
    (hs : ∀ nd ∈ subs.toList, con.get? (info.path ++ [nd.1]) = some (.inr nd.2)) :
    assembleStep con info = .ok (con.set info.path (.inr (.mk c vals subs))) := by
  obtain ⟨path, c', d, sn⟩ := info
  simp only [Info.strip, Prod.mk.injEq, true_and] at hi
  obtain ⟨rfl, rfl⟩ := hi
  rw [assembleStep]
  simp only [supportOf_none_keys]
  rw [getVals_ok hw.1 hv, gatherSubs_ok rfl hw.2.2.1 hs]
  simp only [bind, Except.bind]
  rw [construct_node hw]

theorem map_append_singleton {A B : Type} {f : A → B} {l : List A} {bs : List B} {b : B}
    (h : l.map f = bs ++ [b]) : ∃ as a, l = as ++ [a] ∧ as.map f = bs ∧ f a = b := by
  obtain ⟨as, r, rfl, h1, h2⟩ := List.map_eq_append_iff.1 h
  obtain ⟨a, rfl, rfl⟩ : ∃ a, r = [a] ∧ f a = b := by
    cases r with
    | nil => simp at h2
    | cons a r =>
      cases r with
      | nil => exact ⟨a, rfl, by simpa using h2⟩
      | cons _ _ => simp at h2
  exact ⟨as, a, rfl, h1, rfl⟩

mutual
theorem Dist.assemble_fold {base : Path} : {p : Dist C} → {L : List (Info C)} →
    {con : Dict Path (Obj C)} → WF p → L.map Info.strip = p.skel base →
    (∀ kv ∈ p.paramList none base, con.get? kv.1 = some (.inl kv.2.1)) →
    ∃ con', L.foldlM assembleStep con = .ok con' ∧ con'.get? base = some (.inr p) ∧
      ∀ k, ¬ base <+: k → con'.get? k = con.get? k
  | .mk c vals subs, L, con, hw, hL, hp => by
    rw [Dist.skel] at hL
    obtain ⟨A, i, rfl, hA, hi⟩ := map_append_singleton hL
    have hpath : i.path = base := congrArg Prod.fst hi
    obtain ⟨con1, h1, h2, h3⟩ := Subs.assemble_fold hw.2.2.1 hw.2.2.2 hA
      (fun kv hkv => hp kv (by rw [Dist.paramList]; exact List.mem_append_right _ hkv))
    have hstep := assembleStep_ok (con := con1) (info := i) hw (by rw [hpath, hi])
      (fun fv hfv => by
        rw [hpath]
        have hsn : subs = .nil := subs_nil_of_fields hw (by
          intro hf; simp [hf] at hfv)
        subst hsn
        rw [h3 _ (by simp [Subs.names])]
        refine hp (base ++ [fv.1.name], fv.2, fv.1.support) ?_
        rw [Dist.paramList, nodeParams_none]
        refine List.mem_append_left _ (List.mem_map.2 ⟨(fv.1.name, fv.2, fv.1.support), ?_, rfl⟩)
        exact List.mem_map.2 ⟨fv, hfv, rfl⟩)
      (by rw [hpath]; exact h2)
    refine ⟨_, by rw [foldlM_append_ok h1]; simp only [List.foldlM, hstep]; rfl, ?_, ?_⟩
    · rw [Dict.get?_set, if_pos hpath]
    · intro k hk
      rw [Dict.get?_set, if_neg (by rintro rfl; exact hk (by rw [hpath]))]
      exact h3 k fun n _ hn => hk ((List.prefix_append _ _).trans hn)
theorem Subs.assemble_fold {base : Path} : {s : Subs C} → {L : List (Info C)} →
    {con : Dict Path (Obj C)} → s.names.Nodup → WFs s → L.map Info.strip = s.skel base →
    (∀ kv ∈ s.paramList none base, con.get? kv.1 = some (.inl kv.2.1)) →
    ∃ con', L.foldlM assembleStep con = .ok con' ∧
      (∀ nd ∈ s.toList, con'.get? (base ++ [nd.1]) = some (.inr nd.2)) ∧
      ∀ k, (∀ n ∈ s.names, ¬ base ++ [n] <+: k) → con'.get? k = con.get? k
  | .nil, L, con, _, _, hL, _ => by
    have : L = [] := by simpa [Subs.skel] using hL
    subst this
    exact ⟨con, rfl, by simp [Subs.toList], fun _ _ => rfl⟩
  | .cons n d rest, L, con, hn, hw, hL, hp => by
    rw [Subs.skel] at hL
    obtain ⟨A, B, rfl, hA, hB⟩ := List.map_eq_append_iff.1 hL
    simp only [Subs.names, List.nodup_cons] at hn
    obtain ⟨con1, h1, h2, h3⟩ := Dist.assemble_fold hw.1 hA
      (fun kv hkv => hp kv (by rw [Subs.paramList]; exact List.mem_append_left _ hkv))
    obtain ⟨con2, g1, g2, g3⟩ := Subs.assemble_fold (con := con1) hn.2 hw.2 hB
      (fun kv hkv => by
        rw [h3 kv.1 fun hpre => ?_]
        · exact hp kv (by rw [Subs.paramList]; exact List.mem_append_right _ hkv)
        · obtain ⟨m, hm, hm'⟩ := Subs.paramList_prefix hkv
          exact hn.1 (prefix_snoc_inj hpre hm' ▸ hm))
    refine ⟨con2, by rw [foldlM_append_ok h1, g1], ?_, ?_⟩
    · intro nd hnd
      rcases List.mem_cons.1 hnd with rfl | hnd
      · rw [g3 _ fun m hm hpre => ?_]
        · exact h2
        · exact hn.1 ((prefix_snoc_inj hpre List.prefix_rfl : m = n) ▸ hm)
      · exact g2 nd hnd
    · intro k hk
      rw [g3 k fun m hm => hk m (by simp [Subs.names, hm]), h3 k (hk n (by simp [Subs.names]))]
end

theorem get?_map_inl (p : Dict Path Val) (k : Path) :
    Dict.get? (p.map fun kv => (kv.1, (Sum.inl kv.2 : Obj C))) k = (p.get? k).map Sum.inl := by
  induction p with
  | nil => rfl
  | cons a p ih => by_cases h : a.1 = k <;> simp [Dict.get?, h, ih]

/-- `assemble` builds the object whose parameters are found in the dictionary. -/
theorem assemble_ok {p : Dist C} {L : List (Info C)} {ps : Dict Path Val} (hw : WF p)
    (hL : L.map Info.strip = p.skel [])
    (hp : ∀ kv ∈ p.paramList none [], ps.get? kv.1 = some kv.2.1) : assemble L ps = .ok p := by
  obtain ⟨con, h1, h2, _⟩ := Dist.assemble_fold (con := ps.map fun kv => (kv.1, Sum.inl kv.2))
    hw hL (fun kv hkv => by rw [get?_map_inl, hp kv hkv]; rfl)
  simp only [assemble, h1, bind, Except.bind, Dict.get, h2]

end Efax
