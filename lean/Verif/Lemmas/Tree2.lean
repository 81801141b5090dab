import Verif.Lemmas.Tree

/-! # Parameters by path, replacing parameter values, missing parameters -/

namespace Efax

open ClassTable Spec

variable {C : Type} [ClassTable C]

theorem mem_nodeParams {fixed : Option Bool} {c : C} {vals : List Val} {nv : String × Val × Support} :
    nv ∈ nodeParams fixed c vals ↔ ∃ (i : ℕ) (f : Field) (v : Val), (fields c)[i]? = some f ∧
      vals[i]? = some v ∧ keep fixed f = true ∧ nv = (f.name, v, f.support) := by
  simp only [nodeParams, List.mem_map, List.mem_filter]
  constructor
  · rintro ⟨⟨f, v⟩, ⟨hm, hk⟩, rfl⟩
    obtain ⟨i, hi⟩ := List.mem_iff_getElem?.1 hm
    rw [List.getElem?_zip_eq_some] at hi
    exact ⟨i, f, v, hi.1, hi.2, hk, rfl⟩
  · rintro ⟨i, f, v, hf, hv, hk, rfl⟩
    refine ⟨(f, v), ⟨List.mem_iff_getElem?.2 ⟨i, ?_⟩, hk⟩, rfl⟩
    rw [List.getElem?_zip_eq_some]
    exact ⟨hf, hv⟩

mutual
theorem Dist.mem_paramList {fixed : Option Bool} {base : Path} :
    {p : Dist C} → {kv : Path × Val × Support} → (kv ∈ p.paramList fixed base ↔
      ∃ k f v, ParamAt p k f v ∧ keep fixed f = true ∧ kv = (base ++ k, v, f.support))
  | .mk c vals subs, kv => by
    rw [Dist.paramList, List.mem_append, Subs.mem_paramList]
    constructor
    · rintro (h | ⟨n, d, k, f, v, hm, hp, hk, rfl⟩)
      · obtain ⟨nv, hnv, rfl⟩ := List.mem_map.1 h
        obtain ⟨i, f, v, hf, hv, hk, rfl⟩ := mem_nodeParams.1 hnv
        exact ⟨[f.name], f, v, .here hf hv, hk, rfl⟩
      · exact ⟨n :: k, f, v, .sub hm hp, hk, rfl⟩
    · rintro ⟨k, f, v, hp, hk, rfl⟩
      cases hp with
      | here hf hv =>
        left
        exact List.mem_map.2 ⟨_, mem_nodeParams.2 ⟨_, _, _, hf, hv, hk, rfl⟩, rfl⟩
      | sub hm hp => exact .inr ⟨_, _, _, _, _, hm, hp, hk, rfl⟩
theorem Subs.mem_paramList {fixed : Option Bool} {base : Path} :
    {s : Subs C} → {kv : Path × Val × Support} → (kv ∈ s.paramList fixed base ↔
      ∃ n d k f v, (n, d) ∈ s.toList ∧ ParamAt d k f v ∧ keep fixed f = true ∧
        kv = (base ++ n :: k, v, f.support))
  | .nil, kv => by simp [Subs.paramList, Subs.toList]
  | .cons n d rest, kv => by
    rw [Subs.paramList, List.mem_append, Dist.mem_paramList, Subs.mem_paramList]
    constructor
    · rintro (⟨k, f, v, hp, hk, rfl⟩ | ⟨n', d', k, f, v, hm, hp, hk, rfl⟩)
      · exact ⟨n, d, k, f, v, by simp [Subs.toList], hp, hk, by simp⟩
      · exact ⟨n', d', k, f, v, by simp [Subs.toList, hm], hp, hk, rfl⟩
    · rintro ⟨n', d', k, f, v, hm, hp, hk, rfl⟩
      rcases List.mem_cons.1 hm with h | h
      · cases h
        exact .inl ⟨k, f, v, hp, hk, by simp⟩
      · exact .inr ⟨n', d', k, f, v, h, hp, hk, rfl⟩
end

theorem mem_parameters {p : Dist C} (h : WF p) {fixed : Option Bool} {k : Path} {v : Val} :
    (k, v) ∈ parameters p fixed ↔ ∃ f, ParamAt p k f v ∧ keep fixed f = true := by
  rw [parameters_eq h, List.mem_map]
  constructor
  · rintro ⟨kv, hkv, he⟩
    obtain ⟨k', f, v', hp, hk, rfl⟩ := Dist.mem_paramList.1 hkv
    cases he
    exact ⟨f, hp, hk⟩
  · rintro ⟨f, hp, hk⟩
    exact ⟨_, Dist.mem_paramList.2 ⟨k, f, v, hp, hk, rfl⟩, rfl⟩

theorem parameters_keys_nodup {p : Dist C} (h : WF p) (fixed : Option Bool) :
    (parameters p fixed).keys.Nodup := by
  have := Dist.paramList_nodup (fixed := fixed) (base := []) h
  rw [parameters_eq h, Dict.keys, List.map_map]
  exact this

theorem parameters_get? {p : Dist C} (h : WF p) {fixed : Option Bool} {k : Path} {v : Val} :
    (parameters p fixed).get? k = some v ↔ ∃ f, ParamAt p k f v ∧ keep fixed f = true := by
  rw [← mem_parameters h]
  exact ⟨Dict.mem_of_get?, Dict.get?_of_mem (parameters_keys_nodup h fixed)⟩

/-- A path leads to at most one parameter. -/
theorem ParamAt.unique {p : Dist C} (h : WF p) {k : Path} {f f' : Field} {v v' : Val}
    (h1 : ParamAt p k f v) (h2 : ParamAt p k f' v') : f = f' ∧ v = v' := by
  induction h1 generalizing f' v' with
  | @here c vals subs i f v hf hv =>
    have hs := subs_nil_of_fields h (by intro hh; simp [hh] at hf)
    subst hs
    generalize hk : [f.name] = k at h2
    cases h2 with
    | @here _ _ _ j _ _ hf' hv' =>
      have hij : i = j := by
        have hn := names_nodup c
        obtain ⟨hi, e1⟩ := List.getElem?_eq_some_iff.1 hf
        obtain ⟨hj, e2⟩ := List.getElem?_eq_some_iff.1 hf'
        have : ((fields c).map Field.name)[i]'(by simpa using hi) =
            ((fields c).map Field.name)[j]'(by simpa using hj) := by
          simp only [List.getElem_map, e1, e2]
          simpa using hk
        exact (List.Nodup.getElem_inj_iff hn).1 this
      subst hij
      rw [hf] at hf'
      rw [hv] at hv'
      cases hf'; cases hv'
      exact ⟨rfl, rfl⟩
    | sub hm _ => simp [Subs.toList] at hm
  | @sub c vals subs n d k f v hm hp ih =>
    generalize hk : n :: k = k' at h2
    cases h2 with
    | here hf' hv' =>
      have hs := subs_nil_of_fields h (by intro hh; simp [hh] at hf')
      subst hs
      simp [Subs.toList] at hm
    | @sub _ _ _ n' d' k' _ _ hm' hp' =>
      cases hk
      have hn := h.2.2.1
      rw [Subs.names_eq] at hn
      have e1 := Dict.get?_of_mem hn hm
      have e2 := Dict.get?_of_mem hn hm'
      rw [e1] at e2
      cases e2
      exact ih (WFs_iff.1 h.2.2.2 _ hm) hp'

/-! ## Replacing the values -/

mutual
/-- The object with the same classes and names whose parameter at path `k` is `lk k`. -/
def Dist.refill (lk : Path → Val) (base : Path) : Dist C → Dist C
  | .mk c _ subs => .mk c ((fields c).map fun f => lk (base ++ [f.name])) (Subs.refill lk base subs)
def Subs.refill (lk : Path → Val) (base : Path) : Subs C → Subs C
  | .nil => .nil
  | .cons n d rest => .cons n (Dist.refill lk (base ++ [n]) d) (Subs.refill lk base rest)
end

theorem Subs.refill_names (lk : Path → Val) (base : Path) (s : Subs C) :
    (s.refill lk base).names = s.names := by
  induction s using Subs.rec (motive_1 := fun _ => True) with
  | mk => trivial
  | nil => rfl
  | cons n d r _ ih => simp [Subs.refill, Subs.names, ih]

theorem Subs.refill_eq_nil (lk : Path → Val) (base : Path) (s : Subs C) :
    s.refill lk base = .nil ↔ s = .nil := by
  cases s <;> simp [Subs.refill]

mutual
theorem Dist.refill_wf {lk : Path → Val} {base : Path} : {p : Dist C} → WF p → WF (p.refill lk base)
  | .mk c vals subs, h => by
    refine ⟨by simp, ?_, ?_, Subs.refill_wf h.2.2.2⟩
    · rw [Ne, Subs.refill_eq_nil]; exact h.2.1
    · rw [Subs.refill_names]; exact h.2.2.1
theorem Subs.refill_wf {lk : Path → Val} {base : Path} : {s : Subs C} → WFs s →
    WFs (s.refill lk base)
  | .nil, _ => trivial
  | .cons _ _ _, h => ⟨Dist.refill_wf h.1, Subs.refill_wf h.2⟩
end

mutual
theorem Dist.refill_skel {lk : Path → Val} {base base' : Path} : (p : Dist C) →
    (p.refill lk base').skel base = p.skel base
  | .mk c vals subs => by simp [Dist.refill, Dist.skel, Subs.refill_skel subs, Subs.refill_names]
theorem Subs.refill_skel {lk : Path → Val} {base base' : Path} : (s : Subs C) →
    (s.refill lk base').skel base = s.skel base
  | .nil => rfl
  | .cons _ d r => by simp [Subs.refill, Subs.skel, Dist.refill_skel d, Subs.refill_skel r]
end

mutual
theorem Dist.refill_same {lk : Path → Val} {base : Path} : (p : Dist C) →
    SameTree p (p.refill lk base)
  | .mk c vals subs => ⟨rfl, Subs.refill_same subs⟩
theorem Subs.refill_same {lk : Path → Val} {base : Path} : (s : Subs C) →
    SameTrees s (s.refill lk base)
  | .nil => trivial
  | .cons _ d r => ⟨rfl, Dist.refill_same d, Subs.refill_same r⟩
end

theorem Subs.refill_mem {lk : Path → Val} {base : Path} {s : Subs C} {n : String} {d : Dist C}
    (h : (n, d) ∈ (s.refill lk base).toList) :
    ∃ d', (n, d') ∈ s.toList ∧ d = d'.refill lk (base ++ [n]) := by
  induction s using Subs.rec (motive_1 := fun _ => True) with
  | mk => trivial
  | nil => simp [Subs.refill, Subs.toList] at h
  | cons m e r _ ih =>
    rcases List.mem_cons.1 h with h | h
    · cases h; exact ⟨e, by simp [Subs.toList], rfl⟩
    · obtain ⟨d', h1, h2⟩ := ih h
      exact ⟨d', by simp [Subs.toList, h1], h2⟩

theorem Subs.mem_refill {lk : Path → Val} {base : Path} {s : Subs C} {n : String} {d : Dist C}
    (h : (n, d) ∈ s.toList) : (n, d.refill lk (base ++ [n])) ∈ (s.refill lk base).toList := by
  induction s using Subs.rec (motive_1 := fun _ => True) with
  | mk => trivial
  | nil => simp [Subs.toList] at h
  | cons m e r _ ih =>
    rcases List.mem_cons.1 h with h | h
    · cases h; simp [Subs.refill, Subs.toList]
    · simp [Subs.refill, Subs.toList, ih h]

theorem ParamAt.of_refill {lk : Path → Val} {base : Path} {p : Dist C} {k : Path} {f : Field}
    {v : Val} (hw : WF p) (h : ParamAt (p.refill lk base) k f v) :
    v = lk (base ++ k) ∧ ∃ v', ParamAt p k f v' := by
  generalize hq : p.refill lk base = q at h
  induction h generalizing p base with
  | @here c vals subs i f v hf hv =>
    obtain ⟨c', vals', subs'⟩ := p
    simp only [Dist.refill, Dist.mk.injEq] at hq
    obtain ⟨rfl, rfl, rfl⟩ := hq
    simp only [List.getElem?_map, hf, Option.map_some, Option.some.injEq] at hv
    have hi : i < vals'.length := by
      rw [hw.1]; exact (List.getElem?_eq_some_iff.1 hf).1
    exact ⟨hv.symm, _, .here hf (List.getElem?_eq_getElem hi)⟩
  | @sub c vals subs n d k f v hm hp ih =>
    obtain ⟨c', vals', subs'⟩ := p
    simp only [Dist.refill, Dist.mk.injEq] at hq
    obtain ⟨rfl, rfl, rfl⟩ := hq
    obtain ⟨d', h1, rfl⟩ := Subs.refill_mem hm
    obtain ⟨e, v', h2⟩ := ih (WFs_iff.1 hw.2.2.2 _ h1) rfl
    exact ⟨by simpa using e, v', .sub h1 h2⟩

theorem ParamAt.refill {lk : Path → Val} {base : Path} {p : Dist C} {k : Path} {f : Field}
    {v : Val} (h : ParamAt p k f v) : ParamAt (p.refill lk base) k f (lk (base ++ k)) := by
  induction h generalizing base with
  | @here c vals subs i f v hf hv => exact .here (i := i) hf (by simp [hf])
  | @sub c vals subs n d k f v hm hp ih =>
    have := ih (base := base ++ [n])
    rw [List.append_assoc] at this
    exact .sub (Subs.mem_refill hm) this

/-- Two well-formed objects of the same tree with the same parameters are equal. -/
theorem SameTree.eq_of_params {p q : Dist C} (hp : WF p) (hq : WF q) (hs : SameTree p q)
    (h : ∀ k f v, ParamAt p k f v → ParamAt q k f v) : p = q := by
  have key : ∀ (p q : Dist C), WF p → WF q → SameTree p q →
      (∀ k f v, ParamAt p k f v → ParamAt q k f v) → p = q := by
    intro p
    refine Dist.rec (motive_1 := fun p => ∀ q, WF p → WF q → SameTree p q →
      (∀ k f v, ParamAt p k f v → ParamAt q k f v) → p = q)
      (motive_2 := fun s => ∀ s', s'.names.Nodup → WFs s → WFs s' → SameTrees s s' →
      (∀ n d k f v, (n, d) ∈ s.toList → ParamAt d k f v →
        ∃ d', (n, d') ∈ s'.toList ∧ ParamAt d' k f v) → s = s') ?_ ?_ ?_ p
    · intro c vals subs ih q hp hq hs h
      obtain ⟨c', vals', subs'⟩ := q
      obtain ⟨rfl, hs⟩ := hs
      have e1 : vals = vals' := by
        refine List.ext_getElem? fun i => ?_
        by_cases hi : i < vals.length
        · have hf := List.getElem?_eq_getElem (hp.1 ▸ hi : i < (fields c).length)
          have hv := List.getElem?_eq_getElem hi
          have hi' : i < vals'.length := by rw [hq.1, ← hp.1]; exact hi
          have hv' := List.getElem?_eq_getElem hi'
          have h1 := h _ _ _ (ParamAt.here (subs := subs) hf hv)
          have h2 : ParamAt (.mk c vals' subs') _ _ _ := ParamAt.here (subs := subs') hf hv'
          rw [hv, hv', (ParamAt.unique hq h1 h2).2]
        · have : vals.length = vals'.length := by rw [hp.1, hq.1]
          rw [List.getElem?_eq_none (by omega), List.getElem?_eq_none (by omega)]
      subst e1
      rw [ih subs' hq.2.2.1 hp.2.2.2 hq.2.2.2 hs]
      intro n d k f v hm hpa
      have := h _ _ _ (ParamAt.sub (c := c) (vals := vals) hm hpa)
      generalize hk : n :: k = k' at this
      cases this with
      | here hf hv =>
        have := subs_nil_of_fields hp (by intro hh; simp [hh] at hf)
        subst this
        simp [Subs.toList] at hm
      | @sub _ _ _ n' d' k' _ _ hm' hp' => cases hk; exact ⟨d', hm', hp'⟩
    · intro s' _ _ _ hs _
      cases s' with
      | nil => rfl
      | cons _ _ _ => exact hs.elim
    · intro n d r ih1 ih2 s' hn hw hw' hs h
      cases s' with
      | nil => exact hs.elim
      | cons n' d' r' =>
        obtain ⟨rfl, hs1, hs2⟩ := hs
        have hn' := hn
        simp only [Subs.names, List.nodup_cons] at hn'
        have hn2 : ((Subs.cons n d' r').toList.map Prod.fst).Nodup := by
          rw [← Subs.names_eq]; exact hn
        have ed : d = d' := ih1 d' hw.1 hw'.1 hs1 fun k f v hp => by
          obtain ⟨e, he1, he2⟩ := h n d k f v (by simp [Subs.toList]) hp
          have := Dict.get?_of_mem (d := (Subs.cons n d' r').toList) hn2 he1
          have h2 := Dict.get?_of_mem (d := (Subs.cons n d' r').toList) (k := n) (v := d') hn2
            (by simp [Subs.toList])
          rw [this] at h2
          cases h2
          exact he2
        subst ed
        have names_eq : r.names = r'.names := by
          clear h ih1 ih2 hw hw' hn hn' hn2 hs1
          induction r using Subs.rec (motive_1 := fun _ => True) generalizing r' with
          | mk => trivial
          | nil => cases r' with
            | nil => rfl
            | cons _ _ _ => exact hs2.elim
          | cons m e r _ ih => cases r' with
            | nil => exact hs2.elim
            | cons m' e' r' =>
              obtain ⟨rfl, _, h3⟩ := hs2
              simp [Subs.names, ih r' h3]
        rw [ih2 r' hn'.2 hw.2 hw'.2 hs2]
        intro m e k f v hm hp
        obtain ⟨e', he1, he2⟩ := h m e k f v (by simp [Subs.toList, hm]) hp
        rcases List.mem_cons.1 he1 with he | he
        · cases he
          exfalso
          apply hn'.1
          rw [← names_eq, Subs.names_eq]
          exact List.mem_map.2 ⟨_, hm, rfl⟩
        · exact ⟨e', he, he2⟩
  exact key p q hp hq hs h

/-! ## `assemble` with arbitrary values -/

/-- `assemble` on a dictionary with a value for every path. -/
theorem assemble_refill {p : Dist C} {L : List (Info C)} {ps : Dict Path Val} {lk : Path → Val}
    (hw : WF p) (hL : L.map Info.strip = p.skel [])
    (hp : ∀ k f v, ParamAt p k f v → ps.get? k = some (lk k)) :
    assemble L ps = .ok (p.refill lk []) := by
  refine assemble_ok (Dist.refill_wf hw) (by rw [Dist.refill_skel, hL]) fun kv hkv => ?_
  obtain ⟨k, f, v, h1, _, rfl⟩ := Dist.mem_paramList.1 hkv
  obtain ⟨e, v', h2⟩ := ParamAt.of_refill hw h1
  simp only [List.nil_append] at e ⊢
  rw [hp k f v' h2, e]

theorem getVal_cases {con : Dict Path (Obj C)} {k : Path}
    (h : ∀ d, con.get? k ≠ some (.inr d)) :
    (∃ v, con.get? k = some (.inl v) ∧ getVal con k = .ok v) ∨
      (con.get? k = none ∧ getVal con k = .error .keyError) := by
  simp only [getVal, Dict.get]
  cases hk : con.get? k with
  | none => right; exact ⟨rfl, rfl⟩
  | some o =>
    cases o with
    | inl v => left; exact ⟨v, rfl, rfl⟩
    | inr d => exact absurd hk (h d)

mutual
theorem Dist.assemble_missing {base : Path} : {p : Dist C} → {L : List (Info C)} →
    {con : Dict Path (Obj C)} → WF p → L.map Info.strip = p.skel base →
    (∀ kv ∈ p.paramList none base, ∀ d, con.get? kv.1 ≠ some (.inr d)) →
    (∃ kv ∈ p.paramList none base, con.get? kv.1 = none) →
    L.foldlM assembleStep con = .error .keyError
  | .mk c vals subs, L, con, hw, hL, hp, hm => by
    rw [Dist.skel] at hL
    obtain ⟨A, i, rfl, hA, hi⟩ := map_append_singleton hL
    obtain ⟨path, c', dm, sn⟩ := i
    simp only [Info.strip, Prod.mk.injEq] at hi
    obtain ⟨rfl, rfl, rfl⟩ := hi
    by_cases hf : fields c' = []
    · refine foldlM_append_error (Subs.assemble_missing hw.2.2.1 hw.2.2.2 hA ?_ ?_)
      · exact fun kv hkv => hp kv (by rw [Dist.paramList]; exact List.mem_append_right _ hkv)
      · obtain ⟨kv, hkv, h⟩ := hm
        rw [Dist.paramList, nodeParams_nil_of_fields hf] at hkv
        exact ⟨kv, by simpa using hkv, h⟩
    · have hs := subs_nil_of_fields hw hf
      subst hs
      have : A = [] := by simpa [Subs.skel] using hA
      subst this
      have hmem : ∀ f ∈ fields c', ∃ v, (path ++ [f.name], v, f.support) ∈
          (Dist.mk c' vals .nil).paramList none path := by
        intro f hf'
        obtain ⟨j, hj⟩ := List.mem_iff_getElem?.1 hf'
        have hjl : j < vals.length := by
          rw [hw.1]; exact (List.getElem?_eq_some_iff.1 hj).1
        exact ⟨_, Dist.mem_paramList.2 ⟨[f.name], f, _, .here hj
          (List.getElem?_eq_getElem hjl), rfl, rfl⟩⟩
      have hkw : ((supportOf c' none).keys.mapM fun n => do
          (.ok (n, ← getVal con (path ++ [n])) : Except Err (String × Val))) =
            .error .keyError := by
        rw [supportOf_none_keys]
        refine mapM_error ?_ ?_
        · intro n hn
          obtain ⟨f, hf', rfl⟩ := List.mem_map.1 hn
          obtain ⟨v, hv⟩ := hmem f hf'
          rcases getVal_cases (hp _ hv) with ⟨w, _, h⟩ | ⟨_, h⟩
          · left; exact ⟨_, by rw [h]; rfl⟩
          · right; rw [h]; rfl
        · obtain ⟨kv, hkv, h⟩ := hm
          obtain ⟨k, f, v, h1, _, rfl⟩ := Dist.mem_paramList.1 hkv
          cases h1 with
          | here hf' hv =>
            refine ⟨f.name, List.mem_map.2 ⟨f, List.mem_of_getElem? hf', rfl⟩, ?_⟩
            simp only at h
            simp only [getVal, Dict.get, h]
            rfl
          | sub hm' _ => simp [Subs.toList] at hm'
      simp only [List.nil_append, List.foldlM, assembleStep, hkw]
      rfl
theorem Subs.assemble_missing {base : Path} : {s : Subs C} → {L : List (Info C)} →
    {con : Dict Path (Obj C)} → s.names.Nodup → WFs s → L.map Info.strip = s.skel base →
    (∀ kv ∈ s.paramList none base, ∀ d, con.get? kv.1 ≠ some (.inr d)) →
    (∃ kv ∈ s.paramList none base, con.get? kv.1 = none) →
    L.foldlM assembleStep con = .error .keyError
  | .nil, L, con, _, _, _, _, hm => by simp [Subs.paramList] at hm
  | .cons n d rest, L, con, hn, hw, hL, hp, hm => by
    rw [Subs.skel] at hL
    obtain ⟨A, B, rfl, hA, hB⟩ := List.map_eq_append_iff.1 hL
    simp only [Subs.names, List.nodup_cons] at hn
    by_cases hd : ∃ kv ∈ d.paramList none (base ++ [n]), con.get? kv.1 = none
    · exact foldlM_append_error (Dist.assemble_missing hw.1 hA
        (fun kv hkv => hp kv (by rw [Subs.paramList]; exact List.mem_append_left _ hkv)) hd)
    · push Not at hd
      let lk : Path → Val := fun k => match con.get? k with
        | some (.inl v) => v
        | _ => .bool (Arr.full [] false)
      have hfill : ∀ kv ∈ (d.refill lk (base ++ [n])).paramList none (base ++ [n]),
          con.get? kv.1 = some (.inl kv.2.1) := by
        intro kv hkv
        obtain ⟨k, f, v, h1, _, rfl⟩ := Dist.mem_paramList.1 hkv
        obtain ⟨e, v', h2⟩ := ParamAt.of_refill hw.1 h1
        have hmem := (Dist.mem_paramList (base := base ++ [n])).2 ⟨k, f, v', h2, (rfl : keep none f = true), rfl⟩
        have h3 := hd _ hmem
        have h4 := hp _ (by rw [Subs.paramList]; exact List.mem_append_left _ hmem)
        simp only at h3 h4 ⊢
        rw [e]
        cases hc : con.get? (base ++ [n] ++ k) with
        | none => exact absurd hc h3
        | some o =>
          cases o with
          | inl w => simp only [lk, hc]
          | inr q => exact absurd hc (h4 q)
      obtain ⟨con1, h1, h2, h3⟩ := Dist.assemble_fold (Dist.refill_wf hw.1)
        (by rw [Dist.refill_skel, hA]) hfill
      rw [foldlM_append_ok h1]
      have hframe : ∀ kv ∈ rest.paramList none base, con1.get? kv.1 = con.get? kv.1 := by
        intro kv hkv
        refine h3 kv.1 fun hpre => ?_
        obtain ⟨m, hm, hm'⟩ := Subs.paramList_prefix hkv
        exact hn.1 (prefix_snoc_inj hpre hm' ▸ hm)
      refine Subs.assemble_missing hn.2 hw.2 hB (fun kv hkv => ?_) ?_
      · rw [hframe kv hkv]
        exact hp kv (by rw [Subs.paramList]; exact List.mem_append_right _ hkv)
      · obtain ⟨kv, hkv, h⟩ := hm
        rw [Subs.paramList, List.mem_append] at hkv
        rcases hkv with hkv | hkv
        · exact absurd h (hd kv hkv)
        · exact ⟨kv, hkv, by rw [hframe kv hkv]; exact h⟩
end

/-- `assemble` raises `KeyError` when the value of some parameter is missing. -/
theorem assemble_keyError {p : Dist C} {L : List (Info C)} {ps : Dict Path Val} (hw : WF p)
    (hL : L.map Info.strip = p.skel []) {k : Path} {f : Field} {v : Val} (hk : ParamAt p k f v)
    (hm : ps.get? k = none) : assemble L ps = .error .keyError := by
  have := Dist.assemble_missing (con := ps.map fun kv => (kv.1, (Sum.inl kv.2 : Obj C))) hw hL
    (fun kv _ d => by rw [get?_map_inl]; cases ps.get? kv.1 <;> simp)
    ⟨_, Dist.mem_paramList.2 ⟨k, f, v, hk, rfl, rfl⟩, by
      rw [get?_map_inl]; simp [hm]⟩
  simp only [assemble, this, bind, Except.bind]

/-! ## `infosOf` -/

theorem infosOf_skel {p : Dist C} {L : List (Info C)} (h : infosOf p = .ok L) :
    L.map Info.strip = p.skel [] := Dist.walk_skel h

mutual
theorem Dist.skel_same {base : Path} : {p q : Dist C} → SameTree p q → p.skel base = q.skel base
  | .mk c vals subs, .mk c' vals' subs', h => by
    obtain ⟨rfl, h⟩ := h
    simp [Dist.skel, (Subs.skel_same (base := base) h).1, (Subs.skel_same (base := base) h).2]
theorem Subs.skel_same {base : Path} : {s t : Subs C} → SameTrees s t →
    s.skel base = t.skel base ∧ s.names = t.names
  | .nil, .nil, _ => ⟨rfl, rfl⟩
  | .cons n d r, .cons n' d' r', h => by
    obtain ⟨rfl, h1, h2⟩ := h
    obtain ⟨h3, h4⟩ := Subs.skel_same (base := base) h2
    exact ⟨by simp [Subs.skel, Dist.skel_same h1, h3], by simp [Subs.names, h4]⟩
end

end Efax
