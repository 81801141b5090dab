import Verif.Spec.Stat
import Verif.Props.Mappings

/-! # The loop of `sufficient_statistics` -/

namespace Efax

open ClassTable Spec

variable {C : Type} [ClassTable C]

/-- The info `i` belongs to the node with the path, class and names `k`. -/
def InfoFor (e : C → Option C) (i : Info C) (k : Path × C × List String) : Prop :=
  i.path = k.1 ∧ e k.2.1 = some i.cls ∧ i.subNames = k.2.2

theorem forall₂_app {A B : Type} {R : A → B → Prop} {L : List A} {as bs : List B}
    (h : List.Forall₂ R L (as ++ bs)) :
    ∃ L1 L2, L = L1 ++ L2 ∧ List.Forall₂ R L1 as ∧ List.Forall₂ R L2 bs :=
  ⟨_, _, (List.take_append_drop as.length L).symm, List.forall₂_take_append _ _ _ h,
    List.forall₂_drop_append _ _ _ h⟩

theorem forall₂_snoc {A B : Type} {R : A → B → Prop} {L : List A} {as : List B} {b : B}
    (h : List.Forall₂ R L (as ++ [b])) : ∃ L' a, L = L' ++ [a] ∧ List.Forall₂ R L' as ∧ R a b := by
  obtain ⟨L1, L2, rfl, h1, h2⟩ := forall₂_app h
  cases h2 with
  | cons hab hnil =>
    cases hnil
    exact ⟨L1, _, rfl, h1, hab⟩

theorem keep_true (f : Field) : keep (some true) f = f.fixed := by
  cases h : f.fixed <;> simp [keep, h]

theorem fixedLookup {FP : Dict Path Val} {base : Path} {l : List (Field × Val)}
    (h : ∀ fv ∈ l, FP.get? (base ++ [fv.1.name]) = some fv.2) :
    ((l.map fun fv => fv.1.name).mapM fun n => do
      (.ok (n, ← FP.get (base ++ [n])) : Except Err (String × Val))) =
      .ok (l.map fun fv => (fv.1.name, fv.2)) := by
  induction l with
  | nil => rfl
  | cons fv l ih =>
    rw [List.map_cons, List.mapM_cons, ih fun x hx => h x (by simp [hx])]
    simp only [Dict.get, h fv (by simp)]
    rfl

theorem filter_zip_names {fs : List Field} {vals : List Val} (hl : vals.length = fs.length) :
    ((fs.zip vals).filter fun fv => fv.1.fixed).map (fun fv => fv.1.name) =
      (fs.filter Field.fixed).map Field.name := by
  induction fs generalizing vals with
  | nil => simp
  | cons f fs ih =>
    cases vals with
    | nil => simp at hl
    | cons v vals =>
      have := ih (vals := vals) (by simpa using hl)
      simp only [List.zip_cons_cons, List.filter_cons]
      split_ifs <;> simp [this]

theorem fixedArgs_nodup (c : C) (vals : List Val) : ((fixedArgs c vals).map Prod.fst).Nodup := by
  have := nodeParams_keys_nodup (some true) c vals
  rw [nodeParams] at this
  simpa [fixedArgs, keep_true, Function.comp_def] using this

/-- The result of one step at a simple node that has an observation. -/
theorem statLeaf_ok {stat : StatFn C} {FP : Dict Path Val} {con : Dict Path (Dist C)}
    {info : Info C} {x : Val} {c nc : C} {vals : List Val} {base : Path}
    (hl : vals.length = (fields c).length) (hi : info.subNames = []) (hb : info.path = base)
    (hn : natCls info.cls = some nc)
    (hnames : ((fields nc).filter Field.fixed).map Field.name =
      ((fields c).filter Field.fixed).map Field.name)
    (hfp : ∀ kv ∈ (Dist.mk c vals .nil).paramList (some true) base, FP.get? kv.1 = some kv.2.1) :
    statLeaf stat FP con info x = (stat nc x (fixedArgs c vals) >>= fun p =>
      match natCls p.cls with
      | none => .error .assertionError
      | some _ => .ok (con.set base p)) := by
  have hk : (supportOf nc (some true)).keys =
      ((((fields c).zip vals).filter fun fv => fv.1.fixed).map fun fv => fv.1.name) := by
    rw [filter_zip_names hl, ← hnames, supportOf_keys]
    congr 2
    funext f
    exact keep_true f
  have hlook := fixedLookup (FP := FP) (base := base)
    (l := ((fields c).zip vals).filter fun fv => fv.1.fixed) (by
      intro fv hfv
      have := hfp (base ++ [fv.1.name], fv.2, fv.1.support) (by
        rw [Dist.paramList, Subs.paramList, List.append_nil, nodeParams]
        refine List.mem_map.2 ⟨(fv.1.name, fv.2, fv.1.support), List.mem_map.2 ⟨fv, ?_, rfl⟩, rfl⟩
        simpa [keep_true] using hfv)
      exact this)
  rw [statLeaf, if_neg (by simp [hi])]
  simp only [hn]
  rw [hk, hb, hlook]
  have := Dict.ofList_eq (fixedArgs_nodup c vals)
  rw [fixedArgs] at this ⊢
  simp only [bind, Except.bind, this]
  rfl

theorem gatherParts_ok {con : Dict Path (Dist C)} {base : Path} {s : Subs C}
    (h : ∀ nd ∈ s.toList, con.get? (base ++ [nd.1]) = some nd.2) :
    (s.names.mapM fun n => do
      (.ok (n, ← con.get (base ++ [n])) : Except Err (String × Dist C))) = .ok s.toList := by
  induction s using Subs.rec (motive_1 := fun _ => True) with
  | mk => trivial
  | nil => rfl
  | cons n d r _ ih =>
    rw [Subs.names, List.mapM_cons, ih fun x hx => h x (by simp [Subs.toList, hx])]
    have := h (n, d) (by simp [Subs.toList])
    simp only at this
    simp only [Dict.get, this]
    rfl

theorem Spec.StatSubs.names {e : C → Option C} {stat : StatFn C} : {s : Subs C} → {f : Forest Val} →
    {s' : Subs C} → StatSubs e stat s f s' → s'.names = s.names
  | .nil, f, s', h => by rw [StatSubs] at h; subst h; rfl
  | .cons n d r, f, s', h => by
    rw [StatSubs] at h
    obtain ⟨t, q, s'', _, _, h3, rfl⟩ := h
    simp [Subs.names, Spec.StatSubs.names h3]

/-- The observations at and below `base` are those of the tree (none if there is no tree). -/
def ObsAt (FX : Dict Path Val) (base : Path) (t : Option (Tree Val)) : Prop :=
  ∀ k v, FX.get? (base ++ k) = some v ↔ ∃ t', t = some t' ∧ (k, v) ∈ t'.leaves []

/-- The observations below `base` are those of the dictionary. -/
def ObsBelow (FX : Dict Path Val) (base : Path) (f : Forest Val) : Prop :=
  ∀ k v, k ≠ [] → (FX.get? (base ++ k) = some v ↔ (k, v) ∈ f.leaves [])

/-- The dictionary of a tree; empty if there is none. -/
def forestOf : Option (Tree Val) → Forest Val
  | some (.node f) => f
  | _ => .nil

theorem ObsAt.below {FX : Dict Path Val} {base : Path} {t : Option (Tree Val)}
    (h : ObsAt FX base t) : ObsBelow FX base (forestOf t) := by
  intro k v hk
  rw [h k v]
  match t with
  | none => simp [forestOf, Forest.leaves]
  | some (.leaf a) => simp [forestOf, Forest.leaves, Tree.leaves, hk]
  | some (.node f) => simp [forestOf, Tree.leaves]

theorem Spec.Forest.Distinct.keys : {f : Forest Val} → Forest.Distinct f → f.keys.Nodup
  | .nil, _ => by simp [Forest.keys]
  | .cons k t r, h => by
    rw [Forest.keys, List.nodup_cons]
    exact ⟨h.1, Spec.Forest.Distinct.keys h.2.2⟩

theorem Spec.Forest.Distinct.get : {f : Forest Val} → Forest.Distinct f → {n : String} →
    {t : Tree Val} → f.get? n = some t → Tree.Distinct t
  | .nil, _, n, t, h => by simp [Forest.get?] at h
  | .cons k t₀ r, hd, n, t, h => by
    rw [Forest.get?] at h
    split_ifs at h
    · cases h; exact hd.2.1
    · exact Spec.Forest.Distinct.get hd.2.2 h

theorem ObsBelow.child {FX : Dict Path Val} {base : Path} {f : Forest Val} (hd : Forest.Distinct f)
    (h : ObsBelow FX base f) (n : String) : ObsAt FX (base ++ [n]) (f.get? n) := by
  intro k v
  rw [List.append_assoc, List.singleton_append, h (n :: k) v (by simp), Forest.mem_leaves]
  constructor
  · intro hl
    cases hl with
    | leaf hm => exact ⟨_, (Forest.get?_mem hd.keys).1 hm, Tree.mem_leaves.2 (.inl ⟨rfl, rfl⟩)⟩
    | node hm hl => exact ⟨_, (Forest.get?_mem hd.keys).1 hm, Tree.mem_leaves.2 (.inr ⟨_, rfl, hl⟩)⟩
  · rintro ⟨t, ht, hm⟩
    have ht := (Forest.get?_mem hd.keys).2 ht
    rcases Tree.mem_leaves.1 hm with ⟨rfl, rfl⟩ | ⟨g, rfl, hg⟩
    · exact .leaf ht
    · exact .node ht hg

section Fold

variable {e : C → Option C} {stat : StatFn C} {FP FX : Dict Path Val}

mutual
theorem Dist.stat_complete (he : EstimatorClasses e) {base : Path} : {p : Dist C} →
    {L : List (Info C)} → {t : Tree Val} → {q : Dist C} → {con : Dict Path (Dist C)} → WF p →
    List.Forall₂ (InfoFor e) L (p.skel base) → Tree.Distinct t → ObsAt FX base (some t) →
    (∀ kv ∈ p.paramList (some true) base, FP.get? kv.1 = some kv.2.1) → StatTree e stat p t q →
    ∃ con', L.foldlM (statStep stat FP FX) con = .ok con' ∧ con'.get? base = some q ∧
      ∀ k, ¬ base <+: k → con'.get? k = con.get? k
  | .mk c vals subs, L, t, q, con, hw, hL, hd, ho, hf, hs => by
    rw [Dist.skel] at hL
    obtain ⟨A, i, rfl, hA, hi⟩ := forall₂_snoc hL
    cases t with
    | leaf x =>
      rw [StatTree] at hs
      obtain ⟨hj, ec, nc, h1, h2, h3, h4⟩ := hs
      have hsn : subs = .nil := by
        by_contra hne
        rw [hw.2.1.2 hne] at hj
        cases hj
      subst hsn
      rw [Subs.skel] at hA
      cases hA
      have hec : i.cls = ec := Option.some.inj (hi.2.1.symm.trans h1)
      have hx : FX.get? i.path = some x := by
        have := (ho [] x).2 ⟨_, rfl, by simp [Tree.leaves]⟩
        rw [List.append_nil] at this
        rw [hi.1, this]
      obtain ⟨m, hm⟩ := Option.isSome_iff_exists.1 h4
      have hst : statStep stat FP FX con i = .ok (con.set base q) := by
        simp only [statStep, hx]
        rw [statLeaf_ok (base := base) (c := c) (vals := vals) hw.1 hi.2.2 hi.1 (hec ▸ h2)
          ((he c ec h1).2 nc h2) hf, h3]
        simp only [bind, Except.bind, hm]
      refine ⟨con.set base q, ?_, ?_, ?_⟩
      · simp only [List.nil_append, List.foldlM, hst]
        rfl
      · rw [Dict.get?_set, if_pos rfl]
      · intro k hk
        rw [Dict.get?_set, if_neg (by rintro rfl; exact hk List.prefix_rfl)]
    | node f =>
      rw [StatTree] at hs
      obtain ⟨hj, ec, s, h1, h2, h3, rfl⟩ := hs
      have hec : i.cls = ec := Option.some.inj (hi.2.1.symm.trans h1)
      obtain ⟨con1, g1, g2, g3⟩ := Subs.stat_complete (con := con) he hw.2.2.1 hw.2.2.2 hA hd ho.below
        (fun kv hkv => hf kv (by rw [Dist.paramList]; exact List.mem_append_right _ hkv)) h3
      have hx : FX.get? i.path = none := by
        rw [hi.1]
        cases hg : FX.get? base with
        | none => rfl
        | some v =>
          have := (ho [] v).1 (by rw [List.append_nil]; exact hg)
          obtain ⟨t', ht, hm⟩ := this
          cases ht
          exact absurd rfl (Forest.leaves_ne_nil f _ (by simpa [Tree.leaves] using hm))
      have hst : statStep stat FP FX con1 i = .ok (con1.set base (.mk ec [] s)) := by
        simp only [statStep, hx, statJoint]
        rw [hec, (he c ec h1).1, hj, h2]
        have hg := gatherParts_ok (con := con1) (base := base) g2
        rw [h3.names] at hg
        rw [hi.2.2, hi.1]
        simp only [Bool.and_self, if_true]
        rw [hg]
        have hnd : (s.toList.map Prod.fst).Nodup := by
          rw [← Subs.names_eq, h3.names]; exact hw.2.2.1
        simp only [bind, Except.bind, Dict.ofList_eq hnd, Subs.ofList_toList]
      refine ⟨con1.set base (.mk ec [] s), ?_, ?_, ?_⟩
      · rw [foldlM_append_ok g1]
        simp only [List.foldlM, hst]
        rfl
      · rw [Dict.get?_set, if_pos rfl]
      · intro k hk
        rw [Dict.get?_set, if_neg (by rintro rfl; exact hk List.prefix_rfl)]
        exact g3 k fun n _ hn => hk ((List.prefix_append _ _).trans hn)
theorem Subs.stat_complete (he : EstimatorClasses e) {base : Path} : {s : Subs C} →
    {L : List (Info C)} → {f : Forest Val} → {s' : Subs C} → {con : Dict Path (Dist C)} →
    s.names.Nodup → WFs s → List.Forall₂ (InfoFor e) L (s.skel base) → Forest.Distinct f →
    ObsBelow FX base f →
    (∀ kv ∈ s.paramList (some true) base, FP.get? kv.1 = some kv.2.1) → StatSubs e stat s f s' →
    ∃ con', L.foldlM (statStep stat FP FX) con = .ok con' ∧
      (∀ nd ∈ s'.toList, con'.get? (base ++ [nd.1]) = some nd.2) ∧
      ∀ k, (∀ n ∈ s.names, ¬ base ++ [n] <+: k) → con'.get? k = con.get? k
  | .nil, L, f, s', con, _, _, hL, _, _, _, hs => by
    rw [Subs.skel] at hL
    cases hL
    rw [StatSubs] at hs
    subst hs
    exact ⟨con, rfl, by simp [Subs.toList], fun _ _ => rfl⟩
  | .cons n d rest, L, f, s', con, hn, hw, hL, hd, ho, hf, hs => by
    rw [Subs.skel] at hL
    obtain ⟨A, B, rfl, hA, hB⟩ := forall₂_app hL
    simp only [Subs.names, List.nodup_cons] at hn
    rw [StatSubs] at hs
    obtain ⟨t, q, s'', m1, m2, m3, rfl⟩ := hs
    have ht := (Forest.get?_mem hd.keys).1 m1
    obtain ⟨con1, h1, h2, h3⟩ := Dist.stat_complete (con := con) he hw.1 hA (hd.get ht)
      (ht ▸ ho.child hd n)
      (fun kv hkv => hf kv (by rw [Subs.paramList]; exact List.mem_append_left _ hkv)) m2
    obtain ⟨con2, g1, g2, g3⟩ := Subs.stat_complete (con := con1) he hn.2 hw.2 hB hd ho
      (fun kv hkv => hf kv (by rw [Subs.paramList]; exact List.mem_append_right _ hkv)) m3
    refine ⟨con2, by rw [foldlM_append_ok h1, g1], ?_, ?_⟩
    · intro nd hnd
      rcases List.mem_cons.1 hnd with rfl | hnd
      · rw [g3 _ fun m hm hpre => ?_]
        · exact h2
        · exact hn.1 ((prefix_snoc_inj hpre List.prefix_rfl : m = n) ▸ hm)
      · exact g2 nd hnd
    · intro k hk
      rw [g3 k fun m hm => hk m (by simp [Subs.names, hm]), h3 k (hk n (by simp [Subs.names]))]
end

mutual
theorem Dist.stat_sound (he : EstimatorClasses e) {base : Path} : {p : Dist C} →
    {L : List (Info C)} → {t : Option (Tree Val)} → {con con' : Dict Path (Dist C)} → WF p →
    List.Forall₂ (InfoFor e) L (p.skel base) → (∀ t' ∈ t, Tree.Distinct t') → ObsAt FX base t →
    (∀ kv ∈ p.paramList (some true) base, FP.get? kv.1 = some kv.2.1) →
    L.foldlM (statStep stat FP FX) con = .ok con' → ∃ t' q, t = some t' ∧ StatTree e stat p t' q
  | .mk c vals subs, L, t, con, con', hw, hL, hd, ho, hf, hs => by
    rw [Dist.skel] at hL
    obtain ⟨A, i, rfl, hA, hi⟩ := forall₂_snoc hL
    obtain ⟨con1, k1, k2⟩ := foldlM_append_eq_ok hs
    have hdf : Forest.Distinct (forestOf t) := by
      match t with
      | none => trivial
      | some (.leaf a) => trivial
      | some (.node f) => exact hd _ rfl
    obtain ⟨s', hs'⟩ := Subs.stat_sound he hw.2.2.1 hw.2.2.2 hA hdf ho.below
      (fun kv hkv => hf kv (by rw [Dist.paramList]; exact List.mem_append_right _ hkv)) k1
    have k2 : statStep stat FP FX con1 i = .ok con' := by
      simp only [List.foldlM] at k2
      cases hst : statStep stat FP FX con1 i with
      | error x => simp [hst, bind, Except.bind] at k2
      | ok x =>
        simp only [hst, bind, Except.bind] at k2
        exact congrArg _ (Except.ok.inj k2)
    cases hj : isJoint c with
    | true =>
      have hne : subs ≠ .nil := hw.2.1.1 hj
      match t, subs, hne with
      | none, .cons n d r, _ =>
        rw [StatSubs] at hs'
        obtain ⟨t, q, s'', m1, _⟩ := hs'
        simp [forestOf, Forest.toList] at m1
      | some (.leaf a), .cons n d r, _ =>
        rw [StatSubs] at hs'
        obtain ⟨t, q, s'', m1, _⟩ := hs'
        simp [forestOf, Forest.toList] at m1
      | some (.node f), subs, _ =>
        have hx : FX.get? i.path = none := by
          rw [hi.1]
          cases hg : FX.get? base with
          | none => rfl
          | some v =>
            obtain ⟨t', ht, hm⟩ := (ho [] v).1 (by rw [List.append_nil]; exact hg)
            cases ht
            exact absurd rfl (Forest.leaves_ne_nil f _ (by simpa [Tree.leaves] using hm))
        simp only [statStep, hx, statJoint] at k2
        split_ifs at k2 with hcond
        simp only [Bool.and_eq_true] at hcond
        exact ⟨_, .mk i.cls [] s', rfl, by
          rw [StatTree]
          exact ⟨hj, i.cls, s', hi.2.1, hcond.2, hs', rfl⟩⟩
    | false =>
      have hsn : subs = .nil := by
        by_contra hne
        rw [hw.2.1.2 hne] at hj
        cases hj
      subst hsn
      cases hx : FX.get? i.path with
      | none =>
        simp only [statStep, hx, statJoint] at k2
        rw [(he c i.cls hi.2.1).1, hj] at k2
        simp at k2
      | some x =>
        obtain ⟨t', rfl, hm⟩ := (ho [] x).1 (by
          rw [List.append_nil]
          have hp : i.path = base := hi.1
          rw [← hp]
          exact hx)
        have : t' = .leaf x := by
          rcases Tree.mem_leaves.1 hm with ⟨rfl, _⟩ | ⟨g, rfl, hg⟩
          · rfl
          · cases hg
        subst this
        simp only [statStep, hx] at k2
        have hn : ∃ nc, natCls i.cls = some nc := by
          cases hn : natCls i.cls with
          | some nc => exact ⟨nc, rfl⟩
          | none =>
            rw [statLeaf] at k2
            split_ifs at k2
            simp [hn] at k2
        obtain ⟨nc, hn⟩ := hn
        rw [statLeaf_ok (base := base) (c := c) (vals := vals) hw.1 hi.2.2 hi.1 hn
          ((he c i.cls hi.2.1).2 nc hn) hf] at k2
        cases hq : stat nc x (fixedArgs c vals) with
        | error x => simp [hq, bind, Except.bind] at k2
        | ok q =>
          refine ⟨_, q, rfl, ?_⟩
          rw [StatTree]
          refine ⟨hj, i.cls, nc, hi.2.1, hn, hq, ?_⟩
          cases hqc : natCls q.cls with
          | none => simp [hq, hqc, bind, Except.bind] at k2
          | some m => rfl
theorem Subs.stat_sound (he : EstimatorClasses e) {base : Path} : {s : Subs C} →
    {L : List (Info C)} → {f : Forest Val} → {con con' : Dict Path (Dist C)} →
    s.names.Nodup → WFs s → List.Forall₂ (InfoFor e) L (s.skel base) → Forest.Distinct f →
    ObsBelow FX base f →
    (∀ kv ∈ s.paramList (some true) base, FP.get? kv.1 = some kv.2.1) →
    L.foldlM (statStep stat FP FX) con = .ok con' → ∃ s', StatSubs e stat s f s'
  | .nil, L, f, con, con', _, _, hL, _, _, _, hs => ⟨.nil, by rw [StatSubs]⟩
  | .cons n d rest, L, f, con, con', hn, hw, hL, hd, ho, hf, hs => by
    rw [Subs.skel] at hL
    obtain ⟨A, B, rfl, hA, hB⟩ := forall₂_app hL
    simp only [Subs.names, List.nodup_cons] at hn
    obtain ⟨con1, k1, k2⟩ := foldlM_append_eq_ok hs
    obtain ⟨t, q, ht, hq⟩ := Dist.stat_sound he hw.1 hA (fun t' h => hd.get h) (ho.child hd n)
      (fun kv hkv => hf kv (by rw [Subs.paramList]; exact List.mem_append_left _ hkv)) k1
    obtain ⟨s', hs'⟩ := Subs.stat_sound he hn.2 hw.2 hB hd ho
      (fun kv hkv => hf kv (by rw [Subs.paramList]; exact List.mem_append_right _ hkv)) k2
    refine ⟨.cons n q s', ?_⟩
    rw [StatSubs]
    exact ⟨t, q, s', (Forest.get?_mem hd.keys).2 ht, hq, hs', rfl⟩
end

end Fold

end Efax
