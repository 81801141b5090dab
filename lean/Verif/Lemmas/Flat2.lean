import Verif.Lemmas.Flat

/-! # Lemmas about flattening: trees -/

namespace Efax

open ClassTable Spec

variable {C : Type} [ClassTable C]

/-- The declared fixed parameters of a node with their values. -/
def fixPairs (c : C) (vals : List Val) : List (Field × Val) :=
  ((fields c).zip vals).filter fun fv => fv.1.fixed

theorem supportOf_true_keys {c : C} {vals : List Val} (h : vals.length = (fields c).length) :
    (supportOf c (some true)).keys = ((fixPairs c vals).map Prod.fst).map Field.name := by
  rw [supportOf_keys, fixPairs, filter_zip_fst (fun f : Field => f.fixed) _ _ h]
  have : keep (some true) = fun f : Field => f.fixed := by
    funext f; cases h : f.fixed <;> simp [keep, h]
  rw [this]

theorem construct_any {c : C} {vals : List Val} {subs : Subs C} (h : WF (.mk c vals subs))
    {kw : Dict String Val} (hk : ∀ k ∈ kw.keys, k ∈ (fields c).map Field.name)
    (hkw : ∀ fv ∈ (fields c).zip vals, kw.get? fv.1.name = some fv.2) :
    construct c kw subs.toList = .ok (.mk c vals subs) := by
  obtain ⟨h1, h2, h3, h4⟩ := h
  cases hj : isJoint c with
  | true =>
    have hf := joint_fields c hj
    have : vals = [] := by simpa [hf] using h1
    subst this
    have : kw = [] := by
      cases kw with
      | nil => rfl
      | cons a kw => simpa [hf, Dict.keys] using hk a.1 (by simp [Dict.keys])
    subst this
    exact construct_joint hj (h2.1 hj)
  | false =>
    have : subs = .nil := by
      by_contra hs
      simp [hj] at h2
      exact hs h2
    subst this
    refine construct_simple hj h1 hk fun i f v hf hv => hkw (f, v) ?_
    refine List.mem_iff_getElem?.2 ⟨i, ?_⟩
    rw [List.getElem?_zip_eq_some]
    exact ⟨hf, hv⟩

theorem named_pairs_keys (c : C) (vals : List Val) (hl : vals.length = (fields c).length) :
    ((named (varPairs c vals)).keys ++ (named (fixPairs c vals)).keys).Perm
      ((fields c).map Field.name) := by
  rw [named_keys, named_keys, ← List.map_append]
  refine List.Perm.map _ ?_
  have e : ((fields c).zip vals).map Prod.fst = fields c := List.map_fst_zip (by omega)
  rw [← List.map_append]
  conv_rhs => rw [← e]
  refine List.Perm.map _ ?_
  rw [varPairs, fixPairs]
  have := List.filter_append_perm (fun fv : Field × Val => !fv.1.fixed) ((fields c).zip vals)
  simpa using this

theorem fixed_mapM {fx : Dict Path Val} {base : Path} {l : List (Field × Val)}
    (h : ∀ fv ∈ l, fx.get? (base ++ [fv.1.name]) = some fv.2) :
    (((l.map Prod.fst).map Field.name).mapM fun n => do
      (.ok (n, ← fx.get (base ++ [n])) : Except Err (String × Val))) = .ok (named l) := by
  induction l with
  | nil => rfl
  | cons a l ih =>
    rw [List.map_cons, List.map_cons, List.mapM_cons, ih fun x hx => h x (by simp [hx])]
    simp only [Dict.get, h a (by simp)]
    rfl

theorem unflattenStep_ok {fl : Flattener C} {y : Arr ℝ} {n : ℕ} {base : Path} {c : C} {d : ℕ}
    {vals : List Val} {subs : Subs C} {start m : ℕ} {con : Dict Path (Obj C)}
    (hw : WF (.mk c vals subs))
    (hu : unflattenFields y n fl.mappedToPlane c d ((varFields c).map Field.name) [] start =
      .ok (named (varPairs c vals), m))
    (hfx : ∀ fv ∈ fixPairs c vals, fl.fixedParameters.get? (base ++ [fv.1.name]) = some fv.2)
    (hs : ∀ nd ∈ subs.toList, con.get? (base ++ [nd.1]) = some (.inr nd.2)) :
    unflattenStep fl y n (start, con) ⟨base, c, d, subs.names⟩ =
      .ok (m, con.set base (.inr (.mk c vals subs))) := by
  have hperm := named_pairs_keys c vals hw.1
  have hnd : ((named (varPairs c vals)).keys ++ (named (fixPairs c vals)).keys).Nodup :=
    hperm.nodup_iff.2 (names_nodup c)
  have hm : Dict.merge (named (varPairs c vals)) (named (fixPairs c vals)) =
      named (varPairs c vals) ++ named (fixPairs c vals) := Dict.foldl_set _ _ hnd
  have hcon : construct c (Dict.merge (named (varPairs c vals)) (named (fixPairs c vals)))
      subs.toList = .ok (.mk c vals subs) := by
    rw [hm]
    refine construct_any hw (fun k hk => ?_) fun fv hfv => ?_
    · refine hperm.mem_iff.1 ?_
      simpa [Dict.keys] using hk
    · refine Dict.get?_of_mem (by simpa [Dict.keys] using hnd) ?_
      cases hx : fv.1.fixed with
      | true =>
        refine List.mem_append_right _ (List.mem_map.2 ⟨fv, ?_, rfl⟩)
        exact List.mem_filter.2 ⟨hfv, hx⟩
      | false =>
        refine List.mem_append_left _ (List.mem_map.2 ⟨fv, ?_, rfl⟩)
        exact List.mem_filter.2 ⟨hfv, by simp [hx]⟩
  rw [unflattenStep]
  simp only [supportOf_false_keys, hu, bind, Except.bind]
  rw [supportOf_true_keys hw.1]
  have := fixed_mapM (base := base) hfx
  simp only [bind, Except.bind] at this
  rw [this]
  simp only
  rw [gatherSubs_ok rfl hw.2.2.1 hs]
  simp only [hcon]

theorem unflattenStep_error {fl : Flattener C} {y : Arr ℝ} {n : ℕ} {info : Info C} {start : ℕ}
    {con : Dict Path (Obj C)} {e : Err}
    (hu : unflattenFields y n fl.mappedToPlane info.cls info.dims ((varFields info.cls).map Field.name)
      [] start = .error e) :
    unflattenStep fl y n (start, con) info = .error e := by
  rw [unflattenStep]
  simp only [supportOf_false_keys, hu, bind, Except.bind]

theorem makeFlat_eq (mapped : Bool) (p : Dist C) (path : Path) :
    makeFlat mapped p path = makeFlatFields mapped p.cls (named (varPairs p.cls p.vals)) [] := by
  rw [makeFlat, parametersFlat_false]

theorem fixPairs_mem_paramList {base : Path} {c : C} {vals : List Val} {subs : Subs C}
    {fv : Field × Val} (h : fv ∈ fixPairs c vals) :
    (base ++ [fv.1.name], fv.2, fv.1.support) ∈
      (Dist.mk c vals subs).paramList (some true) base := by
  rw [Dist.paramList]
  refine List.mem_append_left _ (List.mem_map.2 ⟨(fv.1.name, fv.2, fv.1.support), ?_, rfl⟩)
  rw [nodeParams]
  obtain ⟨h1, h2⟩ := List.mem_filter.1 h
  refine List.mem_map.2 ⟨fv, List.mem_filter.2 ⟨h1, ?_⟩, rfl⟩
  simpa [keep] using h2

theorem varPairs_mem {c : C} {vals : List Val} {fv : Field × Val} (h : fv ∈ varPairs c vals) :
    fv.1 ∈ fields c := (List.of_mem_zip (a := fv.1) (b := fv.2) (List.mem_filter.1 h).1).1

theorem varPairs_names_nodup (c : C) (vals : List Val) :
    ((varPairs c vals).map fun fv => fv.1.name).Nodup := by
  have h1 : ((varPairs c vals).map Prod.fst).Sublist (fields c) :=
    (List.filter_sublist.map Prod.fst).trans (map_fst_zip_sublist _ _)
  have := (names_nodup c).sublist (h1.map Field.name)
  simpa [List.map_map, Function.comp_def] using this

theorem varFields_ne_nil {c : C} (h : isJoint c = false) : varFields c ≠ [] := by
  obtain ⟨f, hf, hx⟩ := has_variable c h
  exact List.ne_nil_of_mem (List.mem_filter.2 ⟨hf, by simp [hx]⟩)

/-! ## Flattening and reading back -/

theorem EachField.mono {R R' : Support → Val → Prop} (hR : ∀ s v, R s v → R' s v) {c : C} :
    {l : List (Field × Val)} → {pre : Dict String Val} → EachField R c l pre → EachField R' c l pre
  | [], _, _ => trivial
  | _ :: _, _, ⟨⟨s, h1, h2⟩, h3⟩ => ⟨⟨s, h1, hR _ _ h2⟩, EachField.mono hR h3⟩

mutual
theorem Dist.eachParam_mono {R R' : ℕ → Support → Val → Prop} (hR : ∀ d s v, R d s v → R' d s v) :
    {p : Dist C} → EachParam R p → EachParam R' p
  | .mk _ _ _, ⟨⟨d, h1, h2⟩, h3⟩ => ⟨⟨d, h1, EachField.mono (hR d) h2⟩, Subs.eachParams_mono hR h3⟩
theorem Subs.eachParams_mono {R R' : ℕ → Support → Val → Prop} (hR : ∀ d s v, R d s v → R' d s v) :
    {s : Subs C} → EachParams R s → EachParams R' s
  | .nil, _ => trivial
  | .cons _ _ _, h => ⟨Dist.eachParam_mono hR h.1, Subs.eachParams_mono hR h.2⟩
end

/-- All variable parameters survive flattening and unflattening. -/
def LoopsAll (mapped : Bool) (batch : List ℕ) (p : Dist C) : Prop :=
  EachParam (fun d s v => Loops s mapped d batch v) p

theorem fits_loops {mapped : Bool} {batch : List ℕ} {p : Dist C} (h : FitsAll mapped batch p) :
    LoopsAll mapped batch p :=
  Dist.eachParam_mono (fun _ _ _ h => Support.roundtrip h) h

mutual
theorem Dist.flat_forward [LawfulTable C] {mapped : Bool} {batch : List ℕ} {base : Path} :
    {p : Dist C} → WF p → LoopsAll mapped batch p →
    ∃ A L, p.walk (makeFlat mapped) base = .ok A ∧ p.walk makeInfo base = .ok L ∧
      (∀ a ∈ A.flatten, ∃ k, a.rshape = k :: batch) ∧ A.flatten ≠ [] ∧
      ∀ (fl : Flattener C) (y : Arr ℝ) (start m n : ℕ) (con : Dict Path (Obj C)),
        fl.mappedToPlane = mapped → y.rshape = n :: batch → m ≤ n →
        (∀ kv ∈ p.paramList (some true) base, fl.fixedParameters.get? kv.1 = some kv.2.1) →
        Blocks batch y start A.flatten m →
        m = start + flatSize p ∧
        ∃ con', L.foldlM (unflattenStep fl y n) (start, con) = .ok (m, con') ∧
          con'.get? base = some (.inr p) ∧ ∀ k, ¬ base <+: k → con'.get? k = con.get? k
  | .mk c vals subs, hw, hfit => by
    obtain ⟨⟨d, hd, hfit1⟩, hfit2⟩ := hfit
    obtain ⟨A, L, a1, a2, a3, a5, a4⟩ := Subs.flat_forward (mapped := mapped) (base := base)
      hw.2.2.1 hw.2.2.2 hfit2
    obtain ⟨B, b1, b2, b4, b3⟩ := fields_forward (pre := []) (fun fv h => varPairs_mem h)
      (by simpa using varPairs_names_nodup c vals) hfit1
    refine ⟨A ++ [B], L ++ [⟨base, c, d, subs.names⟩], Dist.walk_ok a1 ?_, Dist.walk_ok a2 ?_, ?_,
      ?_, ?_⟩
    · rw [makeFlat_eq]; exact b1
    · simp only [makeInfo, Dist.cls, Dist.vals, hd, bind, Except.bind]; rfl
    · intro a ha
      rw [List.flatten_append, List.mem_append] at ha
      rcases ha with ha | ha
      · exact a3 a ha
      · exact b2 a (by simpa using ha)
    · rw [List.flatten_append]
      by_cases hj : isJoint c = true
      · intro h
        exact a5 (hw.2.1.1 hj) (List.append_eq_nil_iff.1 h).1
      · intro h
        have h : B = [] := by simpa using (List.append_eq_nil_iff.1 h).2
        have : varPairs c vals = [] := List.eq_nil_of_length_eq_zero (by rw [← b4, h]; rfl)
        have h2 := varPairs_fst hw.1
        rw [this] at h2
        exact varFields_ne_nil (by simpa using hj) h2.symm
    · intro fl y start m n con hmap hy hm hfx hb
      subst hmap
      rw [List.flatten_append, Blocks.append_iff] at hb
      obtain ⟨l, hb1, hb2⟩ := hb
      rw [List.flatten_singleton] at hb2
      have hle := hb2.le
      obtain ⟨e1, con1, c1, c2, c3⟩ := a4 fl y start l n con rfl hy (by omega)
        (fun kv hkv => hfx kv (by rw [Dist.paramList]; exact List.mem_append_right _ hkv)) hb1
      obtain ⟨e2, u⟩ := b3 y l m n hy hm hb2
      rw [varPairs_fst hw.1] at u e2
      refine ⟨?_, con1.set base (.inr (.mk c vals subs)), ?_, ?_, ?_⟩
      · rw [e2, e1, flatSize, hd, need]
        ring
      · rw [foldlM_append_ok c1, List.foldlM_cons]
        rw [unflattenStep_ok hw u
          (fun fv hfv => hfx _ (fixPairs_mem_paramList hfv)) c2]
        rfl
      · rw [Dict.get?_set, if_pos rfl]
      · intro k hk
        rw [Dict.get?_set, if_neg (by rintro rfl; exact hk List.prefix_rfl)]
        exact c3 k fun n _ hn => hk ((List.prefix_append _ _).trans hn)
theorem Subs.flat_forward [LawfulTable C] {mapped : Bool} {batch : List ℕ} {base : Path} :
    {s : Subs C} → s.names.Nodup → WFs s → EachParams (fun d s v => Loops s mapped d batch v) s →
    ∃ A L, s.walk (makeFlat mapped) base = .ok A ∧ s.walk makeInfo base = .ok L ∧
      (∀ a ∈ A.flatten, ∃ k, a.rshape = k :: batch) ∧ (s ≠ .nil → A.flatten ≠ []) ∧
      ∀ (fl : Flattener C) (y : Arr ℝ) (start m n : ℕ) (con : Dict Path (Obj C)),
        fl.mappedToPlane = mapped → y.rshape = n :: batch → m ≤ n →
        (∀ kv ∈ s.paramList (some true) base, fl.fixedParameters.get? kv.1 = some kv.2.1) →
        Blocks batch y start A.flatten m →
        m = start + flatSizes s ∧
        ∃ con', L.foldlM (unflattenStep fl y n) (start, con) = .ok (m, con') ∧
          (∀ nd ∈ s.toList, con'.get? (base ++ [nd.1]) = some (.inr nd.2)) ∧
          ∀ k, (∀ n ∈ s.names, ¬ base ++ [n] <+: k) → con'.get? k = con.get? k
  | .nil, _, _, _ => by
    refine ⟨[], [], rfl, rfl, by simp, fun h => absurd rfl h, ?_⟩
    intro fl y start m n con _ _ _ _ hb
    cases hb
    exact ⟨rfl, con, rfl, by simp [Subs.toList], fun _ _ => rfl⟩
  | .cons nm p rest, hn, hw, hfit => by
    simp only [Subs.names, List.nodup_cons] at hn
    obtain ⟨A, L, a1, a2, a3, a5, a4⟩ := Dist.flat_forward (mapped := mapped) (base := base ++ [nm])
      hw.1 hfit.1
    obtain ⟨B, M, b1, b2, b3, _, b4⟩ := Subs.flat_forward (mapped := mapped) (base := base)
      hn.2 hw.2 hfit.2
    refine ⟨A ++ B, L ++ M, Subs.walk_ok a1 b1, Subs.walk_ok a2 b2, ?_, ?_, ?_⟩
    · intro a ha
      rw [List.flatten_append, List.mem_append] at ha
      exact ha.elim (a3 a) (b3 a)
    · intro _ h
      rw [List.flatten_append] at h
      exact a5 (List.append_eq_nil_iff.1 h).1
    · intro fl y start m n con hmap hy hm hfx hb
      rw [List.flatten_append, Blocks.append_iff] at hb
      obtain ⟨l, hb1, hb2⟩ := hb
      have hle := hb2.le
      obtain ⟨e1, con1, c1, c2, c3⟩ := a4 fl y start l n con hmap hy (by omega)
        (fun kv hkv => hfx kv (by rw [Subs.paramList]; exact List.mem_append_left _ hkv)) hb1
      obtain ⟨e2, con2, d1, d2, d3⟩ := b4 fl y l m n con1 hmap hy hm
        (fun kv hkv => hfx kv (by rw [Subs.paramList]; exact List.mem_append_right _ hkv)) hb2
      refine ⟨by rw [e2, e1, flatSizes]; ring, con2, by rw [foldlM_append_ok c1, d1], ?_, ?_⟩
      · intro nd hnd
        rcases List.mem_cons.1 hnd with rfl | hnd
        · rw [d3 _ fun k hk hpre => ?_]
          · exact c2
          · exact hn.1 ((prefix_snoc_inj hpre List.prefix_rfl : k = nm) ▸ hk)
        · exact d2 nd hnd
      · intro k hk
        rw [d3 k fun j hj => hk j (by simp [Subs.names, hj]), c3 k (hk nm (by simp [Subs.names]))]
end

/-- `Flattener.flatten` succeeds on admissible distributions, the result has the size of the
distribution, and `unflatten` returns the distribution. -/
theorem flatten_unflatten [LawfulTable C] {mapped : Bool} {batch : List ℕ} {p : Dist C} (hw : WF p)
    (hfit : FitsAll mapped batch p) :
    ∃ fl y, flatten p mapped = .ok (fl, y) ∧ y.rshape = flatSize p :: batch ∧
      fl.unflatten y = .ok p ∧ infosOf p = .ok fl.infos ∧
      fl.fixedParameters = parameters p (some true) ∧ fl.mappedToPlane = mapped := by
  obtain ⟨A, L, a1, a2, a3, a5, a4⟩ := Dist.flat_forward (base := []) hw (fits_loops hfit)
  obtain ⟨y, N, y1, y2, y3⟩ := reduceAppend_ok a3 a5
  have hfx : ∀ kv ∈ p.paramList (some true) [],
      (parameters p (some true)).get? kv.1 = some kv.2.1 := by
    intro kv hkv
    refine Dict.get?_of_mem (parameters_keys_nodup hw _) ?_
    rw [parameters_eq hw]
    exact List.mem_map.2 ⟨kv, hkv, rfl⟩
  obtain ⟨e, con, c1, c2, _⟩ := a4 ⟨L, parameters p (some true), mapped⟩ y 0 N N [] rfl y2 le_rfl
    hfx y3
  rw [Nat.zero_add] at e
  refine ⟨⟨L, parameters p (some true), mapped⟩, y, ?_, by rw [y2, e], ?_, a2, rfl, rfl⟩
  · have a2' : infosOf p = .ok L := a2
    simp only [flatten, a1, y1, a2', bind, Except.bind]
  · have hl : y.lastDim = .ok N := by simp [Arr.lastDim, y2]
    simp only [Flattener.unflatten, hl, bind, Except.bind, c1, ne_eq, not_true_eq_false, if_false,
      getDist, Dict.get, c2]

end Efax
