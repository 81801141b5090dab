import Verif.Lemmas.Flat2

/-! # Lemmas about flattening: decoding arbitrary flat arrays -/

namespace Efax

open ClassTable Spec

variable {C : Type} [ClassTable C]

/-- The values `vs` of the fields `fs`, with those of the variable parameters replaced by `l`. -/
def mergeVals : List Field → List Val → List (Field × Val) → List Val
  | f :: fs, v :: vs, l =>
    if f.fixed then v :: mergeVals fs vs l else
      match l with
      | (_, w) :: l => w :: mergeVals fs vs l
      | [] => v :: mergeVals fs vs []
  | _, _, _ => []

theorem mergeVals_spec {fs : List Field} {vs : List Val} {l : List (Field × Val)}
    (hl : vs.length = fs.length) (h : l.map Prod.fst = fs.filter fun f => !f.fixed) :
    (mergeVals fs vs l).length = fs.length ∧
    ((fs.zip (mergeVals fs vs l)).filter fun fv => !fv.1.fixed) = l ∧
    ((fs.zip (mergeVals fs vs l)).filter fun fv => fv.1.fixed) =
      (fs.zip vs).filter fun fv => fv.1.fixed := by
  induction fs generalizing vs l with
  | nil =>
    have : l = [] := by simpa using h
    subst this
    simp [mergeVals]
  | cons f fs ih =>
    cases vs with
    | nil => simp at hl
    | cons v vs =>
      cases hx : f.fixed with
      | true =>
        obtain ⟨h1, h2, h3⟩ := ih (vs := vs) (l := l) (by simpa using hl) (by simpa [hx] using h)
        simp [mergeVals, hx, h1, h2, h3]
      | false =>
        cases l with
        | nil => simp [hx] at h
        | cons a l =>
          obtain ⟨g, w⟩ := a
          have h' : g = f ∧ l.map Prod.fst = fs.filter fun f => !f.fixed := by simpa [hx] using h
          obtain ⟨rfl, h'⟩ := h'
          obtain ⟨h1, h2, h3⟩ := ih (vs := vs) (l := l) (by simpa using hl) h'
          simp [mergeVals, hx, h1, h2, h3]

theorem nodeParams_true (c : C) (vals : List Val) : nodeParams (some true) c vals =
    (fixPairs c vals).map fun fv => (fv.1.name, fv.2, fv.1.support) := by
  have : (fun fv : Field × Val => keep (some true) fv.1) = fun fv => fv.1.fixed := by
    funext fv; cases h : fv.1.fixed <;> simp [keep, h]
  rw [nodeParams, fixPairs, this]

theorem SameTrees.nil_iff {s t : Subs C} (h : SameTrees s t) : s = .nil ↔ t = .nil := by
  cases s <;> cases t <;> simp_all [SameTrees]

mutual
theorem Dist.flat_decode [LawfulTable C] {fl : Flattener C} {batch : List ℕ} {y : Arr ℝ} {n : ℕ}
    (hy : y.rshape = n :: batch) {base : Path} :
    {p : Dist C} → {L : List (Info C)} → {start : ℕ} → {con : Dict Path (Obj C)} → WF p →
    p.walk makeInfo base = .ok L →
    (∀ kv ∈ p.paramList (some true) base, fl.fixedParameters.get? kv.1 = some kv.2.1) →
    start ≤ n →
    (start + flatSize p ≤ n →
      (∃ q con' A, WF q ∧ SameTree p q ∧ q.walk makeInfo base = .ok L ∧
        q.paramList (some true) base = p.paramList (some true) base ∧
        LiesAll fl.mappedToPlane batch q ∧
        q.walk (makeFlat fl.mappedToPlane) base = .ok A ∧ A.flatten ≠ [] ∧
        Blocks batch y start A.flatten (start + flatSize p) ∧
        L.foldlM (unflattenStep fl y n) (start, con) = .ok (start + flatSize p, con') ∧
        con'.get? base = some (.inr q) ∧ ∀ k, ¬ base <+: k → con'.get? k = con.get? k) ∨
      ((fl.mappedToPlane = true ∧ HasSingular p) ∧
        L.foldlM (unflattenStep fl y n) (start, con) = .error .nonFinite)) ∧
    (n < start + flatSize p →
      L.foldlM (unflattenStep fl y n) (start, con) = .error .valueError ∨
      ((fl.mappedToPlane = true ∧ HasSingular p) ∧
        L.foldlM (unflattenStep fl y n) (start, con) = .error .nonFinite))
  | .mk c vals subs, L, start, con, hw, hL, hfx, hst => by
    obtain ⟨L1, i, hL1, hi, rfl⟩ := Dist.walk_eq_ok hL
    obtain ⟨d, hd, rfl⟩ := makeInfo_eq_ok hi
    have hsub := Subs.flat_decode (fl := fl) hy (con := con) hw.2.2.1 hw.2.2.2 hL1
      (fun kv hkv => hfx kv (by rw [Dist.paramList]; exact List.mem_append_right _ hkv)) hst
    simp only [Dist.cls, Dist.vals, Dist.subs] at hd ⊢
    have hsize : flatSize (.mk c vals subs) = flatSizes subs + need d (varFields c) := by
      rw [flatSize, hd, need]
    rw [hsize, ← add_assoc]
    by_cases hlt : start + flatSizes subs ≤ n
    · rcases hsub.1 hlt with ⟨s', con1, A, w1, w2, w3, w4, w5, w6, w7, w8, w9, w10, w11, w12⟩ |
        ⟨hm, hnf⟩
      · have hdec := (fields_decode (mapped := fl.mappedToPlane) (c := c) (d := d)
          (post := varFields c) (pre := []) (start := start + flatSizes subs) rfl (by simp)
          hy).resolve_right (by omega)
        have hstep : ∀ e, unflattenFields y n fl.mappedToPlane c d ((varFields c).map Field.name) []
            (start + flatSizes subs) = .error e →
            (L1 ++ [(⟨base, c, d, subs.names⟩ : Info C)]).foldlM (unflattenStep fl y n) (start, con) =
              .error e := by
          intro e he
          rw [foldlM_append_ok w10, List.foldlM_cons, unflattenStep_error he]
          rfl
        refine ⟨fun hle => ?_, fun hgt => ?_⟩
        · rcases hdec.1 hle with ⟨l, B, l1, l2, l3, l4, l5, l7, l6⟩ | ⟨hm, hnf⟩
          · left
            obtain ⟨v1, v2, v3⟩ := mergeVals_spec (fs := fields c) (vs := vals) (l := l) hw.1 l1
            have v2 : varPairs c (mergeVals (fields c) vals l) = l := v2
            have v3 : fixPairs c (mergeVals (fields c) vals l) = fixPairs c vals := v3
            have hwq : WF (.mk c (mergeVals (fields c) vals l) s') := by
              refine ⟨v1, ?_, w2, w1⟩
              rw [hw.2.1, Ne, Ne, SameTrees.nil_iff w3]
            have hdq : dimensions c (mergeVals (fields c) vals l) = .ok d := by
              refine LawfulTable.dims_stable c d batch vals _ hd v1 ?_
              rw [v2]
              intro fv hfv
              exact Support.lies_rshape (l2 fv hfv)
            have hnames : subs.names = s'.names := (Subs.skel_same (base := base) w3).2
            refine ⟨.mk c (mergeVals (fields c) vals l) s', con1.set base
              (.inr (.mk c (mergeVals (fields c) vals l) s')), A ++ [B], hwq, ⟨rfl, w3⟩,
              Dist.walk_ok w4 ?_, ?_, ⟨⟨d, hdq, ?_⟩, w6⟩, Dist.walk_ok w7 ?_, ?_, ?_, ?_, ?_, ?_⟩
            · simp only [makeInfo, Dist.cls, Dist.vals, hdq, bind, Except.bind, Dist.subs, hnames]
            · rw [Dist.paramList, Dist.paramList, w5, nodeParams_true, nodeParams_true, v3]
            · rw [v2]; exact l4
            · rw [makeFlat_eq]
              simp only [Dist.cls, Dist.vals, v2]
              exact l5
            · rw [List.flatten_append]
              by_cases hj : isJoint c = true
              · intro h
                exact w8 (hw.2.1.1 hj) (List.append_eq_nil_iff.1 h).1
              · intro h
                have h : B = [] := by simpa using (List.append_eq_nil_iff.1 h).2
                have : l = [] := List.eq_nil_of_length_eq_zero (by rw [← l7, h]; rfl)
                rw [this] at l1
                exact varFields_ne_nil (by simpa using hj) l1.symm
            · rw [List.flatten_append, Blocks.append_iff, List.flatten_singleton]
              exact ⟨_, w9, l6⟩
            · rw [foldlM_append_ok w10, List.foldlM_cons]
              rw [List.nil_append] at l3
              have := unflattenStep_ok (fl := fl) (base := base) (con := con1) (y := y) (n := n) hwq
                (by rw [v2]; exact l3)
                (by
                  rw [v3]
                  intro fv hfv
                  exact hfx _ (fixPairs_mem_paramList (subs := subs) hfv)) w11
              rw [← hnames] at this
              rw [this]
              rfl
            · rw [Dict.get?_set, if_pos rfl]
            · intro k hk
              rw [Dict.get?_set, if_neg (by rintro rfl; exact hk List.prefix_rfl)]
              exact w12 k fun n _ hn => hk ((List.prefix_append _ _).trans hn)
          · exact .inr ⟨⟨hm.1, .inl hm.2⟩, hstep _ hnf⟩
        · rcases hdec.2 hgt with hv | ⟨hm, hnf⟩
          · exact .inl (hstep _ hv)
          · exact .inr ⟨⟨hm.1, .inl hm.2⟩, hstep _ hnf⟩
      · exact ⟨fun _ => .inr ⟨⟨hm.1, .inr hm.2⟩, foldlM_append_error hnf⟩,
          fun _ => .inr ⟨⟨hm.1, .inr hm.2⟩, foldlM_append_error hnf⟩⟩
    · refine ⟨fun h => by omega, fun _ => ?_⟩
      rcases hsub.2 (by omega) with h | ⟨hm, h⟩
      · exact .inl (foldlM_append_error h)
      · exact .inr ⟨⟨hm.1, .inr hm.2⟩, foldlM_append_error h⟩
theorem Subs.flat_decode [LawfulTable C] {fl : Flattener C} {batch : List ℕ} {y : Arr ℝ} {n : ℕ}
    (hy : y.rshape = n :: batch) {base : Path} :
    {s : Subs C} → {L : List (Info C)} → {start : ℕ} → {con : Dict Path (Obj C)} →
    s.names.Nodup → WFs s → s.walk makeInfo base = .ok L →
    (∀ kv ∈ s.paramList (some true) base, fl.fixedParameters.get? kv.1 = some kv.2.1) →
    start ≤ n →
    (start + flatSizes s ≤ n →
      (∃ t con' A, WFs t ∧ t.names.Nodup ∧ SameTrees s t ∧ t.walk makeInfo base = .ok L ∧
        t.paramList (some true) base = s.paramList (some true) base ∧
        EachParams (fun d s v => Lies s fl.mappedToPlane d batch v) t ∧
        t.walk (makeFlat fl.mappedToPlane) base = .ok A ∧ (s ≠ .nil → A.flatten ≠ []) ∧
        Blocks batch y start A.flatten (start + flatSizes s) ∧
        L.foldlM (unflattenStep fl y n) (start, con) = .ok (start + flatSizes s, con') ∧
        (∀ nd ∈ t.toList, con'.get? (base ++ [nd.1]) = some (.inr nd.2)) ∧
        ∀ k, (∀ n ∈ s.names, ¬ base ++ [n] <+: k) → con'.get? k = con.get? k) ∨
      ((fl.mappedToPlane = true ∧ HasSingulars s) ∧
        L.foldlM (unflattenStep fl y n) (start, con) = .error .nonFinite)) ∧
    (n < start + flatSizes s →
      L.foldlM (unflattenStep fl y n) (start, con) = .error .valueError ∨
      ((fl.mappedToPlane = true ∧ HasSingulars s) ∧
        L.foldlM (unflattenStep fl y n) (start, con) = .error .nonFinite))
  | .nil, L, start, con, _, _, hL, _, hst => by
    cases hL
    refine ⟨fun _ => .inl ⟨.nil, con, [], trivial, by simp [Subs.names], trivial, rfl, rfl, trivial,
      rfl, fun h => absurd rfl h, rfl, rfl, by simp [Subs.toList], fun _ _ => rfl⟩, fun h => ?_⟩
    rw [flatSizes] at h
    omega
  | .cons nm p rest, L, start, con, hn, hw, hL, hfx, hst => by
    obtain ⟨L1, L2, hL1, hL2, rfl⟩ := Subs.walk_eq_ok hL
    simp only [Subs.names, List.nodup_cons] at hn
    rw [flatSizes, ← add_assoc]
    have hp := Dist.flat_decode (fl := fl) hy (con := con) hw.1 hL1
      (fun kv hkv => hfx kv (by rw [Subs.paramList]; exact List.mem_append_left _ hkv)) hst
    by_cases hlt : start + flatSize p ≤ n
    · rcases hp.1 hlt with ⟨q, con1, A, w1, w2, w3, w4, w5, w6, w7, w8, w9, w10, w11⟩ | ⟨hm, hnf⟩
      · have hr := Subs.flat_decode (fl := fl) hy (con := con1) hn.2 hw.2 hL2
          (fun kv hkv => hfx kv (by rw [Subs.paramList]; exact List.mem_append_right _ hkv)) hlt
        rw [foldlM_append_ok w9]
        have hup : ∀ {X : Prop}, (fl.mappedToPlane = true ∧ HasSingulars rest) ∧ X →
            (fl.mappedToPlane = true ∧ HasSingulars (.cons nm p rest)) ∧ X :=
          fun h => ⟨⟨h.1.1, .inr h.1.2⟩, h.2⟩
        refine ⟨fun hle => ?_, fun h => (hr.2 h).imp id hup⟩
        rcases hr.1 hle with ⟨t, con2, B, v1, v2, v3, v4, v5, v6, v7, v8, v9, v10, v11, v12⟩ | hnf
        · left
          have hnames : rest.names = t.names := (Subs.skel_same (base := base) v3).2
          refine ⟨.cons nm q t, con2, A ++ B, ⟨w1, v1⟩, ?_, ⟨rfl, w2, v3⟩, Subs.walk_ok w3 v4, ?_,
            ⟨w5, v6⟩, Subs.walk_ok w6 v7, ?_, ?_, v10, ?_, ?_⟩
          · simp only [Subs.names, List.nodup_cons]
            exact ⟨hnames ▸ hn.1, v2⟩
          · rw [Subs.paramList, Subs.paramList, w4, v5]
          · intro _ h
            rw [List.flatten_append] at h
            exact w7 (List.append_eq_nil_iff.1 h).1
          · rw [List.flatten_append, Blocks.append_iff]
            exact ⟨_, w8, v9⟩
          · intro nd hnd
            rcases List.mem_cons.1 hnd with rfl | hnd
            · rw [v12 _ fun k hk hpre => ?_]
              · exact w10
              · exact hn.1 ((prefix_snoc_inj hpre List.prefix_rfl : k = nm) ▸ hk)
            · exact v11 nd hnd
          · intro k hk
            rw [v12 k fun j hj => hk j (by simp [Subs.names, hj]),
              w11 k (hk nm (by simp [Subs.names]))]
        · exact .inr (hup hnf)
      · exact ⟨fun _ => .inr ⟨⟨hm.1, .inl hm.2⟩, foldlM_append_error hnf⟩,
          fun _ => .inr ⟨⟨hm.1, .inl hm.2⟩, foldlM_append_error hnf⟩⟩
    · refine ⟨fun h => by omega, fun _ => ?_⟩
      rcases hp.2 (by omega) with h | ⟨hm, h⟩
      · exact .inl (foldlM_append_error h)
      · exact .inr ⟨⟨hm.1, .inl hm.2⟩, foldlM_append_error h⟩
end

/-- `Flattener.unflatten` on any flat array, for a flattener describing `p`. -/
theorem unflatten_decode [LawfulTable C] {fl : Flattener C} {p : Dist C} {batch : List ℕ}
    {y : Arr ℝ} {n : ℕ} (hw : WF p) (hi : infosOf p = .ok fl.infos)
    (hf : fl.fixedParameters = parameters p (some true)) (hy : y.rshape = n :: batch) :
    (n = flatSize p →
      (∃ q, fl.unflatten y = .ok q ∧ WF q ∧ SameTree p q ∧ LiesAll fl.mappedToPlane batch q ∧
        parameters q (some true) = parameters p (some true) ∧
        flatten q fl.mappedToPlane = .ok (fl, y)) ∨
      ((fl.mappedToPlane = true ∧ HasSingular p) ∧ fl.unflatten y = .error .nonFinite)) ∧
    (n ≠ flatSize p →
      fl.unflatten y = .error .valueError ∨
      ((fl.mappedToPlane = true ∧ HasSingular p) ∧ fl.unflatten y = .error .nonFinite)) := by
  have hfx : ∀ kv ∈ p.paramList (some true) [],
      fl.fixedParameters.get? kv.1 = some kv.2.1 := by
    intro kv hkv
    rw [hf]
    refine Dict.get?_of_mem (parameters_keys_nodup hw _) ?_
    rw [parameters_eq hw]
    exact List.mem_map.2 ⟨kv, hkv, rfl⟩
  have hl : y.lastDim = .ok n := by simp [Arr.lastDim, hy]
  have hdec := Dist.flat_decode (fl := fl) hy (con := []) hw hi hfx (Nat.zero_le n)
  rw [Nat.zero_add] at hdec
  have herr : ∀ e, fl.infos.foldlM (unflattenStep fl y n) (0, []) = .error e →
      fl.unflatten y = .error e := by
    intro e he
    simp only [Flattener.unflatten, hl, bind, Except.bind, he]
  by_cases hle : flatSize p ≤ n
  · rcases hdec.1 hle with ⟨q, con, A, w1, w2, w3, w4, w5, w6, w7, w8, w9, w10, _⟩ | ⟨hm, hnf⟩
    · refine ⟨fun hn => .inl ⟨q, ?_, w1, w2, w5, ?_, ?_⟩, fun hn => .inl ?_⟩
      · simp only [Flattener.unflatten, hl, bind, Except.bind, w9]
        rw [if_neg (not_not.2 hn.symm)]
        simp only [getDist, Dict.get, w10, bind, Except.bind]
      · rw [parameters_eq hw, parameters_eq w1, w4]
      · have hr := w8.reduceAppend_eq (by rw [hy, hn]) w7
        have w3 : infosOf q = .ok fl.infos := w3
        simp only [flatten, w6, hr, w3, bind, Except.bind]
        have : parameters q (some true) = fl.fixedParameters := by
          rw [hf, parameters_eq hw, parameters_eq w1, w4]
        rw [this]
      · simp only [Flattener.unflatten, hl, bind, Except.bind, w9]
        rw [if_pos (fun h => hn h.symm)]
    · exact ⟨fun _ => .inr ⟨hm, herr _ hnf⟩, fun _ => .inr ⟨hm, herr _ hnf⟩⟩
  · refine ⟨fun h => by omega, fun _ => ?_⟩
    rcases hdec.2 (by omega) with h | ⟨hm, h⟩
    · exact .inl (herr _ h)
    · exact .inr ⟨hm, herr _ h⟩

end Efax
