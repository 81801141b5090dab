import Verif.Lemmas.Generate
import Verif.Props.Structures

/-! # Random parameters of supports and of distributions -/

namespace Efax

open Spec ClassTable

section

variable {g : Rng} (hg : InRange g) [MachEps]

include hg

/-- The eigenvalues drawn for a semidefinite matrix. -/
theorem eig_sign (psd : Bool) (d : ℕ) (batch : List ℕ) (s : g.State) :
    ∀ n j, n < d → inB batch j = true →
      (psd = true → 0 ≤ (if psd then Ring.realGenerate (some (Ring.openMin 0)) none 1 g (d :: batch) s
        else Ring.realGenerate none (some (Ring.openMax 0)) 1 g (d :: batch) s).1.get (n :: j)) ∧
      (psd = false → (if psd then Ring.realGenerate (some (Ring.openMin 0)) none 1 g (d :: batch) s
        else Ring.realGenerate none (some (Ring.openMax 0)) 1 g (d :: batch) s).1.get (n :: j) ≤ 0) := by
  intro n j hn hj
  have hi : inB (d :: batch) (n :: j) = true := (inB_cons ..).2 ⟨hn, hj⟩
  cases psd with
  | true =>
    refine ⟨fun _ => ?_, fun h => (by simp at h)⟩
    have := ((realGenerate_mem hg (mn := some (Ring.openMin 0)) (mx := none) zero_le_one (by simp)
      (d :: batch) s).2 _ hi).1 _ rfl
    exact (openMin_ge 0).trans this
  | false =>
    refine ⟨fun h => (by simp at h), fun _ => ?_⟩
    have := ((realGenerate_mem hg (mn := none) (mx := some (Ring.openMax 0)) zero_le_one (by simp)
      (d :: batch) s).2 _ hi).2 _ rfl
    exact this.trans (openMax_le 0)

theorem symmetricGenerate_ok {r : Ring} {psd nsd herm : Bool} {batch : List ℕ} {d : ℕ}
    (h : Generates (.symmetric r psd nsd herm) batch)
    (hz : ∀ mn mx, r = .complex mn mx → NeverZero g) (s : g.State) :
    ∃ v s', Support.symmetricGenerate r psd nsd herm g batch d s = .ok (v, s') ∧
      InSupport (.symmetric r psd nsd herm) d batch v := by
  obtain ⟨h1, h2⟩ := h
  have hwr : ∀ {b : Arr ℝ} {scale : ℝ}, b.rshape = [d, d] ++ batch →
      BoundedBy (.real none none scale) [d, d] batch (.real b) := fun hb => ⟨hb, fun i _ => ⟨by simp, by simp⟩⟩
  have hwc : ∀ {b : Arr ℂ}, b.rshape = [d, d] ++ batch →
      BoundedBy (.complex (Arr.full [] 0) none) [d, d] batch (.complex b) := fun hb =>
    ⟨hb, fun i j _ _ => ⟨by simp [boundVal, Arr.full, Arr.ofFn, inB], by simp⟩⟩
  cases r with
  | boolean => exact h2.elim
  | integral mn mx => exact h2.elim
  | real mn mx scale =>
    obtain ⟨rfl, rfl, h2⟩ : mn = none ∧ mx = none ∧ 0 ≤ scale := by
      cases mn <;> cases mx <;> first | exact ⟨rfl, rfl, h2⟩ | exact h2.elim
    obtain ⟨v, s1, hv, hw⟩ := Ring.generate_within hg (r := .real none none scale) (sup := [d, d])
      (batch := batch) ⟨h2, by simp⟩ (by simp) s
    cases v with
    | complex a => exact hw.2.elim
    | bool a => exact hw.2.elim
    | int a => exact hw.2.elim
    | real a =>
      cases hs : nsd || psd with
      | false =>
        refine ⟨_, _, by
          simp only [Support.symmetricGenerate, show Ring.generate (.real none none scale) g
            (d :: d :: batch) s = .ok (.real a, s1) from hv, Bind.bind, Except.bind, hs]
          rfl, hwr rfl, ?_, ?_⟩
        · intro r c j hr hc hj
          rw [plusTranspose_get hr hc hj, plusTranspose_get hc hr hj]
          exact add_comm _ _
        · intro j hj x
          rw [Bool.or_eq_false_iff] at hs
          simp [hs.1, hs.2]
      | true =>
        refine ⟨_, _, by
          simp only [Support.symmetricGenerate, show Ring.generate (.real none none scale) g
            (d :: d :: batch) s = .ok (.real a, s1) from hv, Bind.bind, Except.bind, hs, if_true]
          rfl, hwr rfl, isSymm_sandwich_real herm d batch a _, fun j hj x => ?_⟩
        rw [quadratic_real d batch a _ hj x]
        have hsign := eig_sign hg psd d batch s1
        refine ⟨fun hp => Finset.sum_nonneg fun n hn => ?_, fun hn => Finset.sum_nonpos fun n hn' => ?_⟩
        · exact mul_nonneg ((hsign n j (Finset.mem_range.1 hn) hj).1 hp) (sq_nonneg _)
        · have hp : psd = false := by
            cases psd with
            | false => rfl
            | true => exact absurd ⟨rfl, hn⟩ h1
          exact mul_nonpos_of_nonpos_of_nonneg ((hsign n j (Finset.mem_range.1 hn') hj).2 hp)
            (sq_nonneg _)
  | complex mn mx =>
    obtain ⟨rfl, rfl, h3⟩ : mx = none ∧ mn = Arr.full [] 0 ∧ (psd || nsd → herm = true) := by
      cases mx with
      | none => exact ⟨rfl, h2⟩
      | some M => exact h2.elim
    obtain ⟨v, s1, hv, hw⟩ := Ring.generate_within hg (r := .complex (Arr.full [] 0) none)
      (sup := [d, d]) (batch := batch)
      ⟨.inl rfl, by simp, fun j _ => ⟨by simp [boundVal, Arr.full, Arr.ofFn, inB], by simp⟩⟩ hz s
    cases v with
    | real a => exact hw.2.elim
    | bool a => exact hw.2.elim
    | int a => exact hw.2.elim
    | complex a =>
      cases hs : nsd || psd with
      | false =>
        refine ⟨_, _, by
          simp only [Support.symmetricGenerate, show Ring.generate (.complex (Arr.full [] 0) none) g
            (d :: d :: batch) s = .ok (.complex a, s1) from hv, Bind.bind, Except.bind, hs]
          rfl, hwc rfl, ?_, ?_⟩
        · intro r c j hr hc hj
          rw [plusTranspose_get hr hc hj, plusTranspose_get hc hr hj]
          cases herm with
          | false => exact add_comm _ _
          | true =>
            simp only [if_true, star_add, star_star]
            exact add_comm _ _
        · intro j hj x
          rw [Bool.or_eq_false_iff] at hs
          simp [hs.1, hs.2]
      | true =>
        obtain rfl := h3 (by rwa [Bool.or_comm] at hs)
        refine ⟨_, _, by
          simp only [Support.symmetricGenerate, show Ring.generate (.complex (Arr.full [] 0) none) g
            (d :: d :: batch) s = .ok (.complex a, s1) from hv, Bind.bind, Except.bind, hs, if_true]
          rfl, hwc rfl, isSymm_sandwich_complex d batch a _, fun j hj x => ?_⟩
        rw [quadratic_complex d batch a _ hj x]
        have hsign := eig_sign hg psd d batch s1
        refine ⟨fun hp => Finset.sum_nonneg fun n hn => ?_, fun hn => Finset.sum_nonpos fun n hn' => ?_⟩
        · exact mul_nonneg ((hsign n j (Finset.mem_range.1 hn) hj).1 hp) (Complex.normSq_nonneg _)
        · have hp : psd = false := by
            cases psd with
            | false => rfl
            | true => exact absurd ⟨rfl, hn⟩ h1
          exact mul_nonpos_of_nonpos_of_nonneg ((hsign n j (Finset.mem_range.1 hn') hj).2 hp)
            (Complex.normSq_nonneg _)

/-- `Support.generate` produces an element of the support. -/
theorem Support.generate_ok {t : Support} {batch : List ℕ} (h : Generates t batch)
    (hz : ∀ mn mx, t.ring = .complex mn mx → NeverZero g) (d : ℕ) (s : g.State) :
    ∃ v s', t.generate g batch d s = .ok (v, s') ∧ InSupport t d batch v := by
  cases t with
  | scalar r => exact Ring.generate_within hg (sup := []) h hz s
  | vector r => exact Ring.generate_within hg (sup := [d]) h hz s
  | simplex r => exact h.elim
  | square r => exact h.elim
  | circular r => exact h.elim
  | symmetric r psd nsd herm => exact symmetricGenerate_ok hg h hz s

end

theorem inSupport_rshape {t : Support} {d : ℕ} {batch : List ℕ} {v : Val}
    (h : InSupport t d batch v) : v.rshape = t.rshape d ++ batch := by
  cases t with
  | scalar r => exact h.1
  | vector r => exact h.1
  | simplex r => exact h.1.1
  | square r => exact h.1
  | circular r => exact h.1.1
  | symmetric r psd nsd herm => exact h.1.1

/-- The value belongs to the support and was generated for it. -/
def Made [MachEps] (g : Rng) (batch : List ℕ) (d : ℕ) (t : Support) (v : Val) : Prop :=
  InSupport t d batch v ∧ ∃ s s', t.generate g batch d s = .ok (v, s')

variable {C : Type} [ClassTable C]

theorem EachField.imp {R R' : Support → Val → Prop} (h : ∀ t v, R t v → R' t v) {c : C} :
    {l : List (Field × Val)} → {kw : Dict String Val} → EachField R c l kw → EachField R' c l kw
  | [], _, _ => trivial
  | _ :: _, _, ⟨⟨t, h1, h2⟩, h3⟩ => ⟨⟨t, h1, h t _ h2⟩, EachField.imp h h3⟩

mutual
theorem EachValue.imp {R R' : ℕ → Support → Val → Prop} (h : ∀ d t v, R d t v → R' d t v) :
    {q : Dist C} → EachValue R q → EachValue R' q
  | .mk _ _ _, ⟨⟨d, h1, h2⟩, h3⟩ => ⟨⟨d, h1, EachField.imp (h d) h2⟩, EachValues.imp h h3⟩
theorem EachValues.imp {R R' : ℕ → Support → Val → Prop} (h : ∀ d t v, R d t v → R' d t v) :
    {q : Subs C} → EachValues R q → EachValues R' q
  | .nil, _ => trivial
  | .cons _ _ _, ⟨h1, h2⟩ => ⟨EachValue.imp h h1, EachValues.imp h h2⟩
end

/-- The parameters of a class can be generated one after the other. -/
def ClassGenerates (g : Rng) (batch : List ℕ) (c : C) : Prop :=
  ∀ (d : ℕ) (pre : List Field) (f : Field) (post : List Field), fields c = pre ++ f :: post →
    ∀ vs : List Val, List.Forall₂ (fun h v => InSupport h.support d batch v) pre vs →
      ∃ t, adjust c f.name ((pre.map Field.name).zip vs) = .ok t ∧ Generates t batch ∧
        (∀ mn mx, t.ring = .complex mn mx → NeverZero g) ∧
        ∀ v, InSupport t d batch v → InSupport f.support d batch v

section

variable {g : Rng} (hg : InRange g) [MachEps]

include hg

theorem generateFields_ok {info : Info C} {batch : List ℕ} (hc : ClassGenerates g batch info.cls)
    (rest : List Field) (pre : List (Field × Val))
    (hf : fields info.cls = pre.map Prod.fst ++ rest)
    (hpre : ∀ fv ∈ pre, InSupport fv.1.support info.dims batch fv.2)
    (ps : Dict Path Val) (s : g.State) :
    ∃ l ps' s', generateFields g batch info (rest.map Field.name) (named pre) ps s = .ok (ps', s') ∧
      l.map Prod.fst = rest ∧
      EachField (Made g batch info.dims) info.cls l (named pre) ∧
      (∀ fv ∈ l, InSupport fv.1.support info.dims batch fv.2) ∧
      (∀ fv ∈ l, ps'.get? (info.path ++ [fv.1.name]) = some fv.2) ∧
      ∀ k, (∀ f ∈ rest, k ≠ info.path ++ [f.name]) → ps'.get? k = ps.get? k := by
  induction rest generalizing pre ps s with
  | nil => exact ⟨[], ps, s, rfl, rfl, trivial, by simp, by simp, fun _ _ => rfl⟩
  | cons f rest ih =>
    have hpre2 : List.Forall₂ (fun h v => InSupport h.support info.dims batch v)
        (pre.map Prod.fst) (pre.map Prod.snd) := by
      rw [List.forall₂_map_left_iff, List.forall₂_map_right_iff]
      exact List.forall₂_same.2 hpre
    obtain ⟨t, h1, h2, h3, h4⟩ := hc info.dims _ f _ hf _ hpre2
    rw [pairs_zip] at h1
    obtain ⟨v, s1, h5, h6⟩ := Support.generate_ok hg h2 h3 info.dims s
    have hnd := names_nodup info.cls
    rw [hf, List.map_append, List.map_cons, List.nodup_append] at hnd
    have hset : Dict.set (named pre) f.name v = named (pre ++ [(f, v)]) := by
      rw [Dict.set_of_not_mem, named_snoc]
      rw [named_keys]
      intro hm
      exact hnd.2.2 _ hm _ (by simp) rfl
    obtain ⟨l, ps', s', g1, g2, g3, g4, g5, g6⟩ := ih (pre ++ [(f, v)]) (by simp [hf])
      (by
        intro fv hfv
        rcases List.mem_append.1 hfv with hfv | hfv
        · exact hpre fv hfv
        · rw [List.mem_singleton] at hfv
          subst hfv
          exact h4 v h6) (ps.set (info.path ++ [f.name]) v) s1
    refine ⟨(f, v) :: l, ps', s', ?_, by simp [g2], ⟨⟨t, h1, h6, s, s1, h5⟩, by rwa [named_snoc]⟩, ?_, ?_, ?_⟩
    · simp only [List.map_cons, generateFields, h1, h5, Bind.bind, Except.bind, hset]
      exact g1
    · intro fv hfv
      rcases List.mem_cons.1 hfv with rfl | hfv
      · exact h4 v h6
      · exact g4 fv hfv
    · intro fv hfv
      rcases List.mem_cons.1 hfv with rfl | hfv
      · rw [g6 _ ?_, Dict.get?_set, if_pos rfl]
        intro f' hf' he
        have he : f.name = f'.name := by simpa using he
        have := hnd.2.1
        rw [List.nodup_cons] at this
        exact this.1 (he ▸ List.mem_map.2 ⟨f', hf', rfl⟩)
      · exact g5 fv hfv
    · intro k hk
      rw [g6 k fun f' hf' => hk f' (by simp [hf']), Dict.get?_set,
        if_neg fun he => hk f (by simp) he.symm]

omit hg in
theorem generateInfos_append {batch : List ℕ} {A B : List (Info C)} {ps ps' : Dict Path Val}
    {s s' : g.State} (h : generateInfos g batch A ps s = .ok (ps', s')) :
    generateInfos g batch (A ++ B) ps s = generateInfos g batch B ps' s' := by
  induction A generalizing ps s with
  | nil => cases h; rfl
  | cons a A ih =>
    simp only [generateInfos, List.cons_append, Bind.bind, Except.bind] at h ⊢
    cases h1 : generateFields g batch a (supportOf a.cls none).keys [] ps s with
    | error e => rw [h1] at h; cases h
    | ok r =>
      rw [h1] at h
      exact ih h

/-- All parameters of all sub-distributions lie in their declared supports. -/
def DeclaredIn (batch : List ℕ) (q : Dist C) : Prop :=
  ∀ k e, SubAt q k e → ∃ d, dimensions e.cls e.vals = .ok d ∧
    ∀ fv ∈ (fields e.cls).zip e.vals, InSupport fv.1.support d batch fv.2

mutual
theorem Dist.generate_ok [LawfulTable C] {batch : List ℕ} {base : Path} : {p : Dist C} →
    {L : List (Info C)} → WF p → p.walk makeInfo base = .ok L →
    AllClasses (ClassGenerates g batch) p → (ps : Dict Path Val) → (s : g.State) →
    ∃ q ps' s', generateInfos g batch L ps s = .ok (ps', s') ∧ WF q ∧ SameTree p q ∧
      q.walk makeInfo base = .ok L ∧ EachValue (Made g batch) q ∧
      DeclaredIn batch q ∧
      (∀ kv ∈ q.paramList none base, ps'.get? kv.1 = some kv.2.1) ∧
      ∀ k, ¬ base <+: k → ps'.get? k = ps.get? k
  | .mk c vals subs, L, hw, hL, hc, ps, s => by
    obtain ⟨A, b, hA, hb, rfl⟩ := Dist.walk_eq_ok hL
    obtain ⟨d, hd, rfl⟩ := makeInfo_eq_ok hb
    obtain ⟨subs', ps1, s1, a1, a2, a3, a4, a5, a6, a7, a8⟩ :=
      Subs.generate_ok hw.2.2.1 hw.2.2.2 hA hc.2 ps s
    let info : Info C := ⟨base, c, d, subs.names⟩
    obtain ⟨l, ps2, s2, b1, b2, b3, b4, b5, b6⟩ := generateFields_ok hg (info := info)
      (batch := batch) hc.1 (fields c) [] (by simp [info]) (by simp) ps1 s1
    have hzip : (fields c).zip (l.map Prod.snd) = l := by
      rw [← b2, List.zip_map']
      simp
    have hnames : subs'.names = subs.names := (Subs.skel_same (base := base) a3).2.symm
    have hnil : subs' = .nil ↔ subs = .nil := (SameTrees.nil_iff a3).symm
    have hdim : dimensions c (l.map Prod.snd) = .ok d := by
      refine LawfulTable.dims_stable c d batch vals _ hd (by rw [List.length_map, ← b2, List.length_map])
        fun fv hfv => ?_
      rw [varPairs, hzip] at hfv
      exact inSupport_rshape (b4 fv (List.mem_filter.1 hfv).1)
    have hwf : WF (.mk c (l.map Prod.snd) subs') := by
      refine ⟨by rw [List.length_map, ← b2, List.length_map], ?_, by rw [hnames]; exact hw.2.2.1, a2⟩
      rw [hw.2.1, ne_eq, ne_eq, hnil]
    refine ⟨.mk c (l.map Prod.snd) subs', ps2, s2, ?_, hwf, ⟨rfl, a3⟩, ?_, ⟨⟨d, hdim, ?_⟩, a5⟩, ?_, ?_, ?_⟩
    · rw [generateInfos_append a1]
      simp only [generateInfos, Bind.bind, Except.bind, Dist.cls, Dist.subs]
      have : generateFields g batch info (supportOf c none).keys [] ps1 s1 = .ok (ps2, s2) := by
        rw [supportOf_none_keys]
        exact b1
      rw [show generateFields g batch ⟨base, c, d, subs.names⟩ (supportOf c none).keys [] ps1 s1 =
        .ok (ps2, s2) from this]
    · refine Dist.walk_ok a4 ?_
      simp only [makeInfo, Dist.cls, Dist.vals, Dist.subs, hdim, Bind.bind, Except.bind, hnames]
    · rw [hzip]
      exact b3
    · intro k e he
      cases he with
      | here => exact ⟨d, hdim, by simp only [Dist.cls, Dist.vals, hzip]; exact b4⟩
      | sub hm h => exact a6 _ hm _ _ h
    · intro kv hkv
      rw [Dist.paramList, List.mem_append, nodeParams_none, hzip] at hkv
      rcases hkv with hkv | hkv
      · obtain ⟨nv, hnv, rfl⟩ := List.mem_map.1 hkv
        obtain ⟨fv, hfv, rfl⟩ := List.mem_map.1 hnv
        exact b5 fv hfv
      · by_cases hf : fields c = []
        · rw [b6 kv.1 (by simp [hf])]
          exact a7 kv hkv
        · have : subs = .nil := subs_nil_of_fields hw hf
          rw [hnil.2 this] at hkv
          simp [Subs.paramList] at hkv
    · intro k hk
      rw [b6 k fun f _ he => hk (he ▸ List.prefix_append _ _)]
      exact a8 k fun n _ hn => hk ((List.prefix_append _ _).trans hn)
theorem Subs.generate_ok [LawfulTable C] {batch : List ℕ} {base : Path} : {t : Subs C} →
    {L : List (Info C)} → t.names.Nodup → WFs t → t.walk makeInfo base = .ok L →
    AllClassess (ClassGenerates g batch) t → (ps : Dict Path Val) → (s : g.State) →
    ∃ q ps' s', generateInfos g batch L ps s = .ok (ps', s') ∧ WFs q ∧ SameTrees t q ∧
      q.walk makeInfo base = .ok L ∧ EachValues (Made g batch) q ∧
      (∀ nd ∈ q.toList, DeclaredIn batch nd.2) ∧
      (∀ kv ∈ q.paramList none base, ps'.get? kv.1 = some kv.2.1) ∧
      ∀ k, (∀ n ∈ t.names, ¬ base ++ [n] <+: k) → ps'.get? k = ps.get? k
  | .nil, L, _, _, hL, _, ps, s => by
    cases hL
    exact ⟨.nil, ps, s, rfl, trivial, trivial, rfl, trivial, by simp [Subs.toList],
      by simp [Subs.paramList], fun _ _ => rfl⟩
  | .cons n d rest, L, hn, hw, hL, hc, ps, s => by
    obtain ⟨A, B, hA, hB, rfl⟩ := Subs.walk_eq_ok hL
    simp only [Subs.names, List.nodup_cons] at hn
    obtain ⟨q1, ps1, s1, a1, a2, a3, a4, a5, a6, a7, a8⟩ := Dist.generate_ok hw.1 hA hc.1 ps s
    obtain ⟨q2, ps2, s2, b1, b2, b3, b4, b5, b6, b7, b8⟩ :=
      Subs.generate_ok hn.2 hw.2 hB hc.2 ps1 s1
    refine ⟨.cons n q1 q2, ps2, s2, by rw [generateInfos_append a1, b1], ⟨a2, b2⟩, ⟨rfl, a3, b3⟩,
      Subs.walk_ok a4 b4, ⟨a5, b5⟩, ?_, ?_, ?_⟩
    · intro nd hnd
      rcases List.mem_cons.1 hnd with rfl | hnd
      · exact a6
      · exact b6 nd hnd
    · intro kv hkv
      rw [Subs.paramList, List.mem_append] at hkv
      rcases hkv with hkv | hkv
      · rw [b8 kv.1 fun m hm hpre => ?_]
        · exact a7 kv hkv
        · exact hn.1 (prefix_snoc_inj hpre (Dist.paramList_prefix hkv).1 ▸ hm)
      · exact b7 kv hkv
    · intro k hk
      rw [b8 k fun m hm => hk m (by simp [Subs.names, hm]), a8 k (hk n (by simp [Subs.names]))]
end

end

end Efax
