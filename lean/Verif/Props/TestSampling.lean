import Verif.Lemmas.TestSampling
import Verif.Props.TestDetect
import Verif.Props.Estimation
import Verif.Lemmas.Diagonal
import Verif.Props.EverySampler

/-!
# The test of sampling and estimation (C87)
-/

namespace Efax

open Spec Tests ClassTable Calc

variable [MachEps] {solve : Solver} {search : Cls → List Val → Except Err (List Val)} {Key : Type}
  {rng : Random Key} {e : ℝ} {key : Key} {rs ss : List ℕ} {g : Rng}

/-! ### Samples -/

/-- What `produce_samples` makes of a distribution or of a part of one. -/
def PartSampled (search : Cls → List Val → Except Err (List Val)) (rng : Random Key) (e : ℝ) (key : Key)
    (ss : List ℕ) (d : Dist Cls) (t : Tree Val) : Prop :=
  (isJoint d.cls = true ∧ ∃ f, t = .node f ∧ generalMethod (fun _ => true)
      (samplePart search rng e key ss) d.subs () = .ok (f, ())) ∨
  (isJoint d.cls = false ∧ ∃ v, t = .leaf v ∧ clampedSample search rng e key ss d = .ok v)

theorem general_cons {n : String} {d : Dist Cls} {t : Tree Val} {r : Subs Cls} {f : Forest Val}
    (h1 : PartSampled search rng e key ss d t)
    (h2 : generalMethod (fun _ => true)
      (samplePart search rng e key ss) r () = .ok (f, ())) :
    generalMethod (fun _ => true) (samplePart search rng e key ss)
      (.cons n d r) () = .ok (.cons n t f, ()) := by
  obtain ⟨c, vals, subs⟩ := d
  rcases h1 with ⟨hj, f', rfl, h1⟩ | ⟨hj, v, rfl, h1⟩
  · have hj : isJoint c = true := hj
    have h1 : generalMethod _ _ subs () = _ := h1
    rw [generalMethod, if_pos hj]
    simp only [h1, h2, Bind.bind, Except.bind]
  · have hj : isJoint c = false := hj
    rw [generalMethod, hj]
    simp only [samplePart, h1, Bind.bind, Except.bind, Bool.false_eq_true, if_false, if_true, h2]

theorem samplable_simple {c : Cls} (h : Cls.isSamplable c = true) : Cls.isJoint c = false := by
  cases c <;> first | rfl | cases h

theorem PartSampled.samples {d : Dist Cls} {t : Tree Val} (h : PartSampled search rng e key ss d t) :
    samplesOf search rng e key ss d = .ok t := by
  rcases h with ⟨hj, f, rfl, h⟩ | ⟨hj, v, rfl, h⟩
  · have h1 : Cls.isSamplable d.cls = false := by
      by_contra h1
      have := samplable_simple (by simpa using h1)
      exact absurd (hj.symm.trans this) (by simp)
    simp only [samplesOf, h1, Bool.false_eq_true, if_false, check_ok hj, h, Bind.bind, Except.bind]
  · have h1 : Cls.isSamplable d.cls = true := by
      by_contra h1
      simp only [clampedSample, check, if_neg h1, Bind.bind, Except.bind] at h
      cases h
    simp only [samplesOf, h1, if_true, h, Bind.bind, Except.bind]

/-- Can be sampled. -/
def SamplableVals (c : Cls) (_ : List Val) : Prop := Cls.isSamplable c = true

theorem part_nat {K : Kind Cls} (hK : LibraryKind solve K) (p : List ℕ → K.P) (q : List ℕ → K.N)
    (h : EachLeaf SamplableVals (K.nat rs p q)) :
    ∃ x t, PartSampled search rng e key ss (K.nat rs p q) t ∧ K.obs (rs ++ ss) x t := by
  induction hK with
  | simple s =>
    have hj : isJoint ((s.kind solve).nat rs p q).cls = false := by cases s <;> rfl
    have hc : Cls.isSamplable ((s.kind solve).nat rs p q).cls = true := by
      revert h hj
      cases (s.kind solve).nat rs p q
      exact fun h hj => (eachLeaf_simple hj).1 h
    obtain ⟨x, v, h1, h2⟩ := sampled_nat (search := search) (rng := rng) (e := e) (key := key) (ss := ss) rs s p q hc
    exact ⟨x, _, .inr ⟨hj, v, rfl, h1⟩, h2⟩
  | @joint l hne hn hall ih =>
    suffices H : ∃ x f, generalMethod (fun _ => true)
        (samplePart search rng e key ss)
        ((Parts.ofList l).nat rs p q) () = .ok (f, ()) ∧ f.keys = l.map Prod.fst ∧
        (Parts.ofList l).names = l.map Prod.fst ∧
        ∀ f' : Forest Val, (∀ nt ∈ f.toList, nt ∈ f'.toList) → (Parts.ofList l).obs (rs ++ ss) x f' by
      obtain ⟨x, f, h1, h2, h3, h4⟩ := H
      exact ⟨x, .node f, .inl ⟨rfl, f, rfl, h1⟩, f, rfl, h2 ▸ hn, h4 f fun _ h => h,
        fun n hm => by rw [h3, ← h2]; exact hm⟩
    clear hne hn hall
    induction l with
    | nil => exact ⟨fun _ => (), .nil, rfl, rfl, rfl, fun _ _ => trivial⟩
    | cons nk l ih' =>
      obtain ⟨h1, h2⟩ := eachLeaf_cons rfl h
      obtain ⟨x, t, a1, a2⟩ := ih nk List.mem_cons_self (fun i => (p i).1) (fun i => (q i).1) h1
      obtain ⟨y, f, b1, b2, b3, b4⟩ := ih' (fun nk hm => ih nk (List.mem_cons_of_mem _ hm)) (fun i => (p i).2) (fun i => (q i).2) h2
      refine ⟨fun i => (x i, y i), .cons nk.1 t f, general_cons a1 b1, by simp [Forest.keys, b2],
        congrArg (nk.1 :: ·) b3, fun f' hf => ⟨⟨t, hf _ (by simp [Forest.toList]), a2⟩,
          b4 f' fun nt hm => hf nt (by simp [Forest.toList, hm])⟩⟩

theorem part_exp (hs : solve.For search) {K : Kind Cls} (hK : LibraryKind solve K) (p : List ℕ → K.P) (q : List ℕ → K.E)
    (hd : ∀ i, inB rs i = true → K.domE (p i) (q i))
    (h : EachLeaf SamplableVals (K.exp rs p q)) :
    ∃ x t, PartSampled search rng e key ss (K.exp rs p q) t ∧ K.obs (rs ++ ss) x t := by
  induction hK with
  | simple s =>
    have hj : isJoint ((s.kind solve).exp rs p q).cls = false := by cases s <;> rfl
    have hc : Cls.isSamplable ((s.kind solve).exp rs p q).cls = true := by
      revert h hj
      cases (s.kind solve).exp rs p q
      exact fun h hj => (eachLeaf_simple hj).1 h
    obtain ⟨x, v, h1, h2⟩ := sampled_exp (search := search) (rng := rng) (e := e) (key := key) (ss := ss) hs rs s p q hd hc
    exact ⟨x, _, .inr ⟨hj, v, rfl, h1⟩, h2⟩
  | @joint l hne hn hall ih =>
    suffices H : ∃ x f, generalMethod (fun _ => true)
        (samplePart search rng e key ss)
        ((Parts.ofList l).exp rs p q) () = .ok (f, ()) ∧ f.keys = l.map Prod.fst ∧
        (Parts.ofList l).names = l.map Prod.fst ∧
        ∀ f' : Forest Val, (∀ nt ∈ f.toList, nt ∈ f'.toList) → (Parts.ofList l).obs (rs ++ ss) x f' by
      obtain ⟨x, f, h1, h2, h3, h4⟩ := H
      exact ⟨x, .node f, .inl ⟨rfl, f, rfl, h1⟩, f, rfl, h2 ▸ hn, h4 f fun _ h => h,
        fun n hm => by rw [h3, ← h2]; exact hm⟩
    clear hne hn hall
    induction l with
    | nil => exact ⟨fun _ => (), .nil, rfl, rfl, rfl, fun _ _ => trivial⟩
    | cons nk l ih' =>
      obtain ⟨h1, h2⟩ := eachLeaf_cons rfl h
      obtain ⟨x, t, a1, a2⟩ := ih nk List.mem_cons_self (fun i => (p i).1) (fun i => (q i).1)
        (fun i hi => (hd i hi).1) h1
      obtain ⟨y, f, b1, b2, b3, b4⟩ := ih' (fun nk hm => ih nk (List.mem_cons_of_mem _ hm)) (fun i => (p i).2) (fun i => (q i).2)
        (fun i hi => (hd i hi).2) h2
      refine ⟨fun i => (x i, y i), .cons nk.1 t f, general_cons a1 b1, by simp [Forest.keys, b2],
        congrArg (nk.1 :: ·) b3, fun f' hf => ⟨⟨t, hf _ (by simp [Forest.toList]), a2⟩,
          b4 f' fun nt hm => hf nt (by simp [Forest.toList, hm])⟩⟩


/-! ### Shapes -/

theorem shape_simple (s : Simple) (p : List ℕ → (s.kind solve).P) (χ : List ℕ → (s.kind solve).E)
    {rs' : List ℕ} (x : List ℕ → (s.kind solve).X) (v : Val) (h : (s.kind solve).obs rs' x (.leaf v)) :
    ∃ c vals d S, (s.kind solve).exp rs p χ = .mk c vals .nil ∧ isJoint c = false ∧ dimensions c vals = .ok d ∧
      Cls.domainSupport c = some S ∧ v.rshape = S.rshape d ++ rs' := by
  cases s
  all_goals
    obtain ⟨v, h0, h⟩ := h
    cases h0
    first
      | exact ⟨_, _, _, _, rfl, rfl, rfl, rfl, rshape_of_toR h⟩
      | exact ⟨_, _, _, _, rfl, rfl, rfl, rfl, rshape_of_toC h⟩

theorem ideal_append (a b : List (Info Cls)) :
    idealShapes rs ss (a ++ b) = idealShapes rs ss a ++ idealShapes rs ss b := List.filterMap_append

theorem ideal_last (a : List (Info Cls)) (i : Info Cls) (h : isJoint i.cls = true) :
    idealShapes rs ss (a ++ [i]) = idealShapes rs ss a := by
  rw [ideal_append]
  simp [idealShapes, h]

theorem ideal_kind {K : Kind Cls} (hK : LibraryKind solve K) (p : List ℕ → K.P) (χ : List ℕ → K.E)
    (x : List ℕ → K.X) (t : Tree Val) (h : K.obs (rs ++ ss) x t) (base : Path) {L : List (Info Cls)}
    (hL : (K.exp rs p χ).walk makeInfo base = .ok L) (k : Path) (sh : List ℕ) :
    (k, sh) ∈ idealShapes rs ss L ↔ ∃ v, (k, v) ∈ t.leaves base ∧ v.rshape = sh := by
  induction hK generalizing t base L k sh with
  | simple s =>
    obtain ⟨v, rfl⟩ : ∃ v, t = .leaf v := by
      cases s <;> exact ⟨_, h.choose_spec.1⟩
    obtain ⟨c, vals, d, S, h1, h2, h3, h4, h5⟩ := shape_simple (rs := rs) s p χ x v h
    rw [h1] at hL
    obtain ⟨A, a, e1, e2, rfl⟩ := Dist.walk_eq_ok hL
    obtain rfl : A = [] := by rw [Subs.walk] at e1; exact (Except.ok.inj e1).symm
    obtain ⟨d', e3, rfl⟩ := makeInfo_eq_ok e2
    obtain rfl : d = d' := Except.ok.inj (h3.symm.trans e3)
    have : idealShapes rs ss [⟨base, c, d, (Subs.nil : Subs Cls).names⟩] = [(base, v.rshape)] := by
      simp [idealShapes, h2, h4, h5]
    refine (iff_of_eq (congrArg ((k, sh) ∈ ·) this)).trans ?_
    simp only [List.mem_singleton, Prod.mk.injEq, Tree.leaves]
    constructor
    · rintro ⟨rfl, rfl⟩
      exact ⟨v, ⟨rfl, rfl⟩, rfl⟩
    · rintro ⟨_, ⟨rfl, rfl⟩, rfl⟩
      exact ⟨rfl, rfl⟩
  | @joint l hne hn hall ih =>
    obtain ⟨f, rfl, hd, ho, hk⟩ := h
    obtain ⟨A, a, e1, e2, rfl⟩ := Dist.walk_eq_ok hL
    obtain ⟨d', -, rfl⟩ := makeInfo_eq_ok e2
    refine (iff_of_eq (congrArg ((k, sh) ∈ ·) (ideal_last A _ rfl))).trans ?_
    have hnames : (Parts.ofList l).names = l.map Prod.fst := by
      clear * -
      induction l with
      | nil => rfl
      | cons nk l ih => exact congrArg (nk.1 :: ·) ih
    rw [hnames] at hk
    have hleaves : ∀ (f : Forest Val) (v : Val), (k, v) ∈ (Tree.node f).leaves base ↔
        ∃ n t, (n, t) ∈ f.toList ∧ (k, v) ∈ t.leaves (base ++ [n]) := by
      intro f v
      rw [Tree.leaves]
      induction f using Forest.rec (motive_1 := fun _ => True) with
      | leaf => trivial
      | node => trivial
      | nil => simp [Forest.leaves, Forest.toList]
      | cons n t r _ ih =>
        rw [Forest.leaves, List.mem_append, ih]
        simp only [Forest.toList, List.mem_cons, Prod.mk.injEq]
        constructor
        · rintro (h | ⟨n', t', h1, h2⟩)
          · exact ⟨n, t, .inl ⟨rfl, rfl⟩, h⟩
          · exact ⟨n', t', .inr h1, h2⟩
        · rintro ⟨n', t', ⟨rfl, rfl⟩ | h1, h2⟩
          · exact .inl h2
          · exact .inr ⟨n', t', h1, h2⟩
    have key : (k, sh) ∈ idealShapes rs ss A ↔ ∃ n t v, n ∈ l.map Prod.fst ∧ (n, t) ∈ f.toList ∧
        (k, v) ∈ t.leaves (base ++ [n]) ∧ v.rshape = sh := by
      clear hn hne hall hk hleaves hL e2 hnames
      induction l generalizing A with
      | nil =>
        obtain rfl : A = [] := by
          have e1 : Subs.walk makeInfo base (.nil : Subs Cls) = .ok A := e1
          rw [Subs.walk] at e1; exact (Except.ok.inj e1).symm
        simp [idealShapes]
      | cons nk l ih' =>
        obtain ⟨B, B', b1, b2, rfl⟩ := Subs.walk_eq_ok e1
        obtain ⟨⟨t, ht, ho1⟩, ho2⟩ := ho
        rw [ideal_append, List.mem_append,
          ih nk List.mem_cons_self (fun i => (p i).1) (fun i => (χ i).1) (fun i => (x i).1) t ho1 _ b1,
          ih' (fun nk hm => ih nk (List.mem_cons_of_mem _ hm)) (fun i => (p i).2) (fun i => (χ i).2)
            (fun i => (x i).2) ho2 B' b2]
        simp only [List.map_cons, List.mem_cons]
        constructor
        · rintro (⟨v, h1, h2⟩ | ⟨n, t', v, h1, h2⟩)
          · exact ⟨nk.1, t, v, .inl rfl, ht, h1, h2⟩
          · exact ⟨n, t', v, .inr h1, h2⟩
        · rintro ⟨n, t', v, rfl | h1, h2, h3, h4⟩
          · obtain rfl : t = t' := Option.some.inj
              ((Forest.get?_of_mem hd ht).symm.trans (Forest.get?_of_mem hd h2))
            exact .inl ⟨v, h3, h4⟩
          · exact .inr ⟨n, t', v, h1, h2, h3, h4⟩
    rw [key]
    constructor
    · rintro ⟨n, t, v, -, h2, h3, h4⟩
      exact ⟨v, (hleaves f v).2 ⟨n, t, h2, h3⟩, h4⟩
    · rintro ⟨v, h1, h2⟩
      obtain ⟨n, t, h3, h4⟩ := (hleaves f v).1 h1
      refine ⟨n, t, v, hk n ?_, h3, h4, h2⟩
      rw [Forest.keys_eq]
      exact List.mem_map.2 ⟨_, h3, rfl⟩

theorem ideal_nodup {d : Dist Cls} (hw : WF d) {L : List (Info Cls)} (hL : infosOf d = .ok L) :
    ((idealShapes rs ss L).map Prod.fst).Nodup := by
  have h1 := Dist.skel_nodup (base := []) hw
  rw [← infosOf_skel hL, List.map_map] at h1
  refine h1.sublist ?_
  clear * -
  induction L with
  | nil => simp [idealShapes]
  | cons i L ih =>
    simp only [idealShapes, List.filterMap_cons, List.map_cons] at ih ⊢
    split
    · exact ih.cons _
    · next h =>
      split_ifs at h
      obtain ⟨S, -, rfl⟩ := Option.map_eq_some_iff.1 h
      exact ih.cons_cons _

/-- **C87.** `verify_sample_shape` accepts all observations of a batch of distributions, of any kind and
with the items of dictionaries in any order. -/
theorem C87_shapes (hs : solve.For search) {K : Kind Cls} (hK : LibraryKind solve K) (p : List ℕ → K.P)
    (χ : List ℕ → K.E) {x : List ℕ → K.X} {t : Tree Val} (h : K.obs (rs ++ ss) x t) :
    ∃ L, infosOf (K.exp rs p χ) = .ok L ∧
      verifySampleShape rs ss L (flatDictOfObservations t) = .ok () := by
  have hok := C51_library hs hK
  obtain ⟨L, hL⟩ := (library_indexed hs hK).infosE rs p χ []
  refine ⟨L, hL, check_ok fun k => ?_⟩
  have hn := ideal_nodup (rs := rs) (ss := ss) (hok.wfE rs p χ) hL
  have hd := hok.distinct _ _ _ h
  have hf : flatDictOfObservations t = t.leaves [] := by
    cases t with
    | leaf v => rfl
    | node f => exact Dict.ofList_eq (Forest.leaves_nodup hd)
  have hn' : ((t.leaves []).map Prod.fst).Nodup := Tree.leaves_nodup hd
  rw [Dict.ofList_eq hn, hf]
  have key := ideal_kind hK p χ x t h [] hL k
  by_cases hm : k ∈ Dict.keys (idealShapes rs ss L)
  · obtain ⟨⟨k, sh⟩, h1, rfl⟩ := List.mem_map.1 hm
    obtain ⟨v, h2, h3⟩ := (key sh).1 h1
    rw [Dict.get?_of_mem hn h1, Dict.get?_of_mem hn' h2]
    exact congrArg some h3
  · rw [Dict.get?_eq_none hm, Dict.get?_eq_none]
    · rfl
    · intro hm'
      obtain ⟨⟨k, v⟩, h1, rfl⟩ := List.mem_map.1 hm'
      exact hm (List.mem_map.2 ⟨(k, v.rshape), (key _).2 ⟨v, h1, rfl⟩, rfl⟩)

/-! ### Closeness -/

omit [MachEps] in
theorem broadcastAt_eq {v : Val} {i : List ℕ} (hi : inB v.rshape i = true) : v.broadcastAt i = entry v i := by
  rw [Val.broadcastAt, ← toC_get]
  split_ifs with h
  · rw [h] at hi
    cases i with
    | nil => rfl
    | cons => cases hi
  · rfl

omit [MachEps] in
theorem broadcastAt_scalar {v : Val} {i : List ℕ} (h : v.rshape = []) : v.broadcastAt i = entry v [] := by
  rw [Val.broadcastAt, if_pos h, toC_get]

omit [MachEps] in
theorem allclose_same {rtol atol : ℝ} {v w : Val} (h : v.rshape = w.rshape) : allcloseVal rtol atol v w ↔
    ∀ i, inB w.rshape i = true → ‖entry v i - entry w i‖ ≤ atol + rtol * ‖entry w i‖ := by
  have e : (if w.rshape = [] then v.rshape else w.rshape) = w.rshape := by
    split_ifs with h'
    · rw [h]
    · rfl
  rw [allcloseVal, e]
  refine ⟨fun h1 i hi => ?_, fun h1 => ⟨.inl h, fun i hi => ?_⟩⟩
  · have := h1.2 i hi
    rwa [broadcastAt_eq hi, broadcastAt_eq (h ▸ hi)] at this
  · rw [broadcastAt_eq hi, broadcastAt_eq (h ▸ hi)]
    exact h1 i hi

mutual
theorem TreeRel.swap {C : Type} {R : Val → Val → Prop} : {d e : Dist C} → TreeRel R d e → TreeRel (flip R) e d
  | .mk _ _ _, .mk _ _ _, h => ⟨h.1.symm, h.2.1.flip, TreeRels.swap h.2.2⟩
theorem TreeRels.swap {C : Type} {R : Val → Val → Prop} : {d e : Subs C} → TreeRels R d e → TreeRels (flip R) e d
  | .nil, .nil, _ => trivial
  | .cons _ _ _, .cons _ _ _, h => ⟨h.1.symm, TreeRel.swap h.2.1, TreeRels.swap h.2.2⟩
end

mutual
theorem allclose_rel {rtol atol : ℝ} : (d e : Dist Cls) →
    (treeAllclose rtol atol d e ↔ TreeRel (allcloseVal rtol atol) d e)
  | .mk _ _ s, .mk _ _ s' => by
    rw [treeAllclose, TreeRel, alltrees_rel s s']
theorem alltrees_rel {rtol atol : ℝ} : (d e : Subs Cls) →
    (treesAllclose rtol atol d e ↔ TreeRels (allcloseVal rtol atol) d e)
  | .nil, .nil => by rw [treesAllclose, TreeRels]
  | .cons _ d r, .cons _ d' r' => by
    rw [treesAllclose, TreeRels, allclose_rel d d', alltrees_rel r r']
  | .nil, .cons _ _ _ => by simp [treesAllclose, TreeRels]
  | .cons _ _ _, .nil => by simp [treesAllclose, TreeRels]
end

mutual
theorem treeRel_of_params {R : Val → Val → Prop} : (d e : Dist Cls) → WF d → WF e → SameTree d e →
    (∀ k f v w, ParamAt d k f v → ParamAt e k f w → R v w) → TreeRel R d e
  | .mk c v s, .mk c' v' s', hd, he, hs, h => by
    obtain ⟨rfl, hs⟩ := hs
    refine ⟨rfl, ?_, treeRels_of_params s s' hd.2.2.2 he.2.2.2 hs fun n d e h1 h2 k f v w h3 h4 =>
      h (n :: k) f v w (.sub h1 h3) (.sub h2 h4)⟩
    rw [List.forall₂_iff_get]
    refine ⟨hd.1.trans he.1.symm, fun i h1 h2 => ?_⟩
    have h3 : i < (ClassTable.fields c).length := hd.1 ▸ h1
    exact h _ ((ClassTable.fields c)[i]) _ _ (.here (i := i) (by simp [h3]) (by simp [h1]))
      (.here (i := i) (by simp [h3]) (by simp [h2]))
theorem treeRels_of_params {R : Val → Val → Prop} : (d e : Subs Cls) → WFs d → WFs e → SameTrees d e →
    (∀ n d' e', (n, d') ∈ d.toList → (n, e') ∈ e.toList →
      ∀ k f v w, ParamAt d' k f v → ParamAt e' k f w → R v w) → TreeRels R d e
  | .nil, .nil, _, _, _, _ => trivial
  | .cons n d r, .cons n' d' r', hd, he, hs, h => by
    obtain ⟨rfl, h1, h2⟩ := hs
    exact ⟨rfl, treeRel_of_params d d' hd.1 he.1 h1 (h n d d' List.mem_cons_self List.mem_cons_self),
      treeRels_of_params r r' hd.2 he.2 h2 fun m a b ha hb =>
        h m a b (List.mem_cons_of_mem _ ha) (List.mem_cons_of_mem _ hb)⟩
end

/-- The parameters of a batch have the same shapes for all expectation parameters. -/
theorem exp_rshapes {K : Kind Cls} (hK : LibraryKind solve K) (p : List ℕ → K.P) (χ χ' : List ℕ → K.E) :
    TreeRel (fun a b => a.rshape = b.rshape) (K.exp rs p χ) (K.exp rs p χ') := by
  induction hK with
  | simple s =>
    cases s
    all_goals
      refine ⟨rfl, ?_, trivial⟩
      repeat first | exact .nil | refine .cons rfl ?_
  | @joint l hne hn hall ih =>
    clear hne hn hall
    refine ⟨rfl, .nil, ?_⟩
    induction l with
    | nil => trivial
    | cons nk l ih' =>
      exact ⟨rfl, ih nk List.mem_cons_self (fun i => (p i).1) (fun i => (χ i).1) fun i => (χ' i).1,
        ih' (fun nk hm => ih nk (List.mem_cons_of_mem _ hm)) (fun i => (p i).2) (fun i => (χ i).2)
          fun i => (χ' i).2⟩

/-- The means over the axes `ss` of the parameters of `S` are within the tolerances of the parameters of `E`,
for all parameters that are not fixed. -/
def CloseMeans (rtol atol : ℝ) (ss : List ℕ) (S E : Dist Cls) : Prop :=
  ∀ k f v w, f.fixed = false → ParamAt S k f v → ParamAt E k f w → ∀ i, inB w.rshape i = true →
    ‖(∑ j ∈ box ss, entry v (i ++ j)) / (ss.prod : ℂ) - entry w i‖ ≤ atol + rtol * ‖entry w i‖

/-- **C87.** What the comparison of the test says of the estimate: the means of the sufficient statistics of
the observations are close to the expectation parameters.  Fixed parameters are irrelevant. -/
theorem C87_close (hs : solve.For search) {K : Kind Cls} (hK : LibraryKind solve K)
    (hss : ∀ n ∈ ss, 0 < n) (p : List ℕ → K.P) (χ : List ℕ → K.E) {x : List ℕ → K.X} {t : Tree Val}
    (ht : K.obs (rs ++ ss) x t) {m : Dist Cls} (hm : Estimates (library search) (K.exp rs p χ) ss.length t m)
    {rtol atol : ℝ} (hr : 0 ≤ rtol) (ha : 0 ≤ atol) :
    treeAllclose rtol atol m (K.exp rs p χ) ↔
      CloseMeans rtol atol ss (K.exp (rs ++ ss) (fun i => p (i.take rs.length))
        fun i => (K.F (p (i.take rs.length))).stat (x i)) (K.exp rs p χ) := by
  obtain ⟨m', h1, h2⟩ := estimates_ok hs hK hss p χ ht
  obtain ⟨m'', h3, h4, h5⟩ := C69_estimate hs hK hss p χ ht
  obtain rfl := Estimates.unique h1 hm
  obtain rfl := Estimates.unique h3 hm
  have hok := C51_library hs hK
  have hc := library_collects (search := search) hK
  have hwE := hok.wfE rs p χ
  have hwS := hok.wfE (rs ++ ss) (fun i => p (i.take rs.length))
    fun i => (K.F (p (i.take rs.length))).stat (x i)
  have hwm : WF m'' := h2.swap.wf hwS
  have hprod : (ss.prod : ℂ) ≠ 0 := prod_ne_zero hss
  -- entries of the estimate
  have hmean : ∀ k f v w u, ParamAt (K.exp (rs ++ ss) (fun i => p (i.take rs.length))
      fun i => (K.F (p (i.take rs.length))).stat (x i)) k f v → ParamAt (K.exp rs p χ) k f w →
      ParamAt m'' k f u → u.rshape = w.rshape ∧ ∀ i, inB w.rshape i = true →
        entry u i = (∑ j ∈ box ss, entry v (i ++ j)) / (ss.prod : ℂ) := by
    intro k f v w u hv hw hu
    obtain ⟨u', e1, s, b, b1, b2, b3, b4, b5⟩ := h2.param' hv
    obtain ⟨-, rfl⟩ := ParamAt.unique hwm e1 hu
    obtain ⟨w1, e2, ⟨s', a1, a2, -⟩, -⟩ := (hc.exp rs ss p χ).param' hw
    obtain ⟨v', e3, e4⟩ := (exp_rshapes hK _ _ fun i => (K.F (p (i.take rs.length))).stat (x i)).param' e2
    obtain ⟨-, rfl⟩ := ParamAt.unique hwS e3 hv
    obtain ⟨rfl, rfl⟩ := List.append_inj' (b3.symm.trans (e4.symm.trans a2)) b1
    refine ⟨b4.trans a1.symm, fun i hi => ?_⟩
    rw [← b5 i (a1 ▸ hi), mul_div_cancel_left₀ _ hprod]
  rw [allclose_rel]
  constructor
  · intro h k f v w _ hv hw i hi
    obtain ⟨u, hu, h6⟩ := h.param hw
    obtain ⟨h7, h8⟩ := hmean k f v w u hv hw hu
    have := ((allclose_same h7).1 h6) i hi
    rw [h8 i hi] at this
    exact this
  · intro h
    refine treeRel_of_params _ _ hwm hwE h4.symm fun k f u w hu hw => ?_
    obtain ⟨v, hv, -⟩ := h2.param hu
    obtain ⟨h7, h8⟩ := hmean k f v w u hv hw hu
    refine (allclose_same h7).2 fun i hi => ?_
    cases hf : f.fixed with
    | false =>
      rw [h8 i hi]
      exact h k f v w hf hv hw i hi
    | true =>
      obtain ⟨u', e1, -, e3⟩ := h5 k f w hf hw
      obtain ⟨-, rfl⟩ := ParamAt.unique hwm e1 hu
      rw [e3 i hi, sub_self, norm_zero]
      positivity

/-! ### The test -/

mutual
theorem leaf_at : (d : Dist Cls) → ∀ {l : Dist Cls}, l ∈ leaves d → ∃ k, SubAt d k l ∧ isJoint l.cls = false
  | .mk c vals subs, l, hl => by
    rw [leaves] at hl
    split_ifs at hl with hj
    · obtain ⟨n, d, k, h1, h2, h3⟩ := leaves_at subs hl
      exact ⟨n :: k, .sub h1 h2, h3⟩
    · obtain rfl := List.mem_singleton.1 hl
      exact ⟨[], .here _, (Bool.not_eq_true _).mp hj⟩
theorem leaves_at : (s : Subs Cls) → ∀ {l : Dist Cls}, l ∈ leavesOf s →
    ∃ n d k, (n, d) ∈ s.toList ∧ SubAt d k l ∧ isJoint l.cls = false
  | .nil, _, hl => by rw [leavesOf] at hl; cases hl
  | .cons n d r, l, hl => by
    rw [leavesOf, List.mem_append] at hl
    rcases hl with hl | hl
    · obtain ⟨k, h⟩ := leaf_at d hl
      exact ⟨n, d, k, List.mem_cons_self, h⟩
    · obtain ⟨m, d', k, h1, h2⟩ := leaves_at r hl
      exact ⟨m, d', k, List.mem_cons_of_mem _ h1, h2⟩
end

theorem supports_samplable {d : Dist Cls} {L : List (Info Cls)} (hL : infosOf d = .ok L)
    (h : supports L Cls.isSamplable = true) : EachLeaf SamplableVals d := by
  intro l hl
  obtain ⟨k, hk, hj⟩ := leaf_at _ hl
  obtain ⟨i, hi, h1, -⟩ := SubAt.info hk hL
  have h2 := List.all_eq_true.1 h i hi
  obtain ⟨c, vals, subs⟩ := l
  have h1 : i.cls = c := h1
  have hj : Cls.isJoint c = false := hj
  rw [h1, hj, Bool.or_false] at h2
  exact h2

/-- The parameters and the samples of the test for both kinds of parameters. -/
theorem produced (hs : solve.For search) {info : TestInfo} (hi : Sound info) (hf : Shallow info)
    (hg : InRange g) (hz : NeverZero g) (hq : Generic g) {natural : Bool}
    (hsel : samplingSelected info natural = true)
    (hc : if natural then Between solve info g rs else Cooperative solve info g rs) (s : g.State) :
    ∃ (p : List ℕ → (settingOf solve info).1.P) (q : List ℕ → (settingOf solve info).1.N)
      (x : List ℕ → (settingOf solve info).1.X) (t : Tree Val) (s' : g.State),
      info.natParameters g rs s = .ok ((settingOf solve info).1.nat rs p q, s') ∧
      (settingOf solve info).2.Inside rs p q ∧
      samplesOf search rng e key ss (if natural then (settingOf solve info).1.nat rs p q else
        (settingOf solve info).1.exp rs p fun i => ((settingOf solve info).1.F (p i)).toExp (q i)) = .ok t ∧
      (settingOf solve info).1.obs (rs ++ ss) x t ∧
      produceSamples (library search) search rng e info g key rs ss natural s =
        .ok (((settingOf solve info).1.exp rs p fun i => ((settingOf solve info).1.F (p i)).toExp (q i), t), s') := by
  have hS := sound_library (solve := solve) info hi
  obtain ⟨p, q, s', h1, h2⟩ := C76_test_parameters (solve := solve) hi hf hg hz hq rs s
  have hst := C75_structures (solve := solve) hi hf rs p q
    fun i => ((settingOf solve info).1.F (p i)).toExp (q i)
  cases natural with
  | true =>
    have hr : EachLeaf RegularVals _ := hc s s' p q h1 h2
    obtain ⟨x, t, h3, h4⟩ := part_nat (search := search) (rng := rng) (e := e) (key := key) (ss := ss) hS.kind p q
      (supports_samplable hst.1 hsel)
    refine ⟨p, q, x, t, s', h1, h2, h3.samples, h4, ?_⟩
    have h5 := (C51_library hs hS.kind).toExp rs p q (regular_dom hS.kind hr)
    simp only [produceSamples, if_true, h1, Bind.bind, Except.bind, h5, h3.samples]
  | false =>
    obtain ⟨hr, hse, -⟩ := hc s s' p q h1 h2
    obtain ⟨x, t, h3, h4⟩ := part_exp (search := search) (rng := rng) (e := e) (key := key) (ss := ss) hs hS.kind p _
      (searchable_dom hS.kind hse) (supports_samplable hst.2 hsel)
    refine ⟨p, q, x, t, s', h1, h2, h3.samples, h4, ?_⟩
    have h5 := C76_test_expectation hs hi h1 hr
    simp only [produceSamples, Bool.false_eq_true, if_false, h5, Bind.bind, Except.bind, h3.samples]

/-- **C87.** `test_sampling_and_estimation`, for every description of distributions that the fixture
selects, every random stream and every key: parameters and samples are produced, the shapes of the samples
are accepted, the estimate is computed, and the only thing that decides is whether the means of the
sufficient statistics of the 65536 samples are close to the expectation parameters. -/
theorem C87_test (hs : solve.For search) {info : TestInfo} (hi : Sound info) (hf : Shallow info)
    (hg : InRange g) (hz : NeverZero g) (hq : Generic g) {natural : Bool}
    (hsel : samplingSelected info natural = true)
    (hc : if natural then Between solve info g [4] else Cooperative solve info g [4]) (s : g.State) :
    ∃ (p : List ℕ → (settingOf solve info).1.P) (q : List ℕ → (settingOf solve info).1.N)
      (x : List ℕ → (settingOf solve info).1.X) (t : Tree Val) (s' : g.State),
      info.natParameters g [4] s = .ok ((settingOf solve info).1.nat [4] p q, s') ∧
      samplesOf search rng e key [64, 1024] (if natural then (settingOf solve info).1.nat [4] p q else
        (settingOf solve info).1.exp [4] p fun i => ((settingOf solve info).1.F (p i)).toExp (q i)) = .ok t ∧
      (settingOf solve info).1.obs [4, 64, 1024] x t ∧
      let close := CloseMeans (samplingRtol info) (samplingAtol info) [64, 1024]
        ((settingOf solve info).1.exp [4, 64, 1024] (fun i => p (i.take 1))
          fun i => ((settingOf solve info).1.F (p (i.take 1))).stat (x i))
        ((settingOf solve info).1.exp [4] p fun i => ((settingOf solve info).1.F (p i)).toExp (q i))
      (close → testSampling (library search) search rng e info g key natural s = .ok s') ∧
      (¬ close → testSampling (library search) search rng e info g key natural s = .error .assertionError) := by
  have hS := sound_library (solve := solve) info hi
  obtain ⟨p, q, x, t, s', h1, -, h3, h4, h5⟩ := produced (rng := rng) (e := e) (key := key) (ss := [64, 1024])
    hs hi hf hg hz hq hsel hc s
  refine ⟨p, q, x, t, s', h1, h3, h4, ?_⟩
  intro close
  obtain ⟨L, h6, h7⟩ := C87_shapes hs hS.kind p
    (fun i => ((settingOf solve info).1.F (p i)).toExp (q i)) h4
  have hss : ∀ n ∈ [64, 1024], 0 < n := by simp
  obtain ⟨m, hm, -⟩ := estimates_ok hs hS.kind hss p
    (fun i => ((settingOf solve info).1.F (p i)).toExp (q i)) h4
  have hr : 0 ≤ samplingRtol info := by
    unfold samplingRtol; split <;> norm_num
  have ha : 0 ≤ samplingAtol info := by
    unfold samplingAtol; split <;> norm_num
  have hclose := C87_close hs hS.kind hss p _ h4 hm hr ha
  have heq : testSampling (library search) search rng e info g key natural s =
      (check (treeAllclose (samplingRtol info) (samplingAtol info) m
        ((settingOf solve info).1.exp [4] p fun i => ((settingOf solve info).1.F (p i)).toExp (q i)))).bind
        fun _ => .ok s' := by
    obtain ⟨e', est, w, a1, a2, a3, a4⟩ := hm
    have a4 : paramMean w (some ((List.range [64, 1024].length).map fun k : ℕ => (k : ℤ))) = _ := a4
    simp only [testSampling, h5, h6, h7, verifyEstimate, a1, a2, a3, a4, Bind.bind, Except.bind]
  rw [heq]
  constructor
  · intro h
    rw [check_ok (hclose.2 h)]
    rfl
  · intro h
    rw [check, if_neg (fun h' => h (hclose.1 h'))]
    rfl

/-! ### One key for all parts -/

/-- **C87.** The test samples every part of a joint distribution with the same key, unlike
`JointDistribution.general_sample` (C26), which it does not call. -/
theorem C87_same_key {d : Dist Cls} {r : Forest Val} (h : samplesOf search rng e key ss d = .ok (.node r)) :
    List.Forall₂ (fun pd pv => pv.1 = pd.1 ∧ clampedSample search rng e key ss pd.2 = .ok pv.2)
      (partsThat (fun _ => true) d.subs) (r.leaves []) := by
  have hg : generalMethod (fun _ => true) (samplePart search rng e key ss) d.subs () = .ok (r, ()) := by
    unfold samplesOf at h
    split_ifs at h
    · cases h1 : clampedSample search rng e key ss d with
      | error => simp [h1, Bind.bind, Except.bind] at h
      | ok v => simp [h1, Bind.bind, Except.bind] at h
    · obtain ⟨_, -, h⟩ := bind_ok_iff.1 h
      obtain ⟨⟨r', u⟩, h1, h2⟩ := bind_ok_iff.1 h
      cases h2
      exact h1
  have he := generalMethod_eq (keep := fun _ => true) (f := samplePart search rng e key ss) (pre := []) d.subs ()
  simp only [hg, Bind.bind, Except.bind] at he
  have : ∀ (l : List (Path × Dist Cls)) (m : List (Path × Val)),
      runParts (samplePart search rng e key ss) l () = .ok (m, ()) →
      List.Forall₂ (fun pd pv => pv.1 = pd.1 ∧ clampedSample search rng e key ss pd.2 = .ok pv.2) l m := by
    intro l
    induction l with
    | nil => rintro m ⟨⟩; exact .nil
    | cons pd l ih =>
      intro m hm
      obtain ⟨⟨a, u⟩, h1, h2⟩ := bind_ok_iff.1 hm
      obtain ⟨⟨b, u'⟩, h3, h4⟩ := bind_ok_iff.1 h2
      obtain ⟨a', h5, h6⟩ := bind_ok_iff.1 h1
      cases h4
      cases h6
      exact .cons ⟨rfl, h5⟩ (ih _ h3)
  exact this _ _ he.symm

/-- **C87.** Equal parts of a joint distribution therefore get equal samples: the samples of the test are not
samples of the joint distribution, whose parts are independent. -/
theorem C87_equal_parts {d : Dist Cls} {r : Forest Val} (h : samplesOf search rng e key ss d = .ok (.node r))
    {i j : ℕ} {k k' : Path} {q : Dist Cls} {v v' : Val} (h1 : (partsThat (fun _ => true) d.subs)[i]? = some (k, q))
    (h2 : (partsThat (fun _ => true) d.subs)[j]? = some (k', q)) (h3 : (r.leaves [])[i]? = some (k, v))
    (h4 : (r.leaves [])[j]? = some (k', v')) : v = v' := by
  have hf := C87_same_key h
  have key : ∀ {n : ℕ} {a b : Path} {q : Dist Cls} {v : Val}, (partsThat (fun _ => true) d.subs)[n]? = some (a, q) →
      (r.leaves [])[n]? = some (b, v) → clampedSample search rng e key ss q = .ok v := by
    intro n a b q v e1 e2
    obtain ⟨l1, rfl'⟩ := List.getElem?_eq_some_iff.1 e1
    obtain ⟨l2, rfl''⟩ := List.getElem?_eq_some_iff.1 e2
    have := (List.forall₂_iff_get.1 hf).2 n l1 l2
    simp only [List.get_eq_getElem, rfl', rfl''] at this
    exact this.2
  exact Except.ok.inj ((key h1 h3).symm.trans (key h2 h4))

namespace Samples

/-- Two standard normal distributions. -/
def twins : Subs Cls :=
  .cons "a" (.mk .unitNormalNP (layS [] (fun _ => ()) fun _ => 0) .nil)
    (.cons "b" (.mk .unitNormalNP (layS [] (fun _ => ()) fun _ => 0) .nil) .nil)

end Samples

/-- The two parts get one sample in the test and different samples from `general_sample`. -/
theorem C87_twins : ∃ v w w' : Val,
    samplesOf search countingStream e 1 [] (.mk .jointN [] Samples.twins) =
      .ok (.node (.cons "a" (.leaf v) (.cons "b" (.leaf v) .nil))) ∧
    Subs.sample search countingStream (some []) Samples.twins 1 =
      .ok (.cons "a" (.leaf w) (.cons "b" (.leaf w') .nil)) ∧ entry w [] ≠ entry w' [] := by
  have h0 : ∀ k : ℕ, Dist.sample search countingStream (some [])
      (.mk .unitNormalNP (layS [] (fun _ => ()) fun _ => 0) .nil) k = .ok (outR [] fun _ => (k : ℝ)) := by
    intro k
    refine (C62_unit_normal countingStream k (some []) [] (fun _ => ()) (fun _ => 0) fun _ _ => trivial).trans ?_
    refine congrArg Except.ok (congrArg Val.real (Arr.ext rfl fun i hi => ?_))
    have hi : inB [] i = true := hi
    have hi' : inB ([] ++ (some ([] : List ℕ)).getD []) i = true := hi
    rw [scalars, scalars, Arr.ofFn_get hi, Arr.ofFn_get hi']
    cases i with
    | nil => simp [drawUnit, local_, countingStream]
    | cons => cases hi
  obtain ⟨b, hb, -⟩ := clamp_scalar_real (e := e) (r := .realField) (a := scalars [] fun _ => ((1 : ℕ) : ℝ))
  have h1 : clampedSample search countingStream e 1 []
      (.mk .unitNormalNP (layS [] (fun _ => ()) fun _ => 0) .nil) = .ok (.real b) :=
    clampedSample_of rfl (h0 1) rfl hb
  refine ⟨_, outR [] fun _ => ((10 : ℕ) : ℝ), outR [] fun _ => ((11 : ℕ) : ℝ),
    PartSampled.samples (.inl ⟨rfl, _, rfl, general_cons (.inr ⟨rfl, _, rfl, h1⟩)
      (general_cons (.inr ⟨rfl, _, rfl, h1⟩) rfl)⟩), ?_, ?_⟩
  · have h2 := h0 10
    have h3 := h0 11
    have k0 : countingStream.split 1 2 0 = 10 := rfl
    have k1 : countingStream.split 1 2 1 = 11 := rfl
    simp [Subs.sample, generalSample, Samples.twins, generalMethod, countOne, sampleOne, Cls.isSamplable, isJoint,
      Cls.isJoint, Bind.bind, Except.bind, k0, k1, h2, h3]
  · simp [Spec.entry, outR, scalars, Arr.ofFn, inB, Val.toC]

/-- Non-vacuity of C87: a joint distribution of a normal and a geometric distribution, for both kinds of
parameters. -/
example (natural : Bool) (s : Samples.diagonal.State) : ∃ (p : List ℕ → (settingOf (solverOf zeroMinimizer) Samples.plainInfo).1.P)
    (q : List ℕ → (settingOf (solverOf zeroMinimizer) Samples.plainInfo).1.N) (x : List ℕ → _) (t : Tree Val)
    (s' : Samples.diagonal.State), Samples.plainInfo.natParameters Samples.diagonal [4] s =
      .ok ((settingOf (solverOf zeroMinimizer) Samples.plainInfo).1.nat [4] p q, s') ∧
    (settingOf (solverOf zeroMinimizer) Samples.plainInfo).1.obs [4, 64, 1024] x t := by
  have hc := cooperative_closed (g := Samples.diagonal) (solve := solverOf zeroMinimizer) Samples.plain_sound
    Samples.plain_closed [4]
  obtain ⟨p, q, x, t, s', h1, -, h2, -⟩ := C87_test (rng := countingStream) (e := 1) (key := 1) (natural := natural)
    (C51_search zeroMinimizer_returns) Samples.plain_sound trivial
    Samples.diagonal_inRange Samples.diagonal_neverZero Samples.diagonal_generic
    (by cases natural <;> rfl)
    (by
      cases natural
      · exact hc
      · exact fun s s' p q h1 h2 => (hc s s' p q h1 h2).1) s
  exact ⟨p, q, x, t, s', h1, h2⟩

/-- The fixtures select some descriptions for natural parameters only or for expectation parameters only. -/
example : samplingSelected (.simple .mvNormal 4) true = false ∧ samplingSelected (.simple .mvNormal 4) false = true ∧
    samplingSelected (.simple .chi 1) true = false ∧ samplingSelected (.simple .beta 1) true = true :=
  ⟨rfl, rfl, rfl, rfl⟩

theorem param_only {c : Cls} {k : Path} {f : Field} {v w : Val} (h : ParamAt (.mk c [v] .nil) k f w) : w = v := by
  cases h with
  | sub h => cases h
  | @here _ _ _ n _ _ h1 h2 =>
    match n, h2 with
    | 0, h2 => exact (Option.some.inj h2).symm

/-- Non-vacuity: means of constant arrays are close to themselves, and not to other numbers. -/
example : (CloseMeans 0 0 [2] (.mk Cls.exponentialEP [.real (scalars [2] fun _ => 3)] .nil)
      (.mk Cls.exponentialEP [.real (scalars [] fun _ => 3)] .nil)) ∧
    ¬ CloseMeans 0 0 [2] (.mk Cls.exponentialEP [.real (scalars [2] fun _ => 3)] .nil)
      (.mk Cls.exponentialEP [.real (scalars [] fun _ => 4)] .nil) := by
  have sum : ∀ a : ℝ, (∑ j ∈ box [2], Spec.entry (.real (scalars [2] fun _ => a)) ([] ++ j)) / (([2] : List ℕ).prod : ℂ) = a := by
    intro a
    have : ∀ j ∈ box [2], Spec.entry (.real (scalars [2] fun _ => a)) ([] ++ j) = a := fun j hj => by
      simp [Spec.entry, scalars, Arr.ofFn, mem_box.1 hj]
    rw [Finset.sum_congr rfl this, Finset.sum_const, card_box]
    simp
  constructor
  · intro k f v w _ hv hw i hi
    obtain rfl := param_only hv
    obtain rfl := param_only hw
    have hi : inB [] i = true := hi
    cases i with
    | cons => cases hi
    | nil =>
      rw [sum]
      simp [Spec.entry, scalars, Arr.ofFn, inB]
  · intro h
    have := h [_] ((ClassTable.fields Cls.exponentialEP)[0]'Nat.one_pos)
      (.real (scalars [2] fun _ => 3)) (.real (scalars [] fun _ => 4)) rfl
      (.here (i := 0) rfl rfl) (.here (i := 0) rfl rfl) [] rfl
    rw [sum] at this
    norm_num [Spec.entry, scalars, Arr.ofFn, inB] at this

/-- **C87.** The tolerance 1e-3, which the code of the test gives for joint distributions, is never used. -/
theorem C87_tolerance (info : TestInfo) : samplingAtol info ≠ 1e-3 := by
  unfold samplingAtol
  split <;> norm_num

end Efax
