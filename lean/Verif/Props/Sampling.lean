import Verif.Model.Joint
import Verif.Props.Mappings
import Verif.Props.Samples

/-!
# C26: joint sampling
-/

namespace Efax

open ClassTable Spec

variable {C : Type} [ClassTable C]

namespace Spec

mutual
/-- The simple distributions in the tree with their paths, from left to right. -/
def simpleParts (pre : Path) : Dist C → List (Path × Dist C)
  | .mk c vals subs => if isJoint c then subParts pre subs else [(pre, .mk c vals subs)]
/-- The simple distributions below a dictionary of sub-distributions. -/
def subParts (pre : Path) : Subs C → List (Path × Dist C)
  | .nil => []
  | .cons n d r => simpleParts (pre ++ [n]) d ++ subParts pre r
end

/-- The simple distributions whose class passes the test. -/
def partsThat (keep : C → Bool) (subs : Subs C) : List (Path × Dist C) :=
  (subParts [] subs).filter fun pd => keep pd.2.cls

variable {R : Type}

mutual
/-- A value stands for a simple distribution that passes the test, a dictionary for a joint one. -/
def Mirrors (keep : C → Bool) : Dist C → Tree R → Prop
  | .mk c _ _, .leaf _ => isJoint c = false ∧ keep c = true
  | .mk c _ s, .node f => isJoint c = true ∧ MirrorsAll keep s f
/-- The dictionary has the names of the sub-distributions in order, except those of the simple ones
that fail the test. -/
def MirrorsAll (keep : C → Bool) : Subs C → Forest R → Prop
  | .nil, f => f = .nil
  | .cons n (.mk c v s) r, f => if isJoint c = false ∧ keep c = false then MirrorsAll keep r f
      else ∃ t g, f = .cons n t g ∧ Mirrors keep (.mk c v s) t ∧ MirrorsAll keep r g
end

end Spec

section General

variable {S R : Type} {keep : C → Bool} {f : Dist C → S → Except Err (R × S)}

/-- The results of `f` on a list of distributions, from left to right. -/
def runParts (f : Dist C → S → Except Err (R × S)) :
    List (Path × Dist C) → S → Except Err (List (Path × R) × S)
  | [], st => .ok ([], st)
  | pd :: l, st => do
    let (a, st) ← f pd.2 st
    let (b, st) ← runParts f l st
    .ok ((pd.1, a) :: b, st)

theorem runParts_append {l m : List (Path × Dist C)} {st : S} :
    runParts f (l ++ m) st = (do
      let (a, st) ← runParts f l st
      let (b, st) ← runParts f m st
      .ok (a ++ b, st)) := by
  induction l generalizing st with
  | nil =>
    simp only [List.nil_append, runParts, bind, Except.bind]
    cases runParts f m st <;> rfl
  | cons pd l ih =>
    simp only [List.cons_append, runParts, ih, bind, Except.bind]
    cases f pd.2 st with
    | error e => rfl
    | ok a =>
      simp only
      cases runParts f l a.2 with
      | error e => rfl
      | ok b =>
        simp only
        cases runParts f m b.2 <;> rfl

/-- `general_method` applies `f` to the simple parts that pass the test, from left to right. -/
theorem generalMethod_eq {pre : Path} : (s : Subs C) → (st : S) →
    (do let (r, st') ← generalMethod keep f s st
        .ok (r.leaves pre, st')) =
      runParts f ((subParts pre s).filter fun pd => keep pd.2.cls) st
  | .nil, st => rfl
  | .cons n (.mk c v s) rest, st => by
    rw [generalMethod, subParts, simpleParts]
    split_ifs with hj hk
    · rw [List.filter_append, runParts_append, ← generalMethod_eq s st]
      simp only [← generalMethod_eq (pre := pre) rest, bind, Except.bind]
      cases generalMethod keep f s st with
      | error e => rfl
      | ok a =>
        simp only
        cases generalMethod keep f rest a.2 <;> rfl
    · rw [List.filter_append, runParts_append]
      simp only [← generalMethod_eq (pre := pre) rest, bind, Except.bind]
      rw [List.filter_cons_of_pos (by simpa [Dist.cls] using hk), List.filter_nil]
      simp only [runParts, bind, Except.bind]
      cases f (.mk c v s) st with
      | error e => rfl
      | ok a =>
        simp only
        cases generalMethod keep f rest a.2 <;> rfl
    · rw [List.filter_append, List.filter_cons_of_neg (by simpa [Dist.cls] using hk),
        List.filter_nil, List.nil_append, ← generalMethod_eq rest st]

theorem generalMethod_mirrors : (s : Subs C) → {st st' : S} → {r : Forest R} →
    generalMethod keep f s st = .ok (r, st') → MirrorsAll keep s r
  | .nil, st, st', r, h => by
    rw [generalMethod] at h
    cases h
    rfl
  | .cons n (.mk c v s) rest, st, st', r, h => by
    rw [generalMethod] at h
    rw [MirrorsAll]
    split_ifs at h with hj hk
    · rw [if_neg (by simp [hj])]
      cases h1 : generalMethod keep f s st with
      | error e => simp [h1, bind, Except.bind] at h
      | ok a =>
        cases h2 : generalMethod keep f rest a.2 with
        | error e => simp [h1, h2, bind, Except.bind] at h
        | ok b =>
          simp only [h1, h2, bind, Except.bind, Except.ok.injEq, Prod.mk.injEq] at h
          exact ⟨_, _, h.1.symm, ⟨hj, generalMethod_mirrors s h1⟩, generalMethod_mirrors rest h2⟩
    · rw [if_neg (by simp [hk])]
      cases h1 : f (.mk c v s) st with
      | error e => simp [h1, bind, Except.bind] at h
      | ok a =>
        cases h2 : generalMethod keep f rest a.2 with
        | error e => simp [h1, h2, bind, Except.bind] at h
        | ok b =>
          simp only [h1, h2, bind, Except.bind, Except.ok.injEq, Prod.mk.injEq] at h
          exact ⟨_, _, h.1.symm, ⟨by simpa using hj, hk⟩, generalMethod_mirrors rest h2⟩
    · rw [if_pos ⟨by simpa using hj, by simpa using hk⟩]
      exact generalMethod_mirrors rest h

end General

theorem runParts_count (l : List (Path × Dist C)) (n : ℕ) :
    runParts countOne l n = .ok (l.map fun pd => (pd.1, ()), n + l.length) := by
  induction l generalizing n with
  | nil => rfl
  | cons pd l ih =>
    simp only [runParts, countOne, ih, bind, Except.bind, List.map_cons, List.length_cons]
    rw [show n + 1 + l.length = n + (l.length + 1) by omega]

theorem generalMethod_count (keep : C → Bool) (s : Subs C) :
    ∃ r, generalMethod keep countOne s 0 = .ok (r, (partsThat keep s).length) := by
  have h := generalMethod_eq (keep := keep) (f := countOne) (pre := []) s 0
  rw [runParts_count] at h
  cases hg : generalMethod keep countOne s 0 with
  | error e => simp [hg, bind, Except.bind] at h
  | ok a =>
    simp only [hg, bind, Except.bind, Except.ok.injEq, Prod.mk.injEq, zero_add] at h
    exact ⟨a.1, by rw [partsThat, ← h.2]⟩

variable {K : Type} {sample : Dist C → K → Except Err Val}

theorem runParts_sample {keys : List K} {l : List (Path × Dist C)} {n : ℕ}
    {r : List (Path × Val)} {n' : ℕ} :
    runParts (sampleOne sample keys) l n = .ok (r, n') ↔ n' = n + l.length ∧
      List.Forall₂ (fun pd pv => pv.1 = pd.1.1 ∧
        ∃ k, keys[pd.2]? = some k ∧ sample pd.1.2 k = .ok pv.2) (l.zipIdx n) r := by
  induction l generalizing n r n' with
  | nil =>
    simp only [runParts, List.zipIdx_nil, List.forall₂_nil_left_iff, List.length_nil, add_zero,
      Except.ok.injEq, Prod.mk.injEq]
    exact ⟨fun h => ⟨h.2.symm, h.1.symm⟩, fun h => ⟨h.2.symm, h.1.symm⟩⟩
  | cons pd l ih =>
    rw [List.zipIdx_cons]
    constructor
    · intro h
      simp only [runParts, sampleOne, bind, Except.bind] at h
      cases hk : keys[n]? with
      | none => simp [hk] at h
      | some k =>
        cases hs : sample pd.2 k with
        | error e => simp [hk, hs] at h
        | ok v =>
          cases h2 : runParts (sampleOne sample keys) l (n + 1) with
          | error e => simp [hk, hs, h2] at h
          | ok b =>
            simp only [hk, hs, h2, Except.ok.injEq, Prod.mk.injEq] at h
            obtain ⟨e1, e2⟩ := ih.1 h2
            refine ⟨by rw [← h.2, e1, List.length_cons]; omega, ?_⟩
            rw [← h.1]
            exact List.Forall₂.cons ⟨rfl, k, hk, hs⟩ e2
    · rintro ⟨rfl, h⟩
      cases h with
      | cons h1 h2 =>
        obtain ⟨e, k, hk, hs⟩ := h1
        rename_i b l₂
        obtain ⟨b1, b2⟩ := b
        simp only at e hs hk
        subst e
        have := ih.2 ⟨rfl, h2⟩
        simp only [runParts, sampleOne, bind, Except.bind, hk, hs, this, List.length_cons]
        rw [show n + 1 + l.length = n + (l.length + 1) by omega]

theorem generalSample_eq {samplable : C → Bool} {split : K → ℕ → List K} {s : Subs C} {key : K}
    {r : Forest Val} (h : generalSample samplable split sample s key = .ok r) :
    ∃ n, generalMethod samplable (sampleOne sample (split key (partsThat samplable s).length)) s 0 =
      .ok (r, n) := by
  obtain ⟨u, hc⟩ := generalMethod_count samplable s
  simp only [generalSample, hc, bind, Except.bind] at h
  cases hg : generalMethod samplable
      (sampleOne sample (split key (partsThat samplable s).length)) s 0 with
  | error e => simp [hg] at h
  | ok a =>
    simp only [hg, Except.ok.injEq] at h
    exact ⟨a.2, by rw [← h]⟩

/-- **C26.** The result of `general_sample` has one value for each samplable simple part, at the
path of this part, and the value of the `i`-th part is its sample with the `i`-th key of
`split(key, n)`, where `n` is the number of samplable parts. -/
theorem C26_sample {samplable : C → Bool} {split : K → ℕ → List K} {s : Subs C} {key : K}
    {r : Forest Val} (h : generalSample samplable split sample s key = .ok r) :
    List.Forall₂ (fun pd pv => pv.1 = pd.1.1 ∧
      ∃ k, (split key (partsThat samplable s).length)[pd.2]? = some k ∧ sample pd.1.2 k = .ok pv.2)
      (partsThat samplable s).zipIdx (r.leaves []) := by
  obtain ⟨n, hg⟩ := generalSample_eq h
  have he := generalMethod_eq (keep := samplable)
    (f := sampleOne sample (split key (partsThat samplable s).length)) (pre := []) s 0
  simp only [hg, bind, Except.bind] at he
  exact (runParts_sample.1 he.symm).2

/-- **C26.** The result is nested as the joint distribution. -/
theorem C26_nesting {samplable : C → Bool} {split : K → ℕ → List K} {s : Subs C} {key : K}
    {r : Forest Val} (h : generalSample samplable split sample s key = .ok r) :
    MirrorsAll samplable s r := by
  obtain ⟨n, hg⟩ := generalSample_eq h
  exact generalMethod_mirrors s hg

/-- **C26.** `general_sample` succeeds if every samplable part can be sampled with its key and `split`
returns as many keys as it is asked for. -/
theorem C26_defined {samplable : C → Bool} {split : K → ℕ → List K} {s : Subs C} {key : K}
    (hlen : (split key (partsThat samplable s).length).length = (partsThat samplable s).length)
    (hs : ∀ pd ∈ partsThat samplable s, ∀ k ∈ split key (partsThat samplable s).length,
      ∃ v, sample pd.2 k = .ok v) :
    ∃ r, generalSample samplable split sample s key = .ok r := by
  obtain ⟨u, hc⟩ := generalMethod_count samplable s
  set keys := split key (partsThat samplable s).length
  have key : ∃ r, List.Forall₂ (fun pd (pv : Path × Val) => pv.1 = pd.1.1 ∧
      ∃ k, keys[pd.2]? = some k ∧ sample pd.1.2 k = .ok pv.2)
      ((partsThat samplable s).zipIdx 0) r := by
    have : ∀ (l : List (Path × Dist C)) (n : ℕ), n + l.length ≤ keys.length →
        (∀ pd ∈ l, pd ∈ partsThat samplable s) →
        ∃ r, List.Forall₂ (fun pd (pv : Path × Val) => pv.1 = pd.1.1 ∧
          ∃ k, keys[pd.2]? = some k ∧ sample pd.1.2 k = .ok pv.2) (l.zipIdx n) r := by
      intro l
      induction l with
      | nil => exact fun n _ _ => ⟨[], .nil⟩
      | cons pd l ih =>
        intro n hn hl
        rw [List.length_cons] at hn
        obtain ⟨r, hr⟩ := ih (n + 1) (by omega) fun pd h => hl pd (by simp [h])
        obtain ⟨v, hv⟩ := hs pd (hl pd (by simp)) (keys[n]'(by omega)) (List.getElem_mem _)
        rw [List.zipIdx_cons]
        exact ⟨(pd.1, v) :: r, .cons ⟨rfl, _, List.getElem?_eq_getElem _, hv⟩ hr⟩
    exact this _ 0 (by omega) fun _ h => h
  obtain ⟨r, hr⟩ := key
  have he := generalMethod_eq (keep := samplable) (f := sampleOne sample keys) (pre := []) s 0
  change _ = runParts (sampleOne sample keys) (partsThat samplable s) 0 at he
  rw [(runParts_sample (keys := keys)).2 ⟨rfl, hr⟩] at he
  cases hg : generalMethod samplable (sampleOne sample keys) s 0 with
  | error e => simp [hg, bind, Except.bind] at he
  | ok a => exact ⟨a.1, by simp only [generalSample, hc, bind, Except.bind]; simp only [keys] at hg; simp [hg]⟩

/-- **C26.** If `split` returns distinct new keys, then no key is used twice, and the parent key is
not used: the sample at each path is drawn with a key of its own. -/
theorem C26_distinct_keys {samplable : C → Bool} {split : K → ℕ → List K} {s : Subs C} {key : K}
    {r : Forest Val} (h : generalSample samplable split sample s key = .ok r)
    (hnd : (split key (partsThat samplable s).length).Nodup)
    (hkey : key ∉ split key (partsThat samplable s).length) :
    ∃ ks : List K, ks.Nodup ∧ key ∉ ks ∧ ks.length = (partsThat samplable s).length ∧
      List.Forall₂ (fun pdk pv => pv.1 = pdk.1.1 ∧ sample pdk.1.2 pdk.2 = .ok pv.2)
        ((partsThat samplable s).zip ks) (r.leaves []) := by
  have h1 := C26_sample h
  set keys := split key (partsThat samplable s).length
  have : ∀ (l : List (Path × Dist C)) (n : ℕ) (r : List (Path × Val)),
      List.Forall₂ (fun pd pv => pv.1 = pd.1.1 ∧
        ∃ k, keys[pd.2]? = some k ∧ sample pd.1.2 k = .ok pv.2) (l.zipIdx n) r →
      ((keys.drop n).take l.length).length = l.length ∧
      List.Forall₂ (fun pdk pv => pv.1 = pdk.1.1 ∧ sample pdk.1.2 pdk.2 = .ok pv.2)
        (l.zip ((keys.drop n).take l.length)) r := by
    intro l
    induction l with
    | nil =>
      intro n r h
      simp only [List.zipIdx_nil, List.forall₂_nil_left_iff] at h
      simp [h]
    | cons pd l ih =>
      intro n r h
      rw [List.zipIdx_cons] at h
      cases h with
      | cons a b =>
        obtain ⟨e, k, hk, hs⟩ := a
        obtain ⟨hn, hk⟩ := List.getElem?_eq_some_iff.1 hk
        obtain ⟨e1, e2⟩ := ih (n + 1) _ b
        rw [List.drop_eq_getElem_cons hn, List.length_cons, List.take_succ_cons, List.length_cons,
          e1]
        refine ⟨rfl, ?_⟩
        rw [List.zip_cons_cons]
        exact .cons ⟨e, by rw [hk]; exact hs⟩ e2
  obtain ⟨e1, e2⟩ := this _ 0 _ h1
  rw [List.drop_zero] at e1 e2
  exact ⟨_, hnd.sublist (List.take_sublist _ _), fun hk => hkey (List.mem_of_mem_take hk), e1, e2⟩

/-- **C26.** `as_dict` returns the simple parts, nested as the joint distribution. -/
theorem C26_as_dict (s : Subs C) : ∃ r, asDict s = .ok r ∧ r.leaves [] = subParts [] s ∧
    MirrorsAll (fun _ => true) s r := by
  have he := generalMethod_eq (keep := fun _ => true) (f := asDictOne (C := C)) (pre := []) s ()
  have hl : ∀ l : List (Path × Dist C), runParts asDictOne l () = .ok (l, ()) := by
    intro l
    induction l with
    | nil => rfl
    | cons pd l ih => simp [runParts, asDictOne, ih, bind, Except.bind]
  rw [hl] at he
  cases hg : generalMethod (fun _ => true) asDictOne s () with
  | error e => simp [hg, bind, Except.bind] at he
  | ok a =>
    refine ⟨a.1, by simp only [asDict, hg, bind, Except.bind], ?_, generalMethod_mirrors s hg⟩
    simp only [hg, bind, Except.bind, Except.ok.injEq, Prod.mk.injEq] at he
    rw [he.1, List.filter_eq_self.2 (by simp)]

/-- Non-vacuity of C26: the nested sample with keys that are numbers; the gamma distribution and the
Weibull distribution are samplable, the normal distribution is declared not to be. -/
example [MachEps] : ∃ r,
    generalSample (fun c => c != .mvNormalNP) (fun (k : ℕ) n => (List.range n).map (k + 1 + ·))
      (fun _ (k : ℕ) => .ok (Samples.c [] k)) Samples.joint.subs 7 = .ok r ∧
    r.leaves [] = [(["g"], Samples.c [] (8 : ℕ)), (["j", "w"], Samples.c [] (9 : ℕ))] ∧
    (partsThat (fun c => c != .mvNormalNP) Samples.joint.subs).length = 2 ∧
    ((List.range 2).map (7 + 1 + ·)).Nodup ∧ 7 ∉ (List.range 2).map (7 + 1 + ·) := by
  refine ⟨_, rfl, rfl, rfl, by decide, by decide⟩

end Efax
