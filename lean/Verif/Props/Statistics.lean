import Verif.Lemmas.Stat
import Verif.Props.Structures

/-!
# C25: sufficient statistics of joint observations; C27: fixed parameters in estimators
-/

namespace Efax

open ClassTable Spec

variable {C : Type} [ClassTable C]

theorem infosOf_for {p : Dist C} {L : List (Info C)} (h : infosOf p = .ok L) :
    List.Forall₂ (InfoFor some) L (p.skel []) := by
  have h1 := infosOf_skel h
  rw [← h1]
  clear h h1
  induction L with
  | nil => exact .nil
  | cons i L ih => exact .cons ⟨rfl, rfl, rfl⟩ ih

theorem infosToExp_for {p : Dist C} {L L' : List (Info C)} (h : infosOf p = .ok L)
    (h' : infosToExp L = .ok L') : List.Forall₂ (InfoFor expCls) L' (p.skel []) := by
  have h1 := infosOf_skel h
  rw [← h1]
  have h2 := infosToExp_eq h'
  clear h h1 h'
  induction h2 with
  | nil => exact .nil
  | cons a _ ih => exact .cons ⟨a.2.1, a.1, a.2.2.2⟩ ih

theorem flattenMapping_obs {x : Forest Val} (hx : Forest.Distinct x) :
    ObsAt (flattenMapping x) [] (some (.node x)) := by
  intro k v
  have h1 : flattenMapping x = x.leaves [] := Dict.ofList_eq (Forest.leaves_nodup hx)
  rw [h1, List.nil_append]
  simp only [Option.some.injEq, exists_eq_left', Tree.leaves]
  exact ⟨Dict.mem_of_get?, Dict.get?_of_mem (Forest.leaves_nodup hx)⟩

theorem fixed_lookup {p : Dist C} (hw : WF p) :
    ∀ kv ∈ p.paramList (some true) [], (parameters p (some true)).get? kv.1 = some kv.2.1 := by
  intro kv hkv
  obtain ⟨k, f, v, h1, h2, rfl⟩ := Dist.mem_paramList.1 hkv
  exact (parameters_get? hw).2 ⟨f, h1, h2⟩

theorem sufficientStatistics_dict {e : C → Option C} (he : EstimatorClasses e) {stat : StatFn C}
    {p : Dist C} (hw : WF p) {est : Estimator C}
    (hL : List.Forall₂ (InfoFor e) est.infos (p.skel []))
    (hf : est.fixedParameters = parameters p (some true)) {x : Forest Val}
    (hx : Forest.Distinct x) {q : Dist C} :
    est.sufficientStatistics stat (.node x) = .ok q ↔ StatTree e stat p (.node x) q := by
  have key : ∀ q, StatTree e stat p (.node x) q →
      est.sufficientStatistics stat (.node x) = .ok q := by
    intro q hq
    obtain ⟨con, h1, h2, _⟩ := Dist.stat_complete (FX := flattenMapping x)
      (FP := est.fixedParameters) (con := []) (t := .node x) he hw hL hx (flattenMapping_obs hx)
      (by rw [hf]; exact fixed_lookup hw) hq
    simp only [Estimator.sufficientStatistics, h1, bind, Except.bind, Dict.get, h2]
  refine ⟨fun h => ?_, key q⟩
  cases h1 : est.infos.foldlM (statStep stat est.fixedParameters (flattenMapping x)) [] with
  | error e => simp [Estimator.sufficientStatistics, h1, bind, Except.bind] at h
  | ok con =>
    obtain ⟨t, q', ht, hq'⟩ := Dist.stat_sound (FX := flattenMapping x)
      (FP := est.fixedParameters) he hw hL (fun t' h => by cases h; exact hx)
      (flattenMapping_obs hx) (by rw [hf]; exact fixed_lookup hw) h1
    cases ht
    have := key q' hq'
    rw [h] at this
    cases this
    exact hq'

theorem sufficientStatistics_array {e : C → Option C} (he : EstimatorClasses e) {stat : StatFn C}
    {p : Dist C} (hw : WF p) {est : Estimator C}
    (hL : List.Forall₂ (InfoFor e) est.infos (p.skel []))
    (hf : est.fixedParameters = parameters p (some true)) {x : Val} {q : Dist C} :
    est.sufficientStatistics stat (.leaf x) = .ok q ↔ StatTree e stat p (.leaf x) q := by
  obtain ⟨c, vals, subs⟩ := p
  obtain ⟨infos, FP⟩ := est
  simp only at hL hf
  rw [StatTree]
  rw [Dist.skel] at hL
  obtain ⟨A, i, rfl, hA, hi⟩ := forall₂_snoc hL
  cases subs with
  | cons n d r =>
    have hj : isJoint c = true := hw.2.1.2 (by simp)
    have hne : A ≠ [] := by
      rintro rfl
      rw [Subs.skel] at hA
      have := hA.length_eq
      cases d
      simp [Dist.skel] at this
    have : Estimator.sufficientStatistics ⟨A ++ [i], FP⟩ stat (.leaf x) = .error .valueError := by
      match A, hne with
      | a :: A, _ => cases A <;> rfl
    rw [this]
    simp [hj]
  | nil =>
    have hj : isJoint c = false := by
      cases h : isJoint c
      · rfl
      · exact absurd rfl (hw.2.1.1 h)
    rw [Subs.skel] at hA
    cases hA
    have hi1 : i.path = [] := hi.1
    have hs : Estimator.sufficientStatistics ⟨[] ++ [i], FP⟩ stat (.leaf x) =
        (statLeaf stat FP [] i x >>= fun con => con.get []) := rfl
    rw [hs]
    cases hn : natCls i.cls with
    | none =>
      have hi2 : i.subNames = [] := hi.2.2
      have he1 : e c = some i.cls := hi.2.1
      simp [statLeaf, hn, hi2, bind, Except.bind, he1]
    | some nc =>
      have he1 : e c = some i.cls := hi.2.1
      rw [statLeaf_ok (base := []) (c := c) (vals := vals) hw.1 hi.2.2 hi.1 hn
        ((he c i.cls he1).2 nc hn) (by rw [hf]; exact fixed_lookup hw)]
      simp only [he1, Option.some.injEq, hj, true_and, exists_eq_left', exists_and_left]
      constructor
      · intro h
        cases hq : stat nc x (fixedArgs c vals) with
        | error e => simp [hq, bind, Except.bind] at h
        | ok q' =>
          cases hq2 : natCls q'.cls with
          | none => simp [hq, hq2, bind, Except.bind] at h
          | some m =>
            simp only [hq, hq2, bind, Except.bind, Dict.set, Dict.get, Dict.get?, if_true,
              Except.ok.injEq] at h
            subst h
            exact ⟨nc, hn, hq, by simp [hq2]⟩
      · rintro ⟨nc', hn', h1, h2⟩
        rw [hn] at hn'
        cases hn'
        obtain ⟨m, hm⟩ := Option.isSome_iff_exists.1 h2
        simp [h1, hm, bind, Except.bind, Dict.set, Dict.get, Dict.get?]

theorem sufficientStatistics_iff {e : C → Option C} (he : EstimatorClasses e) {stat : StatFn C}
    {p : Dist C} (hw : WF p) {est : Estimator C}
    (hL : List.Forall₂ (InfoFor e) est.infos (p.skel []))
    (hf : est.fixedParameters = parameters p (some true)) {x : Tree Val}
    (hx : Tree.Distinct x) {q : Dist C} :
    est.sufficientStatistics stat x = .ok q ↔ StatTree e stat p x q := by
  cases x with
  | leaf x => exact sufficientStatistics_array he hw hL hf
  | node x => exact sufficientStatistics_dict he hw hL hf hx

theorem estimatorClasses_some [MachEps] : EstimatorClasses (C := Cls) some := by
  intro c ec h
  cases h
  refine ⟨rfl, fun nc hn => ?_⟩
  have hn := (C19_classes nc c).2 hn
  have := (C19_fields hn).1
  change ((Cls.fields nc).filter Field.fixed).map Field.name =
    ((Cls.fields c).filter Field.fixed).map Field.name
  have hn : Cls.expCls nc = some c := hn
  clear this
  cases nc <;> simp only [Cls.expCls, Option.some.injEq, reduceCtorEq] at hn <;> subst hn <;>
    simp [Cls.fields]

theorem estimatorClasses_expCls [MachEps] : EstimatorClasses (C := Cls) expCls := by
  intro c ec h
  have h' : Cls.expCls c = some ec := h
  refine ⟨(C19_fields h').2.1.symm, fun nc hn => ?_⟩
  have := (C19_classes c ec).1 h
  rw [this] at hn
  cases hn
  rfl

/-- **C25.** With the estimator of an expectation parametrization `p`, `sufficient_statistics(x)`
returns `q` exactly if `q` is the tree of the statistics of the parts: each leaf is the statistics of
the observation at its path with the leaf's fixed parameters.  In particular it raises if the
observation of a leaf is missing. -/
theorem C25_estimator [MachEps] {stat : StatFn Cls} {p : Dist Cls} (hw : WF p)
    {est : Estimator Cls} (h : createEstimator p = .ok est) {x : Tree Val} (hx : Tree.Distinct x)
    {q : Dist Cls} : est.sufficientStatistics stat x = .ok q ↔ StatTree some stat p x q := by
  cases hi : infosOf p with
  | error e => simp [createEstimator, hi, bind, Except.bind] at h
  | ok L =>
    cases hn : natCls p.cls with
    | none => simp [createEstimator, hi, hn, bind, Except.bind] at h
    | some m =>
      simp only [createEstimator, hi, hn, bind, Except.bind, Except.ok.injEq] at h
      subst h
      exact sufficientStatistics_iff estimatorClasses_some hw (infosOf_for hi) rfl hx

/-- **C25.** The same for the estimator of a natural parametrization; the classes are replaced by
their expectation classes. -/
theorem C25_estimator_from_natural [MachEps] {stat : StatFn Cls} {p : Dist Cls} (hw : WF p)
    {est : Estimator Cls} (h : createEstimatorFromNatural p = .ok est) {x : Tree Val}
    (hx : Tree.Distinct x) {q : Dist Cls} :
    est.sufficientStatistics stat x = .ok q ↔ StatTree expCls stat p x q := by
  cases hi : infosOf p with
  | error e => simp [createEstimatorFromNatural, hi, bind, Except.bind] at h
  | ok L =>
    cases hn : infosToExp L with
    | error e => simp [createEstimatorFromNatural, hi, hn, bind, Except.bind] at h
    | ok L' =>
      simp only [createEstimatorFromNatural, hi, hn, bind, Except.bind, Except.ok.injEq] at h
      subst h
      exact sufficientStatistics_iff estimatorClasses_expCls hw (infosToExp_for hi hn) rfl hx

/-- **C25.** The estimator of a simple class: the statistics of the array with the given fixed
parameters, which are passed on exactly as the natural class declares them. -/
theorem C25_simple_estimator [MachEps] {stat : StatFn Cls} {c nc : Cls} (hc : Cls.natCls c = some nc)
    {fixed : Dict String Val} {est : Estimator Cls} (h : createSimpleEstimator c fixed = .ok est)
    {x : Val} {q : Dist Cls} : est.sufficientStatistics stat (.leaf x) = .ok q ↔
      ∃ args, List.Forall₂ (fun f (a : String × Val) => a.1 = f.name ∧ fixed.get? f.name = some a.2)
        ((Cls.fields nc).filter Field.fixed) args ∧ stat nc x args = .ok q ∧
        (Cls.natCls q.cls).isSome := by
  have hc' : natCls c = some nc := hc
  simp only [createSimpleEstimator, hc', Except.ok.injEq] at h
  subst h
  have hk : (supportOf nc (some true)).keys = ((Cls.fields nc).filter Field.fixed).map Field.name := by
    rw [supportOf_keys]
    congr 2
    funext f
    exact keep_true f
  have hget : ∀ n : String, Dict.get? (fixed.map fun kv : String × Val => (([kv.1] : Path), kv.2)) [n] = fixed.get? n := by
    intro n
    induction fixed with
    | nil => rfl
    | cons a l ih => by_cases ha : a.1 = n <;> simp [Dict.get?, ha, ih]
  have hnd : (((Cls.fields nc).filter Field.fixed).map Field.name).Nodup :=
    (names_nodup nc).sublist (List.filter_sublist.map _)
  have hmap : ∀ (l : List Field) (args : List (String × Val)),
      ((l.map Field.name).mapM fun n => do
        (.ok (n, ← Dict.get (fixed.map fun kv : String × Val => (([kv.1] : Path), kv.2)) [n]) :
          Except Err (String × Val))) = .ok args ↔
      List.Forall₂ (fun f (a : String × Val) => a.1 = f.name ∧ fixed.get? f.name = some a.2) l args := by
    intro l
    induction l with
    | nil =>
      intro args
      rw [List.forall₂_nil_left_iff]
      constructor
      · intro h; exact (Except.ok.inj h).symm
      · rintro rfl; rfl
    | cons f l ih =>
      intro args
      rw [List.map_cons, List.mapM_cons]
      simp only [Dict.get, hget]
      cases hf : fixed.get? f.name with
      | none =>
        simp only [bind, Except.bind, reduceCtorEq, false_iff]
        intro h
        cases h with
        | cons a _ => rw [hf] at a; exact absurd a.2 (by simp)
      | some v =>
        simp only [bind, Except.bind]
        simp only [Dict.get, hget, bind, Except.bind] at ih
        constructor
        · intro h
          split at h
          · cases h
          · rename_i args' h'
            have h := Except.ok.inj h
            subst h
            exact .cons ⟨rfl, hf⟩ ((ih _).1 h')
        · intro h
          cases h with
          | @cons _ a _ args' ha hr =>
            rw [(ih _).2 hr]
            obtain ⟨a1, a2⟩ := a
            obtain ⟨rfl, ha2⟩ := ha
            rw [hf] at ha2
            cases ha2
            rfl
  have hst : Estimator.sufficientStatistics ⟨[⟨[], c, 0, []⟩],
      fixed.map fun kv : String × Val => (([kv.1] : Path), kv.2)⟩ stat (.leaf x) =
      (statLeaf stat (fixed.map fun kv : String × Val => (([kv.1] : Path), kv.2)) [] ⟨[], c, 0, []⟩ x >>=
        fun con => con.get []) := rfl
  rw [hst, statLeaf, if_neg (by simp)]
  simp only [hc']
  rw [hk]
  simp only [List.nil_append]
  cases hm : ((((Cls.fields nc).filter Field.fixed).map Field.name).mapM fun n => do
        (.ok (n, ← Dict.get (fixed.map fun kv : String × Val => (([kv.1] : Path), kv.2)) [n]) :
          Except Err (String × Val))) with
  | error e =>
    simp only [bind, Except.bind, reduceCtorEq, false_iff]
    rintro ⟨args, h1, _⟩
    rw [(hmap _ _).2 h1] at hm
    cases hm
  | ok args =>
    have h1 := (hmap _ _).1 hm
    have hargs : (args.map Prod.fst) = ((Cls.fields nc).filter Field.fixed).map Field.name := by
      clear hm hnd hk
      generalize (Cls.fields nc).filter Field.fixed = l at h1
      induction h1 with
      | nil => rfl
      | cons a _ ih => simp [a.1, ih]
    simp only [bind, Except.bind, Dict.ofList_eq (hargs ▸ hnd)]
    constructor
    · intro h
      cases hq : stat nc x args with
      | error e => simp [hq] at h
      | ok q' =>
        cases hq2 : natCls q'.cls with
        | none => simp [hq, hq2] at h
        | some m =>
          simp only [hq, hq2, Dict.set, Dict.get, Dict.get?, if_true, Except.ok.injEq] at h
          subst h
          refine ⟨args, h1, hq, ?_⟩
          change (natCls q'.cls).isSome
          simp [hq2]
    · rintro ⟨args', h1', h2, h3⟩
      have := (hmap _ _).2 h1'
      rw [hm] at this
      cases this
      obtain ⟨m, hm⟩ := Option.isSome_iff_exists.1 h3
      have hm : natCls q.cls = some m := hm
      simp [h2, hm, Dict.set, Dict.get, Dict.get?]

/-- Non-vacuity of C25: statistics of an observation of the nested sample.  The (toy) statistics
return the observation and pass on the fixed parameters. -/
example [MachEps] : ∃ est q, createEstimatorFromNatural Samples.joint = .ok est ∧
    est.sufficientStatistics
      (fun nc x fx => match nc with
        | .gammaNP => .ok (.mk .gammaEP [x, x] .nil)
        | .weibullNP => .ok (.mk .weibullEP (fx.values ++ [x]) .nil)
        | _ => .ok (.mk .mvNormalEP [x, x] .nil))
      (.node (.cons "j" (.node (.cons "n" (.leaf (Samples.c [2, 3] 1)) (.cons "w"
        (.leaf (Samples.c [3] 4)) .nil))) (.cons "g" (.leaf (Samples.c [3] 6)) .nil))) = .ok q ∧
    q = .mk .jointE [] (.cons "g" (.mk .gammaEP [Samples.c [3] 6, Samples.c [3] 6] .nil) (.cons "j"
      (.mk .jointE [] (.cons "w" (.mk .weibullEP [Samples.c [3] 2, Samples.c [3] 4] .nil) (.cons "n"
        (.mk .mvNormalEP [Samples.c [2, 3] 1, Samples.c [2, 3] 1] .nil) .nil))) .nil)) :=
  ⟨_, _, rfl, rfl, rfl⟩

end Efax
