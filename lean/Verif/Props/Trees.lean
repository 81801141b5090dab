import Verif.Lemmas.Tree3
import Verif.Lemmas.Mean
import Verif.Props.Samples

/-!
# C13-C17, C20, C21: traversal and reassembly of distribution trees

Most theorems hold for every class table; the examples instantiate them with the classes of efax.
-/

namespace Efax

open Spec ClassTable

variable {C : Type} [ClassTable C]

theorem Samples.joint_shapes [MachEps] {k : Path} {f : Field} {v : Val}
    (h : ParamAt Samples.joint k f v) :
    v.rshape = [] ++ [3] ∨ v.rshape = [2] ++ [3] ∨ v.rshape = [2, 2] ++ [3] := by
  have hm := (mem_parameters Samples.joint_wf (fixed := none)).2 ⟨f, h, rfl⟩
  rw [parameters_eq Samples.joint_wf] at hm
  simp only [Samples.joint, Samples.gamma, Samples.weibull, Samples.normal2, Dist.paramList,
    Subs.paramList, nodeParams_none, ClassTable.fields, Cls.fields, Samples.c, List.zip_nil_left,
    List.zip_cons_cons, List.map_nil, List.map_cons, List.nil_append, List.append_nil,
    List.cons_append, List.mem_cons, List.not_mem_nil, or_false, Prod.mk.injEq] at hm
  rcases hm with ⟨_, rfl⟩ | ⟨_, rfl⟩ | ⟨_, rfl⟩ | ⟨_, rfl⟩ | ⟨_, rfl⟩ | ⟨_, rfl⟩ <;>
    simp [Val.rshape, Arr.full, Arr.ofFn]

/-! ## C13 -/

/-- **C13.** `parameters(p, fixed=...)` contains exactly the declared parameters of all
sub-distributions (of the requested kind), each under its path, and no path twice. -/
theorem C13_parameters {p : Dist C} (hw : WF p) (fixed : Option Bool) :
    ((parameters p fixed).map Prod.fst).Nodup ∧
    ∀ k v, (k, v) ∈ parameters p fixed ↔
      ∃ f, ParamAt p k f v ∧ ∀ b ∈ fixed, f.fixed = b := by
  refine ⟨parameters_keys_nodup hw fixed, fun k v => ?_⟩
  rw [mem_parameters hw]
  exact exists_congr fun f => and_congr_right fun _ => keep_iff

/-- **C13.** The fixed and the variable parameters partition the parameters. -/
theorem C13_partition {p : Dist C} (hw : WF p) :
    (∀ kv, kv ∈ parameters p none ↔ kv ∈ parameters p (some true) ∨ kv ∈ parameters p (some false)) ∧
    ∀ k, ¬ (k ∈ (parameters p (some true)).map Prod.fst ∧
      k ∈ (parameters p (some false)).map Prod.fst) := by
  constructor
  · rintro ⟨k, v⟩
    rw [(C13_parameters hw none).2, (C13_parameters hw _).2, (C13_parameters hw _).2]
    constructor
    · rintro ⟨f, h, _⟩
      cases hf : f.fixed with
      | true => exact .inl ⟨f, h, by simp [hf]⟩
      | false => exact .inr ⟨f, h, by simp [hf]⟩
    · rintro (⟨f, h, _⟩ | ⟨f, h, _⟩) <;> exact ⟨f, h, by simp⟩
  · rintro k ⟨h1, h2⟩
    obtain ⟨⟨_, v⟩, m1, rfl⟩ := List.mem_map.1 h1
    obtain ⟨⟨k', v'⟩, m2, e⟩ := List.mem_map.1 h2
    simp only at e
    subst e
    obtain ⟨f, a1, a2⟩ := ((C13_parameters hw _).2 _ _).1 m1
    obtain ⟨g, b1, b2⟩ := ((C13_parameters hw _).2 _ _).1 m2
    obtain ⟨rfl, _⟩ := ParamAt.unique hw a1 b1
    have := (a2 true rfl).symm.trans (b2 false rfl)
    cases this

/-- **C13.** `parameters(p, fixed=..., recurse=False)` contains exactly the node's own parameters
of the requested kind, in the order of declaration. -/
theorem C13_no_recursion {c : C} {vals : List Val} {subs : Subs C} (fixed : Option Bool) :
    ((parametersFlat (.mk c vals subs) fixed).map Prod.fst).Sublist
      ((fields c).map Field.name) ∧
    ((parametersFlat (.mk c vals subs) fixed).map Prod.fst).Nodup ∧
    ∀ n v, (n, v) ∈ parametersFlat (.mk c vals subs) fixed ↔
      ∃ (i : ℕ) (f : Field), (fields c)[i]? = some f ∧ vals[i]? = some v ∧ f.name = n ∧
        ∀ b ∈ fixed, f.fixed = b := by
  have he := parametersFlat_eq (.mk c vals subs) fixed
  simp only [Dist.cls, Dist.vals] at he
  rw [he]
  refine ⟨?_, ?_, fun n v => ?_⟩
  · simpa [List.map_map, Function.comp_def] using nodeParams_keys_sublist fixed c vals
  · simpa [List.map_map, Function.comp_def] using nodeParams_keys_nodup fixed c vals
  · simp only [List.mem_map]
    constructor
    · rintro ⟨nv, h, e⟩
      obtain ⟨i, f, w, h1, h2, h3, rfl⟩ := mem_nodeParams.1 h
      cases e
      exact ⟨i, f, h1, h2, rfl, keep_iff.1 h3⟩
    · rintro ⟨i, f, h1, h2, rfl, h3⟩
      refine ⟨(f.name, v, f.support), mem_nodeParams.2 ⟨i, f, v, h1, h2, ?_, rfl⟩, rfl⟩
      exact keep_iff.2 h3

/-- Non-vacuity of C13: in the nested sample there is a fixed parameter two levels down. -/
example [MachEps] : WF Samples.joint ∧
    (["j", "w", "concentration"], Samples.c [3] 2) ∈ parameters Samples.joint (some true) := by
  refine ⟨Samples.joint_wf, ((C13_parameters Samples.joint_wf _).2 _ _).2
    ⟨⟨"concentration", .scalar Ring.positiveSupport, true⟩, ?_, by simp⟩⟩
  refine .sub (d := .mk .jointN [] (.cons "w" Samples.weibull (.cons "n" Samples.normal2 .nil)))
    (by simp [Subs.toList]) ?_
  refine .sub (d := Samples.weibull) (by simp [Subs.toList]) ?_
  exact .here (c := Cls.weibullNP) (i := 0)
    (f := ⟨"concentration", .scalar Ring.positiveSupport, true⟩) rfl rfl

/-! ## C14 -/

/-- **C14.** `Structure.create(p).assemble(parameters(p))` is `p`. -/
theorem C14_assemble_parameters {p : Dist C} (hw : WF p) {infos : List (Info C)}
    (hi : infosOf p = .ok infos) : assemble infos (parameters p none) = .ok p :=
  assemble_ok hw (infosOf_skel hi) fun kv hkv => by
    obtain ⟨k, f, v, hpa, _, rfl⟩ := Dist.mem_paramList.1 hkv
    rw [List.nil_append]
    exact (parameters_get? hw).2 ⟨f, hpa, rfl⟩

/-- **C14.** For any dictionary with an entry for every parameter path of `p`,
`Structure.create(p).assemble(values)` is an object of the same structure with exactly these values
(further entries are ignored). -/
theorem C14_assemble_values {p : Dist C} (hw : WF p) {infos : List (Info C)}
    (hi : infosOf p = .ok infos) {values : Dict Path Val}
    (hv : ∀ k f v, ParamAt p k f v → ∃ v', values.get? k = some v') :
    ∃ q, assemble infos values = .ok q ∧ WF q ∧ SameTree p q ∧
      ∀ k f v', ParamAt q k f v' ↔ values.get? k = some v' ∧ ∃ v, ParamAt p k f v := by
  have hlk : ∀ k f v, ParamAt p k f v → values.get? k = some (lookupD values k) := by
    intro k f v h
    obtain ⟨v', h'⟩ := hv k f v h
    simp [lookupD, h']
  refine ⟨_, assemble_refill hw (infosOf_skel hi) hlk, Dist.refill_wf hw, Dist.refill_same p,
    fun k f v' => ⟨fun h => ?_, ?_⟩⟩
  · obtain ⟨h1, v, h2⟩ := ParamAt.of_refill hw h
    refine ⟨?_, v, h2⟩
    rw [hlk k f v h2, h1, List.nil_append]
  · rintro ⟨h1, v, h2⟩
    have h3 := ParamAt.refill (lk := lookupD values) (base := []) h2
    rw [List.nil_append] at h3
    rw [hlk k f v h2] at h1
    cases h1
    exact h3

/-- **C14.** A missing parameter path raises `KeyError`. -/
theorem C14_missing_path {p : Dist C} (hw : WF p) {infos : List (Info C)}
    (hi : infosOf p = .ok infos) {values : Dict Path Val} {k : Path} {f : Field} {v : Val}
    (hk : ParamAt p k f v) (hm : values.get? k = none) :
    assemble infos values = .error .keyError :=
  assemble_keyError hw (infosOf_skel hi) hk hm

/-- Non-vacuity of C14: the structure of the nested sample exists. -/
theorem Samples.joint_infos [MachEps] : ∃ infos, infosOf Samples.joint = .ok infos := ⟨_, rfl⟩

example [MachEps] : ∃ k f v, ParamAt Samples.joint k f v ∧ Dict.get? ([] : Dict Path Val) k = none :=
  ⟨["g", "negative_rate"], ⟨"negative_rate", .scalar Ring.negativeSupport, false⟩, Samples.c [3] (-1),
    .sub (d := Samples.gamma) (by simp [Subs.toList]) (.here (c := Cls.gammaNP) (i := 0)
      (f := ⟨"negative_rate", .scalar Ring.negativeSupport, false⟩) rfl rfl), rfl⟩

/-! ## C15 -/

/-- **C15.** `p[key]`, when defined, is a distribution of the same structure in which every parameter,
fixed or variable, is indexed by the key. -/
theorem C15_getitem {p q : Dist C} (hw : WF p) {key : List ℕ} (h : p.getitem key = .ok q) :
    WF q ∧ SameTree p q ∧
      ∀ k f v', ParamAt q k f v' ↔ ∃ v, ParamAt p k f v ∧ IsIndexed key v v' := by
  unfold Dist.getitem at h
  cases h1 : (parameters p none).mapM (fun kv => do
      (.ok (kv.1, ← kv.2.index key) : Except Err (Path × Val))) with
  | error e => rw [h1] at h; cases h
  | ok ps =>
    rw [h1] at h
    cases h2 : infosOf p with
    | error e => rw [h2] at h; cases h
    | ok L =>
      rw [h2] at h
      have hg := mapParams_eq_ok (g := Val.index key) hw h1
      obtain ⟨ps', q', e1, e2, e3, e4, e5⟩ := mapParams_ok hw (infosOf_skel h2) hg
      rw [e1] at h1
      cases h1
      have h : assemble L _ = .ok q := h
      rw [e2] at h
      cases h
      refine ⟨e3, e4, fun k f v' => (e5 k f v').trans ⟨?_, ?_⟩⟩
      · rintro ⟨v, a, b⟩
        exact ⟨v, a, Val.index_eq_ok b⟩
      · rintro ⟨v, a, b⟩
        refine ⟨v, a, ?_⟩
        obtain ⟨w, hw'⟩ := hg k f v a
        rw [hw', (Val.index_eq_ok hw').unique b]

/-- **C15.** `p[key]` is defined when the key is in range for the leading axes of every parameter. -/
theorem C15_getitem_defined {p : Dist C} (hw : WF p) {infos : List (Info C)}
    (hi : infosOf p = .ok infos) {key : List ℕ}
    (hk : ∀ k f v, ParamAt p k f v → ∃ s b, v.rshape = s ++ b ∧ inB b key.reverse = true) :
    ∃ q, p.getitem key = .ok q := by
  obtain ⟨ps, q, e1, e2, _⟩ := mapParams_ok (g := Val.index key) hw (infosOf_skel hi)
    (fun k f v h => by
      obtain ⟨s, b, h1, h2⟩ := hk k f v h
      exact Val.index_ok h1 h2)
  refine ⟨q, ?_⟩
  unfold Dist.getitem
  rw [e1, hi]
  exact e2

/-- **C15.** Indexing commutes with taking sub-distributions. -/
theorem C15_getitem_nested {p q d d' : Dist C} (hw : WF p) {key : List ℕ} {k : Path}
    (h : p.getitem key = .ok q) (hd : SubAt p k d) (hd' : d.getitem key = .ok d') :
    SubAt q k d' := by
  obtain ⟨h1, h2, h3⟩ := C15_getitem hw h
  obtain ⟨k1, k2, k3⟩ := C15_getitem (hd.wf hw) hd'
  obtain ⟨e, e1, e2⟩ := hd.same h2
  have hde : SameTree d' e := k2.symm.trans e2
  have : d' = e := SameTree.eq_of_params k1 (e1.wf h1) hde fun j f v' hj => by
    obtain ⟨v, hv, hvi⟩ := (k3 j f v').1 hj
    have h5 := (h3 (k ++ j) f v').2 ⟨v, hd.param hv, hvi⟩
    obtain ⟨w, hw6⟩ := hj.same hde (e1.wf h1)
    obtain ⟨_, rfl⟩ := ParamAt.unique h1 h5 (e1.param hw6)
    exact hw6
  rw [this]
  exact e1

/-- Non-vacuity of C15: the nested sample (batch shape (3,)) can be indexed by 2. -/
example [MachEps] : ∃ q, Samples.joint.getitem [2] = .ok q := by
  obtain ⟨L, hL⟩ := Samples.joint_infos
  refine C15_getitem_defined Samples.joint_wf hL fun k f v h => ?_
  have h3 : inB [3] [2].reverse = true := rfl
  rcases Samples.joint_shapes h with h | h | h
  · exact ⟨_, _, h, h3⟩
  · exact ⟨_, _, h, h3⟩
  · exact ⟨_, _, h, h3⟩

/-! ## C16 -/

/-- **C16.** `parameter_map(op, x, *ys)` for `ys` of the structure of `x`: the result has the
structure of `x`, its fixed parameters are those of `x`, and each variable parameter is `op` applied
to the corresponding parameters. -/
theorem C16_map {x : Dist C} {ys : List (Dist C)} (hx : WF x) (hys : ∀ y ∈ ys, WF y ∧ SameTree x y)
    {infos : List (Info C)} (hi : infosOf x = .ok infos) {op : List Val → Except Err Val}
    (hop : ∀ k f v vs, ParamAt x k f v → f.fixed = false →
      List.Forall₂ (fun y w => ParamAt y k f w) ys vs → ∃ r, op (v :: vs) = .ok r) :
    ∃ q, paramMap op x ys = .ok q ∧ WF q ∧ SameTree x q ∧ ∀ k f r, ParamAt q k f r ↔
      if f.fixed then ParamAt x k f r
      else ∃ v vs, ParamAt x k f v ∧ List.Forall₂ (fun y w => ParamAt y k f w) ys vs ∧
        op (v :: vs) = .ok r := by
  set ks := (parameters x (some false)).keys with hks
  have hvals : ∀ y, WF y → SameTree x y → (parameters y (some false)).values =
      ks.map (lookupD (parameters y (some false))) := by
    intro y hy hs
    rw [hks, parameters_keys_same hx hy hs]
    exact Dict.values_eq (parameters_keys_nodup hy _) _
  have same_refl : SameTree x x := .refl x
  -- the value of each argument at a variable path
  have hat : ∀ y, WF y → SameTree x y → ∀ k ∈ ks, ∃ f, f.fixed = false ∧
      ParamAt y k f (lookupD (parameters y (some false)) k) := by
    intro y hy hs k hk
    rw [hks, parameters_keys_same hx hy hs] at hk
    obtain ⟨v, hv⟩ := Dict.mem_keys_iff.1 hk
    obtain ⟨f, h1, h2⟩ := (parameters_get? hy).1 hv
    refine ⟨f, by simpa [keep] using h2, ?_⟩
    simpa [lookupD, hv] using h1
  -- fields agree
  have hfield : ∀ y, WF y → SameTree x y → ∀ k f f' v w, ParamAt x k f v → ParamAt y k f' w →
      f = f' := by
    intro y hy hs k f f' v w h1 h2
    obtain ⟨w', h3⟩ := h1.same hs hy
    exact (ParamAt.unique hy h3 h2).1
  -- the arguments at a path
  have hargs : ∀ k ∈ ks, ∃ f, f.fixed = false ∧
      ParamAt x k f (lookupD (parameters x (some false)) k) ∧
      List.Forall₂ (fun y w => ParamAt y k f w) ys
        (ys.map fun y => lookupD (parameters y (some false)) k) := by
    intro k hk
    obtain ⟨f, h1, h2⟩ := hat x hx same_refl k hk
    refine ⟨f, h1, h2, ?_⟩
    rw [List.forall₂_map_right_iff, List.forall₂_same]
    intro y hy
    obtain ⟨f', g1, g2⟩ := hat y (hys y hy).1 (hys y hy).2 k hk
    rw [hfield y (hys y hy).1 (hys y hy).2 k f f' _ _ h2 g2]
    exact g2
  classical
  let r : Path → Val := fun k =>
    match op (lookupD (parameters x (some false)) k ::
      ys.map fun y => lookupD (parameters y (some false)) k) with
    | .ok r => r
    | .error _ => .real (Arr.full [] 0)
  have hr : ∀ k ∈ ks, op (lookupD (parameters x (some false)) k ::
      ys.map fun y => lookupD (parameters y (some false)) k) = .ok (r k) := by
    intro k hk
    obtain ⟨f, h1, h2, h3⟩ := hargs k hk
    obtain ⟨r', hr'⟩ := hop k f _ _ h2 h1 h3
    simp only [r, hr']
  have hstar : starmapStrict op (parameters x (some false)).values
      (ys.map fun y => (parameters y (some false)).values) = .ok (ks.map r) := by
    have e1 : (ys.map fun y => (parameters y (some false)).values) =
        (ys.map fun y => lookupD (parameters y (some false))).map fun y => ks.map y := by
      rw [List.map_map]
      exact List.map_congr_left fun y hy => hvals y (hys y hy).1 (hys y hy).2
    rw [hvals x hx same_refl, e1, starmapStrict_keys]
    refine mapM_ok fun k hk => ?_
    rw [List.map_map]
    exact hr k hk
  have hknd : ks.Nodup := parameters_keys_nodup hx _
  have hops : Dict.ofList (ks.map fun k => (k, r k)) = ks.map fun k => (k, r k) :=
    Dict.ofList_eq (by simpa [List.map_map, Function.comp_def] using hknd)
  set ps := Dict.merge (parameters x (some true)) (ks.map fun k => (k, r k)) with hps
  have hget : ∀ k, ps.get? k = (if k ∈ ks then some (r k) else none).or
      ((parameters x (some true)).get? k) := by
    intro k
    rw [hps, Dict.get?_merge (by simpa [Dict.keys, List.map_map, Function.comp_def] using hknd),
      Dict.get?_keysMap]
    by_cases hk : k ∈ ks <;> simp [hk]
  have hrun : paramMap op x ys = assemble infos ps := by
    simp only [paramMap, hstar, ← hks, zipStrict_keys, hops, hi, bind, Except.bind]
    rfl
  have mem_ks : ∀ k f v, ParamAt x k f v → (k ∈ ks ↔ f.fixed = false) := by
    intro k f v h
    rw [hks, Dict.mem_keys_iff]
    constructor
    · rintro ⟨w, hw⟩
      obtain ⟨g, g1, g2⟩ := (parameters_get? hx).1 hw
      obtain ⟨rfl, _⟩ := ParamAt.unique hx h g1
      simpa [keep] using g2
    · intro hf
      exact ⟨v, (parameters_get? hx).2 ⟨f, h, by simp [keep, hf]⟩⟩
  have hpsv : ∀ k f v, ParamAt x k f v →
      ps.get? k = some (if f.fixed then v else r k) := by
    intro k f v h
    rw [hget]
    cases hf : f.fixed with
    | false => simp [(mem_ks k f v h).2 hf]
    | true =>
      rw [if_neg (by rw [mem_ks k f v h]; simp [hf])]
      simp only [if_true, Option.none_or]
      exact (parameters_get? hx).2 ⟨f, h, by simp [keep, hf]⟩
  obtain ⟨q, q1, q2, q3, q4⟩ := C14_assemble_values hx hi (values := ps)
    (fun k f v h => ⟨_, hpsv k f v h⟩)
  refine ⟨q, hrun.trans q1, q2, q3, fun k f r' => (q4 k f r').trans ?_⟩
  cases hf : f.fixed with
  | true =>
    simp only [if_true]
    constructor
    · rintro ⟨h1, v, h2⟩
      rw [hpsv k f v h2, hf] at h1
      cases h1
      exact h2
    · intro h
      exact ⟨by rw [hpsv k f r' h, hf]; rfl, r', h⟩
  | false =>
    simp only [Bool.false_eq_true, if_false]
    constructor
    · rintro ⟨h1, v, h2⟩
      have hk := (mem_ks k f v h2).2 hf
      rw [hpsv k f v h2, hf] at h1
      simp only [Bool.false_eq_true, if_false, Option.some.injEq] at h1
      obtain ⟨f', g1, g2, g3⟩ := hargs k hk
      obtain ⟨rfl, _⟩ := ParamAt.unique hx h2 g2
      exact ⟨_, _, g2, g3, by rw [hr k hk, h1]⟩
    · rintro ⟨v, vs, h1, h2, h3⟩
      refine ⟨?_, v, h1⟩
      have hk := (mem_ks k f v h1).2 hf
      rw [hpsv k f v h1, hf]
      simp only [Bool.false_eq_true, if_false, Option.some.injEq]
      obtain ⟨f', g1, g2, g3⟩ := hargs k hk
      obtain ⟨rfl, rfl⟩ := ParamAt.unique hx h1 g2
      have : vs = ys.map fun y => lookupD (parameters y (some false)) k := by
        rw [List.forall₂_map_right_iff, List.forall₂_same] at g3
        have : ∀ (l : List (Dist C)) (ws : List Val), (∀ y ∈ l, y ∈ ys) →
            List.Forall₂ (fun y w => ParamAt y k f w) l ws →
            ws = l.map fun y => lookupD (parameters y (some false)) k := by
          intro l ws hl h
          induction h with
          | nil => rfl
          | @cons y w l ws hyw _ ih =>
            rw [List.map_cons, ← ih fun z hz => hl z (by simp [hz])]
            congr 1
            have hy := hl y (by simp)
            exact (ParamAt.unique (hys y hy).1 hyw (g3 y hy)).2
        exact this ys vs (fun _ h => h) h2
      rw [this, hr k hk] at h3
      cases h3
      rfl

/-- **C16.** Mapping the identity is the identity. -/
theorem C16_map_identity {x : Dist C} (hx : WF x) {infos : List (Info C)}
    (hi : infosOf x = .ok infos) {op : List Val → Except Err Val} (hop : ∀ v, op [v] = .ok v) :
    paramMap op x [] = .ok x := by
  obtain ⟨q, q1, q2, q3, q4⟩ := C16_map (ys := []) hx (by simp) hi (op := op)
    (fun k f v vs _ _ h => by cases h; exact ⟨v, hop v⟩)
  rw [q1]
  congr 1
  refine (SameTree.eq_of_params hx q2 q3 fun k f v h => ?_).symm
  rw [q4]
  split_ifs
  · exact h
  · exact ⟨v, [], h, .nil, hop v⟩

/-- **C16.** Mapping `op` and then `op'` is mapping their composition. -/
theorem C16_map_comp {x y : Dist C} (hx : WF x) {infos infos' : List (Info C)}
    (hi : infosOf x = .ok infos) (hi' : infosOf y = .ok infos')
    {op op' op'' : List Val → Except Err Val}
    (h1 : ∀ k f v, ParamAt x k f v → f.fixed = false → ∃ r, op [v] = .ok r ∧ ∃ s, op' [r] = .ok s ∧
      op'' [v] = .ok s)
    (hxy : paramMap op x [] = .ok y) : paramMap op' y [] = paramMap op'' x [] := by
  obtain ⟨q, q1, q2, q3, q4⟩ := C16_map (ys := []) hx (by simp) hi (op := op)
    (fun k f v vs hp hf h => by
      cases h
      obtain ⟨r, hr, _⟩ := h1 k f v hp hf
      exact ⟨r, hr⟩)
  rw [hxy] at q1
  cases q1
  obtain ⟨z, z1, z2, z3, z4⟩ := C16_map (ys := []) q2 (by simp) hi' (op := op')
    (fun k f v vs hp hf h => by
      cases h
      have hq := (q4 k f v).1 hp
      simp only [hf, Bool.false_eq_true, if_false] at hq
      obtain ⟨v0, vs, g1, g2, g3⟩ := hq
      cases g2
      obtain ⟨r, r1, s, s1, _⟩ := h1 k f v0 g1 hf
      rw [r1] at g3
      cases g3
      exact ⟨s, s1⟩)
  obtain ⟨w, w1, w2, w3, w4⟩ := C16_map (ys := []) hx (by simp) hi (op := op'')
    (fun k f v vs hp hf h => by
      cases h
      obtain ⟨r, _, s, _, hs⟩ := h1 k f v hp hf
      exact ⟨s, hs⟩)
  rw [z1, w1]
  congr 1
  refine (SameTree.eq_of_params w2 z2 (w3.symm.trans (q3.trans z3))
    fun k f v h => ?_).symm
  rw [w4] at h
  rw [z4]
  cases hf : f.fixed with
  | true =>
    simp only [hf, if_true] at h ⊢
    rw [q4]
    simpa [hf] using h
  | false =>
    simp only [hf, Bool.false_eq_true, if_false] at h ⊢
    obtain ⟨v0, vs, g1, g2, g3⟩ := h
    cases g2
    obtain ⟨r, r1, s, s1, s2⟩ := h1 k f v0 g1 hf
    rw [s2] at g3
    cases g3
    refine ⟨r, [], ?_, .nil, s1⟩
    rw [q4]
    simp only [hf, Bool.false_eq_true, if_false]
    exact ⟨v0, [], g1, .nil, r1⟩

/-- **C16.** A different number of variable parameters raises `ValueError` (for an operation that does
not itself raise). -/
theorem C16_mismatch {x : Dist C} {ys : List (Dist C)} {op : List Val → Except Err Val}
    (hop : ∀ l, ∃ r, op l = .ok r)
    (hne : ∃ y ∈ ys, (parameters y (some false)).length ≠ (parameters x (some false)).length) :
    paramMap op x ys = .error .valueError := by
  have := starmapStrict_error hop (xs := (parameters x (some false)).values)
    (yss := ys.map fun y => (parameters y (some false)).values) (by
      obtain ⟨y, hy, hne⟩ := hne
      exact ⟨_, List.mem_map.2 ⟨y, hy, rfl⟩, by simpa [Dict.values] using hne⟩)
  simp only [paramMap, this, bind, Except.bind]

/-- Non-vacuity of C16: adding the nested sample to itself, entry by entry of real arrays. -/
example [MachEps] : ∃ q, paramMap (fun l => match l with
    | [.real a, .real b] => .ok (.real (Arr.ofFn a.rshape fun i => a.get i + b.get i))
    | l => .ok (l.headD (.real (Arr.full [] 0)))) Samples.joint [Samples.joint] = .ok q := by
  obtain ⟨L, hL⟩ := Samples.joint_infos
  obtain ⟨q, hq, _⟩ := C16_map (ys := [Samples.joint]) Samples.joint_wf (by
    simp only [List.mem_singleton, forall_eq]
    refine ⟨Samples.joint_wf, ?_⟩
    simp [Samples.joint, Samples.gamma, Samples.weibull, Samples.normal2, SameTree, SameTrees]) hL
    (op := fun l => match l with
      | [.real a, .real b] => .ok (.real (Arr.ofFn a.rshape fun i => a.get i + b.get i))
      | l => .ok (l.headD (.real (Arr.full [] 0)))) (by
      intro k f v vs _ _ _
      split <;> exact ⟨_, rfl⟩)
  exact ⟨q, hq⟩

/-! ## C17 -/

/-- **C17.** `parameter_mean(x, axis=axis)`, when defined, has the structure of `x`, and each parameter
(fixed or variable) is the mean over the axes (all axes, some axes, numbered from the first or from the
last) of the corresponding parameter. -/
theorem C17_mean {x q : Dist C} (hx : WF x) {axis : Option (List ℤ)} (h : paramMean x axis = .ok q) :
    WF q ∧ SameTree x q ∧
      (∀ p f v', ParamAt q p f v' → ∃ v, ParamAt x p f v ∧ IsMean axis v v') ∧
      ∀ p f v, ParamAt x p f v → ∃ v', ParamAt q p f v' ∧ IsMean axis v v' := by
  unfold paramMean at h
  cases h2 : infosOf x with
  | error e => rw [h2] at h; cases h
  | ok L =>
    rw [h2] at h
    change ((parameters x none).mapM (fun kv => do
        (.ok (kv.1, ← kv.2.mean axis) : Except Err (Path × Val))) >>= assemble L) = .ok q at h
    cases h1 : (parameters x none).mapM (fun kv => do
        (.ok (kv.1, ← kv.2.mean axis) : Except Err (Path × Val))) with
    | error e => rw [h1] at h; cases h
    | ok ps =>
      rw [h1] at h
      have h : assemble L ps = .ok q := h
      have hg := mapParams_eq_ok (g := Val.mean axis) hx h1
      obtain ⟨ps', q', e1, e2, e3, e4, e5⟩ := mapParams_ok hx (infosOf_skel h2) hg
      rw [e1] at h1
      cases h1
      rw [e2] at h
      cases h
      refine ⟨e3, e4, fun p f v' hp => ?_, fun p f v hp => ?_⟩
      · obtain ⟨v, a, b⟩ := (e5 p f v').1 hp
        exact ⟨v, a, Val.mean_eq_ok b⟩
      · obtain ⟨v', hv'⟩ := hg p f v hp
        exact ⟨v', (e5 p f v').2 ⟨v, hp, hv'⟩, Val.mean_eq_ok hv'⟩

/-- **C17.** It is defined when every parameter has the axes, with positive lengths. -/
theorem C17_mean_defined {x : Dist C} (hx : WF x) {infos : List (Info C)}
    (hi : infosOf x = .ok infos) {axis : Option (List ℤ)}
    (hk : ∀ p f v, ParamAt x p f v → ∃ ax, AxesOf v.rshape.length axis ax ∧
      ∀ a ∈ ax, ∀ n, v.rshape.reverse[a]? = some n → 0 < n) :
    ∃ q, paramMean x axis = .ok q := by
  obtain ⟨ps, q, e1, e2, _⟩ := mapParams_ok (g := Val.mean axis) hx (infosOf_skel hi)
    (fun p f v h => by
      obtain ⟨ax, h1, h2⟩ := hk p f v h
      exact Val.mean_ok h1 h2)
  refine ⟨q, ?_⟩
  unfold paramMean
  rw [hi]
  change ((parameters x none).mapM (fun kv => do
        (.ok (kv.1, ← kv.2.mean axis) : Except Err (Path × Val))) >>= assemble infos) = .ok q
  rw [e1]
  exact e2

/-- `v'` consists of `n` copies of the floating-point array `v` along a new first axis. -/
def Spec.IsCopies (n : ℕ) (v v' : Val) : Prop :=
  match v, v' with
  | .real a, .real a' => a'.rshape = a.rshape ++ [n] ∧
      ∀ i m, inB a.rshape i = true → m < n → a'.get (i ++ [m]) = a.get i
  | .complex a, .complex a' => a'.rshape = a.rshape ++ [n] ∧
      ∀ i m, inB a.rshape i = true → m < n → a'.get (i ++ [m]) = a.get i
  | _, _ => False

/-- **C17.** The mean of n identical copies of a distribution is the distribution. -/
theorem C17_mean_of_copies {p x q : Dist C} (hp : WF p) (hx : WF x) (hs : SameTree p x) {n : ℕ}
    (hc : ∀ k f v v', ParamAt p k f v → ParamAt x k f v' → Spec.IsCopies n v v')
    (h : paramMean x (some [0]) = .ok q) : q = p := by
  obtain ⟨h1, h2, h3, h4⟩ := C17_mean hx h
  refine (SameTree.eq_of_params hp h1 (hs.trans h2) fun k f v hv => ?_).symm
  obtain ⟨v', hv'⟩ := hv.same hs hx
  obtain ⟨w, hw, hm⟩ := h4 k f v' hv'
  have hcp := hc k f v v' hv hv'
  have key : ∀ {α : Type} [Inhabited α] [_root_.Field α] [CharZero α] (a a' a'' : Arr α),
      (a'.rshape = a.rshape ++ [n] ∧
        ∀ i m, inB a.rshape i = true → m < n → a'.get (i ++ [m]) = a.get i) →
      (∃ ax, AxesOf a'.rshape.length (some [0]) ax ∧
        MeanOver ax a'.rshape a''.rshape a'.get a''.get) → a = a'' := by
    rintro α _ _ _ a a' a'' ⟨c1, c2⟩ ⟨ax, ⟨b1, _⟩, b2⟩
    have hax : ax = List.range [n].length := by
      rcases b1 with _ | @⟨_, a0, _, _, ⟨h1, h2⟩, b1⟩
      cases b1
      rw [c1, List.length_append] at h2
      have := h1
      rw [c1, List.length_append, List.length_singleton] at this
      simp only [List.length_singleton, Nat.cast_add, Nat.cast_one] at h2 this
      obtain rfl : a0 = 0 := by omega
      rfl
    rw [hax, c1] at b2
    obtain ⟨e1, e2⟩ := b2.first
    refine Arr.ext e1.symm fun i hi => ?_
    obtain ⟨e3, e4⟩ := e2 i hi
    have e5 : ∀ j ∈ box [n], a'.get (i ++ j) = a.get i := fun j hj => by
      have hj := mem_box.1 hj
      obtain ⟨m, rfl⟩ := List.length_eq_one_iff.1 (inB_length hj)
      exact c2 i m hi ((inB_cons _ _ _ _).1 hj).1
    rw [e4, Finset.sum_congr rfl e5, Finset.sum_const, nsmul_eq_mul]
    have : ((box [n]).card : α) ≠ 0 := by exact_mod_cast e3.card_pos.ne'
    field_simp
  have : v = w := by
    cases v with
    | real a =>
      cases v' with
      | real a' =>
        cases w with
        | real a'' => exact congrArg Val.real (key a a' a'' hcp hm)
        | _ => exact hm.choose_spec.2.elim
      | _ => exact hcp.elim
    | complex a =>
      cases v' with
      | complex a' =>
        cases w with
        | complex a'' => exact congrArg Val.complex (key a a' a'' hcp hm)
        | _ => exact hm.choose_spec.2.elim
      | _ => exact hcp.elim
    | _ => exact hcp.elim
  rw [this]
  exact hw

/-- Non-vacuity of C17: the nested sample (batch shape (3,)) can be averaged over its batch axis. -/
example [MachEps] : ∃ q, paramMean Samples.joint (some [0]) = .ok q := by
  obtain ⟨L, hL⟩ := Samples.joint_infos
  refine C17_mean_defined Samples.joint_wf hL fun k f v h => ?_
  rcases Samples.joint_shapes h with h | h | h
  all_goals
    rw [h]
    exact ⟨[0], ⟨.cons ⟨by simp, .inl rfl⟩ .nil, by simp⟩, by simp⟩

/-- Non-vacuity: the last axis of the shape, and all axes. -/
example : AxesOf 3 (some [-1, 0]) [2, 0] ∧ AxesOf 3 none [0, 1, 2] ∧ ¬ ∃ ax, AxesOf 1 (some [0, -1]) ax := by
  refine ⟨⟨.cons ⟨by simp, .inr rfl⟩ (.cons ⟨by simp, .inl rfl⟩ .nil), by simp⟩, rfl, ?_⟩
  rintro ⟨ax, h1, h2⟩
  rcases h1 with _ | ⟨⟨h1, _⟩, _ | ⟨⟨h3, _⟩, h4⟩⟩
  cases h4
  simp at h2
  omega

/-- Non-vacuity of `C17_mean_of_copies`: three copies of an exponential distribution. -/
example [MachEps] : let p : Dist Cls := .mk .exponentialNP [Samples.c [] (-1)] .nil
    let x : Dist Cls := .mk .exponentialNP [Samples.c [3] (-1)] .nil
    SameTree p x ∧ ∀ k f v v', ParamAt p k f v → ParamAt x k f v' → Spec.IsCopies 3 v v' := by
  have one : ∀ {u v : Val} {k f}, ParamAt (.mk Cls.exponentialNP [u] .nil) k f v → v = u := by
    intro u v k f h
    cases h with
    | @here _ _ _ i _ _ hf hv =>
      have hi : i = 0 := by cases i <;> simp_all
      subst hi
      simpa using hv.symm
    | sub hm => simp [Subs.toList] at hm
  refine ⟨⟨rfl, trivial⟩, fun k f v v' h h' => ?_⟩
  rw [one h, one h']
  refine ⟨rfl, fun i m hi hm => ?_⟩
  rw [Samples.full_get (rs := []) hi, Samples.full_get]
  have : i = [] := List.length_eq_zero_iff.1 (inB_length hi)
  subst this
  simp [inB, hm]

/-! ## C20 -/

/-- **C20.** `Structure.create(p).reinterpret(q)`, for `q` with as many parameters in every
sub-distribution, is the distribution with the structure of `p` and the values of `q`. -/
theorem C20_reinterpret {p q : Dist C} (hp : WF p) (hq : WF q) (h : Parallel p q)
    {infos : List (Info C)} (hi : infosOf p = .ok infos) :
    ∃ r, reinterpret infos q = .ok r ∧ WF r ∧ SameTree p r ∧ SameVals r q := by
  obtain ⟨h1, h2, h3⟩ := Dist.withVals_spec hp hq h
  exact ⟨_, reinterpret_ok hp hq (infosOf_skel hi) h, h1, h2, h3⟩

mutual
theorem Spec.SameVals.eq : {a b : Dist C} → SameTree a b → SameVals a b → a = b
  | .mk _ _ _, .mk _ _ _, h, h' => by
    obtain ⟨rfl, h⟩ := h
    obtain ⟨rfl, h'⟩ := h'
    rw [Spec.SameValss.eq h h']
theorem Spec.SameValss.eq : {a b : Subs C} → SameTrees a b → SameValss a b → a = b
  | .nil, .nil, _, _ => rfl
  | .cons _ _ _, .cons _ _ _, h, h' => by
    obtain ⟨rfl, h1, h2⟩ := h
    obtain ⟨_, h3, h4⟩ := h'
    rw [Spec.SameVals.eq h1 h3, Spec.SameValss.eq h2 h4]
end

mutual
theorem Spec.Parallel.symm : {a b : Dist C} → Parallel a b → Parallel b a
  | .mk _ _ _, .mk _ _ _, h => ⟨h.1.symm, Spec.Parallels.symm h.2⟩
theorem Spec.Parallels.symm : {a b : Subs C} → Parallels a b → Parallels b a
  | .nil, .nil, _ => trivial
  | .cons _ _ _, .cons _ _ _, h => ⟨h.1.symm, Spec.Parallel.symm h.2.1, Spec.Parallels.symm h.2.2⟩
end

mutual
theorem Spec.Parallel.congr : {a b c : Dist C} → Parallel a b → SameTree b c → Parallel a c
  | .mk _ _ _, .mk _ _ _, .mk _ _ _, h, h' => by
    obtain ⟨rfl, h'⟩ := h'
    exact ⟨h.1, Spec.Parallels.congr h.2 h'⟩
theorem Spec.Parallels.congr : {a b c : Subs C} → Parallels a b → SameTrees b c → Parallels a c
  | .nil, .nil, .nil, _, _ => trivial
  | .cons _ _ _, .cons _ _ _, .cons _ _ _, h, h' =>
    ⟨h.1.trans h'.1, Spec.Parallel.congr h.2.1 h'.2.1, Spec.Parallels.congr h.2.2 h'.2.2⟩
end

mutual
theorem Spec.SameVals.symm : {a b : Dist C} → SameVals a b → SameVals b a
  | .mk _ _ _, .mk _ _ _, h => ⟨h.1.symm, Spec.SameValss.symm h.2⟩
theorem Spec.SameValss.symm : {a b : Subs C} → SameValss a b → SameValss b a
  | .nil, .nil, _ => trivial
  | .cons _ _ _, .cons _ _ _, h => ⟨h.1.symm, Spec.SameVals.symm h.2.1, Spec.SameValss.symm h.2.2⟩
end

mutual
theorem Spec.SameVals.trans : {a b c : Dist C} → SameVals a b → SameVals b c → SameVals a c
  | .mk _ _ _, .mk _ _ _, .mk _ _ _, h, h' => ⟨h.1.trans h'.1, Spec.SameValss.trans h.2 h'.2⟩
theorem Spec.SameValss.trans : {a b c : Subs C} → SameValss a b → SameValss b c → SameValss a c
  | .nil, .nil, .nil, _, _ => trivial
  | .cons _ _ _, .cons _ _ _, .cons _ _ _, h, h' =>
    ⟨h.1.trans h'.1, Spec.SameVals.trans h.2.1 h'.2.1, Spec.SameValss.trans h.2.2 h'.2.2⟩
end

/-- **C20.** Reinterpreting back returns the original. -/
theorem C20_reinterpret_back {p q r : Dist C} (hp : WF p) (hq : WF q) (h : Parallel p q)
    {infos infos' : List (Info C)} (hi : infosOf p = .ok infos) (hi' : infosOf q = .ok infos')
    (hr : reinterpret infos q = .ok r) : reinterpret infos' r = .ok q := by
  obtain ⟨r', h1, h2, h3, h4⟩ := C20_reinterpret hp hq h hi
  rw [hr] at h1
  cases h1
  obtain ⟨s, k1, k2, k3, k4⟩ := C20_reinterpret hq h2 (h.symm.congr h3) hi'
  rw [k1, Spec.SameVals.eq k3.symm (k4.trans h4)]

/-- **C20.** A different total number of parameters raises `ValueError`. -/
theorem C20_wrong_count {p q : Dist C} (hp : WF p) {infos : List (Info C)}
    (hi : infosOf p = .ok infos)
    (hne : (parameters p none).length ≠ (parameters q none).length) :
    reinterpret infos q = .error .valueError := by
  have hz : zipStrict (parameters p none).keys (parameters q none).values =
      .error .valueError := zipStrict_error (by simpa [Dict.keys, Dict.values] using hne)
  simp only [reinterpret, infos_paths hp (infosOf_skel hi), hz, bind, Except.bind]

/-- Non-vacuity of C20: a joint expectation distribution has the same tree shape as the sample. -/
example [MachEps] : ∃ q : Dist Cls, WF q ∧ Parallel Samples.joint q ∧ ¬ SameTree Samples.joint q := by
  refine ⟨.mk .jointE [] (.cons "g" (.mk .gammaEP [Samples.c [3] 1, Samples.c [3] 0] .nil) (.cons "j"
    (.mk .jointE [] (.cons "w" (.mk .weibullEP [Samples.c [3] 2, Samples.c [3] 1] .nil) (.cons "n"
      (.mk .mvNormalEP [Samples.c [2, 3] 5, Samples.c [2, 2, 3] 1] .nil) .nil))) .nil)), ?_, ?_, ?_⟩
  · simp [WF, WFs, ClassTable.fields, ClassTable.isJoint, Cls.fields, Cls.isJoint, Subs.names]
  · simp [Samples.joint, Samples.gamma, Samples.weibull, Samples.normal2, Parallel, Parallels,
      ClassTable.fields, Cls.fields]
  · simp [Samples.joint, SameTree]

/-! ## C21 -/

/-- **C21.** `Structure.create(p).domain_support()` lists exactly the sub-distributions (of any depth,
including `p`) whose class has a domain support, each under its path with that support, no path
twice. -/
theorem C21_domain_support {p : Dist C} (hw : WF p) {infos : List (Info C)}
    (hi : infosOf p = .ok infos) :
    ((domainSupports infos).map Prod.fst).Nodup ∧ ∀ k s, (k, s) ∈ domainSupports infos ↔
      ∃ q, SubAt p k q ∧ domainSupport q.cls = some s := by
  have hsk := infosOf_skel hi
  set l : List (Path × Support) := infos.filterMap fun i =>
    (domainSupport i.cls).map fun s => (i.path, s) with hl
  have hnd : (l.map Prod.fst).Nodup := by
    have h1 := Dist.skel_nodup (base := []) hw
    rw [← hsk, List.map_map] at h1
    refine h1.sublist ?_
    rw [hl]
    clear * -
    induction infos with
    | nil => simp
    | cons i is ih =>
      simp only [List.filterMap_cons, List.map_cons]
      cases domainSupport i.cls with
      | none => exact ih.cons _
      | some s => exact ih.cons_cons _
  have he : domainSupports infos = l := Dict.ofList_eq hnd
  rw [he]
  refine ⟨hnd, fun k s => ?_⟩
  rw [hl, List.mem_filterMap]
  constructor
  · rintro ⟨i, h1, h2⟩
    have h3 : i.strip ∈ p.skel [] := by rw [← hsk]; exact List.mem_map.2 ⟨i, h1, rfl⟩
    obtain ⟨k', q, h4, h5⟩ := Dist.mem_skel.1 h3
    simp only [Info.strip, List.nil_append, Prod.mk.injEq] at h5
    cases hs : domainSupport i.cls with
    | none => simp [hs] at h2
    | some s' =>
      simp only [hs, Option.map_some, Option.some.injEq, Prod.mk.injEq] at h2
      obtain ⟨rfl, rfl⟩ := h2
      refine ⟨q, ?_, ?_⟩
      · rw [h5.1]; exact h4
      · rw [← h5.2.1]; exact hs
  · rintro ⟨q, h1, h2⟩
    have h3 : (k, q.cls, q.subs.names) ∈ p.skel [] := Dist.mem_skel.2 ⟨k, q, h1, rfl⟩
    rw [← hsk] at h3
    obtain ⟨i, hi1, hi2⟩ := List.mem_map.1 h3
    simp only [Info.strip, Prod.mk.injEq] at hi2
    refine ⟨i, hi1, ?_⟩
    rw [hi2.2.1, h2, hi2.1]
    rfl

/-- **C21.** In efax exactly the simple classes have a domain support. -/
theorem C21_simple_classes [MachEps] (c : Cls) :
    (ClassTable.domainSupport c).isSome = true ↔ ClassTable.isJoint c = false := by
  cases c <;> simp [ClassTable.domainSupport, Cls.domainSupport, ClassTable.isJoint, Cls.isJoint]

/-- Non-vacuity of C21: the sample has a simple sub-distribution two levels down. -/
example [MachEps] : ∃ q, SubAt Samples.joint ["j", "w"] q ∧
    ClassTable.domainSupport q.cls = some (.scalar Ring.realField) :=
  ⟨Samples.weibull, .sub (d := .mk .jointN [] (.cons "w" Samples.weibull
    (.cons "n" Samples.normal2 .nil))) (by simp [Subs.toList])
    (.sub (d := Samples.weibull) (by simp [Subs.toList]) (.here _)), rfl⟩

end Efax
