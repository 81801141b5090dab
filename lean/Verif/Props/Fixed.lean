import Verif.Spec.Fixed
import Verif.Props.Objects
import Verif.Props.Statistics
import Verif.Props.Flatten

/-!
# C27: fixed parameters are preserved
-/

namespace Efax

open ClassTable Spec

section

variable {C : Type} [ClassTable C] {R : Val → Val → Prop}

theorem sameFixed_iff {p q : Dist C} : SameFixed p q ↔ FixedRel Eq p q := by
  constructor
  · exact fun h => ⟨fun k v hv => ⟨v, (h k v).1 hv, rfl⟩, fun k v hv => ⟨v, (h k v).2 hv, rfl⟩⟩
  · refine fun h k v => ⟨fun hv => ?_, fun hv => ?_⟩
    · obtain ⟨_, h1, rfl⟩ := h.1 k v hv; exact h1
    · obtain ⟨_, h1, rfl⟩ := h.2 k v hv; exact h1

theorem fixedAt_leaf {c : C} {vals : List Val} {k : Path} {v : Val} :
    FixedAt (.mk c vals .nil) k v ↔ ∃ (i : ℕ) (f : Field), (fields c)[i]? = some f ∧
      vals[i]? = some v ∧ f.fixed = true ∧ k = [f.name] := by
  constructor
  · rintro ⟨f, h, hf⟩
    cases h with
    | here h1 h2 => exact ⟨_, f, h1, h2, hf, rfl⟩
    | sub h1 _ => simp [Subs.toList] at h1
  · rintro ⟨i, f, h1, h2, hf, rfl⟩
    exact ⟨f, .here h1 h2, hf⟩

theorem fixedAt_joint {c : C} {vals : List Val} {subs : Subs C} (hc : fields c = []) {k : Path}
    {v : Val} : FixedAt (.mk c vals subs) k v ↔ ∃ n d k', (n, d) ∈ subs.toList ∧ FixedAt d k' v ∧
      k = n :: k' := by
  constructor
  · rintro ⟨f, h, hf⟩
    cases h with
    | here h1 h2 => rw [hc] at h1; simp at h1
    | sub h1 h2 => exact ⟨_, _, _, h1, ⟨f, h2, hf⟩, rfl⟩
  · rintro ⟨n, d, k', h1, ⟨f, h2, hf⟩, rfl⟩
    exact ⟨f, .sub h1 h2, hf⟩

theorem fixedRel_leaf {c c' : C} {vals vals' : List Val}
    (h1 : ∀ (i : ℕ) f v, (fields c)[i]? = some f → vals[i]? = some v → f.fixed = true →
      ∃ f' v', (fields c')[i]? = some f' ∧ vals'[i]? = some v' ∧ f'.fixed = true ∧
        f'.name = f.name ∧ R v v')
    (h2 : ∀ (i : ℕ) f' v', (fields c')[i]? = some f' → vals'[i]? = some v' → f'.fixed = true →
      ∃ f v, (fields c)[i]? = some f ∧ vals[i]? = some v ∧ f.fixed = true ∧
        f'.name = f.name ∧ R v v') :
    FixedRel R (.mk c vals .nil) (.mk c' vals' .nil) := by
  constructor
  · intro k v hv
    obtain ⟨i, f, a, b, hf, rfl⟩ := fixedAt_leaf.1 hv
    obtain ⟨f', v', a', b', hf', hn, hr⟩ := h1 i f v a b hf
    exact ⟨v', fixedAt_leaf.2 ⟨i, f', a', b', hf', by rw [hn]⟩, hr⟩
  · intro k v hv
    obtain ⟨i, f, a, b, hf, rfl⟩ := fixedAt_leaf.1 hv
    obtain ⟨f', v', a', b', hf', hn, hr⟩ := h2 i f v a b hf
    exact ⟨v', fixedAt_leaf.2 ⟨i, f', a', b', hf', by rw [hn]⟩, hr⟩

theorem fixedRel_none {c c' : C} {vals vals' : List Val}
    (h : ∀ f ∈ fields c, f.fixed = false) (h' : ∀ f ∈ fields c', f.fixed = false) :
    FixedRel R (.mk c vals .nil) (.mk c' vals' .nil) :=
  fixedRel_leaf
    (fun i f v h1 _ h3 => by rw [h f (List.mem_of_getElem? h1)] at h3; cases h3)
    (fun i f v h1 _ h3 => by rw [h' f (List.mem_of_getElem? h1)] at h3; cases h3)

theorem forall₂_left {A B : Type} {S : A → B → Prop} {l : List A} {l' : List B}
    (h : List.Forall₂ S l l') {a : A} (ha : a ∈ l) : ∃ b ∈ l', S a b := by
  induction h with
  | nil => cases ha
  | cons x _ ih =>
    cases ha with
    | head => exact ⟨_, .head _, x⟩
    | tail _ ha => obtain ⟨b, hb, h⟩ := ih ha; exact ⟨b, .tail _ hb, h⟩

theorem forall₂_right {A B : Type} {S : A → B → Prop} {l : List A} {l' : List B}
    (h : List.Forall₂ S l l') {b : B} (hb : b ∈ l') : ∃ a ∈ l, S a b := by
  induction h with
  | nil => cases hb
  | cons x _ ih =>
    cases hb with
    | head => exact ⟨_, .head _, x⟩
    | tail _ hb => obtain ⟨b, hb, h⟩ := ih hb; exact ⟨b, .tail _ hb, h⟩

theorem fixedRel_joint {c c' : C} {vals vals' : List Val} {s s' : Subs C} (hc : fields c = [])
    (hc' : fields c' = [])
    (h : List.Forall₂ (fun a b => a.1 = b.1 ∧ FixedRel R a.2 b.2) s.toList s'.toList) :
    FixedRel R (.mk c vals s) (.mk c' vals' s') := by
  have h1 := fun a => forall₂_left h (a := a)
  have h2 := fun b => forall₂_right h (b := b)
  constructor
  · intro k v hv
    obtain ⟨n, d, k', a, b, rfl⟩ := (fixedAt_joint hc).1 hv
    obtain ⟨⟨n', d'⟩, hb, hn, hr⟩ := h1 _ a
    obtain ⟨v', hv', hr'⟩ := hr.1 _ _ b
    exact ⟨v', (fixedAt_joint hc').2 ⟨n', d', k', hb, hv', by simp only at hn; rw [hn]⟩, hr'⟩
  · intro k v hv
    obtain ⟨n, d, k', a, b, rfl⟩ := (fixedAt_joint hc').1 hv
    obtain ⟨⟨n', d'⟩, hb, hn, hr⟩ := h2 _ a
    obtain ⟨v', hv', hr'⟩ := hr.2 _ _ b
    exact ⟨v', (fixedAt_joint hc).2 ⟨n', d', k', hb, hv', by simp only at hn; rw [hn]⟩, hr'⟩

end

variable [MachEps]

/-- The classes without fixed parameters. -/
theorem Cls.no_fixed {c : Cls} (h : c ≠ .negativeBinomialNP ∧ c ≠ .negativeBinomialEP ∧ c ≠ .weibullNP ∧
    c ≠ .weibullEP ∧ c ≠ .fixedVarianceNormalNP ∧ c ≠ .fixedVarianceNormalEP) :
    ∀ f ∈ fields c, f.fixed = false := by
  intro f hf
  have hf : f ∈ Cls.fields c := hf
  cases c <;> simp_all [Cls.fields] <;> (try rcases hf with rfl | rfl | rfl) <;>
    (try rcases hf with rfl | rfl) <;> (try subst hf) <;> rfl

variable {search : Cls → List Val → Except Err (List Val)}

theorem vals_pair {a b : Except Err Val} {l : List Val} (h : vals [a, b] = .ok l) :
    ∃ x y, a = .ok x ∧ b = .ok y ∧ l = [x, y] := by
  cases a with
  | error e => cases h
  | ok x =>
    cases b with
    | error e => cases h
    | ok y => exact ⟨x, y, rfl, rfl, (Except.ok.inj h).symm⟩

theorem fixedRel_second {c c' : Cls} {n m n' : String} {s s' t t' : Support} {x x' v v' : Val}
    {R : Val → Val → Prop}
    (hc : fields c = [⟨n, s, false⟩, ⟨m, s', true⟩]) (hc' : fields c' = [⟨n', t, false⟩, ⟨m, t', true⟩])
    (h : R v v') : FixedRel R (.mk c [x, v] .nil) (.mk c' [x', v'] .nil) := by
  refine fixedRel_leaf (fun i f w h1 h2 h3 => ?_) (fun i f w h1 h2 h3 => ?_)
  · rw [hc] at h1
    match i with
    | 0 => cases h1; cases h3
    | 1 =>
      cases h1
      cases h2
      exact ⟨⟨m, t', true⟩, v', by rw [hc']; rfl, rfl, rfl, rfl, h⟩
    | _ + 2 => cases h1
  · rw [hc'] at h1
    match i with
    | 0 => cases h1; cases h3
    | 1 =>
      cases h1
      cases h2
      exact ⟨⟨m, s', true⟩, v, by rw [hc]; rfl, rfl, rfl, rfl, h⟩
    | _ + 2 => cases h1

theorem fixedRel_first {c c' : Cls} {n m n' : String} {s s' t t' : Support} {x x' v v' : Val}
    {R : Val → Val → Prop}
    (hc : fields c = [⟨m, s, true⟩, ⟨n, s', false⟩]) (hc' : fields c' = [⟨m, t, true⟩, ⟨n', t', false⟩])
    (h : R v v') : FixedRel R (.mk c [v, x] .nil) (.mk c' [v', x'] .nil) := by
  refine fixedRel_leaf (fun i f w h1 h2 h3 => ?_) (fun i f w h1 h2 h3 => ?_)
  · rw [hc] at h1
    match i with
    | 1 => cases h1; cases h3
    | 0 =>
      cases h1
      cases h2
      exact ⟨⟨m, t, true⟩, v', by rw [hc']; rfl, rfl, rfl, rfl, h⟩
    | _ + 2 => cases h1
  · rw [hc'] at h1
    match i with
    | 1 => cases h1; cases h3
    | 0 =>
      cases h1
      cases h2
      exact ⟨⟨m, s, true⟩, v, by rw [hc]; rfl, rfl, rfl, rfl, h⟩
    | _ + 2 => cases h1

theorem toExp_fixed {c c' : Cls} (hc : expCls c = some c') {v w : List Val}
    (h : (library search).toExp c v = .ok w) : FixedRel Eq (.mk c v .nil) (.mk c' w .nil) := by
  have hc : Cls.expCls c = some c' := hc
  by_cases h1 : c = .negativeBinomialNP
  · subst h1
    cases hc
    match v with
    | [a, r] =>
      obtain ⟨x, y, _, hy, rfl⟩ := vals_pair h
      cases hy
      exact fixedRel_second rfl rfl rfl
    | [] | [_] | _ :: _ :: _ :: _ => cases h
  by_cases h2 : c = .weibullNP
  · subst h2
    cases hc
    match v with
    | [a, r] =>
      obtain ⟨x, y, hx, _, rfl⟩ := vals_pair h
      cases hx
      exact fixedRel_first rfl rfl rfl
    | [] | [_] | _ :: _ :: _ :: _ => cases h
  by_cases h3 : c = .fixedVarianceNormalNP
  · subst h3
    cases hc
    match v with
    | [a, r] =>
      obtain ⟨x, y, _, hy, rfl⟩ := vals_pair h
      cases hy
      exact fixedRel_second rfl rfl rfl
    | [] | [_] | _ :: _ :: _ :: _ => cases h
  refine fixedRel_none (Cls.no_fixed ?_) (Cls.no_fixed ?_) <;>
  · cases c <;> simp only [Cls.expCls, Option.some.injEq, reduceCtorEq] at hc <;> subst hc <;>
      simp_all

theorem toNat_fixed {c c' : Cls} (hc : natCls c = some c') {v w : List Val}
    (h : (library search).toNat c v = .ok w) : FixedRel Eq (.mk c v .nil) (.mk c' w .nil) := by
  have hc : Cls.natCls c = some c' := hc
  by_cases h1 : c = .negativeBinomialEP
  · subst h1
    cases hc
    match v with
    | [a, r] =>
      obtain ⟨x, y, _, hy, rfl⟩ := vals_pair h
      cases hy
      exact fixedRel_second rfl rfl rfl
    | [] | [_] | _ :: _ :: _ :: _ => cases h
  by_cases h2 : c = .weibullEP
  · subst h2
    cases hc
    match v with
    | [a, r] =>
      obtain ⟨x, y, hx, _, rfl⟩ := vals_pair h
      cases hx
      exact fixedRel_first rfl rfl rfl
    | [] | [_] | _ :: _ :: _ :: _ => cases h
  by_cases h3 : c = .fixedVarianceNormalEP
  · subst h3
    cases hc
    match v with
    | [a, r] =>
      obtain ⟨x, y, _, hy, rfl⟩ := vals_pair h
      cases hy
      exact fixedRel_second rfl rfl rfl
    | [] | [_] | _ :: _ :: _ :: _ => cases h
  refine fixedRel_none (Cls.no_fixed ?_) (Cls.no_fixed ?_) <;>
  · cases c <;> simp only [Cls.natCls, Option.some.injEq, reduceCtorEq] at hc <;> subst hc <;>
      simp_all

mutual
theorem Dist.toExp_fixed : (d : Dist Cls) → WF d → {e : Dist Cls} →
    d.toExp (library search).toExp = .ok e → FixedRel Eq d e
  | .mk c vals subs, hw, e, h => by
    rw [Dist.toExp] at h
    cases hc : expCls c with
    | none => rw [hc] at h; cases h
    | some c' =>
      simp only [hc] at h
      cases hj : isJoint c with
      | true =>
        cases hs : Subs.toExp (library search).toExp subs with
        | error e => simp [hj, hs, Bind.bind, Except.bind] at h
        | ok s =>
          simp only [hj, hs, Bind.bind, Except.bind, if_true, Except.ok.injEq] at h
          subst h
          refine fixedRel_joint (joint_fields c hj) (joint_fields c' ?_)
            (Subs.toExp_fixed subs hw.2.2.2 hs)
          exact (C19_fields hc).2.1.symm.trans hj
      | false =>
        cases hs : (library search).toExp c vals with
        | error e => simp [hj, hs, Bind.bind, Except.bind] at h
        | ok w =>
          simp only [hj, hs, Bind.bind, Except.bind, Except.ok.injEq, Bool.false_eq_true, if_false] at h
          subst h
          have : subs = .nil := by
            by_contra hn
            rw [hw.2.1.2 hn] at hj
            cases hj
          subst this
          exact Efax.toExp_fixed hc hs
theorem Subs.toExp_fixed : (d : Subs Cls) → WFs d → {e : Subs Cls} →
    d.toExp (library search).toExp = .ok e →
    List.Forall₂ (fun a b => a.1 = b.1 ∧ FixedRel Eq a.2 b.2) d.toList e.toList
  | .nil, _, e, h => by cases h; exact .nil
  | .cons n d r, hw, e, h => by
    rw [Subs.toExp] at h
    cases hd : Dist.toExp (library search).toExp d with
    | error e => simp [hd, Bind.bind, Except.bind] at h
    | ok d' =>
      cases hr : Subs.toExp (library search).toExp r with
      | error e => simp [hd, hr, Bind.bind, Except.bind] at h
      | ok r' =>
        simp only [hd, hr, Bind.bind, Except.bind, Except.ok.injEq] at h
        subst h
        exact .cons ⟨rfl, Dist.toExp_fixed d hw.1 hd⟩ (Subs.toExp_fixed r hw.2 hr)
end

mutual
theorem Dist.toNat_fixed : (d : Dist Cls) → WF d → {e : Dist Cls} →
    d.toNat (library search).toNat = .ok e → FixedRel Eq d e
  | .mk c vals subs, hw, e, h => by
    rw [Dist.toNat] at h
    cases hc : natCls c with
    | none => rw [hc] at h; cases h
    | some c' =>
      simp only [hc] at h
      cases hj : isJoint c with
      | true =>
        cases hs : Subs.toNat (library search).toNat subs with
        | error e => simp [hj, hs, Bind.bind, Except.bind] at h
        | ok s =>
          simp only [hj, hs, Bind.bind, Except.bind, if_true, Except.ok.injEq] at h
          subst h
          refine fixedRel_joint (joint_fields c hj) (joint_fields c' ?_)
            (Subs.toNat_fixed subs hw.2.2.2 hs)
          exact (C19_fields ((C19_classes c' c).2 hc)).2.1.trans hj
      | false =>
        cases hs : (library search).toNat c vals with
        | error e => simp [hj, hs, Bind.bind, Except.bind] at h
        | ok w =>
          simp only [hj, hs, Bind.bind, Except.bind, Except.ok.injEq, Bool.false_eq_true, if_false] at h
          subst h
          have : subs = .nil := by
            by_contra hn
            rw [hw.2.1.2 hn] at hj
            cases hj
          subst this
          exact Efax.toNat_fixed hc hs
theorem Subs.toNat_fixed : (d : Subs Cls) → WFs d → {e : Subs Cls} →
    d.toNat (library search).toNat = .ok e →
    List.Forall₂ (fun a b => a.1 = b.1 ∧ FixedRel Eq a.2 b.2) d.toList e.toList
  | .nil, _, e, h => by cases h; exact .nil
  | .cons n d r, hw, e, h => by
    rw [Subs.toNat] at h
    cases hd : Dist.toNat (library search).toNat d with
    | error e => simp [hd, Bind.bind, Except.bind] at h
    | ok d' =>
      cases hr : Subs.toNat (library search).toNat r with
      | error e => simp [hd, hr, Bind.bind, Except.bind] at h
      | ok r' =>
        simp only [hd, hr, Bind.bind, Except.bind, Except.ok.injEq] at h
        subst h
        exact .cons ⟨rfl, Dist.toNat_fixed d hw.1 hd⟩ (Subs.toNat_fixed r hw.2 hr)
end


/-- **C27.** `to_exp()` leaves the fixed parameters of a distribution, simple or joint, as they are. -/
theorem C27_to_exp {d e : Dist Cls} (hw : WF d) (h : d.toExp (library search).toExp = .ok e) :
    SameFixed d e :=
  sameFixed_iff.2 (d.toExp_fixed hw h)

/-- **C27.** `to_nat()` leaves the fixed parameters of a distribution, simple or joint, as they are. -/
theorem C27_to_nat {d e : Dist Cls} (hw : WF d) (h : d.toNat (library search).toNat = .ok e) :
    SameFixed d e :=
  sameFixed_iff.2 (d.toNat_fixed hw h)

theorem sameFixed_of_parameters {C : Type} [ClassTable C] {p q : Dist C} (hp : WF p) (hq : WF q)
    (h : parameters q (some true) = parameters p (some true)) : SameFixed p q := by
  intro k v
  have h1 := (C13_parameters hp (some true)).2 k v
  have h2 := (C13_parameters hq (some true)).2 k v
  rw [h] at h2
  simp only [Option.mem_some_iff, forall_eq'] at h1 h2
  exact h1.symm.trans h2

/-- **C27.** Whatever array a flattener unflattens, the fixed parameters are those of the
distribution that it was made from. -/
theorem C27_unflatten {p q : Dist Cls} {mapped : Bool} {fl : Flattener Cls} {y₀ y : Arr ℝ} (hw : WF p)
    (hfl : flatten p mapped = .ok (fl, y₀)) (hq : fl.unflatten y = .ok q) : SameFixed p q := by
  obtain ⟨h1, h2, h3⟩ := flatten_eq_ok hfl
  subst h3
  cases hs : y.rshape with
  | nil => simp [Flattener.unflatten, Arr.lastDim, hs, bind, Except.bind] at hq
  | cons n batch =>
    have h4 := unflatten_decode hw h1 h2 hs
    by_cases hn : n = flatSize p
    · rcases h4.1 hn with ⟨q', h5, h6, _, _, h7, _⟩ | ⟨_, h5⟩
      · rw [hq] at h5
        cases h5
        exact sameFixed_of_parameters hw h6 h7
      · rw [hq] at h5
        cases h5
    · rcases h4.2 hn with h5 | ⟨_, h5⟩ <;> rw [hq] at h5 <;> cases h5

/-- **C27.** `parameter_map` leaves the fixed parameters of its first distribution as they are. -/
theorem C27_parameter_map {x q : Dist Cls} {ys : List (Dist Cls)} (hw : WF x)
    {op : List Val → Except Err Val} (h : paramMap op x ys = .ok q) : SameFixed x q := by
  unfold paramMap at h
  cases h1 : starmapStrict op (parameters x (some false)).values
      (ys.map fun y => (parameters y (some false)).values) with
  | error e => simp [h1, Bind.bind, Except.bind] at h
  | ok vs =>
    cases h2 : zipStrict (parameters x (some false)).keys vs with
    | error e => simp [h1, h2, Bind.bind, Except.bind] at h
    | ok l =>
      cases h3 : infosOf x with
      | error e => simp [h1, h2, h3, Bind.bind, Except.bind] at h
      | ok infos =>
        simp only [h1, h2, h3, Bind.bind, Except.bind] at h
        have hv : ∀ k f v, ParamAt x k f v → ∃ v', (Dict.merge (parameters x (some true))
            (Dict.ofList l)).get? k = some v' := by
          intro k f v hk
          cases hg : (Dict.merge (parameters x (some true)) (Dict.ofList l)).get? k with
          | some v' => exact ⟨v', rfl⟩
          | none => rw [C14_missing_path hw h3 hk hg] at h; cases h
        obtain ⟨q', h4, h5, h6, h7⟩ := C14_assemble_values hw h3 hv
        rw [h] at h4
        cases h4
        have hz : l.map Prod.fst = (parameters x (some false)).keys := by
          by_cases hlen : (parameters x (some false)).keys.length = vs.length
          · rw [zipStrict_ok hlen] at h2
            rw [← Except.ok.inj h2, List.map_fst_zip hlen.le]
          · rw [zipStrict_error hlen] at h2
            cases h2
        have hnd : (l.map Prod.fst).Nodup := by
          rw [hz]; exact (C13_parameters hw (some false)).1
        have hkey : ∀ k f v, ParamAt x k f v → f.fixed = true →
            (Dict.merge (parameters x (some true)) (Dict.ofList l)).get? k = some v := by
          intro k f v hk hf
          have hm : (k, v) ∈ parameters x (some true) :=
            ((C13_parameters hw (some true)).2 k v).2 ⟨f, hk, by simpa using hf⟩
          have hnot : k ∉ l.map Prod.fst := by
            rw [hz]
            exact fun hk' => (C13_partition hw).2 k ⟨List.mem_map.2 ⟨_, hm, rfl⟩, hk'⟩
          rw [Dict.ofList_eq hnd, Dict.get?_merge hnd]
          rw [Dict.get?_eq_none (d := l) hnot, Option.none_or]
          exact Dict.get?_of_mem (C13_parameters hw (some true)).1 hm
        intro k v
        constructor
        · rintro ⟨f, hk, hf⟩
          exact ⟨f, (h7 k f v).2 ⟨hkey k f v hk hf, v, hk⟩, hf⟩
        · rintro ⟨f, hk, hf⟩
          obtain ⟨h8, w, h9⟩ := (h7 k f v).1 hk
          rw [hkey k f w h9 hf] at h8
          cases h8
          exact ⟨f, h9, hf⟩

theorem bcast_bidx {s t rs i : List ℕ} (h : bcast s t = .ok rs) (hi : inB rs i = true) :
    inB s (bidx s i) = true ∧ ∀ a : ℕ, s[a]? = some 1 ∨ s[a]? = none ∨ (bidx s i)[a]? = i[a]? := by
  induction s generalizing t rs i with
  | nil => exact ⟨rfl, fun a => .inr (.inl rfl)⟩
  | cons n s ih =>
    have main : ∀ {m : ℕ} {r k}, (n = m ∨ n = 1) → bcast s (t.drop 1) = .ok r → ∀ {i'},
        i = k :: i' → k < m → inB r i' = true → inB (n :: s) (bidx (n :: s) i) = true ∧
          ∀ a : ℕ, (n :: s)[a]? = some 1 ∨ (n :: s)[a]? = none ∨ (bidx (n :: s) i)[a]? = i[a]? := by
      rintro m r k hn hr i' rfl hk hi'
      obtain ⟨h1, h2⟩ := ih hr hi'
      refine ⟨?_, fun a => ?_⟩
      · rw [bidx, inB_cons]
        refine ⟨?_, h1⟩
        split_ifs with h1 <;> omega
      · cases a with
        | zero =>
          by_cases h1 : n = 1
          · exact .inl (by simp [h1])
          · exact .inr (.inr (by simp [bidx, h1]))
        | succ a => simpa [bidx] using h2 a
    have hsnil : ∀ s : List ℕ, bcast s [] = .ok s := fun s => by cases s <;> rfl
    cases t with
    | nil =>
      rw [hsnil] at h
      cases h
      cases i with
      | nil => cases hi
      | cons k i' =>
        have := (inB_cons ..).1 hi
        exact main (.inl rfl) (hsnil s) rfl this.1 this.2
    | cons m t =>
      rw [bcast] at h
      cases hr : bcast s t with
      | error e => rw [hr] at h; cases h
      | ok r =>
        simp only [hr, Bind.bind, Except.bind] at h
        split_ifs at h with h1 h2 h3
        all_goals
          cases h
          cases i with
          | nil => cases hi
          | cons k i' =>
            have := (inB_cons ..).1 hi
            exact main (by first | exact .inl rfl | exact .inl h1 | exact .inr h2) hr rfl this.1 this.2

theorem broadcastLike_ok {α β : Type} [Inhabited α] [Inhabited β] {a : Arr α} {y : Calc β} {c : Arr α}
    (h : Calc.broadcastLike (Calc.ok a) y = Calc.ok c) :
    ∃ b, y = Calc.ok b ∧ c.rshape = b.rshape ∧ ∀ i, inB c.rshape i = true →
      inB a.rshape (bidx a.rshape i) = true ∧ c.get i = a.get (bidx a.rshape i) ∧
      ∀ n : ℕ, a.rshape[n]? = some 1 ∨ a.rshape[n]? = none ∨ (bidx a.rshape i)[n]? = i[n]? := by
  cases y with
  | error e => cases h
  | ok b =>
    change (match bcast a.rshape b.rshape with
      | .error e => Calc.fail e
      | .ok rs => if rs = b.rshape then Calc.ok (Arr.ofFn rs fun i => a.get (bidx a.rshape i))
        else Calc.fail .valueError) = Calc.ok c at h
    refine ⟨b, rfl, ?_⟩
    cases hb : bcast a.rshape b.rshape with
    | error e => rw [hb] at h; cases h
    | ok rs =>
      simp only [hb] at h
      split_ifs at h with hrs
      · cases h
        refine ⟨hrs, fun i hi => ?_⟩
        have hi : inB rs i = true := hi
        obtain ⟨h1, h2⟩ := bcast_bidx hb hi
        exact ⟨h1, Arr.ofFn_get hi, h2⟩
      · cases h

theorem repeats_refl (v : Val) : Repeats v v :=
  fun i hi => ⟨i, hi, fun _ => .inr (.inr rfl), rfl⟩

theorem repeats_int {a c : Arr ℤ} {β : Type} [Inhabited β] {y : Calc β}
    (h : Calc.broadcastLike (Calc.ok a) y = Calc.ok c) : Repeats (.int a) (.int c) := by
  obtain ⟨b, rfl, hb, h⟩ := broadcastLike_ok h
  intro i hi
  have hi : inB c.rshape i = true := hi
  obtain ⟨h1, h2, h3⟩ := h i hi
  refine ⟨_, h1, h3, ?_⟩
  change (c.map fun z : ℤ => (z : ℂ)).get i = (a.map fun z : ℤ => (z : ℂ)).get _
  rw [Arr.map_get hi, Arr.map_get h1, h2]

theorem repeats_real {v : Val} {a c : Arr ℝ} (hv : v.toR = Calc.ok a) {β : Type} [Inhabited β] {y : Calc β}
    (h : Calc.broadcastLike (Calc.ok a) y = Calc.ok c) : Repeats v (.real c) := by
  obtain ⟨b, rfl, hb, h⟩ := broadcastLike_ok h
  have hr : v.rshape = a.rshape := by
    rw [← toC_rshape, toC_of_toR hv, toC_rshape]; rfl
  intro i hi
  have hi : inB c.rshape i = true := hi
  obtain ⟨h1, h2, h3⟩ := h i hi
  rw [hr]
  refine ⟨_, h1, h3, ?_⟩
  rw [toC_of_toR hv]
  change (c.map fun z : ℝ => (z : ℂ)).get i = (a.map fun z : ℝ => (z : ℂ)).get _
  rw [Arr.map_get hi, Arr.map_get h1, h2]

theorem nb_stat (x : Val) (r : Arr ℤ) :
    (library search).stat .negativeBinomialNP x [("failures", .int r)] =
      match Calc.broadcastLike (Calc.ok r) x.toR with
      | .error e => .error e
      | .ok b => .ok (.mk .negativeBinomialEP [x, .int b] .nil) := by
  change (do (.ok (.mk .negativeBinomialEP (← Methods.negativeBinomialNP.stat x _) .nil) : Except Err (Dist Cls))) = _
  simp only [Methods.negativeBinomialNP, Dict.get, Dict.get?, Bind.bind, Except.bind, if_true, Calc.run]
  cases Calc.broadcastLike (Calc.ok r) x.toR <;> rfl

theorem weibull_stat (x k : Val) :
    (library search).stat .weibullNP x [("concentration", k)] =
      match Calc.broadcastLike k.toR x.toR with
      | .error e => .error e
      | .ok b => match Calc.bin (fun a k : ℝ => a ^ k) x.toR k.toR with
        | .error e => .error e
        | .ok y => .ok (.mk .weibullEP [.real b, .real y] .nil) := by
  change (do (.ok (.mk .weibullEP (← Methods.weibullNP.stat x _) .nil) : Except Err (Dist Cls))) = _
  simp only [Methods.weibullNP, Dict.get, Dict.get?, Bind.bind, Except.bind, if_true]
  cases Calc.broadcastLike k.toR x.toR with
  | error e => rfl
  | ok b => cases Calc.bin (fun a k : ℝ => a ^ k) x.toR k.toR <;> rfl

theorem stat_fixed {c nc : Cls} (hc : c = nc ∨ expCls nc = some c) {v : List Val} {x : Val}
    {q : Dist Cls} (hv : v.length = (fields c).length)
    (h : (library search).stat nc x (fixedArgs c v) = .ok q) : FixedRel Repeats (.mk c v .nil) q := by
  have hc' : c = nc ∨ Cls.expCls nc = some c := hc
  by_cases h1 : nc = .negativeBinomialNP
  · subst h1
    have : ∃ a r, v = [a, r] := by
      rcases hc' with rfl | hc'
      · exact List.length_eq_two.1 hv
      · cases hc'; exact List.length_eq_two.1 hv
    obtain ⟨a, r, rfl⟩ := this
    have hargs : fixedArgs c [a, r] = [("failures", r)] := by
      rcases hc' with rfl | hc'
      · rfl
      · cases hc'; rfl
    rw [hargs] at h
    cases r with
    | int r =>
      rw [nb_stat] at h
      cases hb : Calc.broadcastLike (Calc.ok r) x.toR with
      | error e => rw [hb] at h; cases h
      | ok b =>
        rw [hb] at h
        cases h
        rcases hc' with rfl | hc'
        · exact fixedRel_second rfl rfl (repeats_int hb)
        · cases hc'
          exact fixedRel_second rfl rfl (repeats_int hb)
    | real _ | complex _ | bool _ => cases h
  by_cases h2 : nc = .weibullNP
  · subst h2
    have : ∃ a r, v = [a, r] := by
      rcases hc' with rfl | hc'
      · exact List.length_eq_two.1 hv
      · cases hc'; exact List.length_eq_two.1 hv
    obtain ⟨k, a, rfl⟩ := this
    have hargs : fixedArgs c [k, a] = [("concentration", k)] := by
      rcases hc' with rfl | hc'
      · rfl
      · cases hc'; rfl
    rw [hargs, weibull_stat] at h
    cases hk : k.toR with
    | error e => rw [hk] at h; cases h
    | ok r =>
      cases hb : Calc.broadcastLike k.toR x.toR with
      | error e => rw [hb] at h; cases h
      | ok b =>
        rw [hb] at h
        cases hy : Calc.bin (fun a k : ℝ => a ^ k) x.toR k.toR with
        | error e => rw [hy] at h; cases h
        | ok y =>
          rw [hy] at h
          cases h
          rw [hk] at hb
          rcases hc' with rfl | hc'
          · exact fixedRel_first rfl rfl (repeats_real hk hb)
          · cases hc'
            exact fixedRel_first rfl rfl (repeats_real hk hb)
  by_cases h3 : nc = .fixedVarianceNormalNP
  · subst h3
    have : ∃ a r, v = [a, r] := by
      rcases hc' with rfl | hc'
      · exact List.length_eq_two.1 hv
      · cases hc'; exact List.length_eq_two.1 hv
    obtain ⟨a, r, rfl⟩ := this
    have hargs : fixedArgs c [a, r] = [("variance", r)] := by
      rcases hc' with rfl | hc'
      · rfl
      · cases hc'; rfl
    rw [hargs] at h
    cases h
    rcases hc' with rfl | hc'
    · exact fixedRel_second rfl rfl (repeats_refl _)
    · cases hc'
      exact fixedRel_second rfl rfl (repeats_refl _)
  cases hm : (library search).nat nc with
  | none => simp [Library.stat, hm] at h
  | some m =>
    cases he : expCls nc with
    | none => simp [Library.stat, hm, he] at h
    | some c' =>
      cases hs : m.stat x (fixedArgs c v) with
      | error e => simp [Library.stat, hm, he, hs, Bind.bind, Except.bind] at h
      | ok w =>
        simp only [Library.stat, hm, he, hs, Bind.bind, Except.bind, Except.ok.injEq] at h
        subst h
        have he : Cls.expCls nc = some c' := he
        refine fixedRel_none (Cls.no_fixed ?_) (Cls.no_fixed ?_)
        · rcases hc' with rfl | hc'
          · cases c <;> simp_all [Cls.expCls]
          · cases nc <;> simp only [Cls.expCls, Option.some.injEq, reduceCtorEq] at hc' <;>
              subst hc' <;> simp_all
        · cases nc <;> simp only [Cls.expCls, Option.some.injEq, reduceCtorEq] at he <;>
            subst he <;> simp_all

mutual
theorem Dist.stat_fixed {e : Cls → Option Cls} (he : ∀ c ec nc, e c = some ec → natCls ec = some nc →
    c = nc ∨ expCls nc = some c) : (d : Dist Cls) → WF d → {x : Tree Val} → {q : Dist Cls} →
    StatTree e (library search).stat d x q → FixedRel Repeats d q
  | .mk c vals subs, hw, .leaf x, q, h => by
    obtain ⟨hj, ec, nc, h1, h2, h3, _⟩ := h
    have : subs = .nil := by
      by_contra hn
      rw [hw.2.1.2 hn] at hj
      cases hj
    subst this
    exact Efax.stat_fixed (he c ec nc h1 h2) hw.1 h3
  | .mk c vals subs, hw, .node f, q, h => by
    obtain ⟨hj, ec, s, h1, h2, h3, rfl⟩ := h
    obtain ⟨nc, h2⟩ := Option.isSome_iff_exists.1 h2
    refine fixedRel_joint (joint_fields c hj) (joint_fields ec ?_) (Subs.stat_fixed he subs hw.2.2.2 h3)
    have h4 : Cls.expCls nc = some ec := (C19_classes nc ec).2 h2
    rcases he c ec nc h1 h2 with rfl | h5
    · exact (C19_fields h4).2.1.symm.trans hj
    · have h5 : Cls.expCls nc = some c := h5
      rw [h4] at h5
      cases h5
      exact hj
theorem Subs.stat_fixed {e : Cls → Option Cls} (he : ∀ c ec nc, e c = some ec → natCls ec = some nc →
    c = nc ∨ expCls nc = some c) : (d : Subs Cls) → WFs d → {f : Forest Val} → {s : Subs Cls} →
    StatSubs e (library search).stat d f s →
    List.Forall₂ (fun a b => a.1 = b.1 ∧ FixedRel Repeats a.2 b.2) d.toList s.toList
  | .nil, _, f, s, h => by
    have h : s = .nil := h
    subst h
    exact .nil
  | .cons n d r, hw, f, s, h => by
    obtain ⟨t, q, s', _, h1, h2, rfl⟩ := h
    exact .cons ⟨rfl, Dist.stat_fixed he d hw.1 h1⟩ (Subs.stat_fixed he r hw.2 h2)
end

/-- **C27.** The sufficient statistics that an estimator computes have the fixed parameters of the
distribution that the estimator was made from, repeated for the observations. -/
theorem C27_sufficient_statistics {p : Dist Cls} (hw : WF p) {est : Estimator Cls}
    (h : createEstimator p = .ok est) {x : Tree Val} (hx : Tree.Distinct x) {q : Dist Cls}
    (hq : est.sufficientStatistics (library search).stat x = .ok q) : FixedRel Repeats p q :=
  Dist.stat_fixed (fun c ec nc h1 h2 => by cases h1; exact .inr ((C19_classes nc c).2 h2)) p hw
    ((C25_estimator hw h hx).1 hq)

/-- **C27.** The same for the estimator of a natural parametrization. -/
theorem C27_sufficient_statistics_from_natural {p : Dist Cls} (hw : WF p) {est : Estimator Cls}
    (h : createEstimatorFromNatural p = .ok est) {x : Tree Val} (hx : Tree.Distinct x) {q : Dist Cls}
    (hq : est.sufficientStatistics (library search).stat x = .ok q) : FixedRel Repeats p q :=
  Dist.stat_fixed (fun c ec nc h1 h2 => by
    rw [(C19_classes c ec).1 h1] at h2; cases h2; exact .inl rfl) p hw
    ((C25_estimator_from_natural hw h hx).1 hq)

/-- A joint distribution with fixed parameters: two failures; concentration three. -/
noncomputable def Samples.fixedJoint : Dist Cls :=
  .mk .jointN [] (.cons "n" (.mk .negativeBinomialNP [.real (Arr.full [2] (-1)), .int (Arr.full [2] 2)] .nil)
    (.cons "w" (.mk .weibullNP [.real (Arr.full [2] 3), .real (Arr.full [2] (-1))] .nil) .nil))

theorem Samples.fixedJoint_wf : WF Samples.fixedJoint :=
  ⟨rfl, ⟨fun _ => nofun, fun _ => rfl⟩, by simp [Subs.names], ⟨⟨rfl, ⟨nofun, fun h => absurd rfl h⟩, .nil, trivial⟩,
    ⟨rfl, ⟨nofun, fun h => absurd rfl h⟩, .nil, trivial⟩, trivial⟩⟩

theorem Samples.fixedJoint_at : FixedAt Samples.fixedJoint ["n", "failures"] (.int (Arr.full [2] 2)) :=
  ⟨⟨"failures", .scalar (.integral (some 1) none), true⟩, .sub (n := "n") (.head _)
    (.here (f := ⟨"failures", .scalar (.integral (some 1) none), true⟩) (i := 1) rfl rfl), rfl⟩

/-- Non-vacuity of C27: the conversions succeed. -/
example : ∃ e n, Samples.fixedJoint.toExp (library search).toExp = .ok e ∧
    e.toNat (library search).toNat = .ok n ∧
    FixedAt n ["n", "failures"] (.int (Arr.full [2] 2)) := by
  have h1 : ∃ e, Samples.fixedJoint.toExp (library search).toExp = .ok e ∧
    WF e ∧ ∃ n, e.toNat (library search).toNat = .ok n := by
    refine ⟨_, rfl, ⟨rfl, ⟨fun _ => nofun, fun _ => rfl⟩, ?_, ⟨⟨rfl, ⟨nofun, fun h => absurd rfl h⟩, .nil, trivial⟩,
      ⟨rfl, ⟨nofun, fun h => absurd rfl h⟩, .nil, trivial⟩, trivial⟩⟩, _, rfl⟩
    simp [Subs.names]
  obtain ⟨e, h1, h2, n, h3⟩ := h1
  exact ⟨e, n, h1, h3, (C27_to_nat h2 h3 _ _).1 ((C27_to_exp Samples.fixedJoint_wf h1 _ _).1
    Samples.fixedJoint_at)⟩

/-- Non-vacuity of C27: flattening, mapping and the estimator succeed. -/
example : (∃ fl y, flatten Samples.fixedJoint false = .ok (fl, y) ∧ ∃ q, fl.unflatten y = .ok q) ∧
    (∃ q, paramMap (fun l => .ok (l.headD (.real (Arr.full [] 0)))) Samples.fixedJoint [] = .ok q) ∧
    ∃ est q, createEstimatorFromNatural Samples.fixedJoint = .ok est ∧
      est.sufficientStatistics (library search).stat
        (.node (.cons "n" (.leaf (.real (Arr.full [2, 5] 1)))
          (.cons "w" (.leaf (.real (Arr.full [2, 5] 1))) .nil))) = .ok q := by
  have hi : ∃ infos, infosOf Samples.fixedJoint = .ok infos := ⟨_, rfl⟩
  obtain ⟨infos, hi⟩ := hi
  refine ⟨?_, ⟨_, C16_map_identity Samples.fixedJoint_wf hi fun v => rfl⟩, _, _, rfl, rfl⟩
  obtain ⟨fl, y, h1, h2⟩ := C02_flatten_unflatten_raw (batch := [2]) Samples.fixedJoint_wf
    (by
      refine ⟨⟨1, rfl, ?_⟩, ⟨⟨1, rfl, ?_⟩, trivial⟩, ⟨⟨1, rfl, ?_⟩, trivial⟩, trivial⟩
      · intro fv hfv
        simp [varPairs, fields, Cls.fields] at hfv
      all_goals
        intro fv hfv
        simp only [varPairs, ClassTable.fields, Cls.fields] at hfv
        simp at hfv
        subst hfv
        exact ⟨rfl, fun h => absurd h (by simp)⟩)
  exact ⟨fl, y, h1, _, h2⟩

end Efax
