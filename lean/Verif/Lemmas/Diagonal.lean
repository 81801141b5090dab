import Verif.Lemmas.FlatKind
import Verif.Lemmas.Flat3
import Verif.Props.Flatten

/-! # Flat vectors with and without the plane map -/

namespace Efax

open Spec ClassTable

/-- The plane map of the ring does not move nonzero numbers. -/
def PlainRing : Ring → Prop
  | .real none none _ => True
  | .complex mn none => mn = Arr.full [] 0
  | _ => False

/-- The plane map of the support does not move nonzero numbers. -/
def PlainSupport : Support → Prop
  | .scalar r | .vector r | .symmetric r _ _ _ => PlainRing r
  | _ => False

theorem boundAt_zero (i : List ℕ) : Ring.boundAt (Arr.full [] 0) i = 0 := by
  have h : i.drop (i.length - (Arr.full [] (0 : ℝ)).rshape.length) = [] := by
    rw [List.drop_eq_nil_iff]
    exact Nat.le_of_eq (Nat.sub_zero _).symm
  rw [Ring.boundAt, h]
  rfl

theorem PlainRing.unflattened {r : Ring} (hr : PlainRing r) {y : Arr ℝ}
    (hy : ∀ i, inB y.rshape i = true → y.get i ≠ 0) : r.unflattened true y = r.unflattened false y := by
  match r, hr with
  | .real none none g, _ =>
    have : y.map (Ring.realUnflat none none) = y := Arr.ext rfl fun i hi => by
      have hi : inB y.rshape i = true := hi
      rw [Arr.map_get hi]; rfl
    simp only [Ring.unflattened, if_true, this]
    rfl
  | .complex mn none, h =>
    obtain rfl : mn = Arr.full [] 0 := h
    simp only [Ring.unflattened]
    cases hc : Ring.splitReIm y with
    | error e => rfl
    | ok c =>
      have hb : Ring.boundsOk (Arr.full [] 0) none c.rshape = true := by
        simp [Ring.boundsOk, Ring.boundOk, Arr.full, Arr.ofFn]
      have hm : (c.mapE fun i v => Ring.complexUnflat (Ring.boundAt (Arr.full [] 0) i)
          ((none : Option (Arr ℝ)).map (Ring.boundAt · i)) v) = .ok c := by
        have h0 : ∀ i, inB c.rshape i = true → c.get i ≠ 0 := by
          intro i hi h0
          rw [Ring.splitReIm] at hc
          split at hc
          · cases hc
          · next m rs hm =>
            split at hc
            · cases hc
              have hi : inB (m / 2 :: rs) i = true := hi
              cases i with
              | nil => simp [inB] at hi
              | cons k i =>
                rw [Arr.ofFn_get hi] at h0
                obtain ⟨hk, hi'⟩ := (inB_cons ..).1 hi
                refine hy (k :: i) ?_ (congrArg Complex.re h0)
                rw [hm]
                exact (inB_cons ..).2 ⟨by omega, hi'⟩
            · cases hc
        have hv : ∀ i, inB c.rshape i = true →
            Ring.complexUnflat (Ring.boundAt (Arr.full [] 0) i)
              ((none : Option (Arr ℝ)).map (Ring.boundAt · i)) (c.get i) = some (c.get i) := by
          intro i hi
          have hn : ‖c.get i‖ ≠ 0 := norm_ne_zero_iff.2 (h0 i hi)
          have hn' : (‖c.get i‖ : ℂ) ≠ 0 := by exact_mod_cast hn
          simp only [Ring.complexUnflat, Option.map_none, boundAt_zero, add_zero, cdiv?, hn, if_false]
          rw [mul_div_cancel_right₀ _ hn']
        rw [Arr.mapE, if_pos fun i hi => by rw [hv i hi]; rfl]
        refine congrArg _ (Arr.ext rfl fun i hi => ?_)
        have hi : inB c.rshape i = true := hi
        rw [Arr.ofFn_get hi, hv i hi]
        rfl
      simp only [bind, Except.bind, if_true, hb, hm]
      rfl

theorem PlainSupport.unflattened {s : Support} (hs : PlainSupport s) {y : Arr ℝ}
    (hy : ∀ i, inB y.rshape i = true → y.get i ≠ 0) (d : ℕ) :
    s.unflattened true y d = s.unflattened false y d := by
  match s, hs with
  | .scalar r, h | .vector r, h | .symmetric r _ _ _, h =>
    simp only [Support.unflattened, PlainRing.unflattened h hy]

theorem slice_ne_zero {y z : Arr ℝ} {a b : ℕ} (hy : ∀ i, inB y.rshape i = true → y.get i ≠ 0)
    (h : y.slice a b = .ok z) : ∀ i, inB z.rshape i = true → z.get i ≠ 0 := by
  rw [Arr.slice] at h
  split at h
  · cases h
  · next n rs hm =>
    cases h
    intro i hi
    have hi : inB ((min b n - min a n) :: rs) i = true := hi
    cases i with
    | nil => simp [inB] at hi
    | cons k i =>
      rw [Arr.ofFn_get hi]
      obtain ⟨hk, hi'⟩ := (inB_cons ..).1 hi
      refine hy _ ?_
      rw [hm]
      exact (inB_cons ..).2 ⟨by omega, hi'⟩

theorem concatReIm_rshape {a b : Arr ℂ} {x y : Arr ℝ} (h : a.rshape = b.rshape) (hx : Ring.concatReIm a = .ok x)
    (hy : Ring.concatReIm b = .ok y) : x.rshape = y.rshape := by
  simp only [Ring.concatReIm, Arr.append, Arr.map_rshape, h] at hx hy
  split at hx
  · next n rs m rs' e1 e2 =>
    rw [e1] at e2 hy
    cases e2
    simp only [if_true, Except.ok.injEq] at hx hy
    rw [← hx, ← hy]
    rfl
  · cases hx

theorem Ring.flattened_rshape {r : Ring} {v : Val} {a b : Arr ℝ} (ha : r.flattened true v = .ok a)
    (hb : r.flattened false v = .ok b) : a.rshape = b.rshape := by
  match r, v with
  | .real mn mx g, .real x =>
    simp only [Ring.flattened, if_true, Bool.false_eq_true, if_false] at ha hb
    cases hb
    exact (Arr.mapE_eq_ok_iff.1 ha).1
  | .complex mn mx, .complex x =>
    simp only [Ring.flattened, if_true, Bool.false_eq_true, if_false, bind, Except.bind] at ha hb
    split at ha
    · split at ha
      · cases ha
      · next c hc => exact concatReIm_rshape (Arr.mapE_eq_ok_iff.1 hc).1 ha hb
    · cases ha
  | .boolean, .bool x => cases ha; cases hb; rfl
  | .integral _ _, .int x => cases ha; cases hb; rfl
  | .real _ _ _, .complex _ | .real _ _ _, .bool _ | .real _ _ _, .int _ => cases ha
  | .complex _ _, .real _ | .complex _ _, .bool _ | .complex _ _, .int _ => cases ha
  | .boolean, .real _ | .boolean, .complex _ | .boolean, .int _ => cases ha
  | .integral _ _, .real _ | .integral _ _, .complex _ | .integral _ _, .bool _ => cases ha

theorem Support.flattened_rshape {s : Support} {v : Val} {a b : Arr ℝ} (ha : s.flattened true v = .ok a)
    (hb : s.flattened false v = .ok b) : a.rshape = b.rshape := by
  match s with
  | .scalar r | .vector r | .simplex r => exact Ring.flattened_rshape ha hb
  | .symmetric r _ _ _ | .square r =>
    simp only [Support.flattened, bind, Except.bind] at ha hb
    split at ha
    · cases ha
    · next w hw =>
      simp only [hw] at hb
      exact Ring.flattened_rshape ha hb
  | .circular radius =>
    match v with
    | .real x =>
      simp only [Support.flattened, circFlat, if_true, Bool.false_eq_true, if_false] at ha hb
      cases hb
      split at ha
      · cases ha
      · exact (Arr.mapE_eq_ok_iff.1 ha).1
    | .complex _ | .bool _ | .int _ => cases ha

theorem append_eq_ok {a b y : Arr ℝ} (h : a.append b = .ok y) : ∃ n k m rs, a.rshape = k :: rs ∧
    b.rshape = m :: rs ∧ y.rshape = n :: rs := by
  rw [Arr.append] at h
  split at h
  · next k rs m rs' h1 h2 =>
    split at h
    · next e =>
      subst e
      cases h
      exact ⟨_, k, m, rs, h1, h2, rfl⟩
    · cases h
  · cases h

theorem fold_append_inv {batch : List ℕ} {n : ℕ} {y : Arr ℝ} (hy : y.rshape = n :: batch) :
    ∀ {A : List (Arr ℝ)} {a : Arr ℝ}, A.foldlM (fun acc x => acc.append x) a = .ok y →
    (∃ k, a.rshape = k :: batch) ∧ ∀ b ∈ A, ∃ k, b.rshape = k :: batch
  | [], a, h => by
    cases h
    exact ⟨⟨n, hy⟩, fun _ h => by cases h⟩
  | b :: A, a, h => by
    rw [List.foldlM_cons] at h
    cases hc : a.append b with
    | error e => rw [hc] at h; cases h
    | ok c =>
      rw [hc] at h
      obtain ⟨⟨k, h1⟩, h2⟩ := fold_append_inv hy (a := c) h
      obtain ⟨n', k', m', rs, e1, e2, e3⟩ := append_eq_ok hc
      rw [e3] at h1
      obtain ⟨-, rfl⟩ := List.cons.inj h1
      exact ⟨⟨k', e1⟩, fun x hx => by
        rcases List.mem_cons.1 hx with rfl | hx
        · exact ⟨m', e2⟩
        · exact h2 x hx⟩

theorem reduceAppend_inv {batch : List ℕ} {n : ℕ} {y : Arr ℝ} (hy : y.rshape = n :: batch) {A : List (Arr ℝ)}
    (h : reduceAppend A = .ok y) : Blocks batch y 0 A n := by
  match A, h with
  | a :: A, h =>
    have hs := fold_append_inv hy h
    obtain ⟨z, N, h1, h2, h3⟩ := reduceAppend_ok (A := a :: A) (batch := batch) (fun b hb => by
      rcases List.mem_cons.1 hb with rfl | hb
      · exact hs.1
      · exact hs.2 b hb) (List.cons_ne_nil _ _)
    obtain rfl : y = z := Except.ok.inj (h.symm.trans h1)
    obtain rfl : n = N := by rw [hy] at h2; exact (List.cons.inj h2).1
    exact h3

section

variable {C : Type} [ClassTable C]

/-- The plane map does not move nonzero numbers, for all parameters of the class, and the supports are those
that the class declares. -/
def PlainCls (c : C) : Prop :=
  ∀ f ∈ varFields c, ∀ kw s, adjust c f.name kw = .ok s → s = f.support ∧ PlainSupport s

theorem PlainCls.fields {c : C} (hc : PlainCls c) {y : Arr ℝ}
    (hy : ∀ i, inB y.rshape i = true → y.get i ≠ 0) {available d : ℕ} :
    ∀ (ns : List String) (kw : Dict String Val) (k : ℕ), (∀ n ∈ ns, n ∈ (varFields c).map Field.name) →
    unflattenFields y available true c d ns kw k = unflattenFields y available false c d ns kw k
  | [], _, _, _ => rfl
  | n :: ns, kw, k, hn => by
    simp only [unflattenFields, bind, Except.bind]
    cases hs : adjust c n kw with
    | error e => rfl
    | ok s =>
      simp only
      split
      · rfl
      · cases hz : y.slice k (k + s.numElements d) with
        | error e => rfl
        | ok z =>
          obtain ⟨f, hf, rfl⟩ := List.mem_map.1 (hn n List.mem_cons_self)
          simp only [(hc f hf kw s hs).2.unflattened (slice_ne_zero hy hz)]
          cases s.unflattened false z d with
          | error e => rfl
          | ok x => exact PlainCls.fields hc hy ns _ _ fun m hm => hn m (List.mem_cons_of_mem _ hm)

/-- Unflattening with and without the plane map is the same. -/
theorem unflatten_plain {l : List (Info C)} {fx : Dict Path Val} {y : Arr ℝ}
    (hl : ∀ i ∈ l, PlainCls i.cls) (hy : ∀ i, inB y.rshape i = true → y.get i ≠ 0) :
    Flattener.unflatten ⟨l, fx, true⟩ y = Flattener.unflatten ⟨l, fx, false⟩ y := by
  have h : ∀ (available : ℕ) (l : List (Info C)), (∀ i ∈ l, PlainCls i.cls) → ∀ (l' : List (Info C)) st,
      l.foldlM (unflattenStep ⟨l', fx, true⟩ y available) st =
        l.foldlM (unflattenStep ⟨l', fx, false⟩ y available) st := by
    intro available l
    induction l with
    | nil => intro _ _ _; rfl
    | cons i l ih =>
      intro hl l' st
      have e : unflattenStep ⟨l', fx, true⟩ y available st i = unflattenStep ⟨l', fx, false⟩ y available st i := by
        simp only [unflattenStep]
        rw [(hl i List.mem_cons_self).fields hy _ _ _ fun n hn => by rwa [supportOf_false_keys] at hn]
      simp only [List.foldlM_cons, e, bind, Except.bind]
      split
      · rfl
      · exact ih (fun j hj => hl j (List.mem_cons_of_mem _ hj)) l' _
  simp only [Flattener.unflatten, h _ l hl]

/-- The flat vector of a distribution is made of the flat vectors of its parameters. -/
theorem flatten_blocks {p : Dist C} {mapped : Bool} {fl : Flattener C} {batch : List ℕ} {n : ℕ} {y : Arr ℝ}
    (hy : y.rshape = n :: batch) (h : flatten p mapped = .ok (fl, y)) :
    infosOf p = .ok fl.infos ∧ ∃ A, p.walk (makeFlat mapped) [] = .ok A ∧ Blocks batch y 0 A.flatten n := by
  simp only [flatten, bind, Except.bind] at h
  cases hA : p.walk (makeFlat mapped) [] with
  | error e => simp [hA] at h
  | ok A =>
    simp only [hA] at h
    cases hz : reduceAppend A.flatten with
    | error e => simp [hz] at h
    | ok z =>
      simp only [hz] at h
      cases hl : infosOf p with
      | error e => simp [hl] at h
      | ok l =>
        simp only [hl, Except.ok.injEq, Prod.mk.injEq] at h
        obtain ⟨rfl, rfl⟩ := h
        exact ⟨rfl, A, rfl, reduceAppend_inv hy hz⟩

mutual
/-- The nodes of the structure are those of the tree. -/
theorem Dist.walk_node : {d : Dist C} → {base : Path} → {l : List (Info C)} →
    d.walk makeInfo base = .ok l → ∀ i ∈ l, ∃ k v s, SubAt d k (.mk i.cls v s)
  | .mk c v s, base, l, h, i, hi => by
    obtain ⟨A, a, h1, h2, rfl⟩ := Dist.walk_eq_ok h
    rcases List.mem_append.1 hi with hi | hi
    · obtain ⟨n, e, he, k, v, s, hs⟩ := Subs.walk_node h1 i hi
      exact ⟨n :: k, v, s, .sub he hs⟩
    · obtain ⟨d1, -, rfl⟩ := makeInfo_eq_ok h2
      rw [List.mem_singleton.1 hi]
      exact ⟨[], v, s, .here _⟩
theorem Subs.walk_node : {d : Subs C} → {base : Path} → {l : List (Info C)} →
    d.walk makeInfo base = .ok l → ∀ i ∈ l, ∃ n e, (n, e) ∈ d.toList ∧ ∃ k v s, SubAt e k (.mk i.cls v s)
  | .nil, _, _, h, i, hi => by cases h; cases hi
  | .cons n d r, _, _, h, i, hi => by
    obtain ⟨A, a, h1, h2, rfl⟩ := Subs.walk_eq_ok h
    rcases List.mem_append.1 hi with hi | hi
    · exact ⟨n, d, List.mem_cons_self, Dist.walk_node h1 i hi⟩
    · obtain ⟨n, e, he, h⟩ := Subs.walk_node h2 i hi
      exact ⟨n, e, List.mem_cons_of_mem _ he, h⟩
end

theorem Subs.walk_mem {T : Type} {f : Dist C → Path → Except Err T} {base : Path} :
    {s : Subs C} → {l : List T} → s.walk f base = .ok l → ∀ {n : String} {d : Dist C}, (n, d) ∈ s.toList →
    ∃ l', d.walk f (base ++ [n]) = .ok l' ∧ ∀ i ∈ l', i ∈ l
  | .nil, _, _, _, _, hm => by cases hm
  | .cons n d r, _, h, n', d', hm => by
    obtain ⟨A, a, h1, h2, rfl⟩ := Subs.walk_eq_ok h
    rcases List.mem_cons.1 hm with hm | hm
    · cases hm
      exact ⟨_, h1, fun i hi => List.mem_append_left _ hi⟩
    · obtain ⟨l', h3, h4⟩ := Subs.walk_mem h2 hm
      exact ⟨l', h3, fun i hi => List.mem_append_right _ (h4 i hi)⟩

/-- Every node is in the structure, with its dimensions. -/
theorem SubAt.info {p : Dist C} {k : Path} {q : Dist C} (h : SubAt p k q) : ∀ {base : Path}
    {l : List (Info C)}, p.walk makeInfo base = .ok l →
    ∃ i ∈ l, i.cls = q.cls ∧ dimensions q.cls q.vals = .ok i.dims := by
  induction h with
  | here p =>
    intro base l hl
    obtain ⟨c, v, s⟩ := p
    obtain ⟨A, a, h1, h2, rfl⟩ := Dist.walk_eq_ok hl
    obtain ⟨d1, hd, rfl⟩ := makeInfo_eq_ok h2
    exact ⟨_, List.mem_append_right _ (List.mem_singleton.2 rfl), rfl, hd⟩
  | sub hm _ ih =>
    intro base l hl
    obtain ⟨A, a, h1, h2, rfl⟩ := Dist.walk_eq_ok hl
    obtain ⟨l', h3, h4⟩ := Subs.walk_mem h1 hm
    obtain ⟨i, hi, h⟩ := ih h3
    exact ⟨i, List.mem_append_left _ (h4 i hi), h⟩

mutual
/-- What holds for the parameters of all nodes, for the structure. -/
theorem Dist.walk_each {R : ℕ → Support → Val → Prop} {P : C → ℕ → Prop}
    (hP : ∀ c d vals, vals.length = (fields c).length → EachField (R d) c (varPairs c vals) [] → P c d) :
    {p : Dist C} → {base : Path} → {l : List (Info C)} → WF p → EachParam R p →
    p.walk makeInfo base = .ok l → ∀ i ∈ l, P i.cls i.dims
  | .mk c v s, base, l, hw, he, h, i, hi => by
    obtain ⟨A, a, h1, h2, rfl⟩ := Dist.walk_eq_ok h
    rcases List.mem_append.1 hi with hi | hi
    · exact Subs.walk_each hP hw.2.2.2 he.2 h1 i hi
    · obtain ⟨d1, hd, rfl⟩ := makeInfo_eq_ok h2
      obtain ⟨d2, hd2, hE⟩ := he.1
      rw [List.mem_singleton.1 hi]
      obtain rfl : d1 = d2 := Except.ok.inj (hd.symm.trans hd2)
      exact hP c d1 v hw.1 hE
theorem Subs.walk_each {R : ℕ → Support → Val → Prop} {P : C → ℕ → Prop}
    (hP : ∀ c d vals, vals.length = (fields c).length → EachField (R d) c (varPairs c vals) [] → P c d) :
    {p : Subs C} → {base : Path} → {l : List (Info C)} → WFs p → EachParams R p →
    p.walk makeInfo base = .ok l → ∀ i ∈ l, P i.cls i.dims
  | .nil, _, _, _, _, h, i, hi => by cases h; cases hi
  | .cons n d r, _, _, hw, he, h, i, hi => by
    obtain ⟨A, a, h1, h2, rfl⟩ := Subs.walk_eq_ok h
    rcases List.mem_append.1 hi with hi | hi
    · exact Dist.walk_each hP hw.1 he.1 h1 i hi
    · exact Subs.walk_each hP hw.2 he.2 h2 i hi
end

/-- The flat vectors of a parameter, with and without the plane map, are the same, and made of entries of `y`. -/
def SameFlat (y : Arr ℝ) (batch : List ℕ) (d : ℕ) (s : Support) (v : Val) : Prop :=
  Lies s true d batch v ∧ ∃ a, s.flattened true v = .ok a ∧ s.flattened false v = .ok a ∧
    ∀ i, inB a.rshape i = true → ∃ j, inB y.rshape j = true ∧ y.get j = a.get i

theorem fields_same {y : Arr ℝ} {batch : List ℕ} {n : ℕ} (hy : y.rshape = n :: batch) {c : C} {d : ℕ} :
    ∀ {l : List (Field × Val)} {kw kw' : Dict String Val} {A B : List (Arr ℝ)} {k m m' : ℕ},
    EachField (fun s v => Lies s true d batch v) c l kw → kw' = kw →
    (l.map fun fv => fv.1.name).Nodup → (∀ fv ∈ l, fv.1.name ∉ kw.keys) →
    makeFlatFields true c (named l) kw' = .ok A → makeFlatFields false c (named l) kw' = .ok B →
    Blocks batch y k A m → Blocks batch y k B m' → m ≤ n →
    m = m' ∧ EachField (SameFlat y batch d) c l kw
  | [], kw, kw', A, B, k, m, m', _, _, _, _, hA, hB, bA, bB, _ => by
    cases hA; cases hB; cases bA; cases bB
    exact ⟨rfl, trivial⟩
  | (f, v) :: l, kw, _, A, B, k, m, m', h, rfl, hn, hk, hA, hB, bA, bB, hm => by
    obtain ⟨⟨s, h1, h2⟩, h3⟩ := h
    have e : named ((f, v) :: l) = (f.name, v) :: named l := rfl
    rw [e] at hA hB
    simp only [makeFlatFields, h1, bind, Except.bind] at hA hB
    cases ha : s.flattened true v with
    | error e => simp [ha] at hA
    | ok a =>
      cases hb : s.flattened false v with
      | error e => simp [hb] at hB
      | ok b =>
        simp only [ha] at hA
        simp only [hb] at hB
        cases hA' : makeFlatFields true c (named l) (kw.set f.name v) with
        | error e => simp [hA'] at hA
        | ok A' =>
          cases hB' : makeFlatFields false c (named l) (kw.set f.name v) with
          | error e => simp [hB'] at hB
          | ok B' =>
            simp only [hA', Except.ok.injEq] at hA
            simp only [hB', Except.ok.injEq] at hB
            subst hA hB
            have hset : Dict.set kw f.name v = kw ++ [(f.name, v)] :=
              Dict.set_of_not_mem _ _ _ (hk _ List.mem_cons_self)
            obtain ⟨k1, a1, a2, a3⟩ := bA
            obtain ⟨k2, b1, b2, b3⟩ := bB
            have hsh : a.rshape = b.rshape := Support.flattened_rshape ha hb
            obtain rfl : k1 = k2 := by rw [a1, b1] at hsh; exact (List.cons.inj hsh).1
            have hab : a = b := Arr.ext hsh fun i hi => by
              rw [a1] at hi
              obtain ⟨i0, j, rfl, hi0, hj⟩ := inB_cons_elim hi
              rw [← a2 i0 j hi0 hj, ← b2 i0 j hi0 hj]
            subst hab
            rw [List.map_cons, List.nodup_cons] at hn
            obtain ⟨r1, r2⟩ := fields_same hy h3 hset hn.2 (fun fv hfv => by
              simp only [Dict.keys, List.map_append, List.map_cons, List.map_nil, List.mem_append,
                List.mem_singleton, not_or]
              refine ⟨hk fv (List.mem_cons_of_mem _ hfv), fun e => hn.1 (e ▸ List.mem_map.2 ⟨fv, hfv, rfl⟩)⟩)
              hA' hB' a3 b3 hm
            refine ⟨r1, ⟨s, h1, h2, a, ha, hb, fun i hi => ?_⟩, r2⟩
            rw [a1] at hi
            obtain ⟨i0, j, rfl, hi0, hj⟩ := inB_cons_elim hi
            have := a3.le
            refine ⟨(k + i0) :: j, ?_, a2 i0 j hi0 hj⟩
            rw [hy]
            exact (inB_cons ..).2 ⟨by omega, hj⟩

mutual
theorem Dist.walk_same {y : Arr ℝ} {batch : List ℕ} {n : ℕ} (hy : y.rshape = n :: batch) : {p : Dist C} →
    {base : Path} → {A B : List (List (Arr ℝ))} → {k m m' : ℕ} → WF p → LiesAll true batch p →
    p.walk (makeFlat true) base = .ok A → p.walk (makeFlat false) base = .ok B →
    Blocks batch y k A.flatten m → Blocks batch y k B.flatten m' → m ≤ n →
    m = m' ∧ EachParam (SameFlat y batch) p
  | .mk c v s, base, A, B, k, m, m', hw, hl, hA, hB, bA, bB, hm => by
    obtain ⟨A, a, h1, h2, rfl⟩ := Dist.walk_eq_ok hA
    obtain ⟨B, b, h3, h4, rfl⟩ := Dist.walk_eq_ok hB
    rw [List.flatten_append, Blocks.append_iff, List.flatten_singleton] at bA bB
    obtain ⟨n1, bA, bA'⟩ := bA
    obtain ⟨n2, bB, bB'⟩ := bB
    obtain ⟨rfl, r1⟩ := Subs.walk_same hy hw.2.2.2 hl.2 h1 h3 bA bB (bA'.le.trans hm)
    obtain ⟨d, hd, hE⟩ := hl.1
    rw [makeFlat_eq] at h2 h4
    obtain ⟨r2, r3⟩ := fields_same hy hE rfl (varPairs_names_nodup c v) (fun _ _ => by simp [Dict.keys])
      h2 h4 bA' bB' hm
    exact ⟨r2, ⟨d, hd, r3⟩, r1⟩
theorem Subs.walk_same {y : Arr ℝ} {batch : List ℕ} {n : ℕ} (hy : y.rshape = n :: batch) : {p : Subs C} →
    {base : Path} → {A B : List (List (Arr ℝ))} → {k m m' : ℕ} → WFs p →
    EachParams (fun d s v => Lies s true d batch v) p →
    p.walk (makeFlat true) base = .ok A → p.walk (makeFlat false) base = .ok B →
    Blocks batch y k A.flatten m → Blocks batch y k B.flatten m' → m ≤ n →
    m = m' ∧ EachParams (SameFlat y batch) p
  | .nil, base, A, B, k, m, m', hw, hl, hA, hB, bA, bB, hm => by
    cases hA; cases hB; cases bA; cases bB
    exact ⟨rfl, trivial⟩
  | .cons nm d r, base, A, B, k, m, m', hw, hl, hA, hB, bA, bB, hm => by
    obtain ⟨A, a, h1, h2, rfl⟩ := Subs.walk_eq_ok hA
    obtain ⟨B, b, h3, h4, rfl⟩ := Subs.walk_eq_ok hB
    rw [List.flatten_append, Blocks.append_iff] at bA bB
    obtain ⟨n1, bA, bA'⟩ := bA
    obtain ⟨n2, bB, bB'⟩ := bB
    obtain ⟨rfl, r1⟩ := Dist.walk_same hy hw.1 hl.1 h1 h3 bA bB (bA'.le.trans hm)
    obtain ⟨r2, r3⟩ := Subs.walk_same hy hw.2 hl.2 h2 h4 bA' bB' hm
    exact ⟨r2, r1, r3⟩
end

theorem fields_shapes {c : C} : ∀ {l : List (String × Val)} {kw : Dict String Val} {A B : List (Arr ℝ)},
    makeFlatFields true c l kw = .ok A → makeFlatFields false c l kw = .ok B →
    List.Forall₂ (fun a b => a.rshape = b.rshape) A B
  | [], _, _, _, hA, hB => by
    cases hA; cases hB
    exact .nil
  | (n, v) :: l, kw, A, B, hA, hB => by
    simp only [makeFlatFields, bind, Except.bind] at hA hB
    cases hs : adjust c n kw with
    | error e => simp [hs] at hA
    | ok s =>
      simp only [hs] at hA hB
      cases ha : s.flattened true v with
      | error e => simp [ha] at hA
      | ok a =>
        cases hb : s.flattened false v with
        | error e => simp [hb] at hB
        | ok b =>
          simp only [ha] at hA
          simp only [hb] at hB
          cases hA' : makeFlatFields true c l (kw.set n v) with
          | error e => simp [hA'] at hA
          | ok A' =>
            cases hB' : makeFlatFields false c l (kw.set n v) with
            | error e => simp [hB'] at hB
            | ok B' =>
              simp only [hA', Except.ok.injEq] at hA
              simp only [hB', Except.ok.injEq] at hB
              subst hA hB
              exact .cons (Support.flattened_rshape ha hb) (fields_shapes hA' hB')

theorem forall₂_append {α : Type} {R : α → α → Prop} {A B A' B' : List α} (h : List.Forall₂ R A B)
    (h' : List.Forall₂ R A' B') : List.Forall₂ R (A ++ A') (B ++ B') := by
  induction h with
  | nil => exact h'
  | cons h _ ih => exact .cons h ih

mutual
/-- The flat vectors with and without the plane map have the same shapes. -/
theorem Dist.walk_shapes : {p : Dist C} → {base : Path} → {A B : List (List (Arr ℝ))} →
    p.walk (makeFlat true) base = .ok A → p.walk (makeFlat false) base = .ok B →
    List.Forall₂ (fun a b => a.rshape = b.rshape) A.flatten B.flatten
  | .mk c v s, base, A, B, hA, hB => by
    obtain ⟨A, a, h1, h2, rfl⟩ := Dist.walk_eq_ok hA
    obtain ⟨B, b, h3, h4, rfl⟩ := Dist.walk_eq_ok hB
    rw [List.flatten_append, List.flatten_append, List.flatten_singleton, List.flatten_singleton]
    rw [makeFlat_eq] at h2 h4
    exact forall₂_append (Subs.walk_shapes h1 h3) (fields_shapes h2 h4)
theorem Subs.walk_shapes : {p : Subs C} → {base : Path} → {A B : List (List (Arr ℝ))} →
    p.walk (makeFlat true) base = .ok A → p.walk (makeFlat false) base = .ok B →
    List.Forall₂ (fun a b => a.rshape = b.rshape) A.flatten B.flatten
  | .nil, base, A, B, hA, hB => by
    cases hA; cases hB
    exact .nil
  | .cons nm d r, base, A, B, hA, hB => by
    obtain ⟨A, a, h1, h2, rfl⟩ := Subs.walk_eq_ok hA
    obtain ⟨B, b, h3, h4, rfl⟩ := Subs.walk_eq_ok hB
    rw [List.flatten_append, List.flatten_append]
    exact forall₂_append (Dist.walk_shapes h1 h3) (Subs.walk_shapes h2 h4)
end

theorem Blocks.same {batch batch' : List ℕ} {y z : Arr ℝ} {A B : List (Arr ℝ)}
    (h : List.Forall₂ (fun a b => a.rshape = b.rshape) A B) : ∀ {c m m' : ℕ}, Blocks batch y c A m →
    Blocks batch' z c B m' → m = m' ∧ (A ≠ [] → batch = batch') := by
  induction h with
  | nil =>
    intro c m m' hA hB
    cases hA; cases hB
    exact ⟨rfl, fun h => absurd rfl h⟩
  | @cons a b A B h _ ih =>
    intro c m m' hA hB
    obtain ⟨k1, a1, a2, a3⟩ := hA
    obtain ⟨k2, b1, b2, b3⟩ := hB
    have h : a.rshape = b.rshape := h
    rw [a1, b1] at h
    obtain ⟨rfl, rfl⟩ := List.cons.inj h
    exact ⟨(ih a3 b3).1, fun _ => rfl⟩

/-- The flat vectors of a distribution with and without the plane map have the same shape. -/
theorem flatten_shapes {p : Dist C} {fl fl' : Flattener C} {batch batch' : List ℕ} {n n' : ℕ} {y z : Arr ℝ}
    (hy : y.rshape = n :: batch) (hz : z.rshape = n' :: batch') (h : flatten p true = .ok (fl, y))
    (h' : flatten p false = .ok (fl', z)) : n = n' ∧ batch = batch' := by
  obtain ⟨-, A, a1, a2⟩ := flatten_blocks hy h
  obtain ⟨-, B, b1, b2⟩ := flatten_blocks hz h'
  obtain ⟨e1, e2⟩ := Blocks.same (Dist.walk_shapes a1 b1) a2 b2
  refine ⟨e1, e2 fun h0 => ?_⟩
  simp only [flatten, a1, bind, Except.bind, h0, reduceAppend] at h
  cases h

/-- The plane map moves all positive numbers. -/
def BoundedRing : Ring → Prop
  | .real none (some M) _ => M ≤ 0
  | .real (some m) none _ => 0 < m ∨ m ≤ -3 / 4
  | _ => False

/-- The plane map moves all positive numbers, and there is one if `d` is not zero. -/
def BoundedSupport : Support → Prop
  | .scalar r | .vector r => BoundedRing r
  | _ => False

theorem BoundedRing.moves {r : Ring} (hr : BoundedRing r) {v : Val} {a : Arr ℝ} (h : r.flattened true v = .ok a)
    (h' : r.flattened false v = .ok a) {i : List ℕ} (hi : inB a.rshape i = true) : a.get i ≤ 0 := by
  by_contra hp
  have hp : 0 < a.get i := lt_of_not_ge hp
  match r, hr, v with
  | .real mn mx g, hr, .real b =>
    simp only [Ring.flattened, if_true, Bool.false_eq_true, if_false, Except.ok.injEq] at h h'
    subst h'
    have hx : Ring.realFlat mn mx (b.get i) = some (b.get i) := by
      exact (Arr.mapE_eq_ok_iff.1 h).2 i hi
    match mn, mx, hr with
    | none, some M, hM =>
      have hM : M ≤ 0 := hM
      simp only [Ring.realFlat, invSoftplus?] at hx
      split at hx
      · linarith
      · cases hx
    | some m, none, hm =>
      have hm : 0 < m ∨ m ≤ -3 / 4 := hm
      simp only [Ring.realFlat, invSoftplus?] at hx
      split at hx
      · next h0 =>
        have hx : Real.log (Real.exp (b.get i - m) - 1) = b.get i := Option.some.inj hx
        have he : 1 < Real.exp (b.get i - m) := Real.one_lt_exp_iff.2 h0
        have hy : Real.exp (b.get i - m) - 1 = Real.exp (b.get i) := by
          rw [← Real.exp_log (sub_pos.2 he), hx]
        have h1 : 1 < Real.exp (b.get i) := Real.one_lt_exp_iff.2 hp
        rcases hm with hm | hm
        · have := Real.exp_lt_exp.2 (show b.get i - m < b.get i by linarith)
          linarith
        · have h2 : Real.exp (b.get i) * Real.exp (3 / 4) ≤ Real.exp (b.get i - m) := by
            rw [← Real.exp_add]
            exact Real.exp_le_exp.2 (by linarith)
          have h3 : (2 : ℝ) ≤ Real.exp (3 / 4) := by
            have := Real.quadratic_le_exp_of_nonneg (show (0 : ℝ) ≤ 3 / 4 by norm_num)
            linarith
          nlinarith
      · cases hx
  | .real _ _ _, _, .complex _ => cases h
  | .real _ _ _, _, .bool _ => cases h
  | .real _ _ _, _, .int _ => cases h
  | .complex _ _, hr, _ => cases hr
  | .boolean, hr, _ => cases hr
  | .integral _ _, hr, _ => cases hr

theorem BoundedRing.rshape {r : Ring} (hr : BoundedRing r) {v : Val} {a : Arr ℝ}
    (h : r.flattened false v = .ok a) : a.rshape = v.rshape := by
  match r, hr, v with
  | .real mn mx g, hr, .real b =>
    simp only [Ring.flattened, Bool.false_eq_true, if_false, Except.ok.injEq] at h
    rw [← h]
    rfl
  | .real _ _ _, _, .complex _ => cases h
  | .real _ _ _, _, .bool _ => cases h
  | .real _ _ _, _, .int _ => cases h
  | .complex _ _, hr, _ => cases hr
  | .boolean, hr, _ => cases hr
  | .integral _ _, hr, _ => cases hr

theorem EachField.mem {R : Support → Val → Prop} {c : C} : ∀ {l : List (Field × Val)} {kw : Dict String Val},
    EachField R c l kw → ∀ {f : Field} {v : Val}, (f, v) ∈ l → ∃ kw s, adjust c f.name kw = .ok s ∧ R s v
  | _ :: _, kw, h, f, v, hm => by
    rcases List.mem_cons.1 hm with e | hm
    · cases e
      obtain ⟨s, h⟩ := h.1
      exact ⟨kw, s, h⟩
    · exact EachField.mem h.2 hm

/-- The plane map moves all positive numbers, for some variable parameter of the class. -/
def BoundedCls (c : C) : Prop :=
  ∃ f ∈ varFields c, ∀ kw s, adjust c f.name kw = .ok s → BoundedSupport s

theorem Support.lies_bounded {s : Support} (hs : BoundedSupport s) {y : Arr ℝ}
    (hy : ∀ i, inB y.rshape i = true → 0 < y.get i) {d : ℕ} {v : Val} (h : SameFlat y [] d s v) : d = 0 := by
  by_contra hd
  obtain ⟨hl, a, h1, h2, h3⟩ := h
  have hne : ∃ k, a.rshape = (k + 1) :: [] := by
    match s, hs with
    | .scalar r, hr =>
      refine ⟨0, (BoundedRing.rshape hr h2).trans ?_⟩
      have e : v.newaxis.rshape = 1 :: v.rshape := by cases v <;> rfl
      rw [e, hl.1]
      rfl
    | .vector r, hr =>
      refine ⟨d - 1, (BoundedRing.rshape hr h2).trans (hl.1.trans ?_)⟩
      rw [Nat.sub_add_cancel (Nat.pos_of_ne_zero hd)]
      rfl
  obtain ⟨k, hk⟩ := hne
  have h0 : inB a.rshape [0] = true := by rw [hk]; simp [inB]
  obtain ⟨j, hj, hj'⟩ := h3 [0] h0
  have hp := hy j hj
  rw [hj'] at hp
  have : a.get [0] ≤ 0 := by
    match s, hs with
    | .scalar r, hr | .vector r, hr => exact BoundedRing.moves hr h1 h2 h0
  linarith

theorem BoundedCls.zero {c : C} (hc : BoundedCls c) {y : Arr ℝ} (hy : ∀ i, inB y.rshape i = true → 0 < y.get i)
    {d : ℕ} {vals : List Val} (hl : vals.length = (fields c).length)
    (h : EachField (SameFlat y [] d) c (varPairs c vals) []) : d = 0 := by
  obtain ⟨f, hf, hb⟩ := hc
  rw [← varPairs_fst hl] at hf
  obtain ⟨⟨f, v⟩, hm, rfl⟩ := List.mem_map.1 hf
  obtain ⟨kw, s, h1, h2⟩ := EachField.mem h hm
  exact Support.lies_bounded (hb kw s h1) hy h2

end

end Efax
