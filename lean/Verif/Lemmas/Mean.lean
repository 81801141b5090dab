import Verif.Lemmas.ArrOps
import Verif.Spec.Box
import Verif.Spec.Dot
import Mathlib.Algebra.BigOperators.Ring.Finset
import Mathlib.Tactic.FieldSimp

/-!
# Means over several axes
-/

namespace Efax

open Spec

/-- `Spec.keptOf`, last axis first. -/
def rcoords (ax : List ℕ) : List ℕ → List ℕ
  | [] => []
  | x :: l => if l.length ∈ ax then rcoords ax l else x :: rcoords ax l

theorem keptOf_eq (ax l : List ℕ) : keptOf ax l = (rcoords ax l).reverse := by
  induction l with
  | nil => rfl
  | cons x l ih =>
    unfold keptOf at ih ⊢
    rw [List.reverse_cons, List.zipIdx_append, List.filter_append, List.map_append, ih, rcoords]
    by_cases h : l.length ∈ ax <;> simp [h]

theorem keptOf_eq_reverse {ax l i : List ℕ} : keptOf ax l = i.reverse ↔ rcoords ax l = i := by
  rw [keptOf_eq, List.reverse_inj]

namespace Arr

variable {α : Type} [Inhabited α]

theorem keptAxes_eq (ax rs : List ℕ) :
    ((markAxes ax rs).filter (!·.2)).map (·.1) = rcoords ax rs := by
  induction rs with
  | nil => rfl
  | cons n rs ih =>
    rw [markAxes, rcoords]
    by_cases h : rs.length ∈ ax <;> simp [h, ih]

/-- The indices summed over by `sumMarked`. -/
def fiber : List (ℕ × Bool) → List ℕ → Finset (List ℕ)
  | [], _ => {[]}
  | (n, true) :: ds, i => (Finset.range n ×ˢ fiber ds i).map
      ⟨fun p => p.1 :: p.2, fun p q h => Prod.ext (List.cons.inj h).1 (List.cons.inj h).2⟩
  | (_, false) :: ds, i => (fiber ds i.tail).map ⟨fun j => i.headD 0 :: j, fun _ _ h => (List.cons.inj h).2⟩

theorem sumMarked_eq [AddCommMonoid α] (ds : List (ℕ × Bool)) (f : List ℕ → α) (i : List ℕ) :
    sumMarked ds f i = ∑ j ∈ fiber ds i, f j := by
  induction ds generalizing f i with
  | nil => simp [sumMarked, fiber]
  | cons d ds ih =>
    obtain ⟨n, b⟩ := d
    cases b with
    | true => simp only [sumMarked, fiber, Finset.sum_map, Finset.sum_product, ih]; rfl
    | false => simp only [sumMarked, fiber, Finset.sum_map, ih]; rfl

theorem card_fiber (ds : List (ℕ × Bool)) (i : List ℕ) :
    (fiber ds i).card = ((ds.filter (·.2)).map (·.1)).prod := by
  induction ds generalizing i with
  | nil => rfl
  | cons d ds ih =>
    obtain ⟨n, b⟩ := d
    cases b <;> simp [fiber, ih]

theorem mem_fiber {ax rs i : List ℕ} (hi : inB (rcoords ax rs) i = true) (j : List ℕ) :
    j ∈ fiber (markAxes ax rs) i ↔ inB rs j = true ∧ rcoords ax j = i := by
  induction rs generalizing i j with
  | nil =>
    cases i with
    | cons a i => simp [rcoords, inB] at hi
    | nil => cases j <;> simp [markAxes, fiber, inB, rcoords]
  | cons n rs ih =>
    rw [rcoords] at hi
    cases j with
    | nil =>
      by_cases h : rs.length ∈ ax <;> simp [markAxes, fiber, inB, h]
    | cons k j =>
      by_cases h : rs.length ∈ ax
      · rw [if_pos h] at hi
        simp only [markAxes, List.contains_iff_mem.2 h, fiber, Finset.mem_map, Finset.mem_product,
          Finset.mem_range, Function.Embedding.coeFn_mk, Prod.exists, List.cons.injEq]
        constructor
        · rintro ⟨k', j', ⟨h1, h2⟩, rfl, rfl⟩
          obtain ⟨h2, h3⟩ := (ih hi _).1 h2
          exact ⟨(inB_cons _ _ _ _).2 ⟨h1, h2⟩, by rw [rcoords, if_pos (by rw [inB_length h2]; exact h), h3]⟩
        · rintro ⟨h1, h2⟩
          have ⟨h4, h3⟩ := (inB_cons _ _ _ _).1 h1
          rw [rcoords, if_pos (by rw [inB_length h3]; exact h)] at h2
          exact ⟨k, j, ⟨h4, (ih hi _).2 ⟨h3, h2⟩⟩, rfl⟩
      · rw [if_neg h] at hi
        have hc : ax.contains rs.length = false := by simpa using h
        cases i with
        | nil => simp [inB] at hi
        | cons a i =>
          obtain ⟨ha, hi'⟩ := (inB_cons _ _ _ _).1 hi
          simp only [markAxes, hc, fiber, Finset.mem_map, Function.Embedding.coeFn_mk,
            List.cons.injEq, List.tail_cons, List.headD_cons]
          constructor
          · rintro ⟨j', h2, rfl, rfl⟩
            obtain ⟨h2, h3⟩ := (ih hi' _).1 h2
            exact ⟨(inB_cons _ _ _ _).2 ⟨ha, h2⟩, by rw [rcoords, if_neg (by rw [inB_length h2]; exact h), h3]⟩
          · rintro ⟨h1, h2⟩
            have ⟨h1, h3⟩ := (inB_cons _ _ _ _).1 h1
            rw [rcoords, if_neg (by rw [inB_length h3]; exact h)] at h2
            have ⟨e, h5⟩ := List.cons.inj h2
            exact ⟨j, (ih hi' _).2 ⟨h3, h5⟩, e.symm, rfl⟩

theorem normAxes_axesOf {n : ℕ} {axis : Option (List ℤ)} {ax : List ℕ} (h : normAxes n axis = .ok ax) :
    AxesOf n axis ax := by
  cases axis with
  | none => cases h; rfl
  | some ks =>
    rw [normAxes] at h
    split_ifs at h with hc
    cases h
    obtain ⟨h1, h2⟩ := (Bool.and_eq_true _ _).mp hc
    refine ⟨?_, of_decide_eq_true h2⟩
    clear hc h2
    induction ks with
    | nil => exact .nil
    | cons k ks ih =>
      rw [List.all_cons, Bool.and_eq_true] at h1
      refine .cons ?_ (ih h1.2)
      have := of_decide_eq_true h1.1
      beta_reduce
      split_ifs <;> omega

theorem AxesOf_normAxes {n : ℕ} {axis : Option (List ℤ)} {ax : List ℕ} (h : AxesOf n axis ax) :
    normAxes n axis = .ok ax := by
  cases axis with
  | none => rw [h]; rfl
  | some ks =>
    obtain ⟨h1, h2⟩ := h
    have key : (ks.all fun k => decide (-(n : ℤ) ≤ k ∧ k < n)) = true ∧
        (ks.map fun k : ℤ => (if k < 0 then k + n else k).toNat) = ax := by
      clear h2
      induction h1 with
      | nil => exact ⟨rfl, rfl⟩
      | cons h _ ih =>
        refine ⟨?_, ?_⟩
        · rw [List.all_cons, ih.1, Bool.and_true]
          exact decide_eq_true (by omega)
        · rw [List.map_cons, ih.2]
          congr 1
          split_ifs <;> omega
    rw [normAxes, key.1, key.2, if_pos (by simpa using h2)]

theorem mean_eq_ok [Semifield α] {smul : ℝ → α → α}
    (hs : ∀ (n : ℕ) (x : α), smul ((n : ℝ)⁻¹) x = x / n) {axis : Option (List ℤ)} {a a' : Arr α}
    (h : a.mean smul axis = .ok a') :
    ∃ ax, AxesOf a.rshape.length axis ax ∧ MeanOver ax a.rshape a'.rshape a.get a'.get := by
  unfold mean at h
  cases hn : normAxes a.rshape.length axis with
  | error e => rw [hn] at h; cases h
  | ok ax =>
    simp only [hn, Bind.bind, Except.bind] at h
    split_ifs at h with h2
    cases h
    refine ⟨ax, normAxes_axesOf hn, ?_, fun i hi => ⟨fiber (markAxes ax a.rshape) i, fun j => ?_, ?_, ?_⟩⟩
    · rw [keptOf_eq, ← keptAxes_eq]; rfl
    · have hi : inB (rcoords ax a.rshape) i = true := by rw [← keptAxes_eq]; exact hi
      rw [mem_fiber hi, keptOf_eq_reverse]
    · rw [← Finset.card_pos, card_fiber]; exact Nat.pos_of_ne_zero h2
    · have hi : inB (((markAxes ax a.rshape).filter (!·.2)).map (·.1)) i = true := hi
      rw [ofFn_get hi, hs, sumMarked_eq, card_fiber]

theorem mem_markAxes {ax rs : List ℕ} {d : ℕ × Bool} (h : d ∈ markAxes ax rs) (hd : d.2 = true) :
    ∃ a ∈ ax, rs.reverse[a]? = some d.1 := by
  induction rs with
  | nil => cases h
  | cons n rs ih =>
    rw [markAxes, List.mem_cons] at h
    rw [List.reverse_cons]
    rcases h with rfl | h
    · exact ⟨rs.length, List.contains_iff_mem.1 hd, by simp⟩
    · obtain ⟨a, h1, h2⟩ := ih h
      refine ⟨a, h1, ?_⟩
      rw [List.getElem?_append_left (List.getElem?_eq_some_iff.1 h2).1]
      exact h2

theorem mean_ok [AddCommMonoid α] {smul : ℝ → α → α} {axis : Option (List ℤ)} {a : Arr α} {ax : List ℕ}
    (h : AxesOf a.rshape.length axis ax) (hz : ∀ k ∈ ax, ∀ n, a.rshape.reverse[k]? = some n → 0 < n) :
    ∃ a', a.mean smul axis = .ok a' := by
  unfold mean
  simp only [AxesOf_normAxes h, Bind.bind, Except.bind]
  rw [if_neg]
  · exact ⟨_, rfl⟩
  · rw [List.prod_eq_zero_iff]
    intro hm
    obtain ⟨d, hd, h0⟩ := List.mem_map.1 hm
    obtain ⟨h1, h2⟩ := List.mem_filter.1 hd
    obtain ⟨k, h3, h4⟩ := mem_markAxes h1 h2
    have := hz k h3 _ h4
    omega

/-- When the argument `axis` is not admissible, or there is nothing to average, the mean fails. -/
theorem mean_error [AddCommMonoid α] {smul : ℝ → α → α} {axis : Option (List ℤ)} {a : Arr α}
    (h : ∀ ax, ¬ AxesOf a.rshape.length axis ax) : a.mean smul axis = .error .valueError := by
  unfold mean
  cases hn : normAxes a.rshape.length axis with
  | ok ax => exact absurd (normAxes_axesOf hn) (h ax)
  | error e =>
    cases axis with
    | none => cases hn
    | some ks =>
      rw [normAxes] at hn
      split_ifs at hn
      cases hn
      rfl

end Arr

theorem Spec.MeanOver.congr {β : Type} [Semifield β] {ax rs rs' : List ℕ} {g h g' : List ℕ → β}
    (hm : MeanOver ax rs rs' g g') (e : ∀ j, inB rs j = true → g j = h j) : MeanOver ax rs rs' h g' := by
  refine ⟨hm.1, fun i hi => ?_⟩
  obtain ⟨S, h1, h2, h3⟩ := hm.2 i hi
  exact ⟨S, h1, h2, by rw [h3, Finset.sum_congr rfl fun j hj => e j ((h1 j).1 hj).1]⟩

theorem Val.mean_eq_ok {v v' : Val} {axis : Option (List ℤ)} (h : v.mean axis = .ok v') :
    IsMean axis v v' := by
  have hr : ∀ (n : ℕ) (x : ℝ), (n : ℝ)⁻¹ * x = x / n := fun n x => by ring
  have hc : ∀ (n : ℕ) (x : ℂ), (((n : ℝ)⁻¹ : ℝ) : ℂ) * x = x / n := fun n x => by push_cast; ring
  cases v with
  | real a =>
    cases h' : a.mean (· * ·) axis with
    | error e => simp [Val.mean, h'] at h
    | ok a' =>
      simp [Val.mean, h'] at h; subst h
      exact Arr.mean_eq_ok hr h'
  | complex a =>
    cases h' : a.mean (fun (r : ℝ) (z : ℂ) => r * z) axis with
    | error e => simp [Val.mean, h'] at h
    | ok a' =>
      simp [Val.mean, h'] at h; subst h
      exact Arr.mean_eq_ok hc h'
  | bool a =>
    cases h' : (a.map fun b => if b then (1 : ℝ) else 0).mean (· * ·) axis with
    | error e => simp [Val.mean, h'] at h
    | ok a' =>
      simp [Val.mean, h'] at h; subst h
      obtain ⟨ax, h1, h2⟩ := Arr.mean_eq_ok hr h'
      exact ⟨ax, h1, h2.congr fun j hj => Arr.map_get hj⟩
  | int a =>
    cases h' : (a.map fun z : ℤ => (z : ℝ)).mean (· * ·) axis with
    | error e => simp [Val.mean, h'] at h
    | ok a' =>
      simp [Val.mean, h'] at h; subst h
      obtain ⟨ax, h1, h2⟩ := Arr.mean_eq_ok hr h'
      exact ⟨ax, h1, h2.congr fun j hj => Arr.map_get hj⟩

theorem Val.mean_ok {v : Val} {axis : Option (List ℤ)} {ax : List ℕ}
    (h : AxesOf v.rshape.length axis ax) (hz : ∀ k ∈ ax, ∀ n, v.rshape.reverse[k]? = some n → 0 < n) :
    ∃ v', v.mean axis = .ok v' := by
  cases v with
  | real a =>
    obtain ⟨a', h⟩ := Arr.mean_ok (a := a) (smul := (· * ·)) h hz
    exact ⟨_, by rw [Val.mean, h]; rfl⟩
  | complex a =>
    obtain ⟨a', h⟩ := Arr.mean_ok (a := a) (smul := fun (r : ℝ) (z : ℂ) => r * z) h hz
    exact ⟨_, by rw [Val.mean, h]; rfl⟩
  | bool a =>
    obtain ⟨a', h⟩ := Arr.mean_ok (a := a.map fun b => if b then (1 : ℝ) else 0)
      (smul := (· * ·)) h hz
    exact ⟨_, by rw [Val.mean, h]; rfl⟩
  | int a =>
    obtain ⟨a', h⟩ := Arr.mean_ok (a := a.map fun z : ℤ => (z : ℝ)) (smul := (· * ·)) h hz
    exact ⟨_, by rw [Val.mean, h]; rfl⟩

theorem Val.mean_error {v : Val} {axis : Option (List ℤ)}
    (h : ∀ ax, ¬ AxesOf v.rshape.length axis ax) : v.mean axis = .error .valueError := by
  cases v with
  | real a => rw [Val.mean, Arr.mean_error h]; rfl
  | complex a => rw [Val.mean, Arr.mean_error h]; rfl
  | bool a =>
    rw [Val.mean, Arr.mean_error (a := a.map (β := ℝ) fun b => if b then (1 : ℝ) else 0) h]; rfl
  | int a => rw [Val.mean, Arr.mean_error (a := a.map (β := ℝ) fun z : ℤ => (z : ℝ)) h]; rfl

/-! ## Means over the first axes -/

theorem mem_box {rs j : List ℕ} : j ∈ box rs ↔ inB rs j = true := by
  induction rs generalizing j with
  | nil => cases j <;> simp [box, inB]
  | cons n rs ih =>
    simp only [box, Finset.mem_image, Finset.mem_product, Finset.mem_range, Prod.exists]
    constructor
    · rintro ⟨k, i, ⟨h1, h2⟩, rfl⟩
      exact (inB_cons _ _ _ _).2 ⟨h1, ih.1 h2⟩
    · intro h
      cases j with
      | nil => simp [inB] at h
      | cons k j =>
        obtain ⟨h1, h2⟩ := (inB_cons _ _ _ _).1 h
        exact ⟨k, j, ⟨h1, ih.2 h2⟩, rfl⟩

theorem sum_box_cons {β : Type} [AddCommMonoid β] (n : ℕ) (rs : List ℕ) (g : List ℕ → β) :
    ∑ j ∈ box (n :: rs), g j = ∑ k ∈ Finset.range n, ∑ j ∈ box rs, g (k :: j) := by
  rw [box, Finset.sum_image, Finset.sum_product]
  rintro ⟨a, b⟩ _ ⟨c, d⟩ _ h
  obtain ⟨rfl, rfl⟩ := List.cons.inj h
  rfl

theorem card_box (rs : List ℕ) : (box rs).card = rs.prod := by
  induction rs with
  | nil => rfl
  | cons n rs ih =>
    rw [Finset.card_eq_sum_ones, sum_box_cons, List.prod_cons, ← ih]
    simp

theorem rcoords_first {b s : List ℕ} : rcoords (List.range b.length) (s ++ b) = s := by
  have h0 : ∀ {k : ℕ} {l : List ℕ}, l.length ≤ k → rcoords (List.range k) l = [] := by
    intro k l
    induction l with
    | nil => intro _; rfl
    | cons x l ih =>
      intro h
      rw [List.length_cons] at h
      rw [rcoords, if_pos (List.mem_range.2 (by omega)), ih (by omega)]
  induction s with
  | nil => exact h0 le_rfl
  | cons x s ih =>
    rw [List.cons_append, rcoords, if_neg, ih]
    simp

theorem Spec.MeanOver.first {β : Type} [Semifield β] {s b rs' : List ℕ} {g g' : List ℕ → β}
    (h : MeanOver (List.range b.length) (s ++ b) rs' g g') :
    rs' = s ∧ ∀ i, inB s i = true → (box b).Nonempty ∧
      g' i = (∑ j ∈ box b, g (i ++ j)) / ((box b).card : β) := by
  obtain ⟨h1, h2⟩ := h
  rw [keptOf_eq, List.reverse_inj, rcoords_first] at h1
  refine ⟨h1, fun i hi => ?_⟩
  obtain ⟨S, m1, m2, m3⟩ := h2 i (by rw [h1]; exact hi)
  have hS : S = (box b).map ⟨fun j => i ++ j, List.append_right_injective i⟩ := by
    ext j
    rw [m1, keptOf_eq_reverse, Finset.mem_map]
    constructor
    · rintro ⟨hj, hc⟩
      have hl : j = j.take s.length ++ j.drop s.length := (List.take_append_drop _ _).symm
      have hlen := inB_length hj
      rw [List.length_append] at hlen
      have ht : (j.take s.length).length = s.length := by rw [List.length_take]; omega
      have hd : (j.drop s.length).length = b.length := by rw [List.length_drop]; omega
      rw [hl, ← hd, rcoords_first] at hc
      refine ⟨j.drop s.length, ?_, ?_⟩
      · rw [hl, inB_append ht] at hj
        exact mem_box.2 hj.2
      · change i ++ j.drop s.length = j
        rw [← hc]
        exact hl.symm
    · rintro ⟨m, hm, rfl⟩
      change inB (s ++ b) (i ++ m) = true ∧ rcoords _ (i ++ m) = i
      have hm := mem_box.1 hm
      exact ⟨(inB_append (inB_length hi)).2 ⟨hi, hm⟩, by rw [← inB_length hm, rcoords_first]⟩
  subst hS
  refine ⟨Finset.map_nonempty.1 m2, ?_⟩
  rw [m3, Finset.sum_map, Finset.card_map]
  rfl

theorem axesOf_first {k n : ℕ} (h : k ≤ n) : AxesOf n (some (firstAxes k)) (List.range k) := by
  refine ⟨?_, List.nodup_range⟩
  rw [firstAxes, List.forall₂_map_left_iff, List.forall₂_same]
  intro a ha
  exact ⟨lt_of_lt_of_le (List.mem_range.1 ha) h, .inl rfl⟩

theorem AxesOf.unique {n : ℕ} {axis : Option (List ℤ)} {ax ax' : List ℕ} (h : AxesOf n axis ax)
    (h' : AxesOf n axis ax') : ax = ax' := by
  have := Arr.AxesOf_normAxes h
  rw [Arr.AxesOf_normAxes h'] at this
  cases this
  rfl

/-- `m` is the mean of `v` over the first `k` axes. -/
def AvgVal (k : ℕ) (v m : Val) : Prop :=
  ∃ s b, b.length = k ∧ (∀ n ∈ b, 0 < n) ∧ v.rshape = s ++ b ∧ m.rshape = s ∧
    ∀ i, inB s i = true → (b.prod : ℂ) * Spec.entry m i = ∑ j ∈ box b, Spec.entry v (i ++ j)

theorem Val.mean_first {v : Val} {s b : List ℕ} (hs : v.rshape = s ++ b) (hb : ∀ n ∈ b, 0 < n) :
    ∃ m, v.mean (some (firstAxes b.length)) = .ok m ∧ AvgVal b.length v m := by
  have hx : AxesOf v.rshape.length (some (firstAxes b.length)) (List.range b.length) :=
    axesOf_first (by rw [hs]; simp)
  obtain ⟨m, hm⟩ := Val.mean_ok hx fun k hk n hn => by
    rw [hs, List.reverse_append, List.getElem?_append_left (by simpa using hk)] at hn
    exact hb n (List.mem_reverse.1 (List.mem_of_getElem? hn))
  refine ⟨m, hm, s, b, rfl, hb, hs, ?_⟩
  obtain ⟨ax, h1, h2⟩ := Val.mean_eq_ok hm
  cases AxesOf.unique hx h1
  have key : ∀ {β : Type} [_root_.Field β] [CharZero β] {rs rs' : List ℕ} {g g' : List ℕ → β},
      rs = s ++ b → MeanOver (List.range b.length) rs rs' g g' → rs' = s ∧ ∀ i, inB s i = true →
        (b.prod : β) * g' i = ∑ j ∈ box b, g (i ++ j) := by
    rintro β _ _ rs rs' g g' rfl h
    obtain ⟨e1, e2⟩ := h.first
    refine ⟨e1, fun i hi => ?_⟩
    obtain ⟨e3, e4⟩ := e2 i hi
    rw [e4, card_box]
    have : (b.prod : β) ≠ 0 := by
      rw [← card_box]
      exact_mod_cast e3.card_pos.ne'
    field_simp
  cases v with
  | real a =>
    cases m with
    | real a' =>
      obtain ⟨e1, e2⟩ := key hs h2
      refine ⟨e1, fun i hi => ?_⟩
      simp only [Spec.entry]
      rw [← Complex.ofReal_natCast, ← Complex.ofReal_mul, e2 i hi, Complex.ofReal_sum]
    | _ => exact h2.elim
  | complex a =>
    cases m with
    | complex a' => exact key hs h2
    | _ => exact h2.elim
  | bool a =>
    cases m with
    | real a' =>
      obtain ⟨e1, e2⟩ := key hs h2
      refine ⟨e1, fun i hi => ?_⟩
      simp only [Spec.entry]
      rw [← Complex.ofReal_natCast, ← Complex.ofReal_mul, e2 i hi]
      rw [Complex.ofReal_sum]
      exact Finset.sum_congr rfl fun j _ => by split_ifs <;> simp
    | _ => exact h2.elim
  | int a =>
    cases m with
    | real a' =>
      obtain ⟨e1, e2⟩ := key hs h2
      refine ⟨e1, fun i hi => ?_⟩
      simp only [Spec.entry]
      rw [← Complex.ofReal_natCast, ← Complex.ofReal_mul, e2 i hi]
      push_cast
      rfl
    | _ => exact h2.elim

end Efax
