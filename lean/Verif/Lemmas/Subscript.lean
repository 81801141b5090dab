import Verif.Spec.Subscript
import Verif.Lemmas.Index
import Verif.Lemmas.Shaped
import Verif.Lemmas.Support

/-! # Subscripts of batches -/

namespace Efax

open ClassTable Calc Spec

theorem bind_inv {ε A B : Type} {x : Except ε A} {f : A → Except ε B} {b : B} (h : (x >>= f) = .ok b) :
    ∃ a, x = .ok a ∧ f a = .ok b := by
  cases x with
  | error e => cases h
  | ok a => exact ⟨a, rfl, h⟩

theorem axisIndex_ok {k : ℤ} {n j : ℕ} (h : axisIndex k n = .ok j) : j < n ∧ (j : ℤ) = fromEnd n k := by
  unfold axisIndex at h
  unfold fromEnd
  split_ifs at h with h1 h2
  · injection h with h
    rw [if_neg (by omega)]
    omega
  · injection h with h
    rw [if_pos (by omega)]
    omega

theorem progression_iff {lo hi c : ℤ} (hc : 0 < c) (j : ℤ) : (lo ≤ j ∧ j < hi ∧ c ∣ j - lo) ↔
    ∃ i : ℕ, i < (if lo < hi then ((hi - lo - 1) / c + 1).toNat else 0) ∧ j = lo + i * c := by
  constructor
  · rintro ⟨h1, h2, k, hk⟩
    have hk0 : 0 ≤ k := by
      by_contra h
      have : c * k < 0 := mul_neg_of_pos_of_neg hc (by omega)
      omega
    have hle : k ≤ (hi - lo - 1) / c := by
      rw [Int.le_ediv_iff_mul_le hc, mul_comm]
      omega
    refine ⟨k.toNat, ?_, ?_⟩
    · rw [if_pos (by omega)]
      omega
    · rw [Int.toNat_of_nonneg hk0, mul_comm]
      omega
  · rintro ⟨i, h1, rfl⟩
    split_ifs at h1 with h
    · have hle : (i : ℤ) ≤ (hi - lo - 1) / c := by omega
      rw [Int.le_ediv_iff_mul_le hc] at hle
      have : 0 ≤ (i : ℤ) * c := by positivity
      exact ⟨by omega, by omega, i, by ring⟩
    · omega

theorem sliceFirst_up (a : Option ℤ) (n : ℕ) (j : ℤ) (hj : j < n) :
    let A := (a.map fun k => sliceBound k n 0 n).getD 0
    let A' := max ((a.map (fromEnd n)).getD 0) 0
    0 ≤ A ∧ (A ≤ j ↔ A' ≤ j) ∧ (A ≤ j → A = A') := by
  cases a with
  | none => simp
  | some k =>
    simp only [Option.map_some, Option.getD_some, sliceBound, fromEnd]
    split_ifs <;> omega

theorem sliceLast_up (b : Option ℤ) (n : ℕ) (j : ℤ) (hj : 0 ≤ j) :
    let B := (b.map fun k => sliceBound k n 0 n).getD n
    j < B ↔ (j < n ∧ ∀ k ∈ b, j < fromEnd n k) := by
  cases b with
  | none => simp
  | some k =>
    simp only [Option.map_some, Option.getD_some, sliceBound, fromEnd, Option.mem_def, Option.some.injEq,
      forall_eq']
    split_ifs <;> omega

theorem sliceFirst_down (a : Option ℤ) (n : ℕ) (j : ℤ) (hj : 0 ≤ j) :
    let A := (a.map fun k => sliceBound k n (-1) (n - 1)).getD (n - 1)
    let A' := min ((a.map (fromEnd n)).getD (n - 1)) (n - 1)
    A ≤ n - 1 ∧ (j ≤ A ↔ j ≤ A') ∧ (j ≤ A → A = A') := by
  cases a with
  | none => simp
  | some k =>
    simp only [Option.map_some, Option.getD_some, sliceBound, fromEnd]
    split_ifs <;> omega

theorem sliceLast_down (b : Option ℤ) (n : ℕ) (j : ℤ) (hj : j < n) :
    let B := (b.map fun k => sliceBound k n (-1) (n - 1)).getD (-1)
    B < j ↔ (0 ≤ j ∧ ∀ k ∈ b, fromEnd n k < j) := by
  cases b with
  | none => simp; omega
  | some k =>
    simp only [Option.map_some, Option.getD_some, sliceBound, fromEnd, Option.mem_def, Option.some.injEq,
      forall_eq']
    split_ifs <;> omega

theorem sliceIndices_selected {a b c : Option ℤ} {n len : ℕ} {first step : ℤ}
    (h : sliceIndices a b c n = .ok (first, len, step)) :
    step = c.getD 1 ∧ ∀ j : ℤ, Selected a b step n j ↔ ∃ i : ℕ, i < len ∧ j = first + i * step := by
  unfold sliceIndices at h
  simp only at h
  generalize c.getD 1 = t at h ⊢
  by_cases h0 : t = 0
  · rw [if_pos h0] at h; cases h
  rw [if_neg h0] at h
  by_cases h1 : 0 < t
  · rw [if_pos h1] at h
    simp only [Except.ok.injEq, Prod.mk.injEq] at h
    obtain ⟨e1, e2, rfl⟩ := h
    refine ⟨rfl, fun j => ?_⟩
    rw [← e2, e1, ← progression_iff h1]
    constructor
    · rintro ⟨⟨j0, jn⟩, h, -⟩
      obtain ⟨lo, e, h2, h3, h4⟩ := h h1
      obtain ⟨f1, f2, f3⟩ := sliceFirst_up a n j jn
      have g := sliceLast_up b n j j0
      simp only [e1, ← e] at f1 f2 f3
      have := f2.2 h2
      exact ⟨this, g.2 ⟨jn, h4⟩, f3 this ▸ h3⟩
    · rintro ⟨h2, h3, h4⟩
      have j0 : 0 ≤ j := by
        have := (sliceFirst_up a n (-1) (by omega)).1
        omega
      have g := (sliceLast_up b n j j0).1 h3
      obtain ⟨f1, f2, f3⟩ := sliceFirst_up a n j g.1
      simp only [e1] at f1 f2 f3
      exact ⟨⟨j0, g.1⟩, fun _ => ⟨_, rfl, f2.1 h2, f3 h2 ▸ h4, g.2⟩, fun h => by omega⟩
  · rw [if_neg h1] at h
    simp only [Except.ok.injEq, Prod.mk.injEq] at h
    obtain ⟨e1, e2, rfl⟩ := h
    refine ⟨rfl, fun j => ?_⟩
    have ht : 0 < -t := by omega
    have key : (∃ i : ℕ, i < len ∧ j = first + i * t) ↔ (j ≤ first ∧
        (b.map fun k => sliceBound k n (-1) (n - 1)).getD (-1) < j ∧ t ∣ first - j) := by
      have := progression_iff (lo := -first) (hi := -(b.map fun k => sliceBound k n (-1) (n - 1)).getD (-1))
        ht (-j)
      rw [← e2, e1]
      simp only [neg_lt_neg_iff, neg_le_neg_iff, neg_dvd, sub_neg_eq_add] at this
      rw [show first - j = -j + first by ring, this]
      have e (x : ℤ) : -x + first - 1 = first - x - 1 := by ring
      simp only [e]
      refine exists_congr fun i => and_congr Iff.rfl ?_
      constructor <;> intro h <;> linarith
    rw [key]
    constructor
    · rintro ⟨⟨j0, jn⟩, -, h⟩
      obtain ⟨lo, e, h2, h3, h4⟩ := h (by omega)
      obtain ⟨f1, f2, f3⟩ := sliceFirst_down a n j j0
      have g := sliceLast_down b n j jn
      simp only [e1, ← e] at f1 f2 f3
      have := f2.2 h2
      exact ⟨this, g.2 ⟨j0, h4⟩, f3 this ▸ h3⟩
    · rintro ⟨h2, h3, h4⟩
      have jn : j < n := by
        have := (sliceFirst_down a n 0 le_rfl).1
        omega
      have g := (sliceLast_down b n j jn).1 h3
      obtain ⟨f1, f2, f3⟩ := sliceFirst_down a n j g.1
      simp only [e1] at f1 f2 f3
      exact ⟨⟨g.1, jn⟩, fun h => by omega, fun _ => ⟨_, rfl, f2.1 h2, f3 h2 ▸ h4, g.2⟩⟩

theorem sliceIndices_lt {a b c : Option ℤ} {n len : ℕ} {first step : ℤ}
    (h : sliceIndices a b c n = .ok (first, len, step)) {i : ℕ} (hi : i < len) :
    (first + i * step).toNat < n := by
  obtain ⟨h1, h2⟩ := ((sliceIndices_selected h).2 (first + i * step)).2 ⟨i, hi, rfl⟩ |>.1
  omega

theorem Key.view_newaxis (ks : List Key) (s : List ℕ) : Key.view (.newaxis :: ks) s = (do
    let v ← Key.view ks s
    .ok ⟨1 :: v.shape, fun i => v.source i.tail⟩) := by cases s <;> rfl

theorem Key.view_inB {key : List Key} {s : List ℕ} {v : View} (h : Key.view key s = .ok v) {i : List ℕ}
    (hi : inB v.shape i = true) : inB s (v.source i) = true := by
  induction key generalizing s v i with
  | nil => injection h with h; subst h; exact hi
  | cons k ks ih =>
    cases k with
    | int k =>
      cases s with
      | nil => cases h
      | cons n s =>
        obtain ⟨j, h1, h⟩ := bind_inv h
        obtain ⟨w, h2, h⟩ := bind_inv h
        injection h with h; subst h
        simp [inB, (axisIndex_ok h1).1, ih h2 hi]
    | slice a b c =>
      cases s with
      | nil => cases h
      | cons n s =>
        obtain ⟨⟨first, len, step⟩, h1, h⟩ := bind_inv h
        obtain ⟨w, h2, h⟩ := bind_inv h
        injection h with h; subst h
        obtain ⟨k, i, rfl, h3, h4⟩ := inB_cons_elim hi
        simp [inB, sliceIndices_lt h1 h3, ih h2 h4]
    | newaxis =>
      rw [Key.view_newaxis] at h
      obtain ⟨w, h2, h⟩ := bind_inv h
      injection h with h; subst h
      obtain ⟨k, i, rfl, h3, h4⟩ := inB_cons_elim hi
      exact ih h2 h4
    | ellipsis =>
      have h : (if Key.hasEllipsis ks then .error .indexError else do
        let v ← view ks (s.drop (s.length - Key.consumed ks))
        .ok ⟨s.take (s.length - Key.consumed ks) ++ v.shape, fun i => i.take (s.length - Key.consumed ks) ++
          v.source (i.drop (s.length - Key.consumed ks))⟩) = Except.ok v := by cases s <;> exact h
      split_ifs at h
      obtain ⟨w, h2, h⟩ := bind_inv h
      injection h with h; subst h
      obtain ⟨x, y, rfl, h3, h4⟩ := inB_append_elim hi
      have hl := inB_length h3
      have hm : (s.take (s.length - Key.consumed ks)).length = s.length - Key.consumed ks := by simp
      rw [hm] at hl
      have := ih h2 h4
      simp only [← hl, List.take_left, List.drop_left]
      rw [← List.take_append_drop (s.length - Key.consumed ks) s]
      exact (inB_append (inB_length h3)).2 ⟨h3, this⟩

theorem Key.view_append {key : List Key} (hk : LeadingKey key) {s : List ℕ} {v : View}
    (h : Key.view key s = .ok v) (t : List ℕ) : ∃ w, Key.view key (s ++ t) = .ok w ∧
      w.shape = v.shape ++ t ∧ ∀ i j, inB v.shape i = true → inB t j = true →
        w.source (i ++ j) = v.source i ++ j := by
  induction key generalizing s v with
  | nil => injection h with h; subst h; exact ⟨_, rfl, rfl, fun _ _ _ _ => rfl⟩
  | cons k ks ih =>
    cases k with
    | int k =>
      cases s with
      | nil => cases h
      | cons n s =>
        obtain ⟨j, h1, h⟩ := bind_inv h
        obtain ⟨w, h2, h⟩ := bind_inv h
        injection h with h; subst h
        obtain ⟨w', h3, h4, h5⟩ := ih hk h2
        refine ⟨⟨w'.shape, fun i => j :: w'.source i⟩, ?_, h4, fun i j hi hj => ?_⟩
        · simp only [List.cons_append, view, h1, h3]; rfl
        · simp only [h5 i j hi hj, List.cons_append]
    | slice a b c =>
      cases s with
      | nil => cases h
      | cons n s =>
        obtain ⟨⟨first, len, step⟩, h1, h⟩ := bind_inv h
        obtain ⟨w, h2, h⟩ := bind_inv h
        injection h with h; subst h
        obtain ⟨w', h3, h4, h5⟩ := ih hk h2
        refine ⟨⟨len :: w'.shape, fun i => (first + i.headD 0 * step).toNat :: w'.source i.tail⟩, ?_,
          by simp [h4], fun i j hi hj => ?_⟩
        · simp only [List.cons_append, view, h1, h3]; rfl
        · obtain ⟨k, i, rfl, h6, h7⟩ := inB_cons_elim hi
          simp [h5 i j h7 hj]
    | newaxis =>
      rw [Key.view_newaxis] at h
      obtain ⟨w, h2, h⟩ := bind_inv h
      injection h with h; subst h
      obtain ⟨w', h3, h4, h5⟩ := ih hk h2
      refine ⟨⟨1 :: w'.shape, fun i => w'.source i.tail⟩, ?_, by simp [h4], fun i j hi hj => ?_⟩
      · rw [Key.view_newaxis, h3]; rfl
      · obtain ⟨k, i, rfl, h6, h7⟩ := inB_cons_elim hi
        simp [h5 i j h7 hj]
    | ellipsis =>
      obtain rfl : ks = [] := hk
      have e : ∀ s : List ℕ, Key.view [.ellipsis] s = .ok ⟨s.take s.length ++ s.drop s.length,
        fun i => i.take s.length ++ i.drop s.length⟩ := fun s => by cases s <;> rfl
      simp only [List.take_append_drop] at e
      rw [e] at h ⊢
      injection h with h; subst h
      exact ⟨_, rfl, rfl, fun _ _ _ _ => rfl⟩

theorem mem_allIndices {s i : List ℕ} : i ∈ allIndices s ↔ inB s i = true := by
  induction s generalizing i with
  | nil => simp [allIndices, inB_nil_iff]
  | cons n s ih =>
    simp only [allIndices, List.mem_flatMap, List.mem_range, List.mem_map]
    constructor
    · rintro ⟨k, hk, j, hj, rfl⟩
      simp [inB, hk, ih.1 hj]
    · intro h
      obtain ⟨k, j, rfl, h1, h2⟩ := inB_cons_elim h
      exact ⟨k, h1, j, ih.2 h2, rfl⟩

theorem Subscript.view_inB {key : Subscript} {s : List ℕ} {v : View} (h : key.view s = .ok v) {i : List ℕ}
    (hi : inB v.shape i = true) : inB s (v.source i) = true := by
  cases key with
  | basic key => exact Key.view_inB h hi
  | array ix =>
    cases s with
    | nil => cases h
    | cons n s =>
      simp only [view] at h
      split_ifs at h with hc
      injection h with h; subst h
      obtain ⟨x, y, rfl, h3, h4⟩ := inB_append_elim hi
      have hl := inB_length h3
      rw [List.length_reverse] at hl
      have := List.all_eq_true.1 hc x (mem_allIndices.2 h3)
      simp only [decide_eq_true_eq] at this
      simp only [← hl, List.take_left, List.drop_left, inB, h4, Bool.and_true, decide_eq_true_eq]
      split_ifs <;> omega
  | mask m =>
    simp only [view] at h
    split_ifs at h with hc
    injection h with h; subst h
    obtain ⟨k, i, rfl, h3, h4⟩ := inB_cons_elim hi
    simp only [List.headD_cons, List.tail_cons]
    rw [List.getD_eq_getElem?_getD, List.getElem?_eq_getElem h3, Option.getD_some]
    have := mem_allIndices.1 (List.mem_filter.1 (List.getElem_mem h3)).1
    rw [← List.take_append_drop m.rshape.length s, hc]
    exact (inB_append (inB_length this)).2 ⟨this, h4⟩

theorem Subscript.view_append {key : Subscript} (hk : Leading key) {s : List ℕ} {v : View}
    (h : key.view s = .ok v) (t : List ℕ) : ∃ w, key.view (s ++ t) = .ok w ∧
      w.shape = v.shape ++ t ∧ ∀ i j, inB v.shape i = true → inB t j = true →
        w.source (i ++ j) = v.source i ++ j := by
  cases key with
  | basic key => exact Key.view_append hk h t
  | array ix =>
    cases s with
    | nil => cases h
    | cons n s =>
      simp only [view] at h
      split_ifs at h with hc
      injection h with h; subst h
      refine ⟨_, by simp only [List.cons_append, view]; exact if_pos hc, by simp, fun i j hi hj => ?_⟩
      obtain ⟨x, y, rfl, h3, h4⟩ := inB_append_elim hi
      have hl := inB_length h3
      rw [List.length_reverse] at hl
      simp only [← hl, List.append_assoc, List.take_left, List.drop_left, List.cons_append]
  | mask m =>
    simp only [view] at h
    split_ifs at h with hc
    injection h with h; subst h
    have hl : m.rshape.length ≤ s.length := by
      have := congrArg List.length hc
      simp at this
      omega
    refine ⟨_, by simp only [view]; exact if_pos (by rw [List.take_append_of_le_length hl, hc]), ?_,
      fun i j hi hj => ?_⟩
    · simp [List.drop_append_of_le_length hl]
    · obtain ⟨k, i, rfl, h3, h4⟩ := inB_cons_elim hi
      simp

/-- What a subscript does to the indices of a batch, last axis first. -/
def View.map (v : View) (i : List ℕ) : List ℕ := (v.source i.reverse).reverse

/-- The shape of the view, last axis first. -/
abbrev View.rshape (v : View) : List ℕ := v.shape.reverse

section

variable {key : Subscript} (hk : Leading key) {rs : List ℕ} {v : View} (hv : key.view rs.reverse = .ok v)

theorem View.map_inB (hv : key.view rs.reverse = .ok v) {i : List ℕ} (hi : inB v.rshape i = true) :
    inB rs (v.map i) = true := by
  rw [← inB_reverse, View.map, List.reverse_reverse]
  refine Subscript.view_inB hv ?_
  rw [← inB_reverse, List.reverse_reverse]
  exact hi

include hk hv

theorem Arr.at_ofFn {α : Type} [Inhabited α] (s : List ℕ) (f : List ℕ → α) :
    (Arr.ofFn (s ++ rs) f).at key = .ok (Arr.ofFn (s ++ v.rshape) fun j =>
      f (j.take s.length ++ v.map (j.drop s.length))) := by
  obtain ⟨w, h1, h2, h3⟩ := Subscript.view_append hk hv s.reverse
  have e : (Arr.ofFn (s ++ rs) f).rshape.reverse = rs.reverse ++ s.reverse := by
    change (s ++ rs).reverse = _
    simp
  rw [Arr.at, e, h1]
  change Except.ok _ = _
  congr 1
  refine Arr.ext (by change w.shape.reverse = s ++ v.rshape; simp [h2]) fun j hj => ?_
  have hj : inB w.shape.reverse j = true := hj
  rw [Arr.ofFn_get hj]
  rw [h2, List.reverse_append, List.reverse_reverse] at hj
  rw [Arr.ofFn_get hj]
  obtain ⟨x, y, rfl, h4, h5⟩ := inB_append_elim hj
  have hl := inB_length h4
  rw [← hl, List.take_left, List.drop_left, List.reverse_append, h3 _ _
    (by rw [← inB_reverse, List.reverse_reverse]; exact h5) (inB_reverse.2 h4), List.reverse_append,
    List.reverse_reverse]
  exact Arr.ofFn_get ((inB_append (inB_length h4)).2 ⟨h4, View.map_inB hv h5⟩)

theorem scalars_view {α : Type} [Inhabited α] (f : List ℕ → α) :
    (scalars rs f).at key = .ok (scalars v.rshape fun j => f (v.map j)) :=
  Arr.at_ofFn hk hv [] f

theorem vectors_view {α : Type} [Inhabited α] {d : ℕ} (f : List ℕ → Fin d → α) :
    (vectors rs f).at key = .ok (vectors v.rshape fun j => f (v.map j)) := by
  refine (Arr.at_ofFn hk hv [d] _).trans ?_
  congr 1
  refine Arr.ext rfl fun j hj => ?_
  have hj : inB (d :: v.rshape) j = true := hj
  cases j with
  | nil => simp [inB] at hj
  | cons k j => rw [vectors, Arr.ofFn_get hj]; exact Arr.ofFn_get hj

theorem matrices_view {α : Type} [Inhabited α] {d : ℕ} (f : List ℕ → Matrix (Fin d) (Fin d) α) :
    (matrices rs f).at key = .ok (matrices v.rshape fun j => f (v.map j)) := by
  refine (Arr.at_ofFn hk hv [d, d] _).trans ?_
  congr 1
  refine Arr.ext rfl fun j hj => ?_
  have hj : inB (d :: d :: v.rshape) j = true := hj
  match j, hj with
  | [], hj => simp [inB] at hj
  | [_], hj => simp [inB] at hj
  | k :: l :: j, hj => rw [matrices, Arr.ofFn_get hj]; exact Arr.ofFn_get hj

end

section

variable {C : Type} [ClassTable C]

theorem TreeRel.at {key : Subscript} {d e : Dist C} (h : TreeRel (fun a b => Val.at key a = .ok b) d e)
    (hd : WF d) (he : WF e) {infos : List (Info C)} (hi : infosOf d = .ok infos) : d.at key = .ok e := by
  obtain ⟨ps, e1, e2⟩ := TreeRel.rebuild h hd he hi
  unfold Dist.at
  rw [e1, hi]
  exact e2

/-- The objects of a kind have subscripts. -/
structure Spec.Kind.Viewed (K : Kind C) : Prop where
  nat : ∀ ⦃key rs v⦄, Leading key → key.view rs.reverse = .ok v → ∀ p q,
    TreeRel (fun a b => Val.at key a = .ok b) (K.nat rs p q)
      (K.nat v.rshape (fun j => p (v.map j)) fun j => q (v.map j))
  exp : ∀ ⦃key rs v⦄, Leading key → key.view rs.reverse = .ok v → ∀ p χ,
    TreeRel (fun a b => Val.at key a = .ok b) (K.exp rs p χ)
      (K.exp v.rshape (fun j => p (v.map j)) fun j => χ (v.map j))

/-- `Kind.Viewed` for the parts of a joint distribution. -/
structure Spec.Parts.Viewed (R : Parts C) : Prop where
  nat : ∀ ⦃key rs v⦄, Leading key → key.view rs.reverse = .ok v → ∀ p q,
    TreeRels (fun a b => Val.at key a = .ok b) (R.nat rs p q)
      (R.nat v.rshape (fun j => p (v.map j)) fun j => q (v.map j))
  exp : ∀ ⦃key rs v⦄, Leading key → key.view rs.reverse = .ok v → ∀ p χ,
    TreeRels (fun a b => Val.at key a = .ok b) (R.exp rs p χ)
      (R.exp v.rshape (fun j => p (v.map j)) fun j => χ (v.map j))

theorem Spec.Parts.Viewed.ofList {l : List (String × Kind C)} (h : ∀ nk ∈ l, nk.2.Viewed) :
    (Parts.ofList l).Viewed := by
  induction l with
  | nil => exact ⟨fun _ _ _ _ _ _ _ => trivial, fun _ _ _ _ _ _ _ => trivial⟩
  | cons nk l ih =>
    have hK := h nk List.mem_cons_self
    have hR := ih fun nk hm => h nk (List.mem_cons_of_mem _ hm)
    exact ⟨fun _ _ _ hk hv p q => ⟨rfl, hK.nat hk hv _ _, hR.nat hk hv _ _⟩,
      fun _ _ _ hk hv p q => ⟨rfl, hK.exp hk hv _ _, hR.exp hk hv _ _⟩⟩

theorem Spec.Kind.Viewed.joint {c c' : C} {R : Parts C} (hR : R.Viewed) : (Kind.joint c c' R).Viewed where
  nat _ _ _ hk hv p q := ⟨rfl, .nil, hR.nat hk hv p q⟩
  exp _ _ _ hk hv p χ := ⟨rfl, .nil, hR.exp hk hv p χ⟩

/-- A layout whose arrays have subscripts. -/
def ViewedLayout {P N : Type} (lay : Layout P N) : Prop :=
  ∀ ⦃key rs v⦄, Leading key → key.view rs.reverse = .ok v → ∀ p q,
    List.Forall₂ (fun a b => Val.at key a = .ok b) (lay rs p q)
      (lay v.rshape (fun j => p (v.map j)) fun j => q (v.map j))

theorem Spec.Kind.Viewed.simple {P N E X : Type} [Sub N] {c c' : C}
    {nat : Layout P N} {exp : Layout P E}
    {obs : List ℕ → (List ℕ → X) → Val → Prop} {F : P → ExpFam N E X} {dom : P → N → Prop}
    {toNat : P → E → N} {ecm : P → E → ℝ} {ent : Prop} {domE : P → E → Prop}
    (hn : ViewedLayout nat) (he : ViewedLayout exp) :
    (Kind.simple c c' nat exp obs F toNat ecm ent dom domE).Viewed where
  nat _ _ _ hk hv p q := ⟨rfl, hn hk hv p q, trivial⟩
  exp _ _ _ hk hv p q := ⟨rfl, he hk hv p q, trivial⟩

end

/-! ### The layouts -/

theorem at_real {key : Subscript} {a b : Arr ℝ} (h : a.at key = .ok b) :
    Val.at key (.real a) = .ok (.real b) := by
  simp only [Val.at, h]; rfl

theorem at_complex {key : Subscript} {a b : Arr ℂ} (h : a.at key = .ok b) :
    Val.at key (.complex a) = .ok (.complex b) := by
  simp only [Val.at, h]; rfl

theorem at_int {key : Subscript} {a b : Arr ℤ} (h : a.at key = .ok b) :
    Val.at key (.int a) = .ok (.int b) := by
  simp only [Val.at, h]; rfl

theorem layS_at : ViewedLayout layS := fun _ _ _ hk hv _ _ =>
  .cons (at_real (scalars_view hk hv _)) .nil

theorem laySS_at : ViewedLayout laySS := fun _ _ _ hk hv _ _ =>
  .cons (at_real (scalars_view hk hv _)) (.cons (at_real (scalars_view hk hv _)) .nil)

theorem layV_at (d : ℕ) : ViewedLayout (layV d) := fun _ _ _ hk hv _ _ =>
  .cons (at_real (vectors_view hk hv _)) .nil

theorem layE_at (d : ℕ) : ViewedLayout (layE d) := fun _ _ _ hk hv _ _ =>
  .cons (at_real (vectors_view hk hv _)) .nil

theorem layVV_at (d : ℕ) : ViewedLayout (layVV d) := fun _ _ _ hk hv _ _ =>
  .cons (at_real (vectors_view hk hv _)) (.cons (at_real (vectors_view hk hv _)) .nil)

theorem layVS_at (d : ℕ) : ViewedLayout (layVS d) := fun _ _ _ hk hv _ _ =>
  .cons (at_real (vectors_view hk hv _)) (.cons (at_real (scalars_view hk hv _)) .nil)

theorem layVM_at (d : ℕ) : ViewedLayout (layVM d) := fun _ _ _ hk hv _ _ =>
  .cons (at_real (vectors_view hk hv _)) (.cons (at_real (matrices_view hk hv _)) .nil)

theorem layC_at : ViewedLayout layC := fun _ _ _ hk hv _ _ =>
  .cons (at_complex (scalars_view hk hv _)) .nil

theorem layCV_at (d : ℕ) : ViewedLayout (layCV d) := fun _ _ _ hk hv _ _ =>
  .cons (at_complex (vectors_view hk hv _)) .nil

theorem layCM_at (d : ℕ) : ViewedLayout (layCM d) := fun _ _ _ hk hv _ _ =>
  .cons (at_complex (matrices_view hk hv _)) .nil

theorem layCSC_at : ViewedLayout layCSC := fun _ _ _ hk hv _ _ =>
  .cons (at_complex (scalars_view hk hv _)) (.cons (at_real (scalars_view hk hv _))
    (.cons (at_complex (scalars_view hk hv _)) .nil))

theorem laySFixedInt_at : ViewedLayout laySFixedInt := fun _ _ _ hk hv _ _ =>
  .cons (at_real (scalars_view hk hv _)) (.cons (at_int (scalars_view hk hv _)) .nil)

theorem layFixedS_at : ViewedLayout layFixedS := fun _ _ _ hk hv _ _ =>
  .cons (at_real (scalars_view hk hv _)) (.cons (at_real (scalars_view hk hv _)) .nil)

theorem layVFixed_at (d : ℕ) : ViewedLayout (layVFixed d) := fun _ _ _ hk hv _ _ =>
  .cons (at_real (vectors_view hk hv _)) (.cons (at_real (scalars_view hk hv _)) .nil)

end Efax
