import Verif.Props.Subscript

/-!
# C95: what the keys select, and the keys that do not address the batch
-/

namespace Efax

open ClassTable Calc Spec

/-- **C95.** A slice selects the indices that the specification of slices selects, in steps of `step`
from the first one, and each of them once; only the step zero is an error. -/
theorem C95_slice (a b c : Option ℤ) (n : ℕ) :
    (sliceIndices a b c n = .error .valueError ↔ c = some 0) ∧
    (c ≠ some 0 → ∃ first len, sliceIndices a b c n = .ok (first, len, c.getD 1) ∧
      ∀ j : ℤ, Selected a b (c.getD 1) n j ↔ ∃ i : ℕ, i < len ∧ j = first + i * c.getD 1) := by
  have h0 : c.getD 1 = 0 ↔ c = some 0 := by cases c <;> simp
  have hne : c ≠ some 0 → ∃ first len, sliceIndices a b c n = .ok (first, len, c.getD 1) := fun h => by
    have h := h0.not.2 h
    unfold sliceIndices
    simp only [if_neg h]
    split_ifs <;> exact ⟨_, _, rfl⟩
  refine ⟨⟨fun h => ?_, fun h => ?_⟩, fun h => ?_⟩
  · by_contra hc
    obtain ⟨_, _, e⟩ := hne hc
    rw [e] at h
    cases h
  · unfold sliceIndices
    simp only [if_pos (h0.2 h)]
  · obtain ⟨first, len, e⟩ := hne h
    exact ⟨first, len, e, (sliceIndices_selected e).2⟩

/-- Non-vacuity of `C95_slice`: `[7:0:-3]` selects 4 and 1 of five entries. -/
example : Selected (some 7) (some 0) (-3) 5 4 ∧ Selected (some 7) (some 0) (-3) 5 1 ∧
    ¬ Selected (some 7) (some 0) (-3) 5 0 ∧ sliceIndices (some 7) (some 0) (some (-3)) 5 = .ok (4, 2, -3) := by
  refine ⟨⟨by decide, fun h => absurd h (by decide), fun _ => ⟨4, ?_⟩⟩,
    ⟨by decide, fun h => absurd h (by decide), fun _ => ⟨4, ?_⟩⟩, fun h => ?_, by decide⟩
  · simp [fromEnd]
  · simp [fromEnd]
  · obtain ⟨hi, h1, h2, h3, h4⟩ := h.2.2 (by decide)
    have := h4 0 rfl
    simp [fromEnd] at this

/-- **C95.** An integer is an index if and only if it is at least `-n` and less than `n`; negative
numbers count from the end. -/
theorem C95_integer (k : ℤ) (n j : ℕ) :
    axisIndex k n = .ok j ↔ (-n ≤ k ∧ k < n) ∧ (j : ℤ) = fromEnd n k := by
  constructor
  · intro h
    obtain ⟨h1, h2⟩ := axisIndex_ok h
    refine ⟨?_, h2⟩
    unfold fromEnd at h2
    split_ifs at h2 <;> omega
  · rintro ⟨⟨h1, h2⟩, h3⟩
    unfold fromEnd at h3
    unfold axisIndex
    split_ifs at h3 with h
    · rw [if_neg (by omega), if_pos (by omega)]
      congr 1
      omega
    · rw [if_pos (by omega)]
      congr 1
      omega

/-- Non-vacuity of `C95_integer`. -/
example : axisIndex (-1) 3 = .ok 2 := (C95_integer (-1) 3 2).2 (by decide)

/-- **C95.** An array of integers selects the entries with these indices. -/
theorem C95_array (ix : Arr ℤ) (n : ℕ) (s : List ℕ)
    (h : ∀ i, inB ix.rshape i = true → -n ≤ ix.get i ∧ ix.get i < n) :
    ∃ v, Subscript.view (.array ix) (n :: s) = .ok v ∧ v.shape = ix.rshape.reverse ++ s ∧
      ∀ i r, inB ix.rshape.reverse i = true → ∃ k : ℕ, v.source (i ++ r) = k :: r ∧
        (k : ℤ) = fromEnd n (ix.get i.reverse) := by
  refine ⟨_, if_pos ?_, rfl, fun i r hi => ⟨(fromEnd n (ix.get i.reverse)).toNat, ?_, ?_⟩⟩
  · simp only [List.all_eq_true, decide_eq_true_eq]
    intro i hi
    exact h _ (by rw [← inB_reverse, List.reverse_reverse]; exact mem_allIndices.1 hi)
  · have hl : i.length = ix.rshape.length := by simpa using inB_length hi
    simp only [← hl, List.take_left, List.drop_left]
    rfl
  · have := h _ (by rw [← inB_reverse, List.reverse_reverse]; exact hi)
    unfold fromEnd
    split_ifs <;> omega

/-- Non-vacuity of `C95_array`. -/
example : ∃ v, Subscript.view (.array (Arr.ofFn [2] fun _ => -1)) [3] = .ok v ∧ v.shape = [2] ∧
    v.source [1] = [2] := ⟨_, rfl, rfl, rfl⟩

theorem allIndices_sorted (s : List ℕ) : (allIndices s).Pairwise (· < ·) := by
  induction s with
  | nil => simp [allIndices]
  | cons n s ih =>
    simp only [allIndices, List.pairwise_flatMap, List.pairwise_map]
    refine ⟨fun k _ => ih.imp fun h => List.Lex.cons h, ?_⟩
    refine List.pairwise_lt_range.imp fun {a b} hab x hx y hy => ?_
    obtain ⟨x, -, rfl⟩ := List.mem_map.1 hx
    obtain ⟨y, -, rfl⟩ := List.mem_map.1 hy
    exact List.Lex.rel hab

/-- **C95.** A mask with the shape of the leading axes selects the entries where it is true, each of them
once and in row-major order. -/
theorem C95_mask (m : Arr Bool) (s : List ℕ) :
    ∃ (v : View) (chosen : List (List ℕ)), Subscript.view (.mask m) (m.rshape.reverse ++ s) = .ok v ∧
      v.shape = chosen.length :: s ∧ chosen.Pairwise (· < ·) ∧
      (∀ i, i ∈ chosen ↔ inB m.rshape.reverse i = true ∧ m.get i.reverse = true) ∧
      ∀ k (h : k < chosen.length) r, v.source (k :: r) = chosen[k] ++ r := by
  refine ⟨_, (allIndices m.rshape.reverse).filter fun i => m.get i.reverse, if_pos ?_, ?_,
    (allIndices_sorted _).filter _, fun i => ?_, fun k h r => ?_⟩
  · rw [List.take_left' (by simp)]
  · simp only [List.drop_left' (l₁ := m.rshape.reverse) (l₂ := s) (i := m.rshape.length) (by simp)]
  · rw [List.mem_filter, mem_allIndices]
  · simp only [List.headD_cons, List.tail_cons]
    rw [List.getD_eq_getElem?_getD, List.getElem?_eq_getElem h, Option.getD_some]

/-- Non-vacuity of `C95_mask`. -/
example : ∃ v, Subscript.view (.mask (Arr.ofFn [3] fun i => decide (i ≠ [1]))) [3] = .ok v ∧
    v.shape = [2] ∧ v.source [1] = [2] := ⟨_, rfl, rfl, rfl⟩

theorem Key.view_ints (key s : List ℕ) : Key.view (key.map fun k : ℕ => .int k) s =
    if key.length ≤ s.length ∧ inB (s.take key.length) key = true then
      .ok ⟨s.drop key.length, fun i => key ++ i⟩ else .error .indexError := by
  induction key generalizing s with
  | nil => simp [view, inB]; rfl
  | cons k key ih =>
    cases s with
    | nil => simp [view]
    | cons n s =>
      rw [List.map_cons, view, ih]
      by_cases hk : k < n
      · rw [(C95_integer k n k).2 ⟨by omega, by unfold fromEnd; rw [if_neg (by omega)]⟩]
        simp only [List.length_cons, List.take_succ_cons, inB, hk, decide_true, Bool.true_and,
          Nat.add_le_add_iff_right, List.drop_succ_cons, List.cons_append]
        split_ifs <;> rfl
      · clear ih
        have : axisIndex k n = .error .indexError := by
          unfold axisIndex
          rw [if_neg (by omega), if_neg (by omega)]
        rw [this]
        change Except.error _ = _
        rw [if_neg (by simp [inB, hk])]

theorem Arr.at_ints {α : Type} [Inhabited α] (a : Arr α) (key : List ℕ) :
    a.at (.basic (key.map fun k : ℕ => .int k)) = a.index key := by
  rw [Arr.at, Subscript.view, Key.view_ints, Arr.index]
  have e : (a.rshape.drop (a.rshape.length - key.length)).reverse = a.rshape.reverse.take key.length := by
    rw [List.take_reverse]
  have e2 : (a.rshape.take (a.rshape.length - key.length)).reverse = a.rshape.reverse.drop key.length := by
    rw [List.drop_reverse]
  have hc : (key.length ≤ a.rshape.length ∧
      inB (a.rshape.drop (a.rshape.length - key.length)) key.reverse = true) ↔
      key.length ≤ a.rshape.reverse.length ∧ inB (a.rshape.reverse.take key.length) key = true := by
    rw [List.length_reverse, ← e, ← inB_reverse, List.reverse_reverse]
  simp only [hc]
  split_ifs with h
  · change Except.ok _ = _
    congr 1
    simp only [← e2, List.reverse_reverse, List.reverse_append]
  · rfl

/-- Non-vacuity of `C95_getitem` and `C95_newaxis` below: see `C95_natural`, these keys have values. -/
example : ∃ v, Subscript.view (.basic [.int (2 : ℕ), .int (0 : ℕ)]) [3, 2, 4] = .ok v ∧ v.shape = [4] ∧
    v.source [1] = [2, 0, 1] := ⟨_, rfl, rfl, rfl⟩

/-- **C95.** With a tuple of integers that are not negative, this is the model of subscripts that the
other properties use. -/
theorem C95_getitem {C : Type} [ClassTable C] (d : Dist C) (key : List ℕ) :
    d.at (.basic (key.map fun k : ℕ => .int k)) = d.getitem key := by
  have : ∀ v : Val, v.at (.basic (key.map fun k : ℕ => .int k)) = v.index key := fun v => by
    cases v <;> simp only [Val.at, Val.index, Arr.at_ints]
  simp only [Dist.at, Dist.getitem, this]

theorem Key.view_newaxes (k : ℕ) (s : List ℕ) :
    Key.view (List.replicate k .newaxis ++ [.ellipsis]) s =
      .ok ⟨List.replicate k 1 ++ s, fun i => i.drop k⟩ := by
  induction k with
  | zero =>
    change (if hasEllipsis [] then _ else _) = _
    rw [if_neg (by decide)]
    change Except.ok _ = _
    simp [consumed]
  | succ k ih =>
    rw [List.replicate_succ, List.cons_append, Key.view_newaxis, ih]
    change Except.ok _ = _
    simp [List.replicate_succ]

/-- **C95.** The same for `newaxis` and an ellipsis. -/
theorem C95_newaxis {C : Type} [ClassTable C] (d : Dist C) (k : ℕ) :
    d.at (.basic (List.replicate k .newaxis ++ [.ellipsis])) = d.expand k := by
  have ha : ∀ {α : Type} [Inhabited α] (a : Arr α),
      a.at (.basic (List.replicate k .newaxis ++ [.ellipsis])) = .ok (a.expand k) := fun a => by
    rw [Arr.at, Subscript.view, Key.view_newaxes]
    change Except.ok _ = _
    congr 1
    refine Arr.ext (by simp [Arr.ofFn, Arr.expand]) fun j hj => ?_
    have hj : inB (List.replicate k 1 ++ a.rshape.reverse).reverse j = true := hj
    have hj' : inB (a.rshape ++ List.replicate k 1) j = true := by simpa using hj
    rw [Arr.expand, Arr.ofFn_get hj, Arr.ofFn_get hj']
    change a.get (j.reverse.drop k).reverse = _
    rw [List.drop_reverse, List.reverse_reverse]
    have := inB_length hj'
    rw [List.length_append, List.length_replicate] at this
    rw [this, Nat.add_sub_cancel]
  have : ∀ v : Val, v.at (.basic (List.replicate k .newaxis ++ [.ellipsis])) = .ok (v.expand k) := fun v => by
    cases v <;> simp only [Val.at, Val.expand, ha] <;> rfl
  simp only [Dist.at, Dist.expand, this]
  rfl

/-! ### Keys that do not address the batch -/

section

variable [MachEps] {solve : Solver} {search : Cls → List Val → Except Err (List Val)}

/-- The two vectors `(0, 1)` and `(0, 0)`. -/
def twoVectors (i : List ℕ) (k : Fin 2) : ℝ := if i = [0] ∧ k = 1 then 1 else 0

omit [MachEps] in
theorem twoVectors_last : (vectors [2] twoVectors).at (.basic [.ellipsis, .int 0]) =
    .ok (vectors [] fun _ (_ : Fin 2) => 0) := by
  change Except.ok _ = _
  congr 1
  refine Arr.ext rfl fun j hj => ?_
  have hj : inB [2] j = true := hj
  match j, hj with
  | [], hj => simp [inB] at hj
  | _ :: _ :: _, hj => simp [inB] at hj
  | [k], hj =>
    have hk : k < 2 := by simpa [inB] using hj
    refine (Arr.ofFn_get (rs := [2]) (by simpa [inB] using hk)).trans ?_
    refine Eq.trans ?_ (Arr.ofFn_get (by simpa [inB] using hk)).symm
    change (vectors [2] twoVectors).get [0, k] = if h : k < 2 then 0 else _
    rw [dif_pos hk, vectors, Arr.ofFn_get (by simpa [inB] using hk)]
    simp [twoVectors]

/-- **C95.** Violation: `[..., 0]` does not address the last axis of the batch if a parameter is a vector:
of two multivariate normal distributions with the means `(0, 1)` and `(0, 0)`, it makes one with the
mean `(0, 0)`, and its log-normalizer is not that of `d` at this key. -/
theorem C95_ellipsis_negation (hs : solve.For search) :
    ∃ d d' : Dist Cls, NaturalBatch [2] d ∧ d.at (.basic [.ellipsis, .int 0]) = .ok d' ∧
      NaturalBatch [] d' ∧
      ∃ a b, atKey (.basic [.ellipsis, .int 0]) (d.logNormalizer (library search)) = .ok a ∧
        d'.logNormalizer (library search) = .ok b ∧ a.rshape = [] ∧ b.rshape = [] ∧
        a.get [] ≠ b.get [] := by
  let K := Simple.kind solve (.mvUnit 2)
  have hK : LibraryKind solve K := .simple _
  have h := C51_library hs hK
  have hI := library_indexed hs hK
  refine ⟨K.nat [2] (fun _ => ()) twoVectors, K.nat [] (fun _ => ()) fun _ _ => 0, ?_, ?_, ?_, ?_⟩
  · exact ⟨hI.wfN _ _ _, rfl, ⟨2, trivial, .cons ⟨rfl, fun h => absurd h (by simp)⟩ .nil⟩, trivial⟩
  · obtain ⟨l, hl⟩ := hI.infosN [2] (fun _ => ()) twoVectors []
    exact TreeRel.at ⟨rfl, .cons (at_real twoVectors_last) .nil, trivial⟩ (hI.wfN _ _ _) (hI.wfN _ _ _) hl
  · exact ⟨hI.wfN _ _ _, rfl, ⟨2, trivial, .cons ⟨rfl, fun h => absurd h (by simp)⟩ .nil⟩, trivial⟩
  · have e1 := h.logNormalizer [2] (fun _ => ()) twoVectors
    have e2 := h.logNormalizer [] (fun _ => ()) fun _ _ => 0
    refine ⟨_, _, (congrArg (atKey _) e1).trans rfl, e2, rfl, rfl, ?_⟩
    change (mvUnit 2).logNormalizer (twoVectors [0]) ≠ (mvUnit 2).logNormalizer fun _ => 0
    norm_num [mvUnit, twoVectors]

/-- **C95.** Violation: a key that is too long for the batch is no error if the parameters have enough axes:
`d[0]` of one multivariate normal distribution is a distribution whose mean is not a vector. -/
theorem C95_too_long_negation : ∃ d d' : Dist Cls, NaturalBatch [] d ∧
    Subscript.view (.basic [.int 0]) [] = .error .indexError ∧ d.at (.basic [.int 0]) = .ok d' ∧
    ∀ rs, ¬ NaturalBatch rs d' := by
  have hw : ∀ a : Arr ℝ, WF (Dist.mk Cls.mvUnitNormalNP [.real a] .nil) := fun a => by
    refine ⟨rfl, ?_, List.nodup_nil, trivial⟩
    simp [isJoint, Cls.isJoint]
  refine ⟨.mk .mvUnitNormalNP [.real (vectors [] fun _ (_ : Fin 2) => 0)] .nil,
    .mk .mvUnitNormalNP [.real (scalars [] fun _ => 0)] .nil,
    ⟨hw _, rfl, ⟨2, trivial, .cons ⟨rfl, fun h => absurd h (by simp)⟩ .nil⟩, trivial⟩, rfl, ?_, ?_⟩
  · refine TreeRel.at (infos := [⟨[], .mvUnitNormalNP, 2, []⟩])
      ⟨rfl, .cons (at_real (congrArg Except.ok (Arr.ext rfl fun j hj => ?_))) .nil, trivial⟩ (hw _) (hw _) rfl
    have hj : inB [] j = true := hj
    refine (Arr.ofFn_get hj).trans (Eq.trans ?_ (Arr.ofFn_get hj).symm)
    cases j with
    | nil => exact Arr.ofFn_get (by simp [inB])
    | cons => simp [inB] at hj
  · rintro rs ⟨-, -, ⟨d, h1, h2⟩, -⟩
    cases h2 with
    | cons h2 _ =>
      have h : [] = [d] ++ rs := h2.1
      cases h

end

end Efax
