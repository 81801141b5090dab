import Verif.Model.Scipy.Shaped
import Verif.Lemmas.Calc
import Verif.Spec.Sequence
import Mathlib.Data.List.Lex
import Mathlib.Tactic.Ring

/-!
# Lemmas about loops over arrays of distributions
-/

namespace Efax

open Scipy

variable {α G : Type} [Inhabited α]

theorem inB_iff_forall₂ : ∀ {s i : List ℕ}, inB s i = true ↔ List.Forall₂ (· < ·) i s
  | [], [] => by simp [inB]
  | n :: s, k :: i => by simp [inB, inB_iff_forall₂ (s := s) (i := i)]
  | [], _ :: _ => by simp [inB]
  | _ :: _, [] => by simp [inB]

theorem inB_reverse {s i : List ℕ} : inB s.reverse i.reverse = true ↔ inB s i = true := by
  rw [inB_iff_forall₂, inB_iff_forall₂, List.forall₂_reverse_iff]

theorem mem_ndindex : ∀ {s i : List ℕ}, i ∈ ndindex s ↔ List.Forall₂ (· < ·) i s
  | [], i => by simp [ndindex]
  | n :: s, [] => by simp [ndindex]
  | n :: s, k :: i => by
    simp only [ndindex, List.mem_flatMap, List.mem_range, List.mem_map, List.cons.injEq,
      List.forall₂_cons]
    constructor
    · rintro ⟨a, ha, j, hj, rfl, rfl⟩
      exact ⟨ha, mem_ndindex.1 hj⟩
    · rintro ⟨hk, hi⟩
      exact ⟨k, hk, i, mem_ndindex.2 hi, rfl, rfl⟩

theorem ndindex_sorted : ∀ s : List ℕ, (ndindex s).Pairwise (List.Lex (· < ·))
  | [] => by simp [ndindex]
  | n :: s => by
    rw [ndindex, List.pairwise_flatMap]
    refine ⟨fun k _ => ?_, ?_⟩
    · rw [List.pairwise_map]
      exact (ndindex_sorted s).imp fun h => List.Lex.cons h
    · refine List.pairwise_lt_range.imp fun {a b} hab => ?_
      simp only [List.mem_map]
      rintro x ⟨i, _, rfl⟩ y ⟨j, _, rfl⟩
      exact List.Lex.rel hab

theorem ndindex_rowMajor (s : List ℕ) : Spec.RowMajor s (ndindex s) :=
  ⟨fun _ => mem_ndindex, ndindex_sorted s⟩

theorem lex_irrefl : ∀ i : List ℕ, ¬List.Lex (· < ·) i i
  | [], h => by cases h
  | k :: i, h => by
    cases h with
    | rel h => exact absurd h (lt_irrefl _)
    | cons h => exact lex_irrefl i h

theorem ndindex_nodup (s : List ℕ) : (ndindex s).Nodup :=
  (ndindex_sorted s).imp fun {a b} h => by
    rintro rfl
    exact lex_irrefl _ h

theorem assignable_self : ∀ s : List ℕ, assignable s s = true
  | [] => rfl
  | n :: s => by simp [assignable, assignable_self s]

/-- The part of the array at a leading index. -/
theorem index_of {a : Arr α} {s t key : List ℕ} (ha : a.rshape = (s ++ t).reverse)
    (hk : List.Forall₂ (· < ·) key s) :
    a.index key = .ok (Arr.ofFn t.reverse fun i => a.get (i ++ key.reverse)) := by
  have hl := hk.length_eq
  have hn : a.rshape.length - key.length = t.reverse.length := by
    rw [ha]; simp [hl]
  have ht : a.rshape.take t.reverse.length = t.reverse := by
    rw [ha, List.reverse_append, List.take_left]
  have hd : a.rshape.drop t.reverse.length = s.reverse := by
    rw [ha, List.reverse_append, List.drop_left]
  unfold Arr.index
  simp only [hn, ht, hd]
  rw [if_pos]
  refine ⟨?_, ?_⟩
  · rw [ha]; simp [hl]
  · rw [inB_reverse]; exact inB_iff_forall₂.2 hk

theorem assign_of {a v : Arr α} {s t key : List ℕ} (ha : a.rshape = (s ++ t).reverse)
    (hk : List.Forall₂ (· < ·) key s) :
    a.assign key v = if assignable t.reverse v.rshape then
      .ok (Arr.ofFn a.rshape fun i => if i.drop t.length = key.reverse
        then v.get (bidx v.rshape (i.take t.length)) else a.get i)
      else .error .valueError := by
  have hl := hk.length_eq
  have hn : a.rshape.length - key.length = t.length := by
    rw [ha]; simp [hl]
  have ht : a.rshape.take t.length = t.reverse := by
    rw [ha, List.reverse_append, ← List.length_reverse, List.take_left]
  have hd : a.rshape.drop t.length = s.reverse := by
    rw [ha, List.reverse_append, ← List.length_reverse, List.drop_left]
  unfold Arr.assign
  simp only [hn, ht, hd]
  rw [if_pos]
  refine ⟨?_, ?_⟩
  · rw [ha]; simp [hl]
  · rw [inB_reverse]; exact inB_iff_forall₂.2 hk

/-- After the assignment the part is the value, and other parts are what they were. -/
theorem assign_index {a v : Arr α} {s t key : List ℕ} (ha : a.rshape = (s ++ t).reverse)
    (hk : List.Forall₂ (· < ·) key s) (hv : v.rshape = t.reverse) :
    ∃ b, a.assign key v = .ok b ∧ b.rshape = (s ++ t).reverse ∧ b.index key = .ok v ∧
      ∀ key', List.Forall₂ (· < ·) key' s → key' ≠ key → b.index key' = a.index key' := by
  refine ⟨_, (assign_of ha hk).trans (if_pos (by rw [hv]; exact assignable_self _)), ha, ?_, ?_⟩
  · rw [index_of (a := Arr.ofFn _ _) ha hk]
    refine congrArg Except.ok (Arr.ext hv.symm fun i hi => ?_)
    have hi : inB t.reverse i = true := hi
    have hlen : i.length = t.length := by simpa using inB_length hi
    have hin : inB a.rshape (i ++ key.reverse) = true := by
      rw [ha, List.reverse_append, inB_append (inB_length hi)]
      exact ⟨hi, inB_reverse.2 (inB_iff_forall₂.2 hk)⟩
    rw [Arr.ofFn_get hi, Arr.ofFn_get hin, if_pos (by rw [← hlen, List.drop_left]), ← hlen,
      List.take_left, hv, bidx_self hi]
  · intro key' hk' hne
    rw [index_of (a := Arr.ofFn _ _) ha hk', index_of ha hk']
    refine congrArg Except.ok (Arr.ext rfl fun i hi => ?_)
    have hi : inB t.reverse i = true := hi
    have hlen : i.length = t.length := by simpa using inB_length hi
    have hin : inB a.rshape (i ++ key'.reverse) = true := by
      rw [ha, List.reverse_append, inB_append (inB_length hi)]
      exact ⟨hi, inB_reverse.2 (inB_iff_forall₂.2 hk')⟩
    rw [Arr.ofFn_get hi, Arr.ofFn_get hin, if_neg (by
      rw [← hlen, List.drop_left]
      exact fun h => hne (List.reverse_injective h)), Arr.ofFn_get hi]

variable {s t : List ℕ} {l : List (List ℕ)}

/-- Going through a list of indices with a generator. -/
theorem foldlM_draws {f : List ℕ → G → Except Err (Arr α × G)}
    (hf : ∀ i, List.Forall₂ (· < ·) i s → ∀ g, ∃ v g', f i g = .ok (v, g') ∧ v.rshape = t.reverse) :
    ∀ (l : List (List ℕ)) (_ : ∀ i ∈ l, List.Forall₂ (· < ·) i s) (_ : l.Nodup) (a : Arr α)
      (_ : a.rshape = (s ++ t).reverse) (g : G), ∃ b g' vs,
    l.foldlM (fun (ret : Arr α × G) i => do
      let v ← f i ret.2
      let a ← ret.1.assign i v.1
      Except.ok (a, v.2)) (a, g) = .ok (b, g') ∧ b.rshape = (s ++ t).reverse ∧
      Spec.DrawsInTurn (l.map f) g vs g' ∧ List.Forall₂ (fun i v => b.index i = .ok v) l vs ∧
      ∀ i, List.Forall₂ (· < ·) i s → i ∉ l → b.index i = a.index i
  | [], _, _, a, ha, g => ⟨a, g, [], rfl, ha, .nil g, .nil, fun _ _ _ => rfl⟩
  | i :: l, hl, hn, a, ha, g => by
    have hi := hl i (List.mem_cons_self ..)
    obtain ⟨v, g₁, h1, h2⟩ := hf i hi g
    obtain ⟨b, h3, h4, h5, h6⟩ := assign_index ha hi h2
    obtain ⟨c, g₂, vs, h7, h8, h9, h10, h11⟩ := foldlM_draws hf l
      (fun j hj => hl j (List.mem_cons_of_mem _ hj)) (List.nodup_cons.1 hn).2 b h4 g₁
    refine ⟨c, g₂, v :: vs, ?_, h8, .cons h1 h9, .cons ?_ h10, ?_⟩
    · rw [List.foldlM_cons]
      simp only [h1, h3, Bind.bind, Except.bind] at h7 ⊢
      exact h7
    · rw [h11 i hi (List.nodup_cons.1 hn).1, h5]
    · intro j hj hjl
      rw [h11 j hj fun h => hjl (List.mem_cons_of_mem _ h),
        h6 j hj fun h => hjl (h ▸ List.mem_cons_self ..)]

theorem fillM_draws {f : List ℕ → G → Except Err (Arr α × G)}
    (hf : ∀ i, List.Forall₂ (· < ·) i s → ∀ g, ∃ v g', f i g = .ok (v, g') ∧ v.rshape = t.reverse)
    (g : G) : ∃ b g' vs, fillM s t f g = .ok (b, g') ∧ b.rshape = (s ++ t).reverse ∧
      Spec.DrawsInTurn ((ndindex s).map f) g vs g' ∧
      List.Forall₂ (fun i v => b.index i = .ok v) (ndindex s) vs := by
  obtain ⟨b, g', vs, h1, h2, h3, h4, -⟩ := foldlM_draws hf (ndindex s) (fun i hi => mem_ndindex.1 hi)
    (ndindex_nodup s) (Arr.full (s ++ t).reverse default) rfl g
  exact ⟨b, g', vs, h1, h2, h3, h4⟩

/-- Going through a list of indices. -/
theorem foldlM_fill {f : List ℕ → Except Err (Arr α)} {v : List ℕ → Arr α}
    (hf : ∀ i, List.Forall₂ (· < ·) i s → f i = .ok (v i) ∧ (v i).rshape = t.reverse) :
    ∀ (l : List (List ℕ)) (_ : ∀ i ∈ l, List.Forall₂ (· < ·) i s) (_ : l.Nodup) (a : Arr α)
      (_ : a.rshape = (s ++ t).reverse), ∃ b,
    l.foldlM (fun (ret : Arr α) i => do ret.assign i (← f i)) a = .ok b ∧
      b.rshape = (s ++ t).reverse ∧ (∀ i ∈ l, b.index i = .ok (v i)) ∧
      ∀ i, List.Forall₂ (· < ·) i s → i ∉ l → b.index i = a.index i
  | [], _, _, a, ha => ⟨a, rfl, ha, by simp, fun _ _ _ => rfl⟩
  | i :: l, hl, hn, a, ha => by
    have hi := hl i (List.mem_cons_self ..)
    obtain ⟨h1, h2⟩ := hf i hi
    obtain ⟨b, h3, h4, h5, h6⟩ := assign_index ha hi h2
    obtain ⟨c, h7, h8, h10, h11⟩ := foldlM_fill hf l
      (fun j hj => hl j (List.mem_cons_of_mem _ hj)) (List.nodup_cons.1 hn).2 b h4
    refine ⟨c, ?_, h8, ?_, ?_⟩
    · rw [List.foldlM_cons]
      simp only [h1, h3, Bind.bind, Except.bind] at h7 ⊢
      exact h7
    · intro j hj
      rcases List.mem_cons.1 hj with rfl | hj
      · rw [h11 j hi (List.nodup_cons.1 hn).1, h5]
      · exact h10 j hj
    · intro j hj hjl
      rw [h11 j hj fun h => hjl (List.mem_cons_of_mem _ h),
        h6 j hj fun h => hjl (h ▸ List.mem_cons_self ..)]

theorem fill_spec {f : List ℕ → Except Err (Arr α)} {v : List ℕ → Arr α}
    (hf : ∀ i, List.Forall₂ (· < ·) i s → f i = .ok (v i) ∧ (v i).rshape = t.reverse) :
    ∃ b, fill s t f = .ok b ∧ b.rshape = (s ++ t).reverse ∧
      ∀ i, List.Forall₂ (· < ·) i s → b.index i = .ok (v i) := by
  obtain ⟨b, h1, h2, h3, -⟩ := foldlM_fill hf (ndindex s) (fun i hi => mem_ndindex.1 hi)
    (ndindex_nodup s) (Arr.full (s ++ t).reverse default) rfl
  exact ⟨b, h1, h2, fun i hi => h3 i (mem_ndindex.2 hi)⟩

/-- The first assignment decides whether the loop raises. -/
theorem fillM_error {f : List ℕ → G → Except Err (Arr α × G)} {g : G} {i : List ℕ} {l : List (List ℕ)}
    {v : Arr α} {g' : G} (hl : ndindex s = i :: l) (hv : f i g = .ok (v, g'))
    (ht : assignable t.reverse v.rshape = false) : fillM s t f g = .error .valueError := by
  have hi : List.Forall₂ (· < ·) i s := mem_ndindex.1 (hl ▸ List.mem_cons_self ..)
  unfold fillM
  rw [hl, List.foldlM_cons]
  simp only [hv, Bind.bind, Except.bind]
  rw [assign_of (s := s) (t := t) rfl hi, ht]
  rfl

theorem fill_error {f : List ℕ → Except Err (Arr α)} {i : List ℕ} {l : List (List ℕ)}
    {v : Arr α} (hl : ndindex s = i :: l) (hv : f i = .ok v)
    (ht : assignable t.reverse v.rshape = false) : fill s t f = .error .valueError := by
  have hi : List.Forall₂ (· < ·) i s := mem_ndindex.1 (hl ▸ List.mem_cons_self ..)
  unfold fill
  rw [hl, List.foldlM_cons]
  simp only [hv, Bind.bind, Except.bind]
  rw [assign_of (s := s) (t := t) rfl hi, ht]
  rfl

theorem ndindex_cons (hs : 0 ∉ s) : ∃ l, ndindex s = List.replicate s.length 0 :: l := by
  induction s with
  | nil => exact ⟨[], rfl⟩
  | cons n s ih =>
    simp only [List.mem_cons, not_or] at hs
    obtain ⟨l, hl⟩ := ih hs.2
    obtain ⟨m, rfl⟩ : ∃ m, n = m + 1 := ⟨n - 1, by omega⟩
    exact ⟨_, by rw [ndindex, List.range_succ_eq_map, List.flatMap_cons, hl, List.map_cons,
      List.cons_append]; rfl⟩

/-- An axis that is too many cannot be assigned. -/
theorem assignable_cons_self {n : ℕ} (hn : n ≠ 1) : ∀ s : List ℕ, assignable s (n :: s) = false
  | [] => by simp [assignable, hn]
  | m :: s => by
    by_cases h : n = m
    · subst h
      simp [assignable, assignable_cons_self hn s]
    · simp [assignable, h, hn]

/-! ### Reshaping squeezed arrays -/

theorem ravel_lt : ∀ {s i : List ℕ}, inB s i = true → ravel s i < s.prod
  | [], [], _ => by simp [ravel]
  | n :: s, k :: i, h => by
    simp only [inB, Bool.and_eq_true, decide_eq_true_eq] at h
    have h1 := ravel_lt h.2
    rw [ravel, List.prod_cons]
    calc k + n * ravel s i < n + n * ravel s i := by omega
      _ = n * (ravel s i + 1) := by ring
      _ ≤ n * s.prod := Nat.mul_le_mul_left _ h1
  | [], _ :: _, h => by simp [inB] at h
  | _ :: _, [], h => by simp [inB] at h

theorem unravel_ravel : ∀ {s i : List ℕ}, inB s i = true → unravel s (ravel s i) = i
  | [], [], _ => rfl
  | n :: s, k :: i, h => by
    simp only [inB, Bool.and_eq_true, decide_eq_true_eq] at h
    rw [ravel, unravel, Nat.add_mul_mod_self_left, Nat.mod_eq_of_lt h.1, Nat.add_mul_div_left _ _
      (by omega), Nat.div_eq_of_lt h.1, zero_add, unravel_ravel h.2]
  | [], _ :: _, h => by simp [inB] at h
  | _ :: _, [], h => by simp [inB] at h

theorem prod_filter_ne_one : ∀ s : List ℕ, (s.filter (· ≠ 1)).prod = s.prod
  | [] => rfl
  | n :: s => by
    by_cases h : n = 1
    · rw [List.filter_cons_of_neg (by simpa using h), List.prod_cons, h, one_mul,
        prod_filter_ne_one s]
    · rw [List.filter_cons_of_pos (by simpa using h), List.prod_cons, List.prod_cons,
        prod_filter_ne_one s]

theorem unsqueeze_unravel : ∀ {s : List ℕ} {k : ℕ},
    unsqueeze s (unravel (s.filter (· ≠ 1)) k) = unravel s k
  | [], _ => rfl
  | n :: s, k => by
    by_cases h : n = 1
    · subst h
      rw [List.filter_cons_of_neg (by simp), unsqueeze, if_pos rfl, unsqueeze_unravel, unravel,
        Nat.mod_one, Nat.div_one]
    · rw [List.filter_cons_of_pos (by simpa using h), unravel, unsqueeze, if_neg h, unravel]
      simp only [List.headD_cons, List.tail_cons]
      rw [unsqueeze_unravel]

theorem unravel_inB : ∀ {s : List ℕ} {k : ℕ}, k < s.prod → inB s (unravel s k) = true
  | [], _, _ => rfl
  | n :: s, k, h => by
    rw [List.prod_cons] at h
    have hn : 0 < n := by
      rcases Nat.eq_zero_or_pos n with rfl | h'
      · simp at h
      · exact h'
    simp only [unravel, inB, Bool.and_eq_true, decide_eq_true_eq]
    exact ⟨Nat.mod_lt _ hn, unravel_inB (Nat.div_lt_of_lt_mul h)⟩

/-- Reshaping undoes squeezing. -/
theorem reshape_squeeze (a : Arr α) : a.squeeze.reshape a.rshape = .ok a := by
  have hp : a.squeeze.rshape.prod = a.rshape.prod := prod_filter_ne_one _
  rw [Arr.reshape, if_pos hp]
  refine congrArg Except.ok (Arr.ext rfl fun i hi => ?_)
  have hi : inB a.rshape i = true := hi
  have hj : inB a.squeeze.rshape (unravel a.squeeze.rshape (ravel a.rshape i)) = true :=
    unravel_inB (hp ▸ ravel_lt hi)
  rw [Arr.ofFn_get hi]
  refine (Arr.ofFn_get hj).trans ?_
  change a.get (unsqueeze a.rshape (unravel (a.rshape.filter (· ≠ 1)) _)) = _
  rw [unsqueeze_unravel, unravel_ravel hi]

end Efax
