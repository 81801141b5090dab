import Verif.Lemmas.RingArr
import Mathlib.Data.List.Nodup
import Mathlib.Data.Nat.Choose.Sum
import Mathlib.Tactic.Ring

/-! # Round trips of the supports -/

namespace Efax

open Spec

/-! ## The upper triangle -/

theorem mem_triu {d r c : ℕ} : (r, c) ∈ triu d ↔ r ≤ c ∧ c < d := by
  simp only [triu, List.mem_flatMap, List.mem_range, List.mem_map, List.mem_range'_1, Prod.mk.injEq]
  constructor
  · rintro ⟨r', hr', c', hc', rfl, rfl⟩; omega
  · rintro ⟨h1, h2⟩; exact ⟨r, by omega, c, by omega, rfl, rfl⟩

theorem triu_nodup (d : ℕ) : (triu d).Nodup := by
  unfold triu
  rw [List.nodup_flatMap]
  constructor
  · intro r _
    exact (List.nodup_range' (step := 1)).map fun a b h => by simpa using h
  · refine List.Pairwise.imp ?_ List.nodup_range
    intro r r' hr
    simp only [Function.onFun, List.disjoint_left, List.mem_map, not_exists, not_and]
    rintro ⟨x, y⟩ ⟨c, _, hc⟩ c' _ hc'
    rw [← hc'] at hc
    simp only [Prod.mk.injEq] at hc
    exact hr hc.1

theorem triu_length (d : ℕ) : (triu d).length = (d + 1).choose 2 := by
  have : ∀ m ≤ d, ((List.range m).map fun r => d - r).sum = m * d - m.choose 2 := by
    intro m
    induction m with
    | zero => simp
    | succ m ih =>
      intro hm
      rw [List.range_succ, List.map_append, List.sum_append, ih (by omega)]
      simp only [List.map_cons, List.map_nil, List.sum_cons, List.sum_nil, add_zero]
      have h1 : (m + 1).choose 2 = m + m.choose 2 := by
        rw [Nat.choose_succ_succ' m 1, Nat.choose_one_right]
      have h2 : m.choose 2 ≤ m * d := by
        rw [Nat.choose_two_right]
        calc m * (m - 1) / 2 ≤ m * (m - 1) := Nat.div_le_self ..
          _ ≤ m * d := Nat.mul_le_mul_left _ (by omega)
      rw [h1, Nat.add_mul, one_mul]
      omega
  rw [triu, List.length_flatMap]
  simp only [List.length_map, List.length_range']
  rw [this d le_rfl]
  have h1 : (d + 1).choose 2 = d + d.choose 2 := by
    rw [Nat.choose_succ_succ' d 1, Nat.choose_one_right]
  have h2 : 2 * d.choose 2 = d * d - d := by
    have : d.choose 2 * 2 = d * (d - 1) := by
      rw [Nat.choose_two_right]
      exact Nat.div_mul_cancel (Nat.even_mul_pred_self d).two_dvd
    rw [mul_comm, this, Nat.mul_sub, mul_one]
  have h3 : d ≤ d * d := Nat.le_mul_self d
  omega

theorem choose_two (d : ℕ) : (d + 1).choose 2 = d * (d + 1) / 2 := by
  rw [Nat.choose_two_right, Nat.add_sub_cancel, mul_comm]

theorem eight_choose (d : ℕ) : 1 + 8 * (d + 1).choose 2 = (2 * d + 1) * (2 * d + 1) := by
  have : (d + 1).choose 2 * 2 = (d + 1) * d := by
    rw [Nat.choose_two_right, Nat.add_sub_cancel]
    exact Nat.div_mul_cancel (by
      have := (Nat.even_mul_succ_self d).two_dvd
      rwa [mul_comm] at this)
  have h : 8 * (d + 1).choose 2 = 4 * ((d + 1) * d) := by omega
  rw [h]; ring

theorem sqrt_eight_choose (d : ℕ) : Nat.sqrt (1 + 8 * (d + 1).choose 2) = 2 * d + 1 := by
  rw [eight_choose, Nat.sqrt_eq]

section gather

variable {α : Type} [Inhabited α]

theorem gather_ok {a : Arr α} {n m : ℕ} {rs : List ℕ} (ha : a.rshape = n :: m :: rs)
    (ix : List (ℕ × ℕ)) :
    ∃ x, a.gather ix = .ok x ∧ x.rshape = ix.length :: rs ∧
      ∀ k (hk : k < ix.length) j, inB rs j = true →
        x.get (k :: j) = a.get (ix[k].2 :: ix[k].1 :: j) := by
  obtain ⟨s, f, hf⟩ := a
  simp only at ha
  subst ha
  refine ⟨_, rfl, rfl, fun k hk j hj => ?_⟩
  rw [Arr.ofFn_get ((inB_cons ..).2 ⟨hk, hj⟩)]
  simp [List.getElem?_eq_getElem hk]

theorem scatter_ok {a x : Arr α} {n m : ℕ} {rs : List ℕ} (ha : a.rshape = n :: m :: rs)
    (ix : List (ℕ × ℕ)) (hx : x.rshape = ix.length :: rs) :
    ∃ b, a.scatter ix x = .ok b ∧ b.rshape = n :: m :: rs ∧
      ∀ r c j, c < n → r < m → inB rs j = true →
        b.get (c :: r :: j) =
          if (r, c) ∈ ix then x.get (ix.idxOf (r, c) :: j) else a.get (c :: r :: j) := by
  obtain ⟨s, f, hf⟩ := a
  obtain ⟨s', g, hg⟩ := x
  simp only at ha hx
  subst ha hx
  refine ⟨_, by simp only [Arr.scatter, and_self, if_true]; rfl, rfl, fun r c j hc hr hj => ?_⟩
  rw [Arr.ofFn_get ((inB_cons ..).2 ⟨hc, (inB_cons ..).2 ⟨hr, hj⟩⟩)]

/-- The reconstruction of a matrix from its upper triangle. -/
theorem symScatter_ok (cj : α → α) {x : Arr α} {d : ℕ} {rs : List ℕ}
    (hx : x.rshape = (d + 1).choose 2 :: rs) :
    ∃ b, symScatter cj x = .ok b ∧ b.rshape = d :: d :: rs ∧
      (∀ r c j, r ≤ c → c < d → inB rs j = true →
        b.get (c :: r :: j) = x.get ((triu d).idxOf (r, c) :: j)) ∧
      (∀ r c j, c < r → r < d → inB rs j = true →
        b.get (c :: r :: j) = cj (x.get ((triu d).idxOf (c, r) :: j))) := by
  have hlen : x.rshape = (triu d).length :: rs := by rw [triu_length, hx]
  obtain ⟨up, hup, hups, hupg⟩ := scatter_ok
    (a := (Arr.full (d :: d :: rs) default : Arr α)) (n := d) (m := d) (rs := rs) rfl (triu d) hlen
  have hsw : ∃ lo, up.swapLast = .ok lo ∧ lo.rshape = d :: d :: rs ∧
      ∀ k l j, k < d → l < d → inB rs j = true → lo.get (k :: l :: j) = up.get (l :: k :: j) := by
    obtain ⟨s, f, hf⟩ := up
    simp only at hups
    subst hups
    refine ⟨_, rfl, rfl, fun k l j hk hl hj => ?_⟩
    rw [Arr.ofFn_get ((inB_cons ..).2 ⟨hk, (inB_cons ..).2 ⟨hl, hj⟩⟩)]
  obtain ⟨lo, hlo, hlos, hlog⟩ := hsw
  obtain ⟨b, hb, hbs, hbg⟩ := scatter_ok (a := lo.map cj) (n := d) (m := d) (rs := rs) hlos
    (triu d) hlen
  refine ⟨b, ?_, hbs, fun r c j hrc hcd hj => ?_, fun r c j hcr hrd hj => ?_⟩
  · have e1 : x.lastDim = .ok ((d + 1).choose 2) := by
      unfold Arr.lastDim; rw [hx]
    have e2 : (2 * d + 1 - 1) / 2 = d := by omega
    simp only [symScatter, e1, bind, Except.bind, eight_choose, Nat.sqrt_eq, ne_eq,
      not_true_eq_false, if_false, e2]
    rw [if_neg (by omega), hx, List.tail_cons, hup]
    simp only [hlo, hb]
  · rw [hbg r c j hcd (by omega) hj, if_pos (mem_triu.2 ⟨hrc, hcd⟩)]
  · rw [hbg r c j (by omega) hrd hj, if_neg (by rw [mem_triu]; omega),
      Arr.map_get (by rw [hlos]; exact (inB_cons ..).2 ⟨by omega, (inB_cons ..).2 ⟨hrd, hj⟩⟩),
      hlog c r j (by omega) hrd hj, hupg c r j hrd (by omega) hj,
      if_pos (mem_triu.2 ⟨hcr.le, hrd⟩)]

theorem symGather_ok {a : Arr α} {d : ℕ} {rs : List ℕ} (ha : a.rshape = d :: d :: rs) :
    ∃ x, symGather a = .ok x ∧ x.rshape = (d + 1).choose 2 :: rs ∧
      ∀ r c j, r ≤ c → c < d → inB rs j = true →
        x.get ((triu d).idxOf (r, c) :: j) = a.get (c :: r :: j) := by
  obtain ⟨x, hx, hxs, hxg⟩ := gather_ok ha (triu d)
  refine ⟨x, by simp [symGather, ha, hx], by rw [hxs, triu_length], fun r c j hrc hcd hj => ?_⟩
  have hm := mem_triu.2 ⟨hrc, hcd⟩
  have hlt := List.idxOf_lt_length_of_mem hm
  rw [hxg _ hlt j hj, List.getElem_idxOf hlt]

/-- Gathering the upper triangle and scattering it back restores a symmetric matrix. -/
theorem symScatter_symGather (cj : α → α) {a : Arr α} {d : ℕ} {rs : List ℕ}
    (ha : a.rshape = d :: d :: rs)
    (hsym : ∀ r c j, c < r → r < d → inB rs j = true →
      a.get (c :: r :: j) = cj (a.get (r :: c :: j))) :
    ∃ x, symGather a = .ok x ∧ x.rshape = (d + 1).choose 2 :: rs ∧ symScatter cj x = .ok a := by
  obtain ⟨x, hx, hxs, hxg⟩ := symGather_ok ha
  obtain ⟨b, hb, hbs, hb1, hb2⟩ := symScatter_ok cj hxs
  refine ⟨x, hx, hxs, ?_⟩
  rw [hb]
  congr 1
  refine Arr.ext (by rw [hbs, ha]) fun i hi => ?_
  rw [hbs] at hi
  obtain ⟨c, i', rfl, hc, hi⟩ := inB_cons_elim hi
  obtain ⟨r, j, rfl, hr, hj⟩ := inB_cons_elim hi
  by_cases hrc : r ≤ c
  · rw [hb1 r c j hrc hc hj, hxg r c j hrc hc hj]
  · rw [hb2 r c j (by omega) hr hj, hxg c r j (by omega) hr hj, hsym r c j (by omega) hr hj]

theorem symGather_symScatter (cj : α → α) {x : Arr α} {d : ℕ} {rs : List ℕ}
    (hx : x.rshape = (d + 1).choose 2 :: rs) :
    ∃ b, symScatter cj x = .ok b ∧ b.rshape = d :: d :: rs ∧ symGather b = .ok x := by
  obtain ⟨b, hb, hbs, hb1, hb2⟩ := symScatter_ok cj hx
  obtain ⟨z, hz, hzs, hzg⟩ := symGather_ok hbs
  refine ⟨b, hb, hbs, ?_⟩
  rw [hz]
  congr 1
  refine Arr.ext (by rw [hzs, hx]) fun i hi => ?_
  rw [hzs] at hi
  obtain ⟨k, j, rfl, hk, hj⟩ := inB_cons_elim hi
  have hk' : k < (triu d).length := by rw [triu_length]; exact hk
  obtain ⟨⟨r, c⟩, hp⟩ : ∃ p, (triu d)[k] = p := ⟨_, rfl⟩
  have hm : (r, c) ∈ triu d := hp ▸ List.getElem_mem hk'
  obtain ⟨hrc, hcd⟩ := mem_triu.1 hm
  have hidx : (triu d).idxOf (r, c) = k := by
    rw [← hp]; exact (triu_nodup d).idxOf_getElem k hk'
  have := hzg r c j hrc hcd hj
  rw [hb1 r c j hrc hcd hj, hidx] at this
  exact this

/-! ## Row-major reshape -/

theorem mergeLast_ok {a : Arr α} {d : ℕ} {rs : List ℕ} (ha : a.rshape = d :: d :: rs) :
    ∃ x, a.mergeLast = .ok x ∧ x.rshape = (d * d) :: rs ∧
      ∀ k j, k < d * d → inB rs j = true → x.get (k :: j) = a.get (k % d :: k / d :: j) := by
  obtain ⟨s, f, hf⟩ := a
  simp only at ha
  subst ha
  refine ⟨_, rfl, rfl, fun k j hk hj => ?_⟩
  rw [Arr.ofFn_get ((inB_cons ..).2 ⟨hk, hj⟩)]

theorem splitLast_ok {x : Arr α} {d : ℕ} {rs : List ℕ} (hx : x.rshape = (d * d) :: rs) :
    ∃ a, x.splitLast d d = .ok a ∧ a.rshape = d :: d :: rs ∧
      ∀ q r j, q < d → r < d → inB rs j = true →
        a.get (q :: r :: j) = x.get ((r * d + q) :: j) := by
  obtain ⟨s, f, hf⟩ := x
  simp only at hx
  subst hx
  refine ⟨_, by simp only [Arr.splitLast, if_true]; rfl, rfl, fun q r j hq hr hj => ?_⟩
  rw [Arr.ofFn_get ((inB_cons ..).2 ⟨hq, (inB_cons ..).2 ⟨hr, hj⟩⟩)]

theorem mul_add_lt {d q r : ℕ} (hq : q < d) (hr : r < d) : r * d + q < d * d := by
  calc r * d + q < r * d + d := by omega
    _ = (r + 1) * d := by ring
    _ ≤ d * d := Nat.mul_le_mul_right _ hr

theorem splitLast_mergeLast {a : Arr α} {d : ℕ} {rs : List ℕ} (ha : a.rshape = d :: d :: rs) :
    ∃ x, a.mergeLast = .ok x ∧ x.rshape = (d * d) :: rs ∧ x.splitLast d d = .ok a := by
  obtain ⟨x, hx, hxs, hxg⟩ := mergeLast_ok ha
  obtain ⟨b, hb, hbs, hbg⟩ := splitLast_ok hxs
  refine ⟨x, hx, hxs, ?_⟩
  rw [hb]
  congr 1
  refine Arr.ext (by rw [hbs, ha]) fun i hi => ?_
  rw [hbs] at hi
  obtain ⟨q, i', rfl, hq, hi⟩ := inB_cons_elim hi
  obtain ⟨r, j, rfl, hr, hj⟩ := inB_cons_elim hi
  rw [hbg q r j hq hr hj, hxg _ j (mul_add_lt hq hr) hj]
  have e1 : (r * d + q) % d = q := by rw [add_comm, Nat.add_mul_mod_self_right, Nat.mod_eq_of_lt hq]
  have e2 : (r * d + q) / d = r := by
    rw [mul_comm, Nat.mul_add_div (by omega), Nat.div_eq_of_lt hq, add_zero]
  rw [e1, e2]

theorem mergeLast_splitLast {x : Arr α} {d : ℕ} {rs : List ℕ} (hx : x.rshape = (d * d) :: rs) :
    ∃ a, x.splitLast d d = .ok a ∧ a.rshape = d :: d :: rs ∧ a.mergeLast = .ok x := by
  obtain ⟨a, ha, has, hag⟩ := splitLast_ok hx
  obtain ⟨z, hz, hzs, hzg⟩ := mergeLast_ok has
  refine ⟨a, ha, has, ?_⟩
  rw [hz]
  congr 1
  refine Arr.ext (by rw [hzs, hx]) fun i hi => ?_
  rw [hzs] at hi
  obtain ⟨k, j, rfl, hk, hj⟩ := inB_cons_elim hi
  have hd : 0 < d := by
    rcases Nat.eq_zero_or_pos d with h | h
    · subst h; simp at hk
    · exact h
  rw [hzg k j hk hj, hag _ _ j (Nat.mod_lt _ hd) (Nat.div_lt_of_lt_mul hk) hj]
  congr 2
  rw [mul_comm, Nat.div_add_mod]

theorem idxLast_newaxis (a : Arr α) : a.newaxis.idxLast 0 = .ok a := by
  simp only [Arr.idxLast, Arr.newaxis, Arr.ofFn_rshape]
  rw [if_pos Nat.zero_lt_one]
  congr 1
  refine Arr.ext rfl fun i hi => ?_
  have hi : inB a.rshape i = true := hi
  rw [Arr.ofFn_get hi, Arr.ofFn_get ((inB_cons ..).2 ⟨Nat.zero_lt_one, hi⟩)]
  rfl

theorem newaxis_idxLast {x : Arr α} {rs : List ℕ} (hx : x.rshape = 1 :: rs) :
    ∃ a, x.idxLast 0 = .ok a ∧ a.rshape = rs ∧ a.newaxis = x := by
  obtain ⟨s, f, hf⟩ := x
  simp only at hx
  subst hx
  refine ⟨_, by simp only [Arr.idxLast]; rw [if_pos Nat.zero_lt_one], rfl, ?_⟩
  refine Arr.ext rfl fun i hi => ?_
  obtain ⟨k, j, rfl, hk, hj⟩ := inB_cons_elim hi
  have hj : inB rs j = true := hj
  have : k = 0 := by omega
  subst this
  rw [Arr.newaxis_get hi, Arr.ofFn_get hj]

end gather

/-! ## The ring condition is preserved by rearranging entries -/

/-- Every entry of `w` (shape `sup'`) is, in the same batch position, an entry of `v`. -/
def Rearr (sup sup' batch : List ℕ) : Val → Val → Prop
  | .real a, .real b => b.rshape = sup' ++ batch ∧ ∀ i', inB sup' i' = true →
      ∃ i, inB sup i = true ∧ ∀ j, inB batch j = true → b.get (i' ++ j) = a.get (i ++ j)
  | .complex a, .complex b => b.rshape = sup' ++ batch ∧ ∀ i', inB sup' i' = true →
      ∃ i, inB sup i = true ∧ ∀ j, inB batch j = true → ‖b.get (i' ++ j)‖ = ‖a.get (i ++ j)‖
  | .bool _, .bool b => b.rshape = sup' ++ batch
  | .int _, .int b => b.rshape = sup' ++ batch
  | _, _ => False

theorem inB_append_elim {s t i : List ℕ} (h : inB (s ++ t) i = true) :
    ∃ a b, i = a ++ b ∧ inB s a = true ∧ inB t b = true := by
  have hl := inB_length h
  rw [List.length_append] at hl
  refine ⟨i.take s.length, i.drop s.length, (List.take_append_drop ..).symm, ?_⟩
  rw [← inB_append (by rw [List.length_take]; omega), List.take_append_drop]
  exact h

theorem Spec.InRing.transfer {r : Ring} {m : Bool} {sup sup' batch : List ℕ} {v w : Val}
    (h : InRing r m sup batch v) (hr : Rearr sup sup' batch v w) : InRing r m sup' batch w := by
  obtain ⟨hs, h⟩ := h
  match r, v, w with
  | .real mn mx g, .real a, .real b =>
    refine ⟨hr.1, fun hm i hi => ?_⟩
    obtain ⟨i', j, rfl, hi', hj⟩ := inB_append_elim hi
    obtain ⟨i, hi, he⟩ := hr.2 i' hi'
    rw [he j hj]
    exact h hm _ ((inB_append (inB_length hi)).2 ⟨hi, hj⟩)
  | .complex mn mx, .complex a, .complex b =>
    refine ⟨hr.1, fun hm => ⟨(h hm).1, (h hm).2.1, fun i' j hi' hj => ?_⟩⟩
    obtain ⟨i, hi, he⟩ := hr.2 i' hi'
    rw [he j hj]
    exact (h hm).2.2 i j hi hj
  | .boolean, .bool _, .bool _ => exact ⟨hr, trivial⟩
  | .integral _ _, .int _, .int _ => exact ⟨hr, trivial⟩

theorem inB_nil_iff {i : List ℕ} : inB [] i = true ↔ i = [] := by cases i <;> simp [inB]

theorem inB_one_elim {n : ℕ} {i : List ℕ} (h : inB [n] i = true) : ∃ k, i = [k] ∧ k < n := by
  obtain ⟨k, i', rfl, hk, hi⟩ := inB_cons_elim h
  exact ⟨k, by rw [inB_nil_iff.1 hi], hk⟩

theorem inB_two_elim {n m : ℕ} {i : List ℕ} (h : inB [n, m] i = true) :
    ∃ k l, i = [k, l] ∧ k < n ∧ l < m := by
  obtain ⟨k, i', rfl, hk, hi⟩ := inB_cons_elim h
  obtain ⟨l, rfl, hl⟩ := inB_one_elim hi
  exact ⟨k, l, rfl, hk, hl⟩

theorem inB_one {n k : ℕ} (h : k < n) : inB [n] [k] = true := by simp [inB, h]

theorem inB_two {n m k l : ℕ} (h : k < n) (h' : l < m) : inB [n, m] [k, l] = true := by
  simp [inB, h, h']

theorem Rearr.newaxis {batch : List ℕ} {v : Val} (hv : v.rshape = batch) :
    Rearr [] [1] batch v v.newaxis := by
  have key : ∀ {α : Type} [Inhabited α] (a : Arr α), a.rshape = batch →
      ∀ i', inB [1] i' = true → ∃ i, inB [] i = true ∧ ∀ j, inB batch j = true →
        a.newaxis.get (i' ++ j) = a.get (i ++ j) := by
    intro α _ a ha i' hi'
    obtain ⟨k, rfl, hk⟩ := inB_one_elim hi'
    refine ⟨[], rfl, fun j hj => ?_⟩
    exact Arr.newaxis_get ((inB_cons ..).2 ⟨hk, by rw [ha]; exact hj⟩)
  cases v with
  | real a => exact ⟨congrArg (1 :: ·) hv, key a hv⟩
  | complex a =>
    refine ⟨congrArg (1 :: ·) hv, fun i' hi' => ?_⟩
    obtain ⟨i, hi, h⟩ := key a hv i' hi'
    exact ⟨i, hi, fun j hj => by rw [h j hj]⟩
  | bool a => exact congrArg (1 :: ·) hv
  | int a => exact congrArg (1 :: ·) hv

/-- Lifting an array-level statement to dtype-tagged arrays. -/
theorem liftE_rearr {f : {α : Type} → [Inhabited α] → Arr α → Except Err (Arr α)}
    {sup sup' batch : List ℕ} {v : Val} (hv : v.rshape = sup ++ batch)
    (h : ∀ {α : Type} [Inhabited α] (a : Arr α), a.rshape = sup ++ batch →
      ∃ b, f a = .ok b ∧ b.rshape = sup' ++ batch ∧ ∀ i', inB sup' i' = true →
        ∃ i, inB sup i = true ∧ ∀ j, inB batch j = true → b.get (i' ++ j) = a.get (i ++ j)) :
    ∃ w, v.liftE f = .ok w ∧ w.rshape = sup' ++ batch ∧ Rearr sup sup' batch v w := by
  cases v with
  | real a =>
    obtain ⟨b, hb, hs, hg⟩ := h a hv
    exact ⟨.real b, by simp [Val.liftE, hb], hs, hs, hg⟩
  | complex a =>
    obtain ⟨b, hb, hs, hg⟩ := h a hv
    refine ⟨.complex b, by simp [Val.liftE, hb], hs, hs, fun i' hi' => ?_⟩
    obtain ⟨i, hi, h⟩ := hg i' hi'
    exact ⟨i, hi, fun j hj => by rw [h j hj]⟩
  | bool a =>
    obtain ⟨b, hb, hs, hg⟩ := h a hv
    exact ⟨.bool b, by simp [Val.liftE, hb], hs, hs⟩
  | int a =>
    obtain ⟨b, hb, hs, hg⟩ := h a hv
    exact ⟨.int b, by simp [Val.liftE, hb], hs, hs⟩

/-- If `g` undoes `f` on arrays of the right shape, it does on values. -/
theorem liftE_inverse {f g : {α : Type} → [Inhabited α] → Arr α → Except Err (Arr α)}
    {rs : List ℕ} {v w : Val} (hv : v.rshape = rs) (hw : v.liftE f = .ok w)
    (h : ∀ {α : Type} [Inhabited α] (a b : Arr α), a.rshape = rs → f a = .ok b → g b = .ok a) :
    w.liftE g = .ok v := by
  cases v with
  | real a =>
    simp only [Val.liftE] at hw
    cases hfa : f a with
    | error e => rw [hfa] at hw; cases hw
    | ok b => rw [hfa] at hw; cases hw; simp [Val.liftE, h a b hv hfa]
  | complex a =>
    simp only [Val.liftE] at hw
    cases hfa : f a with
    | error e => rw [hfa] at hw; cases hw
    | ok b => rw [hfa] at hw; cases hw; simp [Val.liftE, h a b hv hfa]
  | bool a =>
    simp only [Val.liftE] at hw
    cases hfa : f a with
    | error e => rw [hfa] at hw; cases hw
    | ok b => rw [hfa] at hw; cases hw; simp [Val.liftE, h a b hv hfa]
  | int a =>
    simp only [Val.liftE] at hw
    cases hfa : f a with
    | error e => rw [hfa] at hw; cases hw
    | ok b => rw [hfa] at hw; cases hw; simp [Val.liftE, h a b hv hfa]

theorem symGather_rearr {α : Type} [Inhabited α] {d : ℕ} {batch : List ℕ} (a : Arr α)
    (ha : a.rshape = [d, d] ++ batch) :
    ∃ b, symGather a = .ok b ∧ b.rshape = [(d + 1).choose 2] ++ batch ∧
      ∀ i', inB [(d + 1).choose 2] i' = true → ∃ i, inB [d, d] i = true ∧
        ∀ j, inB batch j = true → b.get (i' ++ j) = a.get (i ++ j) := by
  obtain ⟨x, hx, hxs, hxg⟩ := gather_ok (a := a) ha (triu d)
  have ha' : a.rshape = d :: d :: batch := ha
  refine ⟨x, by simp [symGather, ha', hx], by rw [hxs, triu_length]; rfl, fun i' hi' => ?_⟩
  obtain ⟨k, rfl, hk⟩ := inB_one_elim hi'
  rw [← triu_length] at hk
  obtain ⟨hrc, hcd⟩ := mem_triu.1 (show ((triu d)[k].1, (triu d)[k].2) ∈ triu d from
    List.getElem_mem hk)
  exact ⟨[(triu d)[k].2, (triu d)[k].1], inB_two hcd (by omega), fun j hj => hxg k hk j hj⟩

theorem mergeLast_rearr {α : Type} [Inhabited α] {d : ℕ} {batch : List ℕ} (a : Arr α)
    (ha : a.rshape = [d, d] ++ batch) :
    ∃ b, a.mergeLast = .ok b ∧ b.rshape = [d * d] ++ batch ∧
      ∀ i', inB [d * d] i' = true → ∃ i, inB [d, d] i = true ∧
        ∀ j, inB batch j = true → b.get (i' ++ j) = a.get (i ++ j) := by
  obtain ⟨x, hx, hxs, hxg⟩ := mergeLast_ok ha
  refine ⟨x, hx, hxs, fun i' hi' => ?_⟩
  obtain ⟨k, rfl, hk⟩ := inB_one_elim hi'
  have hd : 0 < d := by
    rcases Nat.eq_zero_or_pos d with h | h
    · subst h; simp at hk
    · exact h
  exact ⟨[k % d, k / d], inB_two (Nat.mod_lt _ hd) (Nat.div_lt_of_lt_mul hk),
    fun j hj => hxg k j hk hj⟩

theorem splitLast_rearr {α : Type} [Inhabited α] {d : ℕ} {batch : List ℕ} (a : Arr α)
    (ha : a.rshape = [d * d] ++ batch) :
    ∃ b, a.splitLast d d = .ok b ∧ b.rshape = [d, d] ++ batch ∧
      ∀ i', inB [d, d] i' = true → ∃ i, inB [d * d] i = true ∧
        ∀ j, inB batch j = true → b.get (i' ++ j) = a.get (i ++ j) := by
  obtain ⟨x, hx, hxs, hxg⟩ := splitLast_ok ha
  refine ⟨x, hx, hxs, fun i' hi' => ?_⟩
  obtain ⟨q, r, rfl, hq, hr⟩ := inB_two_elim hi'
  exact ⟨[r * d + q], inB_one (mul_add_lt hq hr), fun j hj => hxg q r j hq hr hj⟩

theorem idxLast_rearr {α : Type} [Inhabited α] {batch : List ℕ} (a : Arr α)
    (ha : a.rshape = [1] ++ batch) :
    ∃ b, a.idxLast 0 = .ok b ∧ b.rshape = [] ++ batch ∧
      ∀ i', inB [] i' = true → ∃ i, inB [1] i = true ∧
        ∀ j, inB batch j = true → b.get (i' ++ j) = a.get (i ++ j) := by
  obtain ⟨b, hb, hbs, hba⟩ := newaxis_idxLast ha
  refine ⟨b, hb, hbs, fun i' hi' => ⟨[0], inB_one Nat.zero_lt_one, fun j hj => ?_⟩⟩
  rw [inB_nil_iff.1 hi', ← hba]
  exact (Arr.newaxis_get ((inB_cons ..).2 ⟨Nat.zero_lt_one, by rw [hbs]; exact hj⟩)).symm

/-- The matrix built from an upper triangle, for a conjugation that preserves the norm. -/
theorem symScatter_rearr {α : Type} [Inhabited α] {β : Type} (N : α → β) (cj : α → α)
    (hN : ∀ z, N (cj z) = N z) {d : ℕ} {batch : List ℕ} (x : Arr α)
    (hx : x.rshape = [(d + 1).choose 2] ++ batch) :
    ∃ b, symScatter cj x = .ok b ∧ b.rshape = [d, d] ++ batch ∧
      ∀ i', inB [d, d] i' = true → ∃ i, inB [(d + 1).choose 2] i = true ∧
        ∀ j, inB batch j = true → N (b.get (i' ++ j)) = N (x.get (i ++ j)) := by
  obtain ⟨b, hb, hbs, hb1, hb2⟩ := symScatter_ok cj hx
  refine ⟨b, hb, hbs, fun i' hi' => ?_⟩
  obtain ⟨c, r, rfl, hc, hr⟩ := inB_two_elim hi'
  have hlt : ∀ p ∈ triu d, (triu d).idxOf p < (d + 1).choose 2 := fun p hp => by
    rw [← triu_length]; exact List.idxOf_lt_length_of_mem hp
  by_cases hrc : r ≤ c
  · exact ⟨[(triu d).idxOf (r, c)], inB_one (hlt _ (mem_triu.2 ⟨hrc, hc⟩)),
      fun j hj => congrArg N (hb1 r c j hrc hc hj)⟩
  · exact ⟨[(triu d).idxOf (c, r)], inB_one (hlt _ (mem_triu.2 ⟨by omega, hr⟩)),
      fun j hj => (congrArg N (hb2 r c j (by omega) hr hj)).trans (hN _)⟩

theorem lastDim_of_rshape {v : Val} {n : ℕ} {rs : List ℕ} (h : v.rshape = n :: rs) :
    v.lastDim = .ok n := by simp [Val.lastDim, h]

theorem newaxis_rshape (v : Val) : v.newaxis.rshape = 1 :: v.rshape := by cases v <;> rfl

theorem liftE_newaxis (v : Val) : v.newaxis.liftE (·.idxLast 0) = .ok v := by
  cases v <;> simp [Val.newaxis, Val.liftE, idxLast_newaxis]

theorem newaxis_of_liftE {w v : Val} {rs : List ℕ} (hw : w.rshape = 1 :: rs)
    (h : w.liftE (·.idxLast 0) = .ok v) : v.newaxis = w := by
  cases w with
  | real a =>
    obtain ⟨b, hb, -, h3⟩ := newaxis_idxLast (x := a) hw
    simp only [Val.liftE, hb] at h; cases h; simp [Val.newaxis, h3]
  | complex a =>
    obtain ⟨b, hb, -, h3⟩ := newaxis_idxLast (x := a) hw
    simp only [Val.liftE, hb] at h; cases h; simp [Val.newaxis, h3]
  | bool a =>
    obtain ⟨b, hb, -, h3⟩ := newaxis_idxLast (x := a) hw
    simp only [Val.liftE, hb] at h; cases h; simp [Val.newaxis, h3]
  | int a =>
    obtain ⟨b, hb, -, h3⟩ := newaxis_idxLast (x := a) hw
    simp only [Val.liftE, hb] at h; cases h; simp [Val.newaxis, h3]

end Efax
