import Verif.Props.Rings

/-!
# C07, C08, C11, C12: exactly when the claims hold

The code violates these properties (`Verif/Props/Rings.lean`).  Here: for which inputs it does.
-/

namespace Efax

open Spec

/-! ## C07 -/

/-- **C07**, exactly: a complex parameter is decoded to a finite value, within the bounds, if no pair of
coordinates is (0, 0), and otherwise not at all. -/
theorem C07_complex_exact {mn : Arr ℝ} {mx : Option (Arr ℝ)} {n : ℕ} {batch : List ℕ} {y : Arr ℝ}
    (hy : y.rshape = (2 * n) :: batch) (hmn : IsBound mn batch) (hmx : ∀ M ∈ mx, IsBound M batch)
    (hb : ∀ j, inB batch j = true → 0 ≤ boundVal mn j ∧ ∀ M ∈ mx, 0 < boundVal M j) :
    (∃ a, (Ring.complex mn mx).unflattened true y = .ok (.complex a) ∧ a.rshape = n :: batch ∧
      ∀ k j, k < n → inB batch j = true → boundVal mn j < ‖a.get (k :: j)‖ ∧
        ∀ M ∈ mx, ‖a.get (k :: j)‖ < boundVal mn j + boundVal M j) ↔
    ∀ j, inB batch j = true → ∀ k < n, y.get (k :: j) ≠ 0 ∨ y.get ((n + k) :: j) ≠ 0 := by
  refine ⟨fun ⟨a, h, _⟩ j hj k hk => ?_, C07_complex_partial hy hmn hmx hb⟩
  by_contra hc
  push Not at hc
  rw [C07_complex_counterexample hy hmn hmx hb ⟨j, hj, k, hk, hc⟩] at h
  cases h

/-- **C07**, exactly: a vector is decoded to a finite vector inside the disk if no vector of the batch is
zero, and otherwise not at all. -/
theorem C07_circular_exact {radius : ℝ} {d : ℕ} {batch : List ℕ} {y : Arr ℝ} (hr : 0 < radius)
    (hd : 0 < d) (hy : y.rshape = d :: batch) :
    (∃ a, (Support.circular radius).unflattened true y d = .ok (.real a) ∧ a.rshape = d :: batch ∧
      ∀ j, inB batch j = true → ∑ k ∈ Finset.range d, a.get (k :: j) ^ 2 < radius ^ 2) ↔
    ∀ j, inB batch j = true → ∃ k < d, y.get (k :: j) ≠ 0 := by
  refine ⟨fun ⟨a, h, _⟩ j hj => ?_, C07_circular_partial hr hd hy⟩
  by_contra hc
  push Not at hc
  rw [C07_circular_counterexample hr hd hy ⟨j, hj, hc⟩] at h
  cases h

/-! ## C08 -/

theorem triu_diag {d k : ℕ} (hk : k < d) : (triu d).idxOf (k, k) = k * (2 * d + 1 - k) / 2 := by
  have hlen : ∀ k ≤ d, 2 * ((List.range k).flatMap fun r =>
      (List.range' r (d - r)).map fun c => (r, c)).length = k * (2 * d + 1 - k) := by
    intro k
    induction k with
    | zero => simp
    | succ k ih =>
      intro hk
      have := ih (by omega)
      rw [List.range_succ, List.flatMap_append, List.length_append, mul_add, this]
      simp only [List.flatMap_cons, List.flatMap_nil, List.append_nil, List.length_map,
        List.length_range']
      obtain ⟨m, rfl⟩ : ∃ m, d = k + 1 + m := ⟨d - (k + 1), by omega⟩
      rw [show 2 * (k + 1 + m) + 1 - k = k + 2 * m + 3 by omega,
        show 2 * (k + 1 + m) + 1 - (k + 1) = k + 2 * m + 2 by omega,
        show k + 1 + m - k = m + 1 by omega]
      ring
  have hl := hlen k hk.le
  have e : triu d = ((List.range k).flatMap fun r => (List.range' r (d - r)).map fun c => (r, c)) ++
      ((List.range' k (d - k)).flatMap fun r => (List.range' r (d - r)).map fun c => (r, c)) := by
    rw [triu, ← List.flatMap_append]
    congr 1
    rw [List.range_eq_range', List.range_eq_range']
    have := List.range'_append_1 (s := 0) (m := k) (n := d - k)
    rw [zero_add, show k + (d - k) = d by omega] at this
    exact this.symm
  rw [e, List.idxOf_append_of_notMem]
  · rw [show d - k = (d - k - 1) + 1 by omega, List.range'_succ, List.flatMap_cons,
      show d - k = (d - k - 1) + 1 by omega, List.range'_succ, List.map_cons, List.cons_append,
      List.idxOf_cons_self]
    omega
  · simp only [List.mem_flatMap, List.mem_range, List.mem_map, Prod.mk.injEq, not_exists, not_and]
    intro r hr c _ h
    omega

theorem complexUnflat_scale {mn : ℝ} {mx : Option ℝ} {c x : ℂ} (h : Ring.complexUnflat mn mx c = some x) :
    ∃ t : ℝ, x = t * c := by
  have key : ∀ {u : ℝ}, cdiv? (c * (u : ℂ)) ‖c‖ = some x → ∃ t : ℝ, x = t * c := by
    intro u h
    simp only [cdiv?] at h
    split_ifs at h with h0
    cases h
    exact ⟨u / ‖c‖, by push_cast; ring⟩
  cases mx with
  | none => exact key h
  | some M => exact key h

/-- A decoded complex number is a real multiple of the pair of coordinates. -/
theorem unflattened_complex_scale {mn : Arr ℝ} {mx : Option (Arr ℝ)} {mapped : Bool} {n : ℕ}
    {batch : List ℕ} {y : Arr ℝ} (hf : InFlat (.complex mn mx) mapped n batch y) :
    ∃ a, (Ring.complex mn mx).unflattened mapped y = .ok (.complex a) ∧ a.rshape = n :: batch ∧
      ∀ k j, k < n → inB batch j = true → ∃ t : ℝ, t ≠ 0 ∧
        a.get (k :: j) = t * ⟨y.get (k :: j), y.get ((n + k) :: j)⟩ := by
  obtain ⟨v, h1, h2, _⟩ := Ring.roundtrip' hf
  obtain ⟨c, c1, c2, c3⟩ := splitReIm_ok hf.1
  cases mapped with
  | false =>
    simp only [Ring.unflattened, c1, bind, Except.bind, Bool.false_eq_true, if_false, Except.ok.injEq] at h1 ⊢
    exact ⟨c, rfl, c2, fun k j hk hj => ⟨1, one_ne_zero, by rw [c3 k j hk hj]; simp⟩⟩
  | true =>
    cases v with
    | complex a =>
      refine ⟨a, h1, h2.1, fun k j hk hj => ?_⟩
      obtain ⟨hb1, hb2, hb⟩ := hf.2 rfl
      have hb2' : Ring.boundsOk mn mx c.rshape = true := by rw [c2]; exact boundsOk_of hb1 hb2
      simp only [Ring.unflattened, c1, bind, Except.bind, if_true, hb2'] at h1
      cases hm : c.mapE fun i v => Ring.complexUnflat (Ring.boundAt mn i) (mx.map (Ring.boundAt · i)) v with
      | error e => rw [hm] at h1; cases h1
      | ok a' =>
        rw [hm] at h1
        cases h1
        have hi : inB (n :: batch) (k :: j) = true := (inB_cons ..).2 ⟨hk, hj⟩
        obtain ⟨m1, m2⟩ := Arr.mapE_eq_ok_iff.1 hm
        obtain ⟨t, ht⟩ := complexUnflat_scale (m2 (k :: j) (by rw [c2]; exact hi))
        rw [c3 k j hk hj] at ht
        refine ⟨t, fun h0 => ?_, ht⟩
        have := (h2.2 rfl).2.2 [k] j (by simp [inB, hk]) hj
        rw [show [k] ++ j = k :: j from rfl, ht, h0] at this
        simp only [Complex.ofReal_zero, zero_mul, norm_zero] at this
        linarith [this.1, this.2.1]
    | real a => exact h2.2.elim
    | bool a => exact h2.2.elim
    | int a => exact h2.2.elim

/-- **C08**, exactly: complex matrices, in either mode.  Decoding d(d+1) real numbers (in plane-mapped
mode, no pair of which is (0, 0)) and encoding the result returns the numbers.  The decoded matrix has
the declared symmetry unless the support is Hermitian and some coordinate for the imaginary part of a
diagonal entry is not zero. -/
theorem C08_decode_complex_exact {mn : Arr ℝ} {mx : Option (Arr ℝ)} {psd nsd herm mapped : Bool} {d : ℕ}
    {batch : List ℕ} {y : Arr ℝ} (hf : InFlat (.complex mn mx) mapped (d * (d + 1) / 2) batch y) :
    ∃ a, (Support.symmetric (.complex mn mx) psd nsd herm).unflattened mapped y d = .ok (.complex a) ∧
      a.rshape = [d, d] ++ batch ∧
      (Support.symmetric (.complex mn mx) psd nsd herm).flattened mapped (.complex a) = .ok y ∧
      (IsSymm herm d batch (.complex a) ↔ (herm = true → ∀ k j, k < d → inB batch j = true →
        y.get ((d * (d + 1) / 2 + k * (2 * d + 1 - k) / 2) :: j) = 0)) := by
  obtain ⟨v, h1, h2, h3⟩ := Support.roundtrip' (s := .symmetric (.complex mn mx) psd nsd herm)
    (mapped := mapped) (d := d) (batch := batch) (y := y) hf
  obtain ⟨x, x1, x2, x3⟩ := unflattened_complex_scale hf
  rw [← choose_two] at x2
  obtain ⟨b, b1, b2, b3, b4⟩ := symScatter_ok (if herm then star else id) x2
  have h1' := h1
  simp only [Support.unflattened, x1, bind, Except.bind, b1] at h1'
  cases h1'
  refine ⟨b, h1, b2, h3, ?_⟩
  have hdiag : ∀ k j, k < d → inB batch j = true → (star (b.get (k :: k :: j)) = b.get (k :: k :: j) ↔
      y.get ((d * (d + 1) / 2 + k * (2 * d + 1 - k) / 2) :: j) = 0) := by
    intro k j hk hj
    have hi : k * (2 * d + 1 - k) / 2 < d * (d + 1) / 2 := by
      rw [← triu_diag hk, ← choose_two, ← triu_length]
      exact List.idxOf_lt_length_of_mem (mem_triu.2 ⟨le_rfl, hk⟩)
    obtain ⟨t, ht, e⟩ := x3 _ j hi hj
    rw [b3 k k j le_rfl hk hj, triu_diag hk, e]
    constructor
    · intro h
      have := congrArg Complex.im h
      simp at this
      rcases (by
        have : t * y.get ((d * (d + 1) / 2 + k * (2 * d + 1 - k) / 2) :: j) = 0 := by linarith
        exact mul_eq_zero.1 this) with h | h
      · exact absurd h ht
      · exact h
    · intro h
      rw [h]
      apply Complex.ext <;> simp
  constructor
  · intro hs hh k j hk hj
    rw [← hdiag k j hk hj]
    have := hs k k j hk hk hj
    rw [hh] at this
    exact this.symm
  · intro hz r c j hr hc hj
    rcases lt_trichotomy r c with h | h | h
    · rw [b3 r c j h.le hc hj, b4 c r j h hc hj]
      cases herm
      · rfl
      · simp only [if_true]; exact (star_star _).symm
    · subst h
      cases herm
      · rfl
      · simp only [if_true]
        exact ((hdiag r j hr hj).2 (hz rfl r j hr hj)).symm
    · rw [b4 r c j h hr hj, b3 c r j h.le hr hj]
      cases herm <;> rfl

/-- Non-vacuity: six real numbers decode to a 2 × 2 complex matrix, in either mode; the imaginary parts
of the diagonal are the coordinates 3 and 5. -/
example (mapped : Bool) : InFlat Ring.complexField mapped (2 * (2 + 1) / 2) [] (Arr.full [6] 1) ∧
    2 * (2 + 1) / 2 + 0 * (2 * 2 + 1 - 0) / 2 = 3 ∧ 2 * (2 + 1) / 2 + 1 * (2 * 2 + 1 - 1) / 2 = 5 := by
  refine ⟨⟨rfl, fun _ => ⟨.inl rfl, by simp, fun j hj => ⟨?_, by simp, fun k hk => .inl ?_⟩⟩⟩, rfl, rfl⟩
  · simp [boundVal, Arr.full, Arr.ofFn, inB]
  · obtain rfl : j = [] := by cases j with | nil => rfl | cons _ _ => simp [inB] at hj
    have hk : k < 3 := hk
    rw [Arr.full, Arr.ofFn_get (by simp [inB]; omega)]
    exact one_ne_zero

/-! ## C11 -/

/-- **C11**, exactly: clamping a vector of non-negative numbers gives a point of the open simplex if and
only if, when the sum is at most `1 - e`, raising the entries to `e` keeps it below one, and otherwise,
after scaling the sum down to `1 - e`, raising the entries to `e` adds less than `e`. -/
theorem C11_clamp_exact {r : Ring} {e : ℝ} (he : 0 < e) (he' : e < 1 / 2) {n : ℕ}
    {batch : List ℕ} {a : Arr ℝ} (ha : a.rshape = n :: batch)
    (h0 : ∀ k j, k < n → inB batch j = true → 0 ≤ a.get (k :: j)) :
    ∃ b, (Support.simplex r).clamp e (.real a) = .ok (.real b) ∧
      (Spec.InOpenSimplex n batch b ↔ ∀ j, inB batch j = true →
        (∑ k ∈ Finset.range n, a.get (k :: j) ≤ 1 - e →
          ∑ k ∈ Finset.range n, max (a.get (k :: j)) e < 1) ∧
        (1 - e < ∑ k ∈ Finset.range n, a.get (k :: j) →
          ∑ k ∈ Finset.range n,
            max (e - a.get (k :: j) * ((1 - e) / ∑ k ∈ Finset.range n, a.get (k :: j))) 0 < e)) := by
  have h1 : (Support.simplex r).clamp e (.real a) = .ok (.real (Arr.ofFn (n :: batch) fun i =>
      let s := ∑ k ∈ Finset.range n, a.get (k :: i.tail)
      let factor := if s = 0 then 1 else min 1 ((1 - e) / s)
      min (max (a.get i * factor) e) (1 - e))) := by
    simp only [Support.clamp, Support.simplexClamp, ha]
    rfl
  refine ⟨_, h1, ?_⟩
  have hsum : ∀ j, inB batch j = true → ∀ b : Arr ℝ, b = (Arr.ofFn (n :: batch) fun i =>
      let s := ∑ k ∈ Finset.range n, a.get (k :: i.tail)
      let factor := if s = 0 then 1 else min 1 ((1 - e) / s)
      min (max (a.get i * factor) e) (1 - e)) →
      (∀ k < n, 0 < b.get (k :: j)) ∧
      (∑ k ∈ Finset.range n, a.get (k :: j) ≤ 1 - e →
        ∑ k ∈ Finset.range n, b.get (k :: j) = ∑ k ∈ Finset.range n, max (a.get (k :: j)) e) ∧
      (1 - e < ∑ k ∈ Finset.range n, a.get (k :: j) →
        ∑ k ∈ Finset.range n, b.get (k :: j) = (1 - e) + ∑ k ∈ Finset.range n,
          max (e - a.get (k :: j) * ((1 - e) / ∑ k ∈ Finset.range n, a.get (k :: j))) 0) := by
    rintro j hj b rfl
    have hle : ∀ k ∈ Finset.range n, a.get (k :: j) ≤ ∑ k ∈ Finset.range n, a.get (k :: j) := fun k hk =>
      Finset.single_le_sum (f := fun k => a.get (k :: j))
        (fun k hk => h0 k j (Finset.mem_range.1 hk) hj) hk
    have hs0 : 0 ≤ ∑ k ∈ Finset.range n, a.get (k :: j) :=
      Finset.sum_nonneg fun k hk => h0 k j (Finset.mem_range.1 hk) hj
    generalize hs : ∑ k ∈ Finset.range n, a.get (k :: j) = s at hle hs0
    refine ⟨fun k hk => ?_, fun hs1 => ?_, fun hs1 => ?_⟩
    · rw [Arr.ofFn_get ((inB_cons ..).2 ⟨hk, hj⟩)]
      exact lt_min (lt_max_of_lt_right he) (by linarith)
    · refine Finset.sum_congr rfl fun k hk => ?_
      rw [Arr.ofFn_get ((inB_cons ..).2 ⟨Finset.mem_range.1 hk, hj⟩)]
      simp only [List.tail_cons, hs]
      have hf : (if s = 0 then 1 else min 1 ((1 - e) / s)) = 1 := by
        split_ifs with h
        · rfl
        · exact min_eq_left ((one_le_div (lt_of_le_of_ne hs0 (Ne.symm h))).2 hs1)
      rw [hf, mul_one]
      exact min_eq_left (max_le ((hle k hk).trans hs1) (by linarith))
    · have hpos : 0 < s := by linarith
      have hstep : ∀ k ∈ Finset.range n, (Arr.ofFn (n :: batch) fun i =>
          let s := ∑ k ∈ Finset.range n, a.get (k :: i.tail)
          let factor := if s = 0 then 1 else min 1 ((1 - e) / s)
          min (max (a.get i * factor) e) (1 - e)).get (k :: j) =
          a.get (k :: j) * ((1 - e) / s) + max (e - a.get (k :: j) * ((1 - e) / s)) 0 := by
        intro k hk
        rw [Arr.ofFn_get ((inB_cons ..).2 ⟨Finset.mem_range.1 hk, hj⟩)]
        simp only [List.tail_cons, hs, if_neg hpos.ne']
        rw [min_eq_right ((div_le_one hpos).2 hs1.le)]
        have hle1 : a.get (k :: j) * ((1 - e) / s) ≤ 1 - e := by
          rw [← mul_div_assoc, div_le_iff₀ hpos, mul_comm]
          exact mul_le_mul_of_nonneg_left (hle k hk) (by linarith)
        rw [min_eq_left (max_le hle1 (by linarith)), ← max_add_add_left]
        ring_nf
        rw [max_comm]
      rw [Finset.sum_congr rfl hstep, Finset.sum_add_distrib, ← Finset.sum_mul, hs,
        mul_div_cancel₀ _ hpos.ne']
  constructor
  · rintro ⟨-, h⟩ j hj
    obtain ⟨-, e1, e2⟩ := hsum j hj _ rfl
    have := (h j hj).2
    refine ⟨fun hs => ?_, fun hs => ?_⟩
    · rwa [e1 hs] at this
    · rw [e2 hs] at this; linarith
  · intro h
    refine ⟨rfl, fun j hj => ?_⟩
    obtain ⟨e0, e1, e2⟩ := hsum j hj _ rfl
    obtain ⟨f1, f2⟩ := h j hj
    refine ⟨e0, ?_⟩
    rcases le_or_gt (∑ k ∈ Finset.range n, a.get (k :: j)) (1 - e) with hs | hs
    · rw [e1 hs]; exact f1 hs
    · rw [e2 hs]; linarith [f2 hs]

/-- Non-vacuity: both sides of the equivalence occur for two entries with margin 1/8: (1/4, 1/4) is
clamped into the open simplex, the vertex (1, 0) is not. -/
example : ∑ k ∈ Finset.range 2, max ((Arr.full [2] (1 / 4 : ℝ)).get [k]) (1 / 8) < 1 ∧
    ¬ ∑ k ∈ Finset.range 2, max ((1 / 8 : ℝ) - (if k = 0 then 1 else 0) * ((1 - 1 / 8) / 1)) 0 < 1 / 8 := by
  constructor
  · rw [Finset.sum_congr rfl fun k hk => by
      rw [Arr.full, Arr.ofFn_get (by simpa [inB] using hk)]]
    norm_num
  · norm_num [Finset.sum_range_succ]

/-! ## C12 -/

/-- **C12**, exactly: `unflattened` of the simplex accepts exactly the arrays of `dimensions`
coordinates, one more than `num_elements` announces and `flattened` produces. -/
theorem C12_unflattened_exact {mn mx : Option ℝ} {g : ℝ} {mapped : Bool} {n d : ℕ} {batch : List ℕ}
    {y : Arr ℝ} (hy : y.rshape = n :: batch) :
    ((∃ v, (Support.simplex (.real mn mx g)).unflattened mapped y d = .ok v) ↔ n = d) ∧
      (1 ≤ d → (Support.simplex (.real mn mx g)).numElements d + 1 = d) := by
  refine ⟨?_, fun hd => ?_⟩
  · have hl : (Val.real (if mapped then y.map (Ring.realUnflat mn mx) else y)).lastDim = .ok n := by
      have : (if mapped then y.map (Ring.realUnflat mn mx) else y).rshape = n :: batch := by
        split_ifs <;> exact hy
      simp [Val.lastDim, Val.rshape, this]
    simp only [Support.unflattened, Ring.unflattened, bind, Except.bind, hl]
    split_ifs with h <;> simp [h]
  · simp only [Support.numElements, Ring.numElements]
    omega

/-- Non-vacuity: an array of three coordinates. -/
example : (Arr.full [3, 4] (1 : ℝ)).rshape = 3 :: [4] := rfl

end Efax
