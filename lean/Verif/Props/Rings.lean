import Verif.Lemmas.Decode

/-!
# C06-C12: rings and supports
-/

namespace Efax

open Spec

/-! ## C06 -/

/-- **C06.** `RealField(minimum, maximum, min_open, max_open).unflattened(y, map_from_plane=True)`
is strictly inside the declared interval, with the margin eps at open ends, for every real array
`y`.  Only if both bounds are given must they be far enough apart for the margins. -/
theorem C06_real_field [MachEps] (mn mx : Option ℝ) (g : ℝ) (minOpen maxOpen : Bool) (y : Arr ℝ)
    (hb : ∀ m ∈ mn, ∀ M ∈ mx, MachEps.eps * (2 + |m| + |M|) < M - m) :
    ∃ a, (Ring.mkReal mn mx g minOpen maxOpen).unflattened true y = .ok (.real a) ∧
      a.rshape = y.rshape ∧ ∀ i, inB a.rshape i = true →
        (∀ m ∈ mn, m + (if minOpen then MachEps.eps else 0) < a.get i) ∧
        (∀ M ∈ mx, a.get i < M - (if maxOpen then MachEps.eps else 0)) := by
  have he := MachEps.pos
  have key : ∀ m : ℝ, copysign MachEps.eps m * m = MachEps.eps * |m| := by
    intro m
    unfold copysign
    split_ifs with h
    · rw [abs_of_nonneg h]
    · rw [abs_of_neg (not_le.1 h)]; ring
  have keyM : ∀ M : ℝ, copysign MachEps.eps (-M) * M = -(MachEps.eps * |M|) := by
    intro M
    have := key (-M)
    rw [abs_neg] at this
    linarith
  have hmin : ∀ m : ℝ, m + MachEps.eps ≤ Ring.openMin m ∧
      Ring.openMin m ≤ m + MachEps.eps * (1 + |m|) := by
    intro m
    refine ⟨le_max_left _ _, max_le ?_ ?_⟩
    · nlinarith [abs_nonneg m]
    · have := key m
      nlinarith [abs_nonneg m]
  have hmax : ∀ m : ℝ, Ring.openMax m ≤ m - MachEps.eps ∧
      m - MachEps.eps * (1 + |m|) ≤ Ring.openMax m := by
    intro m
    refine ⟨min_le_left _ _, le_min ?_ ?_⟩
    · nlinarith [abs_nonneg m]
    · have := keyM m
      nlinarith [abs_nonneg m]
  have hord : ∀ m ∈ (if minOpen then mn.map Ring.openMin else mn),
      ∀ M ∈ (if maxOpen then mx.map Ring.openMax else mx), m < M := by
    cases mn with
    | none => intro m hm; cases minOpen <;> simp at hm
    | some m0 =>
      cases mx with
      | none => intro m _ M hM; cases maxOpen <;> simp at hM
      | some M0 =>
        have h := hb m0 rfl M0 rfl
        have h1 := hmin m0
        have h2 := hmax M0
        intro m hm M hM
        have hm' : m ≤ m0 + MachEps.eps * (1 + |m0|) := by
          cases minOpen <;> simp at hm <;> subst hm
          · nlinarith [abs_nonneg m0]
          · exact h1.2
        have hM' : M0 - MachEps.eps * (1 + |M0|) ≤ M := by
          cases maxOpen <;> simp at hM <;> subst hM
          · nlinarith [abs_nonneg M0]
          · exact h2.2
        nlinarith
  refine ⟨y.map (Ring.realUnflat _ _), rfl, rfl, fun i hi => ?_⟩
  have hi : inB y.rshape i = true := hi
  rw [Arr.map_get hi]
  obtain ⟨h1, h2⟩ := Ring.realUnflat_mem hord (y.get i)
  constructor
  · intro m hm
    cases minOpen with
    | false => simpa using h1 m (by simpa using hm)
    | true =>
      have := h1 (Ring.openMin m) (by simpa using ⟨m, hm, rfl⟩)
      have := (hmin m).1
      simp only [if_true] at *
      linarith
  · intro M hM
    cases maxOpen with
    | false => simpa using h2 M (by simpa using hM)
    | true =>
      have := h2 (Ring.openMax M) (by simpa using ⟨M, hM, rfl⟩)
      have := (hmax M).1
      simp only [if_true] at *
      linarith

/-- Non-vacuity of C06: the ring (0, 1) of a probability. -/
example [MachEps] : ∀ m ∈ some (0 : ℝ), ∀ M ∈ some (1 : ℝ),
    MachEps.eps * (2 + |m| + |M|) < M - m := by
  have := MachEps.lt
  simp
  linarith

/-! ## C07 -/

/-- **C07**, the part that holds: away from the origin of the plane, a decoded complex parameter is
finite and its modulus is above `minimum_modulus` and below `minimum_modulus + maximum_modulus`. -/
theorem C07_complex_partial {mn : Arr ℝ} {mx : Option (Arr ℝ)} {n : ℕ} {batch : List ℕ} {y : Arr ℝ}
    (hy : y.rshape = (2 * n) :: batch) (hmn : IsBound mn batch) (hmx : ∀ M ∈ mx, IsBound M batch)
    (hb : ∀ j, inB batch j = true → 0 ≤ boundVal mn j ∧ ∀ M ∈ mx, 0 < boundVal M j)
    (h0 : ∀ j, inB batch j = true → ∀ k < n, y.get (k :: j) ≠ 0 ∨ y.get ((n + k) :: j) ≠ 0) :
    ∃ a, (Ring.complex mn mx).unflattened true y = .ok (.complex a) ∧ a.rshape = n :: batch ∧
      ∀ k j, k < n → inB batch j = true → boundVal mn j < ‖a.get (k :: j)‖ ∧
        ∀ M ∈ mx, ‖a.get (k :: j)‖ < boundVal mn j + boundVal M j := by
  have hf : InFlat (.complex mn mx) true n batch y :=
    ⟨hy, fun _ => ⟨hmn, hmx, fun j hj => ⟨(hb j hj).1, (hb j hj).2, h0 j hj⟩⟩⟩
  obtain ⟨v, h1, h2, _⟩ := Ring.roundtrip' hf
  cases v with
  | complex a =>
    refine ⟨a, h1, h2.1, fun k j hk hj => ?_⟩
    have := (h2.2 rfl).2.2 [k] j (by simp [inB, hk]) hj
    exact this.2
  | real a => exact h2.2.elim
  | bool a => exact h2.2.elim
  | int a => exact h2.2.elim

/-- **C07**, the part that holds for disks: away from the origin the decoded vector is finite and
inside the disk. -/
theorem C07_circular_partial {radius : ℝ} {d : ℕ} {batch : List ℕ} {y : Arr ℝ} (hr : 0 < radius)
    (hd : 0 < d) (hy : y.rshape = d :: batch)
    (h0 : ∀ j, inB batch j = true → ∃ k < d, y.get (k :: j) ≠ 0) :
    ∃ a, (Support.circular radius).unflattened true y d = .ok (.real a) ∧ a.rshape = d :: batch ∧
      ∀ j, inB batch j = true → ∑ k ∈ Finset.range d, a.get (k :: j) ^ 2 < radius ^ 2 := by
  have hf : FlatFits (.circular radius) true d batch y := by
    refine ⟨hy, fun _ => ⟨hr, fun j _ hj => ?_⟩⟩
    obtain ⟨k, hk, hne⟩ := h0 j hj
    exact Finset.sum_pos' (fun _ _ => sq_nonneg _)
      ⟨k, Finset.mem_range.2 hk, by positivity⟩
  obtain ⟨v, h1, h2, _⟩ := Support.roundtrip' hf
  cases v with
  | real a => exact ⟨a, h1, h2.1, fun j hj => ((h2.2 rfl).2 j hd hj).2⟩
  | complex a => exact h2.2.elim
  | bool a => exact h2.2.elim
  | int a => exact h2.2.elim

/-- Non-vacuity of the two partial theorems: one complex number, one vector, both non-zero. -/
example : (Arr.full [2] (1 : ℝ)).rshape = (2 * 1) :: [] ∧ IsBound (Arr.full [] 0) [] ∧
    (Arr.full [2] (1 : ℝ)).get [0] ≠ 0 := by
  refine ⟨rfl, .inl rfl, ?_⟩
  simp [Arr.full, Arr.ofFn, inB]

/-- **C07 is violated** by every complex ring: as soon as one coordinate pair is (0, 0), the decoded
value is 0/0. -/
theorem C07_complex_counterexample {mn : Arr ℝ} {mx : Option (Arr ℝ)} {n : ℕ} {batch : List ℕ}
    {y : Arr ℝ} (hy : y.rshape = (2 * n) :: batch) (hmn : IsBound mn batch)
    (hmx : ∀ M ∈ mx, IsBound M batch)
    (hb : ∀ j, inB batch j = true → 0 ≤ boundVal mn j ∧ ∀ M ∈ mx, 0 < boundVal M j)
    (h0 : ∃ j, inB batch j = true ∧ ∃ k < n, y.get (k :: j) = 0 ∧ y.get ((n + k) :: j) = 0) :
    (Ring.complex mn mx).unflattened true y = .error .nonFinite := by
  rcases Ring.decode (r := .complex mn mx) (mapped := true) (n := n) (batch := batch) (y := y)
    (fun _ => ⟨hmn, hmx, hb⟩) (by rw [hy, Ring.numElements, mul_comm]) with h | ⟨_, h⟩
  · obtain ⟨j, hj, k, hk, h1, h2⟩ := h0
    have := (h.2 rfl).2.2 j hj
    exact absurd (this.2.2 k hk) (by simp [h1, h2])
  · exact h

/-- **C07 is violated** by every disk of dimension at least one, at the zero vector. -/
theorem C07_circular_counterexample {radius : ℝ} {d : ℕ} {batch : List ℕ} {y : Arr ℝ}
    (hr : 0 < radius) (hd : 0 < d) (hy : y.rshape = d :: batch)
    (h0 : ∃ j, inB batch j = true ∧ ∀ k < d, y.get (k :: j) = 0) :
    (Support.circular radius).unflattened true y d = .error .nonFinite := by
  rcases Support.decode (s := .circular radius) (mapped := true) (d := d) (batch := batch) (y := y)
    (fun _ => hr) hy with h | ⟨_, h⟩
  · obtain ⟨j, hj, h1⟩ := h0
    have := (h.2 rfl).2 j hd hj
    rw [Finset.sum_eq_zero fun k hk => by rw [h1 k (Finset.mem_range.1 hk)]; simp] at this
    exact absurd this (lt_irrefl _)
  · exact h

/-- The witness: the scalar complex field (as used by the complex normal distributions), decoded
from (0, 0). -/
example : Ring.complexField.unflattened true (Arr.full [2] 0) = .error .nonFinite :=
  C07_complex_counterexample (n := 1) (batch := []) rfl (.inl rfl) (by simp)
    (fun j hj => ⟨by simp [boundVal, Arr.full, Arr.ofFn, inB], by simp⟩)
    ⟨[], rfl, 0, by simp, by simp [Arr.full, Arr.ofFn, inB], by simp [Arr.full, Arr.ofFn, inB]⟩

/-- **C07 is violated** in another way when both bounds of a complex ring are positive: the decoded
modulus can exceed `maximum_modulus` (for bounds 1 and 1 it always does). -/
theorem C07_max_modulus_counterexample {z : ℂ} (hz : z ≠ 0) :
    ∃ a, (Ring.complex (Arr.full [] 1) (some (Arr.full [] 1))).unflattened true
        (Arr.ofFn [2] fun i => if i = [0] then z.re else z.im) = .ok (.complex a) ∧
      a.rshape = [1] ∧ 1 < ‖a.get [0]‖ := by
  have hone : boundVal (Arr.full [] 1) [] = 1 := by simp [boundVal, Arr.full, Arr.ofFn, inB]
  obtain ⟨a, h1, h2, h3⟩ := C07_complex_partial (mn := Arr.full [] 1) (mx := some (Arr.full [] 1))
    (n := 1) (batch := []) (y := Arr.ofFn [2] fun i => if i = [0] then z.re else z.im) rfl (.inl rfl)
    (by simp [IsBound, Arr.full, Arr.ofFn])
    (fun j hj => by
      obtain rfl : j = [] := by cases j with | nil => rfl | cons _ _ => simp [inB] at hj
      simp [hone])
    (fun j hj k hk => by
      obtain rfl : j = [] := by cases j with | nil => rfl | cons _ _ => simp [inB] at hj
      obtain rfl : k = 0 := by omega
      rw [Arr.ofFn_get (by simp [inB]), Arr.ofFn_get (by simp [inB])]
      by_contra hcon
      push Not at hcon
      exact hz (Complex.ext (by simpa using hcon.1) (by simpa using hcon.2)))
  refine ⟨a, h1, h2, ?_⟩
  have := (h3 0 [] (by simp) rfl).1
  rwa [hone] at this

/-! ## C08, C09 -/

/-- **C08**, first part: encoding then decoding a symmetric (Hermitian) matrix is the identity, in
either mode. -/
theorem C08_roundtrip {r : Ring} {psd nsd herm mapped : Bool} {d : ℕ} {batch : List ℕ} {v : Val}
    (hv : InRing r mapped [d, d] batch v) (hs : IsSymm herm d batch v) :
    ∃ y, (Support.symmetric r psd nsd herm).flattened mapped v = .ok y ∧
      (Support.symmetric r psd nsd herm).unflattened mapped y d = .ok v := by
  obtain ⟨y, h1, _, h2⟩ := Support.roundtrip (s := .symmetric r psd nsd herm) ⟨hv, hs⟩
  exact ⟨y, h1, h2⟩

/-- Non-vacuity: a real symmetric matrix of ones. -/
example : InRing Ring.realField true [2, 2] [] (.real (Arr.full [2, 2] 1)) ∧
    IsSymm false 2 [] (.real (Arr.full [2, 2] 1)) := by
  refine ⟨⟨rfl, fun _ i hi => ⟨by simp, by simp⟩⟩, fun r c j hr hc hj => ?_⟩
  rw [Arr.full, Arr.ofFn_get (by simp [inB, hr, hc, hj]),
    Arr.ofFn_get (by simp [inB, hr, hc, hj])]

/-- **C08**, second part, real matrices: decoding any array of d(d+1)/2 real numbers gives a
symmetric d × d matrix, and encoding it again returns the array. -/
theorem C08_decode_real {mn mx : Option ℝ} {g : ℝ} {psd nsd herm mapped : Bool} {d : ℕ}
    {batch : List ℕ} {y : Arr ℝ} (hy : y.rshape = (d * (d + 1) / 2) :: batch)
    (hb : ∀ m ∈ mn, ∀ M ∈ mx, m < M) :
    ∃ a, (Support.symmetric (.real mn mx g) psd nsd herm).unflattened mapped y d = .ok (.real a) ∧
      a.rshape = [d, d] ++ batch ∧ IsSymm herm d batch (.real a) ∧
      (Support.symmetric (.real mn mx g) psd nsd herm).flattened mapped (.real a) = .ok y := by
  obtain ⟨v, h1, h2, h3⟩ := Support.roundtrip' (s := .symmetric (.real mn mx g) psd nsd herm)
    (mapped := mapped) (d := d) (batch := batch) (y := y) ⟨hy, fun _ => hb⟩
  cases v with
  | real a =>
    refine ⟨a, h1, h2.1, ?_, h3⟩
    simp only [Support.unflattened, Ring.unflattened, bind, Except.bind, Val.liftE] at h1
    set x : Arr ℝ := if mapped then y.map (Ring.realUnflat mn mx) else y with hx
    have hxs : x.rshape = (d + 1).choose 2 :: batch := by
      rw [choose_two, hx]; split_ifs <;> exact hy
    obtain ⟨b, b1, b2, b3, b4⟩ := symScatter_ok id hxs
    rw [b1] at h1
    cases h1
    intro r c j hr hc hj
    rcases lt_trichotomy r c with h | h | h
    · rw [b3 r c j h.le hc hj, b4 c r j h hc hj]; rfl
    · subst h; rfl
    · rw [b4 r c j h hr hj, b3 c r j h.le hr hj]; rfl
  | complex a => exact h2.2.elim
  | bool a => exact h2.2.elim
  | int a => exact h2.2.elim

/-- Non-vacuity: three real numbers and the unbounded ring. -/
example : (Arr.full [3, 4] (1 : ℝ)).rshape = (2 * (2 + 1) / 2) :: [4] ∧
    ∀ m ∈ (none : Option ℝ), ∀ M ∈ (none : Option ℝ), m < M := ⟨rfl, by simp⟩

/-- **C08**, second part, complex matrices, what holds: in raw mode, decoding any array of d(d+1)
real numbers gives a matrix whose entries on opposite sides of the diagonal are conjugate to each
other (Hermitian support) or equal, and encoding it again returns the array.  Missing: the diagonal
need not be real. -/
theorem C08_decode_complex_partial {mn : Arr ℝ} {mx : Option (Arr ℝ)} {psd nsd herm : Bool} {d : ℕ}
    {batch : List ℕ} {y : Arr ℝ} (hy : y.rshape = (2 * (d * (d + 1) / 2)) :: batch) :
    ∃ a, (Support.symmetric (.complex mn mx) psd nsd herm).unflattened false y d =
        .ok (.complex a) ∧ a.rshape = [d, d] ++ batch ∧
      (∀ r c j, c ≠ r → r < d → c < d → inB batch j = true →
        a.get (c :: r :: j) = if herm then star (a.get (r :: c :: j)) else a.get (r :: c :: j)) ∧
      (Support.symmetric (.complex mn mx) psd nsd herm).flattened false (.complex a) = .ok y := by
  obtain ⟨v, h1, h2, h3⟩ := Support.roundtrip' (s := .symmetric (.complex mn mx) psd nsd herm)
    (mapped := false) (d := d) (batch := batch) (y := y) ⟨hy, by simp⟩
  cases v with
  | complex a =>
    refine ⟨a, h1, h2.1, ?_, h3⟩
    obtain ⟨x, x1, x2, _⟩ := splitReIm_ok hy
    rw [← choose_two] at x2
    obtain ⟨b, b1, b2, b3, b4⟩ := symScatter_ok (if herm then star else id) x2
    simp only [Support.unflattened, Ring.unflattened, bind, Except.bind, x1,
      Bool.false_eq_true, if_false, b1] at h1
    cases h1
    intro r c j hne hr hc hj
    rcases lt_or_gt_of_ne hne with h | h
    · rw [b4 r c j h hr hj, b3 c r j h.le hr hj]
      cases herm <;> rfl
    · rw [b3 r c j h.le hc hj, b4 c r j h hc hj]
      cases herm
      · rfl
      · simp only [if_true]
        exact (star_star _).symm
  | real a => exact h2.2.elim
  | bool a => exact h2.2.elim
  | int a => exact h2.2.elim

/-- Non-vacuity: six real numbers decode to a 2 × 2 complex matrix. -/
example : (Arr.full [6] (1 : ℝ)).rshape = (2 * (2 * (2 + 1) / 2)) :: [] := rfl

/-- **C08 is violated** for Hermitian supports: decoding the pair (0, 1) gives the 1 × 1 matrix (i),
which is not Hermitian. -/
theorem C08_hermitian_counterexample {psd nsd : Bool} :
    ∃ a, (Support.symmetric Ring.complexField psd nsd true).unflattened false
        (Arr.ofFn [2] fun i => if i = [0] then 0 else 1) 1 = .ok (.complex a) ∧
      a.rshape = [1, 1] ∧ ¬ IsSymm true 1 [] (.complex a) := by
  set y : Arr ℝ := Arr.ofFn [2] fun i => if i = [0] then 0 else 1 with hy
  have hys : y.rshape = (2 * 1) :: [] := rfl
  obtain ⟨x, x1, x2, x3⟩ := splitReIm_ok hys
  obtain ⟨b, b1, b2, b3, b4⟩ := symScatter_ok (d := 1) (if true then star else id) x2
  refine ⟨b, ?_, b2, ?_⟩
  · simp only [if_true] at b1
    simp only [Support.unflattened, Ring.complexField, Ring.unflattened, bind, Except.bind, x1,
      Bool.false_eq_true, if_false, if_true, b1]
    rfl
  · intro h
    have h := h 0 0 [] (by simp) (by simp) rfl
    rw [b3 0 0 [] le_rfl (by simp) rfl] at h
    have e : (triu 1).idxOf (0, 0) = 0 := rfl
    rw [e, x3 0 [] (by simp) rfl] at h
    have h1 : y.get [1 + 0] = 1 := by rw [hy, Arr.ofFn_get (by simp [inB])]; simp
    rw [h1] at h
    have := congrArg Complex.im h
    simp at this
    norm_num at this

/-- **C09.** Decoding a symmetric matrix from `k` real numbers succeeds exactly when k = d(d+1)/2 for
some d, and then gives a d × d matrix for that (unique) d. -/
theorem C09_triangular_lengths {psd nsd herm : Bool} {k dims : ℕ} {batch : List ℕ} {y : Arr ℝ}
    (hy : y.rshape = k :: batch) :
    (∀ d, k = d * (d + 1) / 2 → ∃ a, (Support.symmetric Ring.realField psd nsd herm).unflattened
        false y dims = .ok (.real a) ∧ a.rshape = [d, d] ++ batch) ∧
    ((¬ ∃ d, k = d * (d + 1) / 2) → (Support.symmetric Ring.realField psd nsd herm).unflattened
        false y dims = .error .valueError) := by
  constructor
  · rintro d rfl
    rw [← choose_two] at hy
    obtain ⟨b, b1, b2, _⟩ := symScatter_ok id hy
    refine ⟨b, ?_, b2⟩
    simp only [Support.unflattened, Ring.realField, Ring.unflattened, bind, Except.bind, Val.liftE,
      Bool.false_eq_true, if_false, b1]
    rfl
  · intro hk
    have : symScatter (α := ℝ) id y = .error .valueError := by
      have hl : y.lastDim = .ok k := by simp [Arr.lastDim, hy]
      simp only [symScatter, hl, bind, Except.bind]
      split_ifs with h1 h2
      · rfl
      · rfl
      · exfalso
        simp only [ne_eq, not_not] at h1 h2
        refine hk ⟨(Nat.sqrt (1 + 8 * k) - 1) / 2, ?_⟩
        set s := Nat.sqrt (1 + 8 * k) with hs
        obtain ⟨t, ht⟩ : ∃ t, s = 2 * t + 1 := ⟨s / 2, by omega⟩
        rw [ht] at h1 ⊢
        have e : (2 * t + 1 - 1) / 2 = t := by omega
        rw [e]
        have h3 : 2 * k = t * (t + 1) := by nlinarith
        omega
    simp only [Support.unflattened, Ring.realField, Ring.unflattened, bind, Except.bind, Val.liftE,
      Bool.false_eq_true, if_false, this]
    rfl

/-- Non-vacuity: 3 is triangular, 4 is not. -/
example : (3 = 2 * (2 + 1) / 2) ∧ ¬ ∃ d, 4 = d * (d + 1) / 2 := by
  refine ⟨rfl, ?_⟩
  rintro ⟨d, hd⟩
  have h2 : 2 ∣ d * (d + 1) := (Nat.even_mul_succ_self d).two_dvd
  have : d * (d + 1) = 8 := by omega
  rcases Nat.lt_or_ge d 3 with h | h
  · have : d * (d + 1) ≤ 2 * 3 := Nat.mul_le_mul (by omega) (by omega)
    omega
  · nlinarith

/-! ## C10 -/

/-- Within the bounds with a margin of `e`. -/
def Spec.Within (e : ℝ) (mn mx : Option ℝ) (x : ℝ) : Prop :=
  (∀ m ∈ mn, m + e ≤ x) ∧ ∀ M ∈ mx, x ≤ M - e

theorem realClamp_spec {mn mx : Option ℝ} {e : ℝ} (hb : ∀ m ∈ mn, ∀ M ∈ mx, m + e ≤ M - e) :
    (∀ x, Spec.Within e mn mx (Ring.realClamp e mn mx x)) ∧
    ∀ x, Spec.Within e mn mx x → Ring.realClamp e mn mx x = x := by
  constructor
  · intro x
    cases mn with
    | none =>
      cases mx with
      | none => exact ⟨by simp, by simp⟩
      | some M => exact ⟨by simp, by simp [Ring.realClamp]⟩
    | some m =>
      cases mx with
      | none => exact ⟨by simp [Ring.realClamp], by simp⟩
      | some M =>
        have := hb m rfl M rfl
        refine ⟨?_, by simp [Ring.realClamp]⟩
        simp [Ring.realClamp]
        exact this
  · rintro x ⟨h1, h2⟩
    unfold Ring.realClamp
    cases mn with
    | none =>
      cases mx with
      | none => rfl
      | some M => exact min_eq_left (h2 M rfl)
    | some m =>
      have h1 := h1 m rfl
      cases mx with
      | none => exact max_eq_left h1
      | some M =>
        change min (max x (m + e)) (M - e) = x
        rw [max_eq_left h1, min_eq_left (h2 M rfl)]

/-- **C10.** Clamping an array to a real ring gives entries within the bounds (with margin), changes
no entry that is already there, and the result can be flattened to the plane and back. -/
theorem C10_clamp {mn mx : Option ℝ} {g e : ℝ} (he : 0 < e)
    (hb : ∀ m ∈ mn, ∀ M ∈ mx, m + e ≤ M - e) (n : ℕ) (batch : List ℕ) (a : Arr ℝ)
    (ha : a.rshape = n :: batch) :
    ∃ b, (Ring.real mn mx g).clamp e (.real a) = .real b ∧ b.rshape = a.rshape ∧
      (∀ i, inB a.rshape i = true → Spec.Within e mn mx (b.get i) ∧
        (Spec.Within e mn mx (a.get i) → b.get i = a.get i)) ∧
      ∃ y, (Ring.real mn mx g).flattened true (.real b) = .ok y ∧
        (Ring.real mn mx g).unflattened true y = .ok (.real b) := by
  obtain ⟨hin, hid⟩ := realClamp_spec (e := e) hb
  have hb' : InRing (.real mn mx g) true [n] batch (.real (a.map (Ring.realClamp e mn mx))) := by
    refine ⟨ha, fun _ i hi => ?_⟩
    have hi : inB a.rshape i = true := by rw [ha]; exact hi
    rw [Arr.map_get hi]
    obtain ⟨h1, h2⟩ := hin (a.get i)
    exact ⟨fun m hm => by linarith [h1 m hm], fun M hM => by linarith [h2 M hM]⟩
  obtain ⟨y, y1, _, y2⟩ := Ring.roundtrip hb'
  refine ⟨_, rfl, rfl, fun i hi => ?_, y, y1, y2⟩
  rw [Arr.map_get hi]
  exact ⟨hin _, hid _⟩

/-- **C10.** Clamping is idempotent. -/
theorem C10_clamp_idempotent {mn mx : Option ℝ} {g e : ℝ} (he : 0 < e)
    (hb : ∀ m ∈ mn, ∀ M ∈ mx, m + e ≤ M - e) {n : ℕ} {batch : List ℕ} {a : Arr ℝ}
    (ha : a.rshape = n :: batch) :
    (Ring.real mn mx g).clamp e ((Ring.real mn mx g).clamp e (.real a)) =
      (Ring.real mn mx g).clamp e (.real a) := by
  obtain ⟨b, h1, h2, h3, _⟩ := C10_clamp (g := g) he hb n batch a ha
  obtain ⟨c, k1, k2, k3, _⟩ := C10_clamp (g := g) he hb n batch b (by rw [h2, ha])
  rw [h1, k1]
  congr 1
  exact Arr.ext k2 fun i hi => (k3 i (k2 ▸ hi)).2 (h3 i (by rw [← h2, ← k2]; exact hi)).1

/-- **C10.** Clamping is monotone, entry by entry. -/
theorem C10_clamp_monotone {mn mx : Option ℝ} {g e : ℝ} {a a' : Arr ℝ} (hs : a.rshape = a'.rshape)
    (h : ∀ i, inB a.rshape i = true → a.get i ≤ a'.get i) :
    ∃ b b', (Ring.real mn mx g).clamp e (.real a) = .real b ∧
      (Ring.real mn mx g).clamp e (.real a') = .real b' ∧
      ∀ i, inB a.rshape i = true → b.get i ≤ b'.get i := by
  refine ⟨_, _, rfl, rfl, fun i hi => ?_⟩
  rw [Arr.map_get hi, Arr.map_get (hs ▸ hi)]
  have := h i hi
  unfold Ring.realClamp
  cases mn <;> cases mx <;> simp only
  · exact this
  · exact min_le_min_right _ this
  · exact max_le_max_right _ this
  · exact min_le_min_right _ (max_le_max_right _ this)

/-- Non-vacuity of C10: the interval [0, 1] with margin 1/8. -/
example : (0 : ℝ) < 1 / 8 ∧ ∀ m ∈ some (0 : ℝ), ∀ M ∈ some (1 : ℝ), m + 1 / 8 ≤ M - 1 / 8 := by
  norm_num

/-! ## C11, C12 -/

/-- The entries of an array along its last axis add up to less than one and are positive. -/
def Spec.InOpenSimplex (n : ℕ) (batch : List ℕ) (a : Arr ℝ) : Prop :=
  a.rshape = n :: batch ∧ ∀ j, inB batch j = true →
    (∀ k < n, 0 < a.get (k :: j)) ∧ ∑ k ∈ Finset.range n, a.get (k :: j) < 1

/-- **C11**, what holds: the entries of the clamped vector are positive and below one, and if scaling
leaves every entry at least `e` then the result is in the open simplex. -/
theorem C11_clamp_partial {r : Ring} {e : ℝ} (he : 0 < e) (he' : e < 1 / 2) {n : ℕ}
    {batch : List ℕ} {a : Arr ℝ} (ha : a.rshape = n :: batch) :
    ∃ b, (Support.simplex r).clamp e (.real a) = .ok (.real b) ∧ b.rshape = a.rshape ∧
      (∀ i, inB a.rshape i = true → 0 < b.get i ∧ b.get i < 1) ∧
      ((∀ j, inB batch j = true → 0 < ∑ k ∈ Finset.range n, a.get (k :: j) ∧
        ∀ k < n, e ≤ a.get (k :: j) *
          min 1 ((1 - e) / ∑ k ∈ Finset.range n, a.get (k :: j))) →
        Spec.InOpenSimplex n batch b) := by
  have h1 : (Support.simplex r).clamp e (.real a) = .ok (.real (Arr.ofFn (n :: batch) fun i =>
      let s := ∑ k ∈ Finset.range n, a.get (k :: i.tail)
      let factor := if s = 0 then 1 else min 1 ((1 - e) / s)
      min (max (a.get i * factor) e) (1 - e))) := by
    simp only [Support.clamp, Support.simplexClamp, ha]
    rfl
  refine ⟨_, h1, by simp [ha], fun i hi => ?_, fun h => ⟨rfl, fun j hj => ⟨fun k hk => ?_, ?_⟩⟩⟩
  · rw [ha] at hi
    rw [Arr.ofFn_get hi]
    refine ⟨lt_min (lt_max_of_lt_right he) (by linarith), ?_⟩
    exact (min_le_right _ _).trans_lt (by linarith)
  · rw [Arr.ofFn_get ((inB_cons ..).2 ⟨hk, hj⟩)]
    exact lt_min (lt_max_of_lt_right he) (by linarith)
  · obtain ⟨hs, hk⟩ := h j hj
    set s := ∑ k ∈ Finset.range n, a.get (k :: j) with hsdef
    have h2 : ∀ k ∈ Finset.range n, (Arr.ofFn (n :: batch) fun i =>
        let s := ∑ k ∈ Finset.range n, a.get (k :: i.tail)
        let factor := if s = 0 then 1 else min 1 ((1 - e) / s)
        min (max (a.get i * factor) e) (1 - e)).get (k :: j) ≤
          a.get (k :: j) * min 1 ((1 - e) / s) := by
      intro k hk'
      rw [Arr.ofFn_get ((inB_cons ..).2 ⟨Finset.mem_range.1 hk', hj⟩)]
      simp only [List.tail_cons, ← hsdef, if_neg hs.ne']
      refine (min_le_left _ _).trans (max_le le_rfl (hk k (Finset.mem_range.1 hk')))
    refine (Finset.sum_le_sum h2).trans_lt ?_
    rw [← Finset.sum_mul, ← hsdef]
    calc s * min 1 ((1 - e) / s) ≤ s * ((1 - e) / s) :=
          mul_le_mul_of_nonneg_left (min_le_right _ _) hs.le
      _ = 1 - e := by field_simp
      _ < 1 := by linarith

/-- Non-vacuity: the vector (1/4, 1/4) with margin 1/8. -/
example : ∀ j, inB [] j = true → 0 < ∑ k ∈ Finset.range 2, (Arr.full [2] (1 / 4 : ℝ)).get (k :: j) ∧
    ∀ k < 2, 1 / 8 ≤ (Arr.full [2] (1 / 4 : ℝ)).get (k :: j) * min 1 ((1 - 1 / 8) /
      ∑ k ∈ Finset.range 2, (Arr.full [2] (1 / 4 : ℝ)).get (k :: j)) := by
  intro j hj
  obtain rfl : j = [] := by cases j with | nil => rfl | cons _ _ => simp [inB] at hj
  have h : ∀ k < 2, (Arr.full [2] (1 / 4 : ℝ)).get [k] = 1 / 4 := fun k hk =>
    Arr.ofFn_get (by simp [inB, hk])
  rw [Finset.sum_congr rfl fun k hk => h k (Finset.mem_range.1 hk)]
  refine ⟨by norm_num, fun k hk => ?_⟩
  rw [h k hk]
  norm_num

/-- **C11 is violated** in every dimension n ≥ 2: clamping the vertex (1, 0, ..., 0) of the simplex
gives a vector whose sum is at least 1. -/
theorem C11_clamp_counterexample {r : Ring} {e : ℝ} (he : 0 < e) (he' : e < 1 / 2) {n : ℕ}
    (hn : 2 ≤ n) :
    ∃ b, (Support.simplex r).clamp e (.real (Arr.ofFn [n] fun i => if i = [0] then 1 else 0)) =
        .ok (.real b) ∧ b.rshape = [n] ∧ 1 ≤ ∑ k ∈ Finset.range n, b.get [k] ∧
      ¬ Spec.InOpenSimplex n [] b := by
  set a : Arr ℝ := Arr.ofFn [n] fun i => if i = [0] then 1 else 0 with ha
  have hg : ∀ k < n, a.get [k] = if k = 0 then 1 else 0 := by
    intro k hk
    rw [ha, Arr.ofFn_get (by simp [inB, hk])]
    simp
  have hsum : ∑ k ∈ Finset.range n, a.get [k] = 1 := by
    rw [Finset.sum_congr rfl fun k hk => hg k (Finset.mem_range.1 hk)]
    simp
    omega
  have h1 : (Support.simplex r).clamp e (.real a) = .ok (.real (Arr.ofFn [n] fun i =>
      let s := ∑ k ∈ Finset.range n, a.get (k :: i.tail)
      let factor := if s = 0 then 1 else min 1 ((1 - e) / s)
      min (max (a.get i * factor) e) (1 - e))) := by
    simp only [Support.clamp, Support.simplexClamp, show a.rshape = n :: [] from rfl]
    rfl
  have key : ∀ k < n, (Arr.ofFn [n] fun i =>
      let s := ∑ k ∈ Finset.range n, a.get (k :: i.tail)
      let factor := if s = 0 then 1 else min 1 ((1 - e) / s)
      min (max (a.get i * factor) e) (1 - e)).get [k] = if k = 0 then 1 - e else e := by
    intro k hk
    rw [Arr.ofFn_get (by simp [inB, hk])]
    simp only [List.tail_cons, hsum, hg k hk, one_ne_zero, if_false, div_one]
    rw [min_eq_right (by linarith : 1 - e ≤ 1)]
    split_ifs with h
    · rw [one_mul, max_eq_left (by linarith), min_self]
    · rw [zero_mul, max_eq_right he.le, min_eq_left (by linarith)]
  have hge : 1 ≤ ∑ k ∈ Finset.range n, (if k = 0 then 1 - e else e) := by
    obtain ⟨m, rfl⟩ : ∃ m, n = m + 2 := ⟨n - 2, by omega⟩
    rw [Finset.sum_range_succ', Finset.sum_range_succ']
    simp only [if_true, Nat.succ_ne_zero, if_false]
    have : 0 ≤ ∑ k ∈ Finset.range m, (if k + 1 + 1 = 0 then 1 - e else e) :=
      Finset.sum_nonneg fun k _ => by simp [he.le]
    simp only [Nat.succ_ne_zero, if_false] at this
    linarith
  have hge' := hge
  rw [← Finset.sum_congr rfl fun k hk => key k (Finset.mem_range.1 hk)] at hge
  refine ⟨_, h1, rfl, hge, fun h => ?_⟩
  exact absurd (h.2 [] rfl).2 (not_lt.2 hge)

/-- **C12 is violated**, always: what `SimplexSupport.flattened` produces (for d dimensions it has
d - 1 coordinates) is rejected by `SimplexSupport.unflattened` with an assertion error. -/
theorem C12_simplex_counterexample {mn mx : Option ℝ} {g : ℝ} {mapped : Bool} {d : ℕ} (hd : 1 ≤ d)
    {batch : List ℕ} {v : Val} (hv : InRing (.real mn mx g) mapped [d - 1] batch v) :
    ∃ y, (Support.simplex (.real mn mx g)).flattened mapped v = .ok y ∧
      y.rshape = (Support.simplex (.real mn mx g)).numElements d :: batch ∧
      (Support.simplex (.real mn mx g)).unflattened mapped y d = .error .assertionError := by
  obtain ⟨y, h1, h2, h3⟩ := Ring.roundtrip hv
  refine ⟨y, h1, h2, ?_⟩
  have hl : v.lastDim = .ok (d - 1) := by
    have h : v.rshape = [d - 1] ++ batch := hv.1
    simp [Val.lastDim, h]
  simp only [Support.unflattened, h3, bind, Except.bind, hl]
  rw [if_neg (by omega)]

/-- The witness: a point of the 2-dimensional simplex support (one coordinate), e.g. of
`DirichletNP.domain_support()`. -/
example : InRing Ring.realField true [2 - 1] [] (.real (Arr.full [1] (1 / 4))) :=
  ⟨rfl, fun _ i _ => ⟨by simp, by simp⟩⟩

end Efax
