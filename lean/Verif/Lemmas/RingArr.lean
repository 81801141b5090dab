import Verif.Lemmas.Ring
import Verif.Spec.Fits

/-! # Array-level round trips of the rings -/

namespace Efax

open Spec

theorem boundAt_eq {b : Arr ℝ} {batch i j : List ℕ} (hb : IsBound b batch)
    (hj : inB batch j = true) : Ring.boundAt b (i ++ j) = boundVal b j := by
  have hl := inB_length hj
  rcases hb with h | h
  · simp [Ring.boundAt, boundVal, h]
  · by_cases h0 : b.rshape = []
    · simp [Ring.boundAt, boundVal, h0]
    · simp only [Ring.boundAt, boundVal, h0, if_false]
      congr 1
      rw [h, List.length_append, hl]
      simp

theorem boundAt_cons {b : Arr ℝ} {batch j : List ℕ} {k : ℕ} (hb : IsBound b batch)
    (hj : inB batch j = true) : Ring.boundAt b (k :: j) = boundVal b j :=
  boundAt_eq (i := [k]) hb hj

theorem boundOk_of {b : Arr ℝ} {batch : List ℕ} {n : ℕ} (hb : IsBound b batch) :
    Ring.boundOk b (n :: batch) := by
  rcases hb with h | h
  · simp [Ring.boundOk, h]
  · simp [Ring.boundOk, h]

theorem boundsOk_of {mn : Arr ℝ} {mx : Option (Arr ℝ)} {batch : List ℕ} {n : ℕ}
    (hb : IsBound mn batch) (hM : ∀ M ∈ mx, IsBound M batch) :
    Ring.boundsOk mn mx (n :: batch) = true := by
  simp only [Ring.boundsOk, Bool.and_eq_true, decide_eq_true_eq]
  refine ⟨boundOk_of hb, ?_⟩
  cases mx with
  | none => rfl
  | some M => simpa using boundOk_of (hM M rfl)

theorem concatReIm_ok {a : Arr ℂ} {n : ℕ} {rs : List ℕ} (ha : a.rshape = n :: rs) :
    ∃ y, Ring.concatReIm a = .ok y ∧ y.rshape = (n + n) :: rs ∧
      (∀ k j, k < n → inB rs j = true → y.get (k :: j) = (a.get (k :: j)).re) ∧
      (∀ k j, k < n → inB rs j = true → y.get ((n + k) :: j) = (a.get (k :: j)).im) := by
  obtain ⟨y, hy, hs, h1, h2⟩ := Arr.append_ok (a := a.map Complex.re) (b := a.map Complex.im)
    (n := n) (m := n) (rs := rs) ha ha
  refine ⟨y, hy, hs, fun k j hk hj => ?_, fun k j hk hj => ?_⟩
  · rw [h1 k j hk hj, Arr.map_get (by rw [ha]; exact (inB_cons ..).2 ⟨hk, hj⟩)]
  · rw [h2 k j hk hj, Arr.map_get (by rw [ha]; exact (inB_cons ..).2 ⟨hk, hj⟩)]

theorem splitReIm_ok {y : Arr ℝ} {n : ℕ} {rs : List ℕ} (hy : y.rshape = (2 * n) :: rs) :
    ∃ c, Ring.splitReIm y = .ok c ∧ c.rshape = n :: rs ∧
      ∀ k j, k < n → inB rs j = true →
        c.get (k :: j) = ⟨y.get (k :: j), y.get ((n + k) :: j)⟩ := by
  obtain ⟨s, f, hf⟩ := y
  simp only at hy
  subst hy
  have e : 2 * n / 2 = n := by omega
  refine ⟨_, by simp only [Ring.splitReIm, e, Nat.mul_mod_right, if_true]; rfl, rfl,
    fun k j hk hj => ?_⟩
  rw [Arr.ofFn_get ((inB_cons ..).2 ⟨hk, hj⟩)]

theorem splitReIm_concatReIm {a : Arr ℂ} {n : ℕ} {rs : List ℕ} (ha : a.rshape = n :: rs) :
    ∃ y, Ring.concatReIm a = .ok y ∧ y.rshape = (2 * n) :: rs ∧ Ring.splitReIm y = .ok a := by
  obtain ⟨y, hy, hs, h1, h2⟩ := concatReIm_ok ha
  have hs' : y.rshape = (2 * n) :: rs := by rw [hs]; congr 1; omega
  obtain ⟨c, hc, hcs, hcg⟩ := splitReIm_ok hs'
  refine ⟨y, hy, hs', ?_⟩
  rw [hc]
  congr 1
  refine Arr.ext (by rw [hcs, ha]) fun i hi => ?_
  rw [hcs] at hi
  obtain ⟨k, j, rfl, hk, hj⟩ := inB_cons_elim hi
  rw [hcg k j hk hj, h1 k j hk hj, h2 k j hk hj]

theorem concatReIm_splitReIm {y : Arr ℝ} {n : ℕ} {rs : List ℕ} (hy : y.rshape = (2 * n) :: rs) :
    ∃ c, Ring.splitReIm y = .ok c ∧ c.rshape = n :: rs ∧ Ring.concatReIm c = .ok y ∧
      ∀ k j, k < n → inB rs j = true →
        c.get (k :: j) = ⟨y.get (k :: j), y.get ((n + k) :: j)⟩ := by
  obtain ⟨c, hc, hcs, hcg⟩ := splitReIm_ok hy
  obtain ⟨z, hz, hzs, h1, h2⟩ := concatReIm_ok hcs
  refine ⟨c, hc, hcs, ?_, hcg⟩
  rw [hz]
  congr 1
  refine Arr.ext (by rw [hzs, hy]; congr 1; omega) fun i hi => ?_
  rw [hzs] at hi
  obtain ⟨k, j, rfl, hk, hj⟩ := inB_cons_elim hi
  by_cases hkn : k < n
  · rw [h1 k j hkn hj, hcg k j hkn hj]
  · obtain ⟨l, rfl⟩ : ∃ l, k = n + l := ⟨k - n, by omega⟩
    rw [h2 l j (by omega) hj, hcg l j (by omega) hj]

theorem truncZ_intCast (z : ℤ) : truncZ (z : ℝ) = z := by
  unfold truncZ; split <;> simp

namespace Ring

theorem roundtrip {r : Ring} {mapped : Bool} {n : ℕ} {batch : List ℕ} {v : Val}
    (h : InRing r mapped [n] batch v) :
    ∃ y, r.flattened mapped v = .ok y ∧ y.rshape = r.numElements n :: batch ∧
      r.unflattened mapped y = .ok v := by
  obtain ⟨hs, h⟩ := h
  match r, v with
  | .real mn mx g, .real a =>
    have hs : a.rshape = n :: batch := hs
    cases mapped with
    | false => exact ⟨a, rfl, hs, rfl⟩
    | true =>
      have h := h rfl
      choose! f hf using fun i (hi : inB (n :: batch) i = true) =>
        realUnflat_realFlat (h i hi).1 (h i hi).2
      refine ⟨Arr.ofFn (n :: batch) f, ?_, rfl, ?_⟩
      · simp only [flattened, if_true]
        rw [Arr.mapE_eq_ok_iff]
        refine ⟨hs.symm, fun i hi => ?_⟩
        rw [hs] at hi
        rw [Arr.ofFn_get hi, (hf i hi).1]
      · simp only [unflattened, if_true]
        congr 2
        refine Arr.ext hs.symm fun i hi => ?_
        have hi : inB (n :: batch) i = true := hi
        rw [Arr.map_get (by exact hi), Arr.ofFn_get hi, (hf i hi).2]
  | .complex mn mx, .complex a =>
    have hs : a.rshape = n :: batch := hs
    cases mapped with
    | false =>
      obtain ⟨y, hy, hys, hya⟩ := splitReIm_concatReIm hs
      refine ⟨y, by simp [flattened, hy], by rw [hys, numElements, mul_comm], ?_⟩
      simp [unflattened, hya, bind, Except.bind]
    | true =>
      obtain ⟨hb1, hb2, h⟩ := h rfl
      have h' : ∀ k j, k < n → inB batch j = true → ∃ c,
          complexFlat (boundAt mn (k :: j)) (mx.map (boundAt · (k :: j))) (a.get (k :: j)) = some c
          ∧ complexUnflat (boundAt mn (k :: j)) (mx.map (boundAt · (k :: j))) c =
            some (a.get (k :: j)) := by
        intro k j hk hj
        obtain ⟨g0, g1, g2⟩ := h [k] j ((inB_cons ..).2 ⟨hk, rfl⟩) hj
        obtain ⟨c, hc, -, hc'⟩ := complexUnflat_complexFlat (mn := boundAt mn (k :: j))
          (mx := mx.map (boundAt · (k :: j))) (x := a.get (k :: j))
          (by rw [boundAt_cons hb1 hj]; exact g0) (by rw [boundAt_cons hb1 hj]; exact g1) (by
            intro M hM
            rw [Option.mem_def, Option.map_eq_some_iff] at hM
            obtain ⟨B, hB, rfl⟩ := hM
            rw [boundAt_cons hb1 hj, boundAt_cons (hb2 B hB) hj]
            exact g2 B hB)
        exact ⟨c, hc, hc'⟩
      choose! f hf using h'
      set c : Arr ℂ := Arr.ofFn (n :: batch) fun i => f i.head! i.tail with hcdef
      have hcg : ∀ k j, k < n → inB batch j = true → c.get (k :: j) = f k j := by
        intro k j hk hj
        rw [hcdef, Arr.ofFn_get ((inB_cons ..).2 ⟨hk, hj⟩)]
        rfl
      obtain ⟨y, hy, hys, hya⟩ := splitReIm_concatReIm (a := c) (n := n) (rs := batch) rfl
      refine ⟨y, ?_, by rw [hys, numElements, mul_comm], ?_⟩
      · have : (a.mapE fun i v => complexFlat (boundAt mn i) (mx.map (boundAt · i)) v) = .ok c := by
          rw [Arr.mapE_eq_ok_iff]
          refine ⟨hs.symm, fun i hi => ?_⟩
          rw [hs] at hi
          obtain ⟨k, j, rfl, hk, hj⟩ := inB_cons_elim hi
          rw [(hf k j hk hj).1, hcg k j hk hj]
        simp [flattened, hs, boundsOk_of hb1 hb2, this, hy, bind, Except.bind]
      · have : (c.mapE fun i v => complexUnflat (boundAt mn i) (mx.map (boundAt · i)) v) =
            .ok a := by
          rw [Arr.mapE_eq_ok_iff]
          refine ⟨hs, fun i hi => ?_⟩
          obtain ⟨k, j, rfl, hk, hj⟩ := inB_cons_elim hi
          rw [hcg k j hk hj, (hf k j hk hj).2]
        simp only [unflattened, hya, bind, Except.bind, if_true]
        rw [if_pos (show boundsOk mn mx c.rshape = true from boundsOk_of hb1 hb2), this]
        rfl
  | .boolean, .bool a =>
    refine ⟨_, rfl, hs, ?_⟩
    simp only [unflattened]
    congr 2
    refine Arr.ext rfl fun i hi => ?_
    have hi : inB a.rshape i = true := hi
    rw [Arr.map_get (by exact hi), Arr.map_get hi]
    cases a.get i <;> simp
  | .integral _ _, .int a =>
    refine ⟨_, rfl, hs, ?_⟩
    simp only [unflattened]
    congr 2
    refine Arr.ext rfl fun i hi => ?_
    have hi : inB a.rshape i = true := hi
    rw [Arr.map_get (by exact hi), Arr.map_get hi, truncZ_intCast]

theorem roundtrip' {r : Ring} {mapped : Bool} {n : ℕ} {batch : List ℕ} {y : Arr ℝ}
    (h : InFlat r mapped n batch y) :
    ∃ v, r.unflattened mapped y = .ok v ∧ InRing r mapped [n] batch v ∧
      r.flattened mapped v = .ok y := by
  match r with
  | .real mn mx g =>
    obtain ⟨hs, h⟩ := h
    cases mapped with
    | false => exact ⟨.real y, rfl, ⟨hs, by simp⟩, rfl⟩
    | true =>
      have h := h rfl
      refine ⟨.real (y.map (realUnflat mn mx)), rfl, ⟨hs, fun _ i hi => ?_⟩, ?_⟩
      · rw [Arr.map_get (by rw [hs]; exact hi)]
        exact realUnflat_mem h _
      · simp only [flattened, if_true]
        rw [Arr.mapE_eq_ok_iff]
        refine ⟨rfl, fun i hi => ?_⟩
        have hi : inB y.rshape i = true := hi
        rw [Arr.map_get hi, realFlat_realUnflat h]
  | .complex mn mx =>
    obtain ⟨hs, h⟩ := h
    obtain ⟨c, hc, hcs, hcy, hcg⟩ := concatReIm_splitReIm hs
    cases mapped with
    | false =>
      refine ⟨.complex c, by simp [unflattened, hc, bind, Except.bind], ⟨hcs, by simp⟩, ?_⟩
      simp [flattened, hcy]
    | true =>
      obtain ⟨hb1, hb2, h⟩ := h rfl
      have h' : ∀ k j, k < n → inB batch j = true → ∃ x,
          complexUnflat (boundAt mn (k :: j)) (mx.map (boundAt · (k :: j))) (c.get (k :: j)) =
            some x ∧ boundVal mn j < ‖x‖ ∧ (∀ M ∈ mx, ‖x‖ < boundVal mn j + boundVal M j) ∧
          complexFlat (boundAt mn (k :: j)) (mx.map (boundAt · (k :: j))) x =
            some (c.get (k :: j)) := by
        intro k j hk hj
        obtain ⟨g0, g1, g2⟩ := h j hj
        obtain ⟨x, hx, hx1, hx2, hx3⟩ := complexFlat_complexUnflat (mn := boundAt mn (k :: j))
          (mx := mx.map (boundAt · (k :: j))) (c := c.get (k :: j))
          (by rw [boundAt_cons hb1 hj]; exact g0) (by
            rw [hcg k j hk hj]
            intro h0
            have := Complex.ext_iff.1 h0
            rcases g2 k hk with h | h
            · exact h this.1
            · exact h this.2) (by
            intro M hM
            rw [Option.mem_def, Option.map_eq_some_iff] at hM
            obtain ⟨B, hB, rfl⟩ := hM
            rw [boundAt_cons (hb2 B hB) hj]
            exact g1 B hB)
        rw [boundAt_cons hb1 hj] at hx1
        refine ⟨x, hx, hx1, fun M hM => ?_, hx3⟩
        have := hx2 (boundAt M (k :: j)) (by simp [Option.mem_def.1 hM])
        rwa [boundAt_cons hb1 hj, boundAt_cons (hb2 M hM) hj] at this
      choose! f hf using h'
      set a : Arr ℂ := Arr.ofFn (n :: batch) fun i => f i.head! i.tail with hadef
      have hag : ∀ k j, k < n → inB batch j = true → a.get (k :: j) = f k j := by
        intro k j hk hj
        rw [hadef, Arr.ofFn_get ((inB_cons ..).2 ⟨hk, hj⟩)]
        rfl
      have has : a.rshape = n :: batch := rfl
      refine ⟨.complex a, ?_, ⟨has, fun _ => ⟨hb1, hb2, fun i j hi hj => ?_⟩⟩, ?_⟩
      · have : (c.mapE fun i v => complexUnflat (boundAt mn i) (mx.map (boundAt · i)) v) =
            .ok a := by
          rw [Arr.mapE_eq_ok_iff]
          refine ⟨by rw [hcs, has], fun i hi => ?_⟩
          rw [hcs] at hi
          obtain ⟨k, j, rfl, hk, hj⟩ := inB_cons_elim hi
          rw [hag k j hk hj, (hf k j hk hj).1]
        simp only [unflattened, hc, bind, Except.bind, if_true]
        rw [hcs, if_pos (boundsOk_of hb1 hb2), this]
        rfl
      · obtain ⟨k, i', rfl, hk, hi'⟩ := inB_cons_elim hi
        cases i' with
        | cons => simp [inB] at hi'
        | nil =>
          obtain ⟨-, h1, h2, -⟩ := hf k j hk hj
          rw [List.cons_append, List.nil_append, hag k j hk hj]
          exact ⟨(h j hj).1, h1, h2⟩
      · have : (a.mapE fun i v => complexFlat (boundAt mn i) (mx.map (boundAt · i)) v) = .ok c := by
          rw [Arr.mapE_eq_ok_iff]
          refine ⟨by rw [hcs, has], fun i hi => ?_⟩
          obtain ⟨k, j, rfl, hk, hj⟩ := inB_cons_elim hi
          rw [hag k j hk hj, (hf k j hk hj).2.2.2]
        simp [flattened, has, boundsOk_of hb1 hb2, this, hcy, bind, Except.bind]
  | .boolean =>
    obtain ⟨hs, h⟩ := h
    refine ⟨_, rfl, ⟨hs, trivial⟩, ?_⟩
    simp only [flattened]
    congr 1
    refine Arr.ext rfl fun i hi => ?_
    have hi : inB y.rshape i = true := hi
    rw [Arr.map_get (by exact hi), Arr.map_get hi]
    rcases h i (by rw [← hs]; exact hi) with h | h <;> simp [h]
  | .integral _ _ =>
    obtain ⟨hs, h⟩ := h
    refine ⟨_, rfl, ⟨hs, trivial⟩, ?_⟩
    simp only [flattened]
    congr 1
    refine Arr.ext rfl fun i hi => ?_
    have hi : inB y.rshape i = true := hi
    rw [Arr.map_get (by exact hi), Arr.map_get hi]
    obtain ⟨z, hz⟩ := h i (by rw [← hs]; exact hi)
    rw [hz, truncZ_intCast]

end Ring

end Efax
