import Verif.Lemmas.Support

/-! # `flattened` / `unflattened` round trips for every support -/

namespace Efax

open Spec

namespace Support

theorem numElements_eq_coords (s : Support) (d : ℕ) : s.numElements d = coords s d := by
  cases s with
  | scalar r => cases r <;> rfl
  | vector r => cases r <;> simp [numElements, coords, Ring.numElements, mul_comm]
  | simplex r => cases r <;> simp [numElements, coords, Ring.numElements, mul_comm]
  | symmetric r _ _ _ =>
    cases r <;> simp [numElements, coords, Ring.numElements, choose_two, mul_comm]
  | square r => cases r <;> simp [numElements, coords, Ring.numElements, mul_comm, sq]
  | circular => rfl

/-! ## The disk -/

theorem rowNorm_eq {a : Arr ℝ} {d : ℕ} {batch : List ℕ} (ha : a.rshape = d :: batch) (k : ℕ)
    (j : List ℕ) :
    rowNorm a (k :: j) = Real.sqrt (∑ k ∈ Finset.range d, a.get (k :: j) ^ 2) := by
  simp [rowNorm, ha]

theorem sqrt_sum_scale {d : ℕ} (f : ℕ → ℝ) {c t : ℝ} (hc : 0 < c)
    (ht : t = Real.sqrt (∑ k ∈ Finset.range d, f k ^ 2)) (h0 : 0 < t) :
    Real.sqrt (∑ k ∈ Finset.range d, (f k * c / t) ^ 2) = c := by
  have h1 : ∀ k, (f k * c / t) ^ 2 = f k ^ 2 * (c / t) ^ 2 := fun k => by ring
  simp only [h1]
  rw [← Finset.sum_mul, Real.sqrt_mul (Finset.sum_nonneg fun _ _ => sq_nonneg _), ← ht,
    Real.sqrt_sq (by positivity)]
  field_simp

theorem circ_empty {radius : ℝ} {mapped : Bool} {batch : List ℕ} {a : Arr ℝ}
    (ha : a.rshape = 0 :: batch) :
    circFlat radius mapped a = .ok a ∧ circUnflat radius mapped a 0 = .ok a := by
  have hno : ∀ i, inB a.rshape i = true → False := fun i hi => by
    rw [ha] at hi
    obtain ⟨k, j, rfl, hk, hj⟩ := inB_cons_elim hi
    omega
  cases mapped with
  | false => exact ⟨rfl, rfl⟩
  | true =>
    have e1 : a.lastDim = .ok 0 := by simp [Arr.lastDim, ha]
    constructor
    · simp only [circFlat, if_true]
      rw [ha]
      exact Arr.mapE_eq_ok_iff.2 ⟨rfl, fun i hi => (hno i hi).elim⟩
    · simp only [circUnflat, if_true, e1, bind, Except.bind, ne_eq, not_true_eq_false, if_false]
      exact Arr.mapE_eq_ok_iff.2 ⟨rfl, fun i hi => (hno i hi).elim⟩

theorem circ_roundtrip {radius : ℝ} {mapped : Bool} {d : ℕ} {batch : List ℕ} {a : Arr ℝ}
    (ha : a.rshape = d :: batch)
    (h : mapped = true → 0 < radius ∧ ∀ j, 0 < d → inB batch j = true →
      0 < ∑ k ∈ Finset.range d, a.get (k :: j) ^ 2 ∧
      ∑ k ∈ Finset.range d, a.get (k :: j) ^ 2 < radius ^ 2) :
    ∃ y, circFlat radius mapped a = .ok y ∧ y.rshape = d :: batch ∧
      circUnflat radius mapped y d = .ok a := by
  cases mapped with
  | false => exact ⟨a, rfl, ha, rfl⟩
  | true =>
    obtain ⟨hR, h⟩ := h rfl
    rcases Nat.eq_zero_or_pos d with rfl | hd
    · exact ⟨a, (circ_empty ha).1, ha, (circ_empty ha).2⟩
    replace h := fun j => h j hd
    set t : List ℕ → ℝ := fun j => Real.sqrt (∑ k ∈ Finset.range d, a.get (k :: j) ^ 2) with ht
    have ht0 : ∀ j, inB batch j = true → 0 < t j := fun j hj => Real.sqrt_pos.2 (h j hj).1
    have htR : ∀ j, inB batch j = true → t j < radius := fun j hj => by
      rw [ht]; simp only
      rw [Real.sqrt_lt' hR]; exact (h j hj).2
    have hc : ∀ j, inB batch j = true → ∃ c, logit? (t j / radius * 0.5 + 0.5) = some c ∧
        0 < c ∧ expit c = t j / radius * 0.5 + 0.5 := fun j hj => by
      have h1 : 0 < t j / radius := div_pos (ht0 j hj) hR
      have h2 : t j / radius < 1 := by rw [div_lt_one hR]; exact htR j hj
      exact logit_pos (by norm_num; linarith) (by norm_num; linarith)
    choose! c hc using hc
    set y : Arr ℝ := Arr.ofFn (d :: batch) fun i => a.get i * c i.tail / t i.tail with hy
    have hyg : ∀ k j, k < d → inB batch j = true →
        y.get (k :: j) = a.get (k :: j) * c j / t j := fun k j hk hj => by
      rw [hy, Arr.ofFn_get ((inB_cons ..).2 ⟨hk, hj⟩)]; rfl
    have hyn : ∀ k j, inB batch j = true → rowNorm y (k :: j) = c j := fun k j hj => by
      rw [rowNorm_eq (d := d) (batch := batch) rfl]
      rw [Finset.sum_congr rfl fun k hk => by rw [hyg k j (Finset.mem_range.1 hk) hj]]
      exact sqrt_sum_scale (fun k => a.get (k :: j)) (hc j hj).2.1 rfl (ht0 j hj)
    refine ⟨y, ?_, rfl, ?_⟩
    · simp only [circFlat, if_true, ha]
      rw [Arr.mapE_eq_ok_iff]
      refine ⟨ha.symm, fun i hi => ?_⟩
      rw [ha] at hi
      obtain ⟨k, j, rfl, hk, hj⟩ := inB_cons_elim hi
      rw [rowNorm_eq ha, hyg k j hk hj]
      simp only [div?, if_neg hR.ne', Option.bind_eq_bind, Option.bind_some]
      rw [show Real.sqrt (∑ k ∈ Finset.range d, a.get (k :: j) ^ 2) = t j from rfl, (hc j hj).1]
      simp [(ht0 j hj).ne']
    · have e1 : y.lastDim = .ok d := rfl
      simp only [circUnflat, if_true, e1, bind, Except.bind, ne_eq, not_true_eq_false, if_false]
      rw [Arr.mapE_eq_ok_iff]
      refine ⟨ha, fun i hi => ?_⟩
      obtain ⟨k, j, rfl, hk, hj⟩ := inB_cons_elim hi
      have hj : inB batch j = true := hj
      obtain ⟨-, hc0, hce⟩ := hc j hj
      rw [hyn k j hj, hyg k j hk hj, div?, if_neg hc0.ne', hce]
      congr 1
      have := (ht0 j hj).ne'
      field_simp
      ring

theorem circ_roundtrip' {radius : ℝ} {mapped : Bool} {d : ℕ} {batch : List ℕ} {y : Arr ℝ}
    (hy : y.rshape = d :: batch)
    (h : mapped = true → 0 < radius ∧ ∀ j, 0 < d → inB batch j = true →
      0 < ∑ k ∈ Finset.range d, y.get (k :: j) ^ 2) :
    ∃ a, circUnflat radius mapped y d = .ok a ∧ a.rshape = d :: batch ∧
      circFlat radius mapped a = .ok y ∧
      (mapped = true → 0 < radius ∧ ∀ j, 0 < d → inB batch j = true →
        0 < ∑ k ∈ Finset.range d, a.get (k :: j) ^ 2 ∧
        ∑ k ∈ Finset.range d, a.get (k :: j) ^ 2 < radius ^ 2) := by
  cases mapped with
  | false => exact ⟨y, rfl, hy, rfl, by simp⟩
  | true =>
    obtain ⟨hR, h⟩ := h rfl
    rcases Nat.eq_zero_or_pos d with rfl | hd
    · exact ⟨y, (circ_empty hy).2, hy, (circ_empty hy).1, fun _ => ⟨hR, fun _ h0 => by simp at h0⟩⟩
    replace h := fun j => h j hd
    set t : List ℕ → ℝ := fun j => Real.sqrt (∑ k ∈ Finset.range d, y.get (k :: j) ^ 2) with ht
    have ht0 : ∀ j, inB batch j = true → 0 < t j := fun j hj => Real.sqrt_pos.2 (h j hj)
    set c : List ℕ → ℝ := fun j => radius * (expit (t j) - 0.5) * 2 with hcdef
    have hc0 : ∀ j, inB batch j = true → 0 < c j := fun j hj => by
      have := expit_gt_half (ht0 j hj)
      have : 0 < expit (t j) - 0.5 := by norm_num; linarith
      positivity
    have hcR : ∀ j, c j < radius := fun j => by
      have := expit_lt_one (t j)
      have h1 : radius * (expit (t j) - 0.5) < radius * 0.5 :=
        mul_lt_mul_of_pos_left (by norm_num; linarith) hR
      simp only [hcdef]; linarith
    set a : Arr ℝ := Arr.ofFn (d :: batch) fun i => y.get i * c i.tail / t i.tail with ha
    have hag : ∀ k j, k < d → inB batch j = true →
        a.get (k :: j) = y.get (k :: j) * c j / t j := fun k j hk hj => by
      rw [ha, Arr.ofFn_get ((inB_cons ..).2 ⟨hk, hj⟩)]; rfl
    have hsum : ∀ j, inB batch j = true →
        Real.sqrt (∑ k ∈ Finset.range d, a.get (k :: j) ^ 2) = c j := fun j hj => by
      rw [Finset.sum_congr rfl fun k hk => by rw [hag k j (Finset.mem_range.1 hk) hj]]
      exact sqrt_sum_scale (fun k => y.get (k :: j)) (hc0 j hj) rfl (ht0 j hj)
    have hsum' : ∀ j, inB batch j = true → ∑ k ∈ Finset.range d, a.get (k :: j) ^ 2 = c j ^ 2 :=
      fun j hj => by
        rw [← hsum j hj, Real.sq_sqrt (Finset.sum_nonneg fun _ _ => sq_nonneg _)]
    refine ⟨a, ?_, rfl, ?_, fun _ => ⟨hR, fun j _ hj => ?_⟩⟩
    · have e1 : y.lastDim = .ok d := by simp [Arr.lastDim, hy]
      simp only [circUnflat, if_true, e1, bind, Except.bind, ne_eq, not_true_eq_false, if_false]
      rw [Arr.mapE_eq_ok_iff]
      refine ⟨hy.symm, fun i hi => ?_⟩
      rw [hy] at hi
      obtain ⟨k, j, rfl, hk, hj⟩ := inB_cons_elim hi
      rw [rowNorm_eq hy, hag k j hk hj, div?, if_neg (ht0 j hj).ne']
    · have has : a.rshape = d :: batch := rfl
      simp only [circFlat, if_true, has]
      rw [Arr.mapE_eq_ok_iff]
      refine ⟨hy, fun i hi => ?_⟩
      obtain ⟨k, j, rfl, hk, hj⟩ := inB_cons_elim hi
      have hj : inB batch j = true := hj
      have hR' := hR.ne'
      have e2 : c j / radius * 0.5 + 0.5 = expit (t j) := by
        simp only [hcdef]; field_simp; ring
      rw [rowNorm_eq has, hsum j hj, hag k j hk hj]
      simp only [div?, if_neg hR', Option.bind_eq_bind, Option.bind_some, e2, logit?_expit,
        if_neg (hc0 j hj).ne']
      congr 1
      have := (ht0 j hj).ne'
      have := (hc0 j hj).ne'
      field_simp
    · rw [hsum' j hj]
      have h1 := hc0 j hj
      have h2 := hcR j
      constructor
      · positivity
      · nlinarith

/-! ## All supports -/

theorem isSymm_flatten {herm : Bool} {d : ℕ} {batch : List ℕ} {v : Val}
    (hv : v.rshape = [d, d] ++ batch) (hs : IsSymm herm d batch v) :
    ∃ w, v.liftE symGather = .ok w ∧ w.rshape = (d + 1).choose 2 :: batch ∧
      (match w with
        | .complex a => Val.complex <$> symScatter (if herm then star else id) a
        | x => x.liftE (symScatter id)) = .ok v := by
  cases v with
  | real a =>
    obtain ⟨x, hx, hxs, hxa⟩ := symScatter_symGather id (a := a) hv
      fun r c j h1 h2 h3 => hs r c j h2 (by omega) h3
    exact ⟨.real x, by simp [Val.liftE, hx], hxs, by simp [Val.liftE, hxa]⟩
  | complex a =>
    obtain ⟨x, hx, hxs, hxa⟩ := symScatter_symGather (if herm then star else id) (a := a) hv
      fun r c j h1 h2 h3 => by
        rw [hs r c j h2 (by omega) h3]; cases herm <;> rfl
    exact ⟨.complex x, by simp [Val.liftE, hx], hxs, by simp only [hxa]; rfl⟩
  | bool a =>
    obtain ⟨x, hx, hxs, hxa⟩ := symScatter_symGather id (a := a) hv
      fun r c j h1 h2 h3 => hs r c j h2 (by omega) h3
    exact ⟨.bool x, by simp [Val.liftE, hx], hxs, by simp [Val.liftE, hxa]⟩
  | int a =>
    obtain ⟨x, hx, hxs, hxa⟩ := symScatter_symGather id (a := a) hv
      fun r c j h1 h2 h3 => hs r c j h2 (by omega) h3
    exact ⟨.int x, by simp [Val.liftE, hx], hxs, by simp [Val.liftE, hxa]⟩

/-- Flattening an admissible value succeeds, gives `coords` columns, and is undone by
`unflattened`. -/
theorem roundtrip {s : Support} {mapped : Bool} {d : ℕ} {batch : List ℕ} {v : Val}
    (h : Fits s mapped d batch v) :
    ∃ y, s.flattened mapped v = .ok y ∧ y.rshape = coords s d :: batch ∧
      s.unflattened mapped y d = .ok v := by
  rw [← numElements_eq_coords]
  cases s with
  | scalar r =>
    have h : InRing r mapped [] batch v := h
    obtain ⟨y, h1, h2, h3⟩ := Ring.roundtrip (h.transfer (Rearr.newaxis h.1))
    refine ⟨y, h1, h2, ?_⟩
    simp only [unflattened, h3, bind, Except.bind, lastDim_of_rshape (newaxis_rshape v), if_true,
      liftE_newaxis]
  | vector r =>
    have h : InRing r mapped [d] batch v := h
    obtain ⟨y, h1, h2, h3⟩ := Ring.roundtrip h
    refine ⟨y, h1, h2, ?_⟩
    simp only [unflattened, h3, bind, Except.bind, lastDim_of_rshape (show v.rshape = d :: batch
      from h.1), if_true]
  | simplex r => exact h.elim
  | symmetric r p n herm =>
    obtain ⟨h, hs⟩ := h
    obtain ⟨w, hw, hws, hwr⟩ := liftE_rearr (f := symGather) h.1 (fun a ha => symGather_rearr a ha)
    obtain ⟨y, h1, h2, h3⟩ := Ring.roundtrip (h.transfer hwr)
    refine ⟨y, by simp only [flattened, hw, bind, Except.bind, h1], h2, ?_⟩
    obtain ⟨w', hw', -, hw''⟩ := isSymm_flatten h.1 hs
    rw [hw] at hw'
    cases hw'
    simp only [unflattened, h3, bind, Except.bind]
    exact hw''
  | square r =>
    have h : InRing r mapped [d, d] batch v := h
    obtain ⟨w, hw, hws, hwr⟩ := liftE_rearr (f := Arr.mergeLast) h.1
      (fun a ha => mergeLast_rearr a ha)
    obtain ⟨y, h1, h2, h3⟩ := Ring.roundtrip (h.transfer hwr)
    refine ⟨y, by simp only [flattened, hw, bind, Except.bind, h1],
      by rw [h2, numElements, sq], ?_⟩
    simp only [unflattened, h3, bind, Except.bind]
    refine liftE_inverse (f := Arr.mergeLast) h.1 hw fun a b ha hb => ?_
    obtain ⟨x, hx, -, hx'⟩ := splitLast_mergeLast (a := a) ha
    rw [hx] at hb; cases hb; exact hx'
  | circular radius =>
    obtain ⟨hs, h⟩ := h
    cases v with
    | real a =>
      obtain ⟨y, h1, h2, h3⟩ := circ_roundtrip (a := a) hs h
      exact ⟨y, h1, h2, by simp [unflattened, h3]⟩
    | complex a => exact h.elim
    | bool a => exact h.elim
    | int a => exact h.elim

theorem sym_unflatten {herm : Bool} {r : Ring} {mapped : Bool} {d : ℕ} {batch : List ℕ} {w : Val}
    (hw : InRing r mapped [(d + 1).choose 2] batch w) :
    ∃ v, (match w with
        | .complex a => Val.complex <$> symScatter (if herm then star else id) a
        | x => x.liftE (symScatter id)) = .ok v ∧ InRing r mapped [d, d] batch v ∧
      v.liftE symGather = .ok w := by
  cases w with
  | real a =>
    obtain ⟨b, hb, hbs, hbg⟩ := symScatter_rearr id id (fun _ => rfl) a hw.1
    obtain ⟨b', hb', -, hba⟩ := symGather_symScatter id (x := a) hw.1
    rw [hb] at hb'; cases hb'
    exact ⟨.real b, by simp [Val.liftE, hb], hw.transfer ⟨hbs, hbg⟩, by simp [Val.liftE, hba]⟩
  | complex a =>
    obtain ⟨b, hb, hbs, hbg⟩ := symScatter_rearr (‖·‖) (if herm then star else id)
      (fun z => by cases herm <;> simp) a hw.1
    obtain ⟨b', hb', -, hba⟩ := symGather_symScatter (if herm then star else id) (x := a) hw.1
    rw [hb] at hb'; cases hb'
    exact ⟨.complex b, by simp only [hb]; rfl, hw.transfer ⟨hbs, hbg⟩, by simp [Val.liftE, hba]⟩
  | bool a =>
    obtain ⟨b, hb, hbs, hbg⟩ := symScatter_rearr id id (fun _ => rfl) a hw.1
    obtain ⟨b', hb', -, hba⟩ := symGather_symScatter id (x := a) hw.1
    rw [hb] at hb'; cases hb'
    exact ⟨.bool b, by simp [Val.liftE, hb], hw.transfer hbs, by simp [Val.liftE, hba]⟩
  | int a =>
    obtain ⟨b, hb, hbs, hbg⟩ := symScatter_rearr id id (fun _ => rfl) a hw.1
    obtain ⟨b', hb', -, hba⟩ := symGather_symScatter id (x := a) hw.1
    rw [hb] at hb'; cases hb'
    exact ⟨.int b, by simp [Val.liftE, hb], hw.transfer hbs, by simp [Val.liftE, hba]⟩

/-- Unflattening a suitable flat array succeeds, and flattening the result gives the array back. -/
theorem roundtrip' {s : Support} {mapped : Bool} {d : ℕ} {batch : List ℕ} {y : Arr ℝ}
    (h : FlatFits s mapped d batch y) :
    ∃ v, s.unflattened mapped y d = .ok v ∧ Lies s mapped d batch v ∧
      s.flattened mapped v = .ok y := by
  cases s with
  | scalar r =>
    obtain ⟨w, h1, h2, h3⟩ := Ring.roundtrip' (show InFlat r mapped 1 batch y from h)
    obtain ⟨v, hv, hvs, hvr⟩ := liftE_rearr (f := (·.idxLast 0)) h2.1
      (fun a ha => idxLast_rearr a ha)
    refine ⟨v, ?_, h2.transfer hvr, ?_⟩
    · simp only [unflattened, h1, bind, Except.bind, lastDim_of_rshape (show w.rshape = 1 :: batch
        from h2.1), if_true, hv]
    · simp only [flattened]; rw [newaxis_of_liftE h2.1 hv, h3]
  | vector r =>
    obtain ⟨w, h1, h2, h3⟩ := Ring.roundtrip' (show InFlat r mapped d batch y from h)
    refine ⟨w, ?_, h2, h3⟩
    simp only [unflattened, h1, bind, Except.bind, lastDim_of_rshape (show w.rshape = d :: batch
      from h2.1), if_true]
  | simplex r => exact h.elim
  | symmetric r p n herm =>
    obtain ⟨w, h1, h2, h3⟩ := Ring.roundtrip'
      (show InFlat r mapped ((d + 1).choose 2) batch y by rw [choose_two]; exact h)
    obtain ⟨v, hv, hv2, hv3⟩ := sym_unflatten (herm := herm) h2
    refine ⟨v, ?_, hv2, ?_⟩
    · simp only [unflattened, h1, bind, Except.bind]; exact hv
    · simp only [flattened, hv3, bind, Except.bind, h3]
  | square r =>
    obtain ⟨w, h1, h2, h3⟩ := Ring.roundtrip' (show InFlat r mapped (d * d) batch y from h)
    obtain ⟨v, hv, hvs, hvr⟩ := liftE_rearr (f := (·.splitLast d d)) h2.1
      (fun a ha => splitLast_rearr a ha)
    refine ⟨v, by simp only [unflattened, h1, bind, Except.bind, hv], h2.transfer hvr, ?_⟩
    have := liftE_inverse (f := (·.splitLast d d)) (g := Arr.mergeLast) h2.1 hv fun a b ha hb => by
      obtain ⟨x, hx, -, hx'⟩ := mergeLast_splitLast (x := a) ha
      rw [hx] at hb; cases hb; exact hx'
    simp only [flattened, this, bind, Except.bind, h3]
  | circular radius =>
    obtain ⟨hs, h⟩ := h
    obtain ⟨a, h1, h2, h3, h4⟩ := circ_roundtrip' hs h
    exact ⟨.real a, by simp [unflattened, h1], ⟨h2, h4⟩, h3⟩

theorem lies_rshape {s : Support} {mapped : Bool} {d : ℕ} {batch : List ℕ} {v : Val}
    (h : Lies s mapped d batch v) : v.rshape = s.rshape d ++ batch := by
  cases s with
  | simplex r => exact h.elim
  | _ => exact h.1

theorem fits_lies {s : Support} {mapped : Bool} {d : ℕ} {batch : List ℕ} {v : Val}
    (h : Fits s mapped d batch v) : Lies s mapped d batch v := by
  cases s with
  | symmetric r p n herm => exact h.1
  | _ => exact h

end Support

end Efax
