import Verif.Lemmas.ReachRing
import Verif.Lemmas.ReachMatrix

/-!
# Random streams that give a chosen value: supports
-/

namespace Efax

open Spec Matrix

open scoped ComplexOrder

section

variable {d : ℕ} {batch : List ℕ}

theorem sandwich_real_reach {a : Arr ℝ} (ha : a.rshape = d :: d :: batch) {herm : Bool} (hs : IsSymm herm d batch (.real a))
    {c : ℝ} (hc : c ≠ 0) (hq : ∀ j, inB batch j = true → ∀ x, 0 ≤ quadratic d (.real a) j x / c) :
    ∃ m : Arr ℝ, m.rshape = d :: d :: batch ∧
      Support.sandwich id id d batch m (Arr.full (d :: batch) c) = a := by
  have key : ∀ j, ∃ M : Matrix (Fin d) (Fin d) ℝ, inB batch j = true →
      M * Mᴴ = Matrix.of fun l k : Fin d => a.get (k.1 :: l.1 :: j) / c := by
    intro j
    by_cases hj : inB batch j = true
    · have hA : (Matrix.of fun l k : Fin d => a.get (k.1 :: l.1 :: j) / c).PosSemidef := by
        refine .of_dotProduct_mulVec_nonneg ?_ fun x => ?_
        · ext l k
          simp only [Matrix.conjTranspose_apply, Matrix.of_apply, star_trivial]
          rw [hs k.1 l.1 j k.2 l.2 hj]
        · have := hq j hj fun i => if h : i < d then ((x ⟨i, h⟩ : ℝ) : ℂ) else 0
          refine this.trans_eq ?_
          rw [quadratic, Finset.sum_div, Finset.sum_range]
          simp only [dotProduct, Pi.star_apply, star_trivial, Matrix.mulVec, Matrix.of_apply]
          refine Finset.sum_congr rfl fun i _ => ?_
          rw [Finset.sum_range, Finset.sum_div, Finset.mul_sum]
          refine Finset.sum_congr rfl fun k _ => ?_
          simp only [Fin.is_lt, dite_true, Complex.ofReal_re, Fin.eta]
          ring
      obtain ⟨M, hM⟩ := exists_factor_real hA
      exact ⟨M, fun _ => hM⟩
    · exact ⟨0, fun h => absurd h hj⟩
  choose M hM using key
  refine ⟨Arr.ofFn (d :: d :: batch) fun
    | n :: l :: j => if h : n < d ∧ l < d then M j ⟨l, h.2⟩ ⟨n, h.1⟩ else 0
    | _ => 0, rfl, Arr.ext ha.symm fun i hi => ?_⟩
  have hi : inB (d :: d :: batch) i = true := hi
  obtain ⟨k, i, rfl, hk, hi⟩ := inB_cons_elim hi
  obtain ⟨l, j, rfl, hl, hj⟩ := inB_cons_elim hi
  have h1 := congrFun (congrFun (hM j hj) ⟨l, hl⟩) ⟨k, hk⟩
  rw [Matrix.mul_apply] at h1
  simp only [Matrix.conjTranspose_apply, star_trivial, Matrix.of_apply] at h1
  rw [sandwich_get hk hl hj, Finset.sum_range]
  rw [eq_div_iff hc, Finset.sum_mul] at h1
  rw [← h1]
  refine Finset.sum_congr rfl fun n _ => ?_
  rw [Arr.ofFn_get ((inB_cons ..).2 ⟨n.2, (inB_cons ..).2 ⟨hl, hj⟩⟩),
    Arr.ofFn_get ((inB_cons ..).2 ⟨n.2, (inB_cons ..).2 ⟨hk, hj⟩⟩),
    Arr.full, Arr.ofFn_get ((inB_cons ..).2 ⟨n.2, hj⟩)]
  simp only [id, n.2, hk, hl, and_self, dite_true, Fin.eta]
  ring

theorem sandwich_complex_reach {a : Arr ℂ} (ha : a.rshape = d :: d :: batch)
    (hs : IsSymm true d batch (.complex a)) (h0 : ∀ k j, k < d → inB batch j = true → a.get (k :: k :: j) ≠ 0)
    {c : ℝ} (hc : c ≠ 0) (hq : ∀ j, inB batch j = true → ∀ x, 0 ≤ quadratic d (.complex a) j x / c) :
    ∃ m : Arr ℂ, m.rshape = d :: d :: batch ∧ (∀ i, inB (d :: d :: batch) i = true → m.get i ≠ 0) ∧
      Support.sandwich (fun x => (x : ℂ)) star d batch m (Arr.full (d :: batch) c) = a := by
  have hc' : (c : ℂ) ≠ 0 := Complex.ofReal_ne_zero.2 hc
  have key : ∀ j, ∃ M : Matrix (Fin d) (Fin d) ℂ, inB batch j = true →
      M * Mᴴ = (Matrix.of fun l k : Fin d => a.get (k.1 :: l.1 :: j) / c) ∧ ∀ i n, M i n ≠ 0 := by
    intro j
    by_cases hj : inB batch j = true
    · have hH : (Matrix.of fun l k : Fin d => a.get (k.1 :: l.1 :: j) / (c : ℂ)).IsHermitian := by
        ext l k
        simp only [Matrix.conjTranspose_apply, Matrix.of_apply, star_div₀]
        rw [hs k.1 l.1 j k.2 l.2 hj, if_pos rfl, star_star]
        simp
      have hA : (Matrix.of fun l k : Fin d => a.get (k.1 :: l.1 :: j) / (c : ℂ)).PosSemidef := by
        refine .of_dotProduct_mulVec_nonneg hH fun x => ?_
        have h1 := hq j hj fun i => if h : i < d then x ⟨i, h⟩ else 0
        have h2 : (star x ⬝ᵥ (Matrix.of fun l k : Fin d => a.get (k.1 :: l.1 :: j) / (c : ℂ)) *ᵥ x).im = 0 := by
          exact hH.im_star_dotProduct_mulVec_self x
        rw [Complex.nonneg_iff]
        refine ⟨h1.trans_eq ?_, h2.symm⟩
        rw [quadratic, ← Complex.div_ofReal_re, Finset.sum_div, Finset.sum_range]
        congr 1
        simp only [dotProduct, Pi.star_apply, Matrix.mulVec, Matrix.of_apply]
        refine Finset.sum_congr rfl fun i _ => ?_
        rw [Finset.sum_range, Finset.sum_div, Finset.mul_sum]
        refine Finset.sum_congr rfl fun k _ => ?_
        simp only [Fin.is_lt, dite_true, Fin.eta]
        ring
      obtain ⟨M, hM⟩ := exists_factor_complex hA fun i => div_ne_zero (h0 i.1 j i.2 hj) hc'
      exact ⟨M, fun _ => hM⟩
    · exact ⟨0, fun h => absurd h hj⟩
  choose M hM using key
  refine ⟨Arr.ofFn (d :: d :: batch) fun
    | n :: l :: j => if h : n < d ∧ l < d then M j ⟨l, h.2⟩ ⟨n, h.1⟩ else 0
    | _ => 0, rfl, fun i hi => ?_, Arr.ext ha.symm fun i hi => ?_⟩
  · obtain ⟨k, i, rfl, hk, hi⟩ := inB_cons_elim hi
    obtain ⟨l, j, rfl, hl, hj⟩ := inB_cons_elim hi
    rw [Arr.ofFn_get ((inB_cons ..).2 ⟨hk, (inB_cons ..).2 ⟨hl, hj⟩⟩)]
    simp only [hk, hl, and_self, dite_true]
    exact (hM j hj).2 _ _
  have hi : inB (d :: d :: batch) i = true := hi
  obtain ⟨k, i, rfl, hk, hi⟩ := inB_cons_elim hi
  obtain ⟨l, j, rfl, hl, hj⟩ := inB_cons_elim hi
  have h1 := congrFun (congrFun (hM j hj).1 ⟨l, hl⟩) ⟨k, hk⟩
  rw [Matrix.mul_apply] at h1
  simp only [Matrix.conjTranspose_apply, Matrix.of_apply] at h1
  rw [sandwich_get hk hl hj, Finset.sum_range]
  rw [eq_div_iff hc', Finset.sum_mul] at h1
  rw [← h1]
  refine Finset.sum_congr rfl fun n _ => ?_
  rw [Arr.ofFn_get ((inB_cons ..).2 ⟨n.2, (inB_cons ..).2 ⟨hl, hj⟩⟩),
    Arr.ofFn_get ((inB_cons ..).2 ⟨n.2, (inB_cons ..).2 ⟨hk, hj⟩⟩),
    Arr.full, Arr.ofFn_get ((inB_cons ..).2 ⟨n.2, hj⟩)]
  simp only [n.2, hk, hl, and_self, dite_true, Fin.eta]
  ring

end

variable [MachEps]

/-- The eigenvalues that are drawn for a semidefinite matrix can all be a bound. -/
theorem eig_reach (psd : Bool) (d : ℕ) (batch : List ℕ) : ∃ (b : Arr ℝ) (c : ℝ), (psd = true → 0 < c) ∧
    (psd = false → c < 0) ∧ ∀ t : List (Arr ℝ),
      (if psd then Ring.realGenerate (some (Ring.openMin 0)) none 1 script (d :: batch) (b :: t)
        else Ring.realGenerate none (some (Ring.openMax 0)) 1 script (d :: batch) (b :: t)) =
      (Arr.full (d :: batch) c, t) := by
  have h0 := MachEps.pos
  cases psd with
  | true =>
    obtain ⟨b, hb⟩ := realGenerate_reach (mn := some (Ring.openMin 0)) (mx := none)
      (a := Arr.full (d :: batch) (Ring.openMin 0)) rfl one_pos (by simp) fun i hi =>
        ⟨fun m hm => by cases hm; exact (Arr.ofFn_get (rs := d :: batch) (f := fun _ => Ring.openMin 0) hi).ge, by simp⟩
    refine ⟨b, Ring.openMin 0, fun _ => ?_, fun h => by simp at h, hb⟩
    exact lt_of_lt_of_le (by linarith) (le_max_left _ _)
  | false =>
    obtain ⟨b, hb⟩ := realGenerate_reach (mn := none) (mx := some (Ring.openMax 0))
      (a := Arr.full (d :: batch) (Ring.openMax 0)) rfl one_pos (by simp) fun i hi =>
        ⟨by simp, fun m hm => by cases hm; exact ⟨(Arr.ofFn_get (rs := d :: batch) (f := fun _ => Ring.openMax 0) hi).le, fun h => absurd rfl h⟩⟩
    refine ⟨b, Ring.openMax 0, fun h => by simp at h, fun _ => ?_, hb⟩
    exact lt_of_le_of_lt (min_le_left _ _) (by linarith)

theorem Support.generate_reach {t : Support} {d : ℕ} {batch : List ℕ} {v : Val} (hS : Spreads t batch)
    (h : Reach t d batch v) :
    ∃ s : List (Arr ℝ), ∀ u : List (Arr ℝ), t.generate script batch d (s ++ u) = .ok (v, u) := by
  cases t with
  | scalar r => exact Ring.generate_reach (sup := []) hS h
  | vector r => exact Ring.generate_reach (sup := [d]) hS h
  | simplex r => exact h.elim
  | square r => exact h.elim
  | circular r => exact Ring.generate_reach (r := .real none none 1) (sup := [d]) ⟨one_pos, by simp⟩ h
  | symmetric r psd nsd herm =>
    cases r with
    | boolean => exact hS.elim
    | integral mn mx => exact hS.elim
    | real mn mx scale =>
      obtain ⟨rfl, rfl⟩ : mn = none ∧ mx = none := by
        cases mn <;> cases mx <;> first | exact ⟨rfl, rfl⟩ | exact hS.elim
      obtain ⟨h1, h2⟩ := hS
      obtain ⟨h3, h4, h5, h6⟩ := h
      have hR : ∀ m : Arr ℝ, m.rshape = d :: d :: batch →
          RingReach (.real none none scale) [d, d] batch (.real m) :=
        fun m hm => ⟨hm, fun i _ => ⟨by simp, by simp⟩⟩
      cases v with
      | complex a => exact h6.elim
      | bool a => exact h6.elim
      | int a => exact h6.elim
      | real a =>
        have ha : a.rshape = d :: d :: batch := h3
        cases hs : nsd || psd with
        | false =>
          obtain ⟨s, hs'⟩ := Ring.generate_reach (r := .real none none scale) (sup := [d, d])
            (batch := batch) ⟨h1, by simp⟩ (hR (a.map fun x => x / 2) ha)
          refine ⟨s, fun u => ?_⟩
          simp only [Support.generate, Support.symmetricGenerate, hs, Bind.bind, Except.bind]
          rw [show Ring.generate (.real none none scale) script (d :: d :: batch) (s ++ u) = _ from hs' u]
          refine congrArg Except.ok (Prod.ext (congrArg Val.real (Arr.ext ha.symm fun i hi => ?_)) rfl)
          have hi : inB (d :: d :: batch) i = true := hi
          obtain ⟨k, i, rfl, hk, hi⟩ := inB_cons_elim hi
          obtain ⟨l, j, rfl, hl, hj⟩ := inB_cons_elim hi
          rw [plusTranspose_get hk hl hj, Arr.map_get (by rw [ha]; exact (inB_cons ..).2 ⟨hk, (inB_cons ..).2 ⟨hl, hj⟩⟩),
            Arr.map_get (by rw [ha]; exact (inB_cons ..).2 ⟨hl, (inB_cons ..).2 ⟨hk, hj⟩⟩), h4 k l j hk hl hj]
          exact add_halves _
        | true =>
          obtain ⟨b, c, c1, c2, hb⟩ := eig_reach psd d batch
          have hc : c ≠ 0 := by
            cases psd with
            | true => exact (c1 rfl).ne'
            | false => exact (c2 rfl).ne
          obtain ⟨m, m1, m2⟩ := sandwich_real_reach ha h4 hc (fun j hj x => by
            cases psd with
            | true => exact div_nonneg ((h5 j hj x).1 rfl) (c1 rfl).le
            | false =>
              rw [Bool.or_false] at hs
              exact div_nonneg_of_nonpos ((h5 j hj x).2 hs) (c2 rfl).le)
          obtain ⟨s, hs'⟩ := Ring.generate_reach (r := .real none none scale) (sup := [d, d])
            (batch := batch) ⟨h1, by simp⟩ (hR m m1)
          refine ⟨s ++ [b], fun u => ?_⟩
          simp only [Support.generate, Support.symmetricGenerate, hs, Bind.bind, Except.bind, if_true,
            List.append_assoc, List.cons_append, List.nil_append]
          rw [show Ring.generate (.real none none scale) script (d :: d :: batch) (s ++ b :: u) = _ from
            hs' (b :: u)]
          simp only [hb, m2]
    | complex mn mx =>
      obtain ⟨rfl, rfl⟩ : mx = none ∧ herm = true := by
        cases mx <;> cases herm <;> first | exact ⟨rfl, rfl⟩ | exact hS.elim
      obtain ⟨rfl, h2⟩ := hS
      obtain ⟨h3, h4, h5, h6⟩ := h
      obtain ⟨a, rfl, h0⟩ : ∃ a, v = .complex a ∧
          ∀ k j, k < d → inB batch j = true → a.get (k :: k :: j) ≠ 0 := by
        cases v with
        | complex a => exact ⟨a, rfl, h6⟩
        | _ => exact h6.elim
      have ha : a.rshape = d :: d :: batch := h3
      obtain ⟨b, c, c1, c2, hb⟩ := eig_reach psd d batch
      have hc : c ≠ 0 := by
        cases psd with
        | true => exact (c1 rfl).ne'
        | false => exact (c2 rfl).ne
      obtain ⟨m, m1, m0, m2⟩ := sandwich_complex_reach ha h4 h0 hc (fun j hj x => by
        cases psd with
        | true => exact div_nonneg ((h5 j hj x).1 rfl) (c1 rfl).le
        | false =>
          exact div_nonneg_of_nonpos ((h5 j hj x).2 (by cases nsd with | true => rfl | false => exact absurd h2 (by simp))) (c2 rfl).le)
      have hz : ∀ j, boundVal (Arr.full [] (0 : ℝ)) j = 0 := fun j => by
        simp [boundVal, Arr.full, Arr.ofFn, inB]
      obtain ⟨s, hs'⟩ := Ring.generate_reach (r := .complex (Arr.full [] 0) none) (sup := [d, d])
        (batch := batch) (v := .complex m) ⟨.inl rfl, by simp, fun j _ => ⟨(hz j).ge, by simp⟩⟩
        ⟨m1, fun i j hi hj => ⟨by
          rw [hz, norm_pos_iff]
          exact m0 _ ((inB_append (inB_length hi)).2 ⟨hi, hj⟩), by simp⟩⟩
      have hs : (nsd || psd) = true := by rw [h2]; cases nsd <;> rfl
      refine ⟨s ++ [b], fun u => ?_⟩
      simp only [Support.generate, Support.symmetricGenerate, hs, Bind.bind, Except.bind, if_true,
        List.append_assoc, List.cons_append, List.nil_append]
      rw [show Ring.generate (.complex (Arr.full [] 0) none) script (d :: d :: batch) (s ++ b :: u) = _ from
        hs' (b :: u)]
      simp only [hb, m2]

end Efax
