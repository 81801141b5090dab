import Verif.Lemmas.SupportRT
import Verif.Spec.Flat

/-! # Decoding arbitrary flat arrays -/

namespace Efax

open Spec

namespace Ring

/-- Decoding succeeds on the arrays described by `InFlat` and gives NaN on the others. -/
theorem decode {r : Ring} {mapped : Bool} {n : ℕ} {batch : List ℕ} {y : Arr ℝ}
    (hr : RingOk r mapped batch) (hy : y.rshape = r.numElements n :: batch) :
    InFlat r mapped n batch y ∨ mapped = true ∧ r.unflattened mapped y = .error .nonFinite := by
  match r with
  | .real mn mx g => exact .inl ⟨hy, hr⟩
  | .complex mn mx =>
    have hy : y.rshape = (2 * n) :: batch := by rw [hy, numElements, mul_comm]
    cases mapped with
    | false => exact .inl ⟨hy, by simp⟩
    | true =>
      obtain ⟨hb1, hb2, h⟩ := hr rfl
      by_cases hz : ∀ j, inB batch j = true → ∀ k < n, y.get (k :: j) ≠ 0 ∨ y.get ((n + k) :: j) ≠ 0
      · exact .inl ⟨hy, fun _ => ⟨hb1, hb2, fun j hj => ⟨(h j hj).1, (h j hj).2, hz j hj⟩⟩⟩
      · right
        refine ⟨rfl, ?_⟩
        push Not at hz
        obtain ⟨j, hj, k, hk, h0, h1⟩ := hz
        obtain ⟨c, hc, hcs, -, hcg⟩ := concatReIm_splitReIm hy
        simp only [unflattened, hc, bind, Except.bind, if_true]
        rw [hcs, if_pos (boundsOk_of hb1 hb2)]
        rw [Arr.mapE_error (i := k :: j) (by rw [hcs]; exact (inB_cons ..).2 ⟨hk, hj⟩)]
        · rfl
        · rw [hcg k j hk hj, h0, h1]
          exact complexUnflat_zero _ _
  | .boolean => exact hr.elim
  | .integral _ _ => exact hr.elim

end Ring

namespace Support

/-- Decoding a flat array of the right length: either the array is one of those described by
`FlatFits`, or the mode is the plane-mapped one and the result is NaN. -/
theorem decode {s : Support} {mapped : Bool} {d : ℕ} {batch : List ℕ} {y : Arr ℝ}
    (hs : SupOk s mapped batch) (hy : y.rshape = coords s d :: batch) :
    FlatFits s mapped d batch y ∨
      mapped = true ∧ s.unflattened mapped y d = .error .nonFinite := by
  rw [← numElements_eq_coords] at hy
  cases s with
  | scalar r =>
    rcases Ring.decode (r := r) hs hy with h | ⟨h, h'⟩
    · exact .inl h
    · exact .inr ⟨h, by simp only [unflattened, h', bind, Except.bind]⟩
  | vector r =>
    rcases Ring.decode (r := r) hs hy with h | ⟨h, h'⟩
    · exact .inl h
    · exact .inr ⟨h, by simp only [unflattened, h', bind, Except.bind]⟩
  | simplex r => exact hs.elim
  | symmetric r p n herm =>
    rcases Ring.decode (r := r) hs hy with h | ⟨h, h'⟩
    · rw [choose_two] at h
      exact .inl h
    · exact .inr ⟨h, by simp only [unflattened, h', bind, Except.bind]⟩
  | square r =>
    rw [numElements, sq] at hy
    rcases Ring.decode (r := r) hs hy with h | ⟨h, h'⟩
    · exact .inl h
    · exact .inr ⟨h, by simp only [unflattened, h', bind, Except.bind]⟩
  | circular radius =>
    have hy : y.rshape = d :: batch := hy
    cases mapped with
    | false => exact .inl ⟨hy, by simp⟩
    | true =>
      by_cases hz : ∀ j, 0 < d → inB batch j = true → 0 < ∑ k ∈ Finset.range d, y.get (k :: j) ^ 2
      · exact .inl ⟨hy, fun _ => ⟨hs rfl, hz⟩⟩
      · right
        refine ⟨rfl, ?_⟩
        push Not at hz
        obtain ⟨j, hd, hj, h0⟩ := hz
        have hz : ∑ k ∈ Finset.range d, y.get (k :: j) ^ 2 = 0 :=
          le_antisymm h0 (Finset.sum_nonneg fun _ _ => sq_nonneg _)
        have e1 : y.lastDim = .ok d := by simp [Arr.lastDim, hy]
        simp only [unflattened, circUnflat, if_true, e1, bind, Except.bind, ne_eq,
          not_true_eq_false, if_false]
        rw [Arr.mapE_error (i := 0 :: j) (by rw [hy]; exact (inB_cons ..).2 ⟨hd, hj⟩)]
        · rfl
        · rw [rowNorm_eq hy, hz, Real.sqrt_zero]
          simp [div?]

/-- `decode`, with the observation that only complex rings and disks can fail. -/
theorem decode' {s : Support} {mapped : Bool} {d : ℕ} {batch : List ℕ} {y : Arr ℝ}
    (hs : SupOk s mapped batch) (hy : y.rshape = coords s d :: batch) :
    FlatFits s mapped d batch y ∨
      (mapped = true ∧ Singular s) ∧ s.unflattened mapped y d = .error .nonFinite := by
  by_cases h : Singular s
  · rcases decode hs hy with h' | ⟨h1, h2⟩
    · exact .inl h'
    · exact .inr ⟨⟨h1, h⟩, h2⟩
  · left
    cases s with
    | simplex r => exact hs.elim
    | circular r => exact absurd trivial h
    | scalar r =>
      cases r with
      | real mn mx g => exact ⟨by simpa [coords] using hy, hs⟩
      | complex mn mx => exact absurd trivial h
      | boolean => exact hs.elim
      | integral mn mx => exact hs.elim
    | vector r =>
      cases r with
      | real mn mx g => exact ⟨by simpa [coords] using hy, hs⟩
      | complex mn mx => exact absurd trivial h
      | boolean => exact hs.elim
      | integral mn mx => exact hs.elim
    | symmetric r _ _ _ =>
      cases r with
      | real mn mx g => exact ⟨by simpa [coords] using hy, hs⟩
      | complex mn mx => exact absurd trivial h
      | boolean => exact hs.elim
      | integral mn mx => exact hs.elim
    | square r =>
      cases r with
      | real mn mx g => exact ⟨by simpa [coords] using hy, hs⟩
      | complex mn mx => exact absurd trivial h
      | boolean => exact hs.elim
      | integral mn mx => exact hs.elim

end Support

end Efax
