import Verif.Props.Rings

/-!
# Shapes and clamping of supports (C04, C10)
-/

namespace Efax

open Spec

/-- **C04.** `shape` and `axes` of a support describe the values that fit it. -/
theorem C04_support_shape {s : Support} {mapped : Bool} {d : ℕ} {batch : List ℕ} {v : Val}
    (h : Fits s mapped d batch v) :
    v.rshape = s.rshape d ++ batch ∧ (s.rshape d).length = s.axes := by
  cases s with
  | scalar r => exact ⟨h.1, rfl⟩
  | vector r => exact ⟨h.1, rfl⟩
  | simplex r => exact h.elim
  | symmetric r p n herm => exact ⟨h.1.1, rfl⟩
  | square r => exact ⟨h.1, rfl⟩
  | circular radius => exact ⟨h.1, rfl⟩

/-- Non-vacuity: a pair of square matrices. -/
example : Fits (.square Ring.realField) false 3 [2] (.real (Arr.full [3, 3, 2] 1)) :=
  ⟨rfl, by simp [Ring.realField, Ring.mkReal]⟩

/-- **C04.** A vector of the shape of the simplex support has `num_elements` coordinates, one less
than the number of dimensions, in both modes. -/
theorem C04_simplex_shape {r : Ring} {mapped : Bool} {d : ℕ} {batch : List ℕ} {v : Val}
    (h : InRing r mapped ((Support.simplex r).rshape (d + 1)) batch v) :
    (Support.simplex r).axes = 1 ∧ ∃ y, (Support.simplex r).flattened mapped v = .ok y ∧
      y.rshape = (Support.simplex r).numElements (d + 1) :: batch ∧
      (r = Ring.realField → y.rshape = d :: batch) := by
  obtain ⟨y, h1, h2, _⟩ := Ring.roundtrip (n := d) h
  refine ⟨rfl, y, h1, ?_, fun hr => ?_⟩
  · rw [h2]; rfl
  · subst hr
    rw [h2]; rfl

/-- Non-vacuity. -/
example : InRing Ring.realField false ((Support.simplex Ring.realField).rshape 4) [2]
    (.real (Arr.full [3, 2] 1)) := ⟨rfl, by simp [Ring.realField, Ring.mkReal]⟩

/-- **C10** for whole supports: clamping the values of a support other than the simplex brings every
entry within the bounds of its ring and changes no entry that is already there. -/
theorem C10_support_clamp {s : Support} {mn mx : Option ℝ} {g e : ℝ} (hs : s.ring = .real mn mx g)
    (hx : ∀ r, s ≠ .simplex r) (hb : ∀ m ∈ mn, ∀ M ∈ mx, m + e ≤ M - e) (a : Arr ℝ) :
    ∃ b, s.clamp e (.real a) = .ok (.real b) ∧ b.rshape = a.rshape ∧
      ∀ i, inB a.rshape i = true → Within e mn mx (b.get i) ∧
        (Within e mn mx (a.get i) → b.get i = a.get i) := by
  have hc : s.clamp e (.real a) = .ok (s.ring.clamp e (.real a)) := by
    cases s with
    | simplex r => exact absurd rfl (hx r)
    | _ => rfl
  obtain ⟨hin, hid⟩ := realClamp_spec (e := e) hb
  refine ⟨a.map (Ring.realClamp e mn mx), by rw [hc, hs]; rfl, rfl, fun i hi => ?_⟩
  rw [Arr.map_get hi]
  exact ⟨hin _, hid _⟩

/-- Non-vacuity: positive scalars. -/
example : (Support.scalar (.real (some 0) none 0)).ring = .real (some 0) none 0 ∧
    (∀ r, Support.scalar (.real (some 0) none 0) ≠ .simplex r) ∧
    ∀ m ∈ some (0 : ℝ), ∀ M ∈ (none : Option ℝ), m + 1 / 8 ≤ M - 1 / 8 := by simp [Support.ring]

end Efax
