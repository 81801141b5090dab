import Verif.Spec.Vjp
import Verif.Lemmas.Calc
import Verif.Lemmas.Index
import Mathlib.LinearAlgebra.Matrix.Notation
import Mathlib.LinearAlgebra.Pi
import Mathlib.Analysis.InnerProductSpace.PiL2
import Mathlib.Data.Matrix.Basis

/-! # Parameter arrays as batches of vectors: nudging, pairing and cotangents -/

noncomputable section

namespace Efax

open Spec Calc

theorem sumBox_congr {rs : List ℕ} {g h : List ℕ → ℝ} (e : ∀ i, inB rs i = true → g i = h i) :
    sumBox rs g = sumBox rs h := by
  induction rs generalizing g h with
  | nil => exact e [] rfl
  | cons n rs ih =>
    refine Finset.sum_congr rfl fun k hk => ih fun i hi => e _ ?_
    exact (inB_cons ..).2 ⟨Finset.mem_range.1 hk, hi⟩

theorem sumBox_add (rs : List ℕ) (g h : List ℕ → ℝ) :
    sumBox rs (fun i => g i + h i) = sumBox rs g + sumBox rs h := by
  induction rs generalizing g h with
  | nil => rfl
  | cons n rs ih => simp only [sumBox, ih, Finset.sum_add_distrib]

theorem sumBox_zero (rs : List ℕ) : sumBox rs (fun _ => 0) = 0 := by
  induction rs with
  | nil => rfl
  | cons n rs ih => simp only [sumBox, ih, Finset.sum_const_zero]

theorem sumBox_sum {ι : Type} (s : Finset ι) (rs : List ℕ) (g : ι → List ℕ → ℝ) :
    sumBox rs (fun i => ∑ k ∈ s, g k i) = ∑ k ∈ s, sumBox rs (g k) := by
  classical
  induction s using Finset.induction_on with
  | empty => simp only [Finset.sum_empty, sumBox_zero]
  | insert a s ha ih => simp only [Finset.sum_insert ha, sumBox_add, ih]

theorem sumBox_single {rs : List ℕ} {i : List ℕ} (hi : inB rs i = true) (a : ℝ) :
    sumBox rs (fun j => if j = i then a else 0) = a := by
  induction rs generalizing i with
  | nil =>
    rw [inB_nil_iff.1 hi]
    simp [sumBox]
  | cons n rs ih =>
    cases i with
    | nil => simp [inB] at hi
    | cons k i =>
      obtain ⟨hk, hi⟩ := (inB_cons ..).1 hi
      rw [sumBox, Finset.sum_eq_single k]
      · simp only [List.cons.injEq, true_and, ih hi]
      · intro l _ hl
        simp only [List.cons.injEq, hl, false_and, if_false, sumBox_zero]
      · intro h
        exact absurd (Finset.mem_range.2 hk) h

/-- Only the term at `i` depends on the value at `i`. -/
theorem sumBox_update {A : Type} {rs : List ℕ} {i : List ℕ} (hi : inB rs i = true) (f : List ℕ → A) (x : A)
    (G : List ℕ → A → ℝ) :
    sumBox rs (fun j => G j (Function.update f i x j)) =
      sumBox rs (fun j => if j = i then 0 else G j (f j)) + G i x := by
  rw [← sumBox_single hi (G i x), ← sumBox_add]
  refine sumBox_congr fun j _ => ?_
  by_cases h : j = i
  · subst h; simp
  · simp [h]

/-- How arrays hold one element of `A` per entry of a batch: nudging an entry moves one element of the
batch, the pairing is the sum of the pairings `dot` of the elements, and a cotangent that represents
linear maps is their gradient with respect to `dot`. -/
structure Slot (A : Type) [AddCommGroup A] [Module ℝ A] (arr : List ℕ → (List ℕ → A) → Val)
    (dot : A → A → ℝ) : Prop where
  same : ∀ rs f g, (arr rs f).sameType (arr rs g) = true
  pair : ∀ rs f g, (arr rs f).pair (arr rs g) = sumBox rs fun i => dot (f i) (g i)
  grad : ∀ rs f (D : List ℕ → ℂ → ℝ) (ℓ : List ℕ → A →ₗ[ℝ] ℝ),
    (∀ j z i e, inB rs i = true → (∀ (t : ℝ) g, (arr rs g).nudge j (t * z) =
      arr rs (Function.update g i (g i + t • e))) → D j z = ℓ i e) →
    ∃ u, (arr rs f).cotangent D = arr rs u ∧ ∀ i, inB rs i = true → ∀ w, dot w (u i) = ℓ i w

/-- The array of the cotangent has the right form, whatever the derivatives. -/
structure FixedSlot (A : Type) (arr : List ℕ → (List ℕ → A) → Val) : Prop where
  same : ∀ rs f g, (arr rs f).sameType (arr rs g) = true
  grad : ∀ rs f D, ∃ u, (arr rs f).cotangent D = arr rs u

theorem slotS : Slot ℝ (fun rs f => .real (scalars rs f)) fun a b => a * b where
  same rs f g := by simp [Val.sameType, scalars]
  pair rs f g := by
    simp only [Val.pair, scalars, Arr.ofFn_rshape]
    exact sumBox_congr fun i hi => by rw [Arr.ofFn_get hi, Arr.ofFn_get hi]
  grad rs f D ℓ h := by
    refine ⟨fun i => D i 1, rfl, fun i hi w => ?_⟩
    beta_reduce
    rw [h i 1 i 1 hi fun t g => ?_, ← smul_eq_mul, ← map_smul, smul_eq_mul, mul_one]
    simp only [Val.nudge, scalars, Arr.ofFn_rshape]
    refine congrArg Val.real (Arr.ext rfl fun j hj => ?_)
    have hj : inB rs j = true := hj
    rw [Arr.ofFn_get hj, Arr.ofFn_get hj, Arr.ofFn_get hj]
    by_cases e : j = i
    · subst e; simp
    · simp [e]

theorem slotC : Slot ℂ (fun rs f => .complex (scalars rs f)) fun a b => (a * b).re where
  same rs f g := by simp [Val.sameType, scalars]
  pair rs f g := by
    simp only [Val.pair, scalars, Arr.ofFn_rshape]
    exact sumBox_congr fun i hi => by rw [Arr.ofFn_get hi, Arr.ofFn_get hi]
  grad rs f D ℓ h := by
    refine ⟨fun i => ⟨D i 1, -D i Complex.I⟩, rfl, fun i hi w => ?_⟩
    have hz : ∀ z, D i z = ℓ i z := fun z => h i z i z hi fun t g => by
      simp only [Val.nudge, scalars, Arr.ofFn_rshape]
      refine congrArg Val.complex (Arr.ext rfl fun j hj => ?_)
      have hj : inB rs j = true := hj
      rw [Arr.ofFn_get hj, Arr.ofFn_get hj, Arr.ofFn_get hj]
      by_cases e : j = i
      · subst e; simp
      · simp [e]
    have hw : w = w.re • (1 : ℂ) + w.im • Complex.I := by
      apply Complex.ext <;> simp
    beta_reduce
    rw [hz, hz]
    conv_rhs => rw [hw]
    simp only [map_add, map_smul, Complex.mul_re, smul_eq_mul]
    ring

theorem vectors_ext {α : Type} [Inhabited α] {d : ℕ} {rs : List ℕ} {a : Arr α} {f : List ℕ → Fin d → α}
    (hs : a.rshape = d :: rs) (h : ∀ (k : Fin d) i, inB rs i = true → a.get (k.val :: i) = f i k) :
    a = vectors rs f := by
  refine Arr.ext (hs.trans (vectors_rshape ..).symm) fun j hj => ?_
  rw [hs] at hj
  cases j with
  | nil => simp [inB] at hj
  | cons k i =>
    obtain ⟨hk, hi⟩ := (inB_cons ..).1 hj
    rw [h ⟨k, hk⟩ i hi, Calc.vectors_get _ hk hi]

theorem sumBox_vectors {d : ℕ} (rs : List ℕ) (g : List ℕ → ℝ) (h : List ℕ → Fin d → ℝ)
    (e : ∀ (k : Fin d) i, inB rs i = true → g (k.val :: i) = h i k) :
    sumBox (d :: rs) g = sumBox rs fun i => ∑ k, h i k := by
  rw [sumBox_sum, sumBox, ← Fin.sum_univ_eq_sum_range fun k => sumBox rs fun i => g (k :: i)]
  exact Finset.sum_congr rfl fun k _ => sumBox_congr fun i hi => e k i hi

theorem slotV {d : ℕ} : Slot (Fin d → ℝ) (fun rs f => .real (vectors rs f)) fun a b => ∑ k, a k * b k where
  same rs f g := by simp [Val.sameType, vectors_rshape]
  pair rs f g := by
    simp only [Val.pair, vectors_rshape]
    exact sumBox_vectors _ _ _ fun k i hi => by rw [Calc.vectors_get _ k.2 hi, Calc.vectors_get _ k.2 hi]
  grad rs f D ℓ h := by
    refine ⟨fun i k => D (k.val :: i) 1, ?_, fun i hi w => ?_⟩
    · simp only [Val.cotangent]
      refine congrArg Val.real (vectors_ext (by rw [Arr.ofFn_rshape, vectors_rshape]) fun k i hi => ?_)
      rw [Arr.ofFn_get (by rw [vectors_rshape]; exact (inB_cons ..).2 ⟨k.2, hi⟩)]
    · have hD : ∀ k : Fin d, D (k.val :: i) 1 = ℓ i (Pi.single k 1) := fun k => h _ 1 i _ hi fun t g => by
        simp only [Val.nudge]
        refine congrArg Val.real (vectors_ext (by rw [Arr.ofFn_rshape, vectors_rshape]) fun l j hj => ?_)
        rw [Arr.ofFn_get (by rw [vectors_rshape]; exact (inB_cons ..).2 ⟨l.2, hj⟩),
          Calc.vectors_get _ l.2 hj]
        by_cases e : j = i
        · subst e
          by_cases e' : l = k
          · subst e'; simp
          · have : l.val ≠ k.val := fun h => e' (Fin.ext h)
            simp [e', this]
        · simp [e]
      conv_rhs => rw [LinearMap.pi_apply_eq_sum_univ (ℓ i) w]
      refine Finset.sum_congr rfl fun k _ => ?_
      beta_reduce
      rw [hD, smul_eq_mul]
      congr 2
      funext l
      simp [Pi.single_apply, eq_comm]

theorem slotE {d : ℕ} : Slot (EuclideanSpace ℝ (Fin d)) (fun rs f => .real (vectors rs fun i k => f i k))
    fun a b => ∑ k, a k * b k where
  same rs f g := slotV.same rs (fun i k => f i k) fun i k => g i k
  pair rs f g := slotV.pair rs (fun i k => f i k) fun i k => g i k
  grad rs f D ℓ h := by
    obtain ⟨u, h1, h2⟩ := slotV.grad rs (fun i k => f i k) D
      (fun i => ℓ i ∘ₗ (WithLp.linearEquiv 2 ℝ (Fin d → ℝ)).symm.toLinearMap) fun j z i e hi he =>
        h j z i _ hi fun t g => (he t fun i k => g i k).trans (by
          congr 2
          funext i' k
          by_cases e : i' = i
          · subst e; simp
          · simp [e])
    exact ⟨fun i => WithLp.toLp 2 (u i), h1, fun i hi w => h2 i hi fun k => w k⟩

theorem slotCV {d : ℕ} : Slot (Fin d → ℂ) (fun rs f => .complex (vectors rs f))
    fun a b => ∑ k, (a k * b k).re where
  same rs f g := by simp [Val.sameType, vectors_rshape]
  pair rs f g := by
    simp only [Val.pair, vectors_rshape]
    exact sumBox_vectors _ _ _ fun k i hi => by rw [Calc.vectors_get _ k.2 hi, Calc.vectors_get _ k.2 hi]
  grad rs f D ℓ h := by
    refine ⟨fun i k => ⟨D (k.val :: i) 1, -D (k.val :: i) Complex.I⟩, ?_, fun i hi w => ?_⟩
    · simp only [Val.cotangent]
      refine congrArg Val.complex (vectors_ext (by rw [Arr.ofFn_rshape, vectors_rshape]) fun k i hi => ?_)
      rw [Arr.ofFn_get (by rw [vectors_rshape]; exact (inB_cons ..).2 ⟨k.2, hi⟩)]
    · have hD : ∀ (k : Fin d) z, D (k.val :: i) z = ℓ i (Pi.single k z) := fun k z => h _ z i _ hi fun t g => by
        simp only [Val.nudge]
        refine congrArg Val.complex (vectors_ext (by rw [Arr.ofFn_rshape, vectors_rshape]) fun l j hj => ?_)
        rw [Arr.ofFn_get (by rw [vectors_rshape]; exact (inB_cons ..).2 ⟨l.2, hj⟩),
          Calc.vectors_get _ l.2 hj]
        by_cases e : j = i
        · subst e
          by_cases e' : l = k
          · subst e'; simp
          · have : l.val ≠ k.val := fun h => e' (Fin.ext h)
            simp [e', this]
        · simp [e]
      have hw : w = ∑ k, ((w k).re • (Pi.single k 1 : Fin d → ℂ) + (w k).im • (Pi.single k Complex.I : Fin d → ℂ)) := by
        funext l
        rw [Finset.sum_apply, Finset.sum_eq_single l]
        · apply Complex.ext <;> simp
        · intro b _ hb
          simp [hb.symm]
        · simp
      conv_rhs => rw [hw]
      rw [map_sum]
      refine Finset.sum_congr rfl fun k _ => ?_
      beta_reduce
      rw [hD, hD, map_add, map_smul, map_smul, Complex.mul_re, smul_eq_mul, smul_eq_mul]
      ring

theorem matrices_ext {α : Type} [Inhabited α] {m n : ℕ} {rs : List ℕ} {a : Arr α}
    {f : List ℕ → Matrix (Fin m) (Fin n) α} (hs : a.rshape = n :: m :: rs)
    (h : ∀ (r : Fin m) (c : Fin n) i, inB rs i = true → a.get (c.val :: r.val :: i) = f i r c) :
    a = matrices rs f := by
  refine Arr.ext (hs.trans (matrices_rshape ..).symm) fun j hj => ?_
  rw [hs] at hj
  match j with
  | [] => simp [inB] at hj
  | [_] => simp [inB] at hj
  | c :: r :: i =>
    obtain ⟨hc, hj⟩ := (inB_cons ..).1 hj
    obtain ⟨hr, hi⟩ := (inB_cons ..).1 hj
    rw [h ⟨r, hr⟩ ⟨c, hc⟩ i hi]
    exact (Calc.matrices_get f ⟨r, hr⟩ ⟨c, hc⟩ hi).symm

theorem sumBox_matrices {m n : ℕ} (rs : List ℕ) (g : List ℕ → ℝ) (h : List ℕ → Fin m → Fin n → ℝ)
    (e : ∀ (r : Fin m) (c : Fin n) i, inB rs i = true → g (c.val :: r.val :: i) = h i r c) :
    sumBox (n :: m :: rs) g = sumBox rs fun i => ∑ r, ∑ c, h i r c := by
  rw [sumBox, ← Fin.sum_univ_eq_sum_range fun c => sumBox (m :: rs) fun i => g (c :: i)]
  rw [Finset.sum_congr rfl fun (c : Fin n) _ => sumBox_vectors (d := m) rs (fun i => g (c.val :: i))
    (fun i r => h i r c) fun r i hi => e r c i hi]
  rw [← sumBox_sum]
  exact sumBox_congr fun i _ => Finset.sum_comm

theorem slotM {d : ℕ} : Slot (Matrix (Fin d) (Fin d) ℝ) (fun rs f => .real (matrices rs f))
    fun a b => ∑ r, ∑ c, a r c * b r c where
  same rs f g := by simp [Val.sameType, matrices_rshape]
  pair rs f g := by
    simp only [Val.pair, matrices_rshape]
    exact sumBox_matrices _ _ _ fun r c i hi => by rw [Calc.matrices_get _ r c hi, Calc.matrices_get _ r c hi]
  grad rs f D ℓ h := by
    refine ⟨fun i r c => D (c.val :: r.val :: i) 1, ?_, fun i hi w => ?_⟩
    · simp only [Val.cotangent]
      refine congrArg Val.real (matrices_ext (by rw [Arr.ofFn_rshape, matrices_rshape]) fun r c i hi => ?_)
      rw [Arr.ofFn_get (by rw [matrices_rshape]; exact (inB_cons ..).2 ⟨c.2, (inB_cons ..).2 ⟨r.2, hi⟩⟩)]
    · have hD : ∀ r c : Fin d, D (c.val :: r.val :: i) 1 = ℓ i (Matrix.single r c 1) := fun r c =>
        h _ 1 i _ hi fun t g => by
          simp only [Val.nudge]
          refine congrArg Val.real (matrices_ext (by rw [Arr.ofFn_rshape, matrices_rshape]) fun r' c' j hj => ?_)
          rw [Arr.ofFn_get (by rw [matrices_rshape]; exact (inB_cons ..).2 ⟨c'.2, (inB_cons ..).2 ⟨r'.2, hj⟩⟩),
            Calc.matrices_get _ r' c' hj]
          by_cases e : j = i
          · subst e
            by_cases e' : r = r' ∧ c = c'
            · obtain ⟨rfl, rfl⟩ := e'; simp
            · have : ¬ (c'.val = c.val ∧ r'.val = r.val) := fun h => e' ⟨(Fin.ext h.2).symm, (Fin.ext h.1).symm⟩
              simp only [List.cons.injEq, and_true, this, if_false, Function.update_self, Matrix.add_apply,
                Matrix.smul_apply, Matrix.single_apply, e', smul_zero, add_zero]
          · simp [e]
      have hw : w = ∑ r, ∑ c, w r c • Matrix.single r c (1 : ℝ) := by
        conv_lhs => rw [Matrix.matrix_eq_sum_single w]
        simp [Matrix.smul_single]
      conv_rhs => rw [hw]
      simp only [map_sum, map_smul, hD, smul_eq_mul]

theorem slotCM {d : ℕ} : Slot (Matrix (Fin d) (Fin d) ℂ) (fun rs f => .complex (matrices rs f))
    fun a b => ∑ r, ∑ c, (a r c * b r c).re where
  same rs f g := by simp [Val.sameType, matrices_rshape]
  pair rs f g := by
    simp only [Val.pair, matrices_rshape]
    exact sumBox_matrices _ _ _ fun r c i hi => by rw [Calc.matrices_get _ r c hi, Calc.matrices_get _ r c hi]
  grad rs f D ℓ h := by
    refine ⟨fun i r c => ⟨D (c.val :: r.val :: i) 1, -D (c.val :: r.val :: i) Complex.I⟩, ?_, fun i hi w => ?_⟩
    · simp only [Val.cotangent]
      refine congrArg Val.complex (matrices_ext (by rw [Arr.ofFn_rshape, matrices_rshape]) fun r c i hi => ?_)
      rw [Arr.ofFn_get (by rw [matrices_rshape]; exact (inB_cons ..).2 ⟨c.2, (inB_cons ..).2 ⟨r.2, hi⟩⟩)]
    · have hD : ∀ (r c : Fin d) z, D (c.val :: r.val :: i) z = ℓ i (Matrix.single r c z) := fun r c z =>
        h _ z i _ hi fun t g => by
          simp only [Val.nudge]
          refine congrArg Val.complex (matrices_ext (by rw [Arr.ofFn_rshape, matrices_rshape]) fun r' c' j hj => ?_)
          rw [Arr.ofFn_get (by rw [matrices_rshape]; exact (inB_cons ..).2 ⟨c'.2, (inB_cons ..).2 ⟨r'.2, hj⟩⟩),
            Calc.matrices_get _ r' c' hj]
          by_cases e : j = i
          · subst e
            by_cases e' : r = r' ∧ c = c'
            · obtain ⟨rfl, rfl⟩ := e'; simp
            · have : ¬ (c'.val = c.val ∧ r'.val = r.val) := fun h => e' ⟨(Fin.ext h.2).symm, (Fin.ext h.1).symm⟩
              simp only [List.cons.injEq, and_true, this, if_false, Function.update_self, Matrix.add_apply,
                Matrix.smul_apply, Matrix.single_apply, e', smul_zero, add_zero]
          · simp [e]
      have hw : w = ∑ r, ∑ c, ((w r c).re • Matrix.single r c (1 : ℂ) + (w r c).im • Matrix.single r c Complex.I) := by
        conv_lhs => rw [Matrix.matrix_eq_sum_single w]
        refine Finset.sum_congr rfl fun r _ => Finset.sum_congr rfl fun c _ => ?_
        rw [Matrix.smul_single, Matrix.smul_single, ← Matrix.single_add]
        congr 1
        apply Complex.ext <;> simp
      conv_rhs => rw [hw]
      simp only [map_sum, map_add, map_smul, hD, smul_eq_mul]
      refine Finset.sum_congr rfl fun r _ => Finset.sum_congr rfl fun c _ => ?_
      rw [Complex.mul_re]
      ring

theorem fixedS : FixedSlot ℝ fun rs f => .real (scalars rs f) where
  same := slotS.same
  grad rs f D := ⟨fun i => D i 1, rfl⟩

theorem nudge_scalars (rs i : List ℕ) (t : ℝ) (g : List ℕ → ℝ) :
    (Val.real (scalars rs g)).nudge i (t * 1) = .real (scalars rs (Function.update g i (g i + t))) := by
  simp only [Val.nudge, scalars, Arr.ofFn_rshape]
  refine congrArg Val.real (Arr.ext rfl fun j hj => ?_)
  have hj : inB rs j = true := hj
  rw [Arr.ofFn_get hj, Arr.ofFn_get hj, Arr.ofFn_get hj]
  by_cases e : j = i
  · subst e; simp
  · simp [e]

theorem cotangent_vectors {d : ℕ} (rs : List ℕ) (f : List ℕ → Fin d → ℝ) (D : List ℕ → ℂ → ℝ) :
    ∃ u : List ℕ → Fin d → ℝ, (Val.real (vectors rs f)).cotangent D = .real (vectors rs u) := by
  refine ⟨fun i k => D (k.val :: i) 1,
    congrArg Val.real (vectors_ext (by rw [Arr.ofFn_rshape, vectors_rshape]) fun k i hi => ?_)⟩
  rw [Arr.ofFn_get (by rw [vectors_rshape]; exact (inB_cons ..).2 ⟨k.2, hi⟩)]

theorem fixedInt : FixedSlot ℕ fun rs f => .int (scalars rs fun i => (f i : ℤ)) where
  same rs f g := by simp [Val.sameType, scalars]
  grad rs f D := ⟨fun _ => 0, rfl⟩

end Efax
