import Verif.Props.Oracle.Mv

/-!
# The oracles of the tests: complex normal distributions
-/

namespace Efax

open Spec Calc Tests MeasureTheory Matrix
open scoped ComplexOrder

section

variable {n : ℕ} {rs : List ℕ}

theorem scalarAt_scalars {α : Type} [Inhabited α] (m : List ℕ → α) (d : α) {i : List ℕ}
    (hi : inB rs i = true) : scalarAt (some (scalars rs m)) d i = m i := Arr.ofFn_get hi

theorem complexNormal_ok (m : List ℕ → ℂ) (v : List ℕ → ℝ) (p : List ℕ → ℂ)
    (h : ∀ i, inB rs i = true → ‖p i‖ < v i) :
    ∃ o, Tests.complexNormal (scalars rs m) (ok (scalars rs v)) (ok (scalars rs p)) = .ok o ∧
      (∀ w y, HoldsC rs y w →
        o.pdf (.leaf w) = .ok (scalars rs fun i => Textbook.complexNormal (m i) (v i) (p i) (y i))) ∧
      ∃ e, o.entropy = .ok (scalars rs e) ∧ ∀ i, inB rs i = true →
        IsCrossEntropy volume (Textbook.complexNormal (m i) (v i) (p i))
          (Textbook.complexNormal (m i) (v i) (p i)) (e i) := by
  have h1 : ∀ a ∈ some (scalars rs m), a.rshape = rs := by rintro a ⟨⟩; rfl
  have h2 : ∀ a ∈ some (scalars rs v), a.rshape = rs := by rintro a ⟨⟩; rfl
  have h3 : ∀ a ∈ some (scalars rs p), a.rshape = rs := by rintro a ⟨⟩; rfl
  have hd : ∀ i, inB rs i = true →
      ‖scalarAt (some (scalars rs p)) 0 i‖ < scalarAt (some (scalars rs v)) 1 i := fun i hi => by
    rw [scalarAt_scalars p _ hi, scalarAt_scalars v _ hi]
    exact h i hi
  obtain ⟨D, e, hD, he, hE⟩ := C60_complex_entropy h1 h2 h3 (.inl rfl) hd fun _ _ (g : Empty) => g.elim
  refine ⟨complexOracle (Scipy.complexNormalShaped D fun _ _ g => g.elim), ?_, fun w y hy => ?_, e, he,
    fun i hi => ?_⟩
  · show (do
      let D ← Scipy.complexNormalNew _ _ _
      .ok (complexOracle (Scipy.complexNormalShaped D fun _ _ g => g.elim))) = _
    rw [hD]
    rfl
  · show (Scipy.complexNormalShaped D _).pdf w.toC = _
    rw [hy]
    obtain ⟨D', hD', hp⟩ := C60_complex_pdf h1 h2 h3 (.inl rfl) hd (fun _ _ (g : Empty) => g.elim)
      (x := scalars rs y) rfl
    obtain rfl : D = D' := Except.ok.inj (hD.symm.trans hD')
    refine hp.trans (congrArg _ (scalars_congr fun i hi => ?_))
    rw [scalarAt_scalars m _ hi, scalarAt_scalars v _ hi, scalarAt_scalars p _ hi]
    exact congrArg _ (Arr.ofFn_get hi)
  · have := hE i hi
    rwa [scalarAt_scalars m _ hi, scalarAt_scalars v _ hi, scalarAt_scalars p _ hi] at this

theorem complexMvNormal_ok (m : Option (Arr ℂ)) (v : Option (Arr ℂ)) (hm : ∀ a ∈ m, a.rshape = n :: rs)
    (hv : ∀ a ∈ v, a.rshape = n :: n :: rs) (hne : m.isSome ∨ v.isSome) {M : List ℕ → Fin n → ℂ}
    {V : List ℕ → Matrix (Fin n) (Fin n) ℂ} (hM : ∀ i, inB rs i = true → vectorAt n m i = M i)
    (hV : ∀ i, inB rs i = true → matrixAt v 1 i = V i) (h : ∀ i, inB rs i = true → (V i).PosDef) :
    ∃ o, Tests.complexMvNormal m v = .ok o ∧
      (∀ w y, HoldsCV rs y w →
        o.pdf (.leaf w) = .ok (scalars rs fun i => Textbook.complexMvNormal (M i) (V i) 0 (y i))) ∧
      ∃ e, o.entropy = .ok (scalars rs e) ∧ ∀ i, inB rs i = true →
        IsCrossEntropy volume (Textbook.complexMvNormal (M i) (V i) 0)
          (Textbook.complexMvNormal (M i) (V i) 0) (e i) := by
  have h3 : ∀ a ∈ (none : Option (Arr ℂ)), a.rshape = n :: n :: rs := by rintro a ⟨⟩
  have hne : m.isSome ∨ v.isSome ∨ (none : Option (Arr ℂ)).isSome := by tauto
  have hd : ∀ i, inB rs i = true →
      (Textbook.complexMvCov (matrixAt (n := n) v 1 i) (matrixAt none 0 i)).PosDef := fun i hi => by
    rw [hV i hi]
    exact complexMvCov_posDef (h i hi)
  obtain ⟨D, e, hD, he, hE⟩ := C60_cmv_entropy hm hv h3 hne hd fun _ _ (g : Empty) => g.elim
  refine ⟨complexOracle (Scipy.complexMvNormalShaped D fun _ _ g => g.elim), ?_, fun w y hy => ?_, e, he,
    fun i hi => ?_⟩
  · rw [Tests.complexMvNormal, hD]
    rfl
  · show (Scipy.complexMvNormalShaped D _).pdf w.toC = _
    rw [hy]
    obtain ⟨D', hD', hp⟩ := C60_cmv_pdf hm hv h3 hne hd (fun _ _ (g : Empty) => g.elim)
      (x := vectors rs y) rfl
    obtain rfl : D = D' := by
      have := Except.ok.inj (hD.symm.trans hD')
      simpa using this
    refine hp.trans (congrArg _ (scalars_congr fun i hi => ?_))
    rw [hM i hi, hV i hi]
    exact congrArg _ (funext fun k => Calc.vectors_get y k.2 hi)
  · have := hE i hi
    rwa [hM i hi, hV i hi] at this

theorem complexUnit_args (m : List ℕ → ℂ) :
    Tests.complexNormal (Val.complex (scalars rs m)).toC (ok (Arr.full (Val.complex (scalars rs m)).toC.rshape 1))
      (ok (Arr.full (Val.complex (scalars rs m)).toC.rshape 0)) =
    Tests.complexNormal (scalars rs m) (ok (scalars rs fun _ => (1 : ℝ)))
      (ok (scalars rs fun _ => (0 : ℂ))) := rfl

theorem complexNormal_args (m : List ℕ → ComplexNormalParams) :
    Tests.complexNormal (Val.complex (scalars rs fun i => (m i).1)).toC
      ((Val.real (scalars rs fun i => (m i).2.1)).toR - absSquare (Val.complex (scalars rs fun i => (m i).1)).toCalcC)
      ((Val.complex (scalars rs fun i => (m i).2.2)).toCalcC - square (Val.complex (scalars rs fun i => (m i).1)).toCalcC) =
    Tests.complexNormal (scalars rs fun i => (m i).1)
      (ok (scalars rs fun i => (m i).2.1 - Complex.normSq (m i).1))
      (ok (scalars rs fun i => (m i).2.2 - (m i).1 ^ 2)) := by
  have e1 : ∀ a : Arr ℂ, (Val.complex a).toCalcC = ok a := fun _ => rfl
  have e2 : ∀ a : Arr ℂ, (Val.complex a).toC = a := fun _ => rfl
  rw [e1, e1, e2, toR_real]
  calc_simp

end

variable [MachEps] {solve : Solver} {search : Cls → List Val → Except Err (List Val)}
  (hs : solve.For search) {n : ℕ}

include hs

theorem agrees_complexUnit (n : ℕ) :
    Agrees (library search) (.simple .complexUnit n) (Simple.complexUnit.setting solve) := by
  have hL := C51_library hs (.simple .complexUnit)
  refine agrees_oracle HoldsC (fun _ => True)
    (fun _ (q : ℂ) => Textbook.complexNormal (complexUnit.toExp q) 1 0) (fun y (x : ℂ) => y = x)
    (fun rs p q hq => ?_) ?_ ?_
  · obtain ⟨o, h1, h2, e, h3, h4⟩ := complexNormal_ok (rs := rs) (fun i => complexUnit.toExp (q i)) (fun _ => 1)
      (fun _ => 0) fun i hi => by simp
    refine ⟨o, ((natToScipy_expTo (s := .complexUnit) (n := n) rfl rfl
      (hL.toExp rs p q fun _ _ => trivial)).trans (complexUnit_args _)).trans h1, fun v y hy _ => h2 v y hy,
      fun hx _ => ⟨e, h3, fun i hi => crossEntropy_unique (h4 i hi) ?_⟩⟩
    have h := ((library_lawful (solve := solve) (.simple .complexUnit)).entropy trivial (hq i hi).1
      (hq i hi).2 (hx i hi)).1
    rwa [← show complexUnit.pdf (q i) = _ from funext (C57_complex_unit (q i))]
  · rintro rs v ⟨x, hx⟩
    exact ⟨x, v, x, hx, rfl, ⟨v, rfl, hx⟩, fun i _ => ⟨trivial, rfl⟩⟩
  · rintro v q y x hv hq - rfl
    exact (C57_complex_unit q y).symm

theorem agrees_complexNormal (n : ℕ) :
    Agrees (library search) (.simple .complexNormal n) (Simple.complexNormal.setting solve) := by
  have hL := C51_library hs (.simple .complexNormal)
  refine agrees_oracle HoldsC (fun _ => True)
    (fun _ (q : ComplexNormalParams) => Textbook.complexNormal (complexNormal.toExp q).1
      ((complexNormal.toExp q).2.1 - Complex.normSq (complexNormal.toExp q).1)
      ((complexNormal.toExp q).2.2 - (complexNormal.toExp q).1 ^ 2)) (fun y (x : ℂ) => y = x)
    (fun rs p q hq => ?_) ?_ ?_
  · obtain ⟨o, h1, h2, e, h3, h4⟩ := complexNormal_ok (rs := rs) (fun i => (complexNormal.toExp (q i)).1)
      (fun i => (complexNormal.toExp (q i)).2.1 - Complex.normSq (complexNormal.toExp (q i)).1)
      (fun i => (complexNormal.toExp (q i)).2.2 - (complexNormal.toExp (q i)).1 ^ 2) fun i hi =>
        complexNormal_expectation_dom (hq i hi).2
    refine ⟨o, ((natToScipy_expTo (s := .complexNormal) (n := n) rfl rfl
      (hL.toExp rs p q fun _ _ => trivial)).trans
        (complexNormal_args fun i => complexNormal.toExp (q i))).trans h1, fun v y hy _ => h2 v y hy,
      fun hx _ => ⟨e, h3, fun i hi => crossEntropy_unique (h4 i hi) ?_⟩⟩
    have h := ((library_lawful (solve := solve) (.simple .complexNormal)).entropy trivial (hq i hi).1
      (hq i hi).2 (hx i hi)).1
    rwa [← show complexNormal.pdf (q i) = _ from funext (C57_complex_normal (hq i hi).2)]
  · rintro rs v ⟨x, hx⟩
    exact ⟨x, v, x, hx, rfl, ⟨v, rfl, hx⟩, fun i _ => ⟨trivial, rfl⟩⟩
  · rintro v q y x hv hq - rfl
    exact (C57_complex_normal hq y).symm

theorem agrees_cmvUnit :
    Agrees (library search) (.simple .cmvUnit n) ((Simple.cmvUnit n).setting solve) := by
  have hL := C51_library hs (.simple (.cmvUnit n))
  refine agrees_oracle HoldsCV (fun _ => True)
    (fun _ (q : Fin n → ℂ) => Textbook.complexMvNormal ((cmvUnit n).toExp q) 1 0) (fun y (x : Fin n → ℂ) => y = x)
    (fun rs p q hq => ?_) ?_ ?_
  · obtain ⟨o, h1, h2, e, h3, h4⟩ := complexMvNormal_ok (rs := rs) (n := n) (V := fun _ => 1)
      (some (vectors rs fun i => (cmvUnit n).toExp (q i))) none (by rintro a ⟨⟩; rfl) (by rintro a ⟨⟩)
      (.inl rfl) (fun i hi => vectorAt_vectors _ hi) (fun i hi => rfl) fun i _ => PosDef.one
    refine ⟨o, (natToScipy_expTo (s := .cmvUnit) (n := n) rfl rfl
      (hL.toExp rs p q fun _ _ => trivial)).trans h1, fun v y hy _ => h2 v y hy,
      fun hx _ => ⟨e, h3, fun i hi => crossEntropy_unique (h4 i hi) ?_⟩⟩
    have h := ((library_lawful (solve := solve) (.simple (.cmvUnit n))).entropy trivial (hq i hi).1
      (hq i hi).2 (hx i hi)).1
    rwa [← show (cmvUnit n).pdf (q i) = _ from funext (C57_cmv_unit n (q i))]
  · rintro rs v ⟨x, hx⟩
    exact ⟨x, v, x, hx, rfl, ⟨v, rfl, hx⟩, fun i _ => ⟨trivial, rfl⟩⟩
  · rintro v q y x hv hq - rfl
    exact (C57_cmv_unit n q y).symm

theorem agrees_cmvCircular :
    Agrees (library search) (.simple .cmvCircular n) ((Simple.cmvCircular n).setting solve) := by
  have hL := C51_library hs (.simple (.cmvCircular n))
  refine agrees_oracle HoldsCV (fun _ => True)
    (fun _ (q : Matrix (Fin n) (Fin n) ℂ) => Textbook.complexMvNormal 0 ((cmvCircular n).toExp q) 0)
    (fun y (x : Fin n → ℂ) => y = x) (fun rs p q hq => ?_) ?_ ?_
  · obtain ⟨o, h1, h2, e, h3, h4⟩ := complexMvNormal_ok (rs := rs) (n := n) (M := fun _ => 0) none
      (some (matrices rs fun i => (cmvCircular n).toExp (q i))) (by rintro a ⟨⟩) (by rintro a ⟨⟩; rfl)
      (.inr rfl) (fun i hi => rfl) (fun i hi => matrixAt_matrices _ _ hi)
      fun i hi => (C31_cmv_circular.1 (q i) (hq i hi).2).1
    refine ⟨o, (natToScipy_expTo (s := .cmvCircular) (n := n) rfl rfl
      (hL.toExp rs p q fun _ _ => trivial)).trans h1, fun v y hy _ => h2 v y hy,
      fun hx _ => ⟨e, h3, fun i hi => crossEntropy_unique (h4 i hi) ?_⟩⟩
    have h := ((library_lawful (solve := solve) (.simple (.cmvCircular n))).entropy trivial (hq i hi).1
      (hq i hi).2 (hx i hi)).1
    rwa [← show (cmvCircular n).pdf (q i) = _ from funext (C57_cmv_circular n (hq i hi).2)]
  · rintro rs v ⟨x, hx⟩
    exact ⟨x, v, x, hx, rfl, ⟨v, rfl, hx⟩, fun i _ => ⟨trivial, rfl⟩⟩
  · rintro v q y x hv hq - rfl
    exact (C57_cmv_circular n hq y).symm

end Efax
