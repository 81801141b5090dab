import Verif.Props.Oracle.Basic
import Verif.Props.Scipy.MvArrays

/-!
# The oracles of the tests: multivariate normal distributions
-/

namespace Efax

open Spec Calc Tests MeasureTheory Matrix

section

variable {n : ℕ} {rs : List ℕ}

theorem vectorAt_vectors {α : Type} [Inhabited α] [Zero α] (m : List ℕ → Fin n → α) {i : List ℕ}
    (hi : inB rs i = true) : vectorAt n (some (vectors rs m)) i = m i :=
  funext fun k => Calc.vectors_get m k.2 hi

theorem matrixAt_matrices {α : Type} [Inhabited α] (m : List ℕ → Matrix (Fin n) (Fin n) α)
    (d : Matrix (Fin n) (Fin n) α) {i : List ℕ} (hi : inB rs i = true) :
    matrixAt (some (matrices rs m)) d i = m i := by
  ext r c
  exact Calc.matrices_get m r c hi

/-- `from_mc` with means and with or without covariances. -/
theorem fromMc_ok (hn : n ≠ 0) (m : List ℕ → Fin n → ℝ) (c : Option (Arr ℝ))
    (hc : ∀ a ∈ c, a.rshape = n :: n :: rs) {V : List ℕ → Matrix (Fin n) (Fin n) ℝ}
    (hm : ∀ i, inB rs i = true → matrixAt c 1 i = V i) (hV : ∀ i, inB rs i = true → (V i).PosDef) :
    ∃ o, Tests.fromMc (ok (vectors rs m)) (c.map ok) = .ok o ∧
      (∀ v y, HoldsV rs y v →
        o.pdf (.leaf v) = .ok (scalars rs fun i => Textbook.mvNormal (m i) (V i) (y i))) ∧
      ∃ e, o.entropy = .ok (scalars rs e) ∧ ∀ i, inB rs i = true →
        IsCrossEntropy volume (Textbook.mvNormal (m i) (V i)) (Textbook.mvNormal (m i) (V i)) (e i) := by
  have h1 : ∀ a ∈ some (vectors rs m), a.rshape = n :: rs := by
    rintro a ⟨⟩
    rfl
  obtain ⟨D, hD⟩ := (C60_from_mc (draw := fun _ _ (g : Empty) => g.elim) h1 hc (.inl rfl) hn).1.2
    fun i hi => by rw [hm i hi]; exact hV i hi
  obtain ⟨e, he, hE⟩ := C60_from_mc_entropy h1 hc (.inl rfl) hn hD
  refine ⟨shapedOracle D, ?_, fun v y hy => ?_, e, he, fun i hi => ?_⟩
  · cases c with
    | none =>
      show (do .ok (shapedOracle (← Scipy.fromMc _ _ _))) = _
      rw [hD]
      rfl
    | some c =>
      show (do .ok (shapedOracle (← Scipy.fromMc _ _ _))) = _
      rw [hD]
      rfl
  · show (do D.pdf (← v.toR.run)) = _
    rw [hy]
    refine (C60_from_mc_pdf h1 hc (.inl rfl) hn hD (x := vectors rs y) rfl).trans ?_
    refine congrArg _ (scalars_congr fun i hi => ?_)
    rw [vectorAt_vectors m hi, hm i hi]
    exact congrArg _ (funext fun k => Calc.vectors_get y k.2 hi)
  · have := hE i hi
    rwa [vectorAt_vectors m hi, hm i hi] at this

end

/-! ### Covariances -/

section

variable {n : ℕ} (rs : List ℕ)

theorem tile_args (m : List ℕ → Fin n → ℝ) (v : List ℕ → ℝ) :
    tileVariance (vectors rs m) (scalars rs v) =
      ok (matrices rs fun i => v i • (1 : Matrix (Fin n) (Fin n) ℝ)) := by
  have h : ¬ (scalars rs v).rshape ≠ rs := fun h => h rfl
  refine Eq.trans (if_neg h) (ofFn_matrices fun r c i hi => ?_)
  have e : (scalars rs v).get i = v i := Arr.ofFn_get hi
  show (if r.val = c.val then 1 else 0) * (scalars rs v).get i = v i * (1 : Matrix (Fin n) (Fin n) ℝ) r c
  rw [e, Matrix.one_apply, mul_comm]
  simp [Fin.ext_iff]

theorem eye_args (v : List ℕ → ℝ) :
    ok (outerEye n (scalars rs v)) = ok (matrices rs fun i => v i • (1 : Matrix (Fin n) (Fin n) ℝ)) := by
  refine ofFn_matrices fun r c i hi => ?_
  have e : (scalars rs v).get i = v i := Arr.ofFn_get hi
  show (scalars rs v).get i * (if r.val = c.val then 1 else 0) = v i * (1 : Matrix (Fin n) (Fin n) ℝ) r c
  rw [e, Matrix.one_apply]
  simp [Fin.ext_iff]

theorem diagonal_args (v : List ℕ → Fin n → ℝ) :
    diagonalArray (vectors rs v) = ok (matrices rs fun i => Matrix.diagonal (v i)) := by
  refine ofFn_matrices fun r c i hi => ?_
  have hi : inB rs i = true := hi
  show (if r.val = c.val then (vectors rs v).get (r.val :: i) else 0) = _
  rw [Matrix.diagonal_apply, Calc.vectors_get v r.2 hi]
  simp [Fin.ext_iff]

theorem symmetrized_args (v : List ℕ → Matrix (Fin n) (Fin n) ℝ) (hv : ∀ i, inB rs i = true → (v i).IsSymm) :
    symmetrized (matrices rs v) = ok (matrices rs v) := by
  refine Eq.trans (if_pos rfl) (ofFn_matrices fun r c i hi => ?_)
  show (if c.val ≤ r.val then (matrices rs v).get (c.val :: r.val :: i) else 0) +
    (if r.val < c.val then (matrices rs v).get (r.val :: c.val :: i) else 0) = _
  rw [Calc.matrices_get v r c hi, Calc.matrices_get v c r hi]
  rcases lt_or_ge r.val c.val with h | h
  · rw [if_neg (by omega), if_pos h, zero_add]
    exact (hv i hi).apply r c
  · rw [if_pos h, if_neg (by omega), add_zero]

end

section

variable {n : ℕ}

theorem isotropicVariance_pos (hn : n ≠ 0) {q : (Fin n → ℝ) × ℝ} (hq : q ∈ mvIsotropicDom n) :
    0 < mvIsotropicVariance ((mvIsotropic n).toExp q) := by
  obtain ⟨d, rfl⟩ := Nat.exists_eq_succ_of_ne_zero hn
  exact div_pos (sub_pos.2 (C31_mv_isotropic.1 q hq).1) (by positivity)

theorem diagonalVariance_pos {q : (Fin n → ℝ) × (Fin n → ℝ)} (hq : q ∈ mvDiagonalDom n) (i : Fin n) :
    0 < mvDiagonalVariance ((mvDiagonal n).toExp q) i := sub_pos.2 ((C31_mv_diagonal.1 q hq).1 i)

theorem isSymm_of_posDef {V : Matrix (Fin n) (Fin n) ℝ} (h : V.PosDef) : V.IsSymm := by
  have := h.1
  rwa [IsHermitian, conjTranspose_eq_transpose_of_trivial] at this

theorem vector_obs {s : SimpleInfo} {K : List ℕ → (List ℕ → Fin n → ℝ) → Val → Prop} {rs : List ℕ} {v : Val}
    (h : s.observation v = .ok v) (hK : ∀ x, HoldsV rs x v → K rs x v)
    (hv : ∃ x : List ℕ → Fin n → ℝ, HoldsV rs x v) :
    ∃ (y : List ℕ → Fin n → ℝ) (v' : Val) (x : List ℕ → Fin n → ℝ), HoldsV rs y v ∧ s.observation v = .ok v' ∧
      (∃ w, Tree.leaf v' = .leaf w ∧ K rs x w) ∧ ∀ i, inB rs i = true → True ∧ y i = x i := by
  obtain ⟨x, hx⟩ := hv
  exact ⟨x, v, x, hx, h, ⟨v, rfl, hK x hx⟩, fun i _ => ⟨trivial, rfl⟩⟩

theorem isotropic_args (rs : List ℕ) (m : List ℕ → (Fin n → ℝ) × ℝ) :
    (Methods.isotropicVariance (.real (vectors rs fun i => (m i).1)) (.real (scalars rs fun i => (m i).2))).bind
      (fun v => ok (outerEye n v)) =
    ok (matrices rs fun i => mvIsotropicVariance (m i) • (1 : Matrix (Fin n) (Fin n) ℝ)) := by
  have e : Methods.isotropicVariance (.real (vectors rs fun i => (m i).1)) (.real (scalars rs fun i => (m i).2)) =
      ok (scalars rs fun i => mvIsotropicVariance (m i)) := by
    rw [Methods.isotropicVariance, toR_real, toR_real]
    calc_simp
    rfl
  rw [e]
  exact eye_args rs _

theorem diagonalVariance_args (rs : List ℕ) (m : List ℕ → (Fin n → ℝ) × (Fin n → ℝ)) :
    (Methods.diagonalVariance (.real (vectors rs fun i => (m i).1)) (.real (vectors rs fun i => (m i).2))).bind
      (fun v => diagonalArray v) = ok (matrices rs fun i => Matrix.diagonal (mvDiagonalVariance (m i))) := by
  have e : Methods.diagonalVariance (.real (vectors rs fun i => (m i).1)) (.real (vectors rs fun i => (m i).2)) =
      ok (vectors rs fun i => mvDiagonalVariance (m i)) := by
    rw [Methods.diagonalVariance, toR_real, toR_real]
    calc_simp
    rfl
  rw [e]
  exact diagonal_args rs _

theorem mvVariance_args (rs : List ℕ) (m : List ℕ → (Fin n → ℝ) × Matrix (Fin n) (Fin n) ℝ)
    (hm : ∀ i, inB rs i = true → (mvNormalVariance (m i)).IsSymm) :
    (Methods.mvVariance (.real (vectors rs fun i => (m i).1)) (.real (matrices rs fun i => (m i).2))).bind
      (fun v => symmetrized v) = ok (matrices rs fun i => mvNormalVariance (m i)) := by
  have e : Methods.mvVariance (.real (vectors rs fun i => (m i).1)) (.real (matrices rs fun i => (m i).2)) =
      ok (matrices rs fun i => mvNormalVariance (m i)) := by
    rw [Methods.mvVariance, toR_real, toR_real]
    calc_simp
    rfl
  rw [e]
  exact symmetrized_args rs _ hm


end

variable [MachEps] {solve : Solver} {search : Cls → List Val → Except Err (List Val)}

/-- Families of multivariate normal distributions. -/
theorem agrees_mv {L : Library Cls} {s : SimpleInfo} {n : ℕ} (hn : n ≠ 0) {K : Kind Cls} {S : Setting K}
    (m : K.P → K.N → Fin n → ℝ)
    (V : K.P → K.N → Matrix (Fin n) (Fin n) ℝ) (R : (Fin n → ℝ) → K.X → Prop)
    (hf : ∀ rs p q, S.Inside rs p q → ∃ c : Option (Arr ℝ), (∀ a ∈ c, a.rshape = n :: n :: rs) ∧
      (∀ i, inB rs i = true → matrixAt c 1 i = V (p i) (q i)) ∧
      (TestInfo.simple s n).natToScipy L (K.nat rs p q) =
        Tests.fromMc (ok (vectors rs fun i => m (p i) (q i))) (c.map ok))
    (ho : ∀ rs v, DrawnSimple rs s n v → ∃ y v' x, HoldsV rs y v ∧ s.observation v = .ok v' ∧
      K.obs rs x (.leaf v') ∧ ∀ i, inB rs i = true → True ∧ R (y i) (x i))
    (hV : ∀ p q, S.ok p → q ∈ S.dom p → (V p q).PosDef)
    (hd : ∀ p q y x, S.ok p → q ∈ S.dom p → R y x → Textbook.mvNormal (m p q) (V p q) y = (K.F p).pdf q x)
    (he : ∀ p q, S.ok p → q ∈ S.dom p → K.toNat p ((K.F p).toExp q) = q →
      IsCrossEntropy volume (Textbook.mvNormal (m p q) (V p q)) (Textbook.mvNormal (m p q) (V p q))
        ((K.F p).entropyN (K.ecm p) q)) : Agrees L (.simple s n) S := by
  refine agrees_oracle HoldsV (fun _ => True) (fun p q => Textbook.mvNormal (m p q) (V p q)) R
    (fun rs p q hq => ?_) ho fun p q y x h1 h2 _ h3 => hd p q y x h1 h2 h3
  obtain ⟨c, h1, h2, h3⟩ := hf rs p q hq
  obtain ⟨o, h4, h5, e, h6, h7⟩ := fromMc_ok hn (fun i => m (p i) (q i)) c h1 h2
    fun i hi => hV _ _ (hq i hi).1 (hq i hi).2
  exact ⟨o, h3.trans h4, fun v y hy _ => h5 v y hy, fun hx _ => ⟨e, h6, fun i hi =>
    crossEntropy_unique (h7 i hi) (he _ _ (hq i hi).1 (hq i hi).2 (hx i hi))⟩⟩

variable (hs : solve.For search) {n : ℕ}

include hs

theorem agrees_mvFixed (hn : n ≠ 0) :
    Agrees (library search) (.simple .mvFixed n) ((Simple.mvFixed n).setting solve) := by
  have hL := C51_library hs (.simple (.mvFixed n))
  refine agrees_mv hn (fun (v : ℝ) (q : Fin n → ℝ) => (mvFixed n v).toExp q)
    (fun (v : ℝ) (q : Fin n → ℝ) => v • (1 : Matrix (Fin n) (Fin n) ℝ)) (fun y (x : Fin n → ℝ) => y = x)
    (fun rs p q hq => ⟨some _, ?_, fun i hi => matrixAt_matrices _ _ hi,
      (natToScipy_expTo (s := .mvFixed) (n := n) rfl rfl (hL.toExp rs p q fun _ _ => trivial)).trans
        (congrArg (fun c => Tests.fromMc _ (some c)) (tile_args rs _ p))⟩) (fun rs v hv => vector_obs rfl (fun _ => id) hv) ?_ ?_ ?_
  · rintro a ⟨⟩
    rfl
  · intro v q hv hq
    exact PosDef.one.smul hv
  · rintro v q y x hv hq rfl
    exact (C57_mv_fixed n hv q y).symm
  · intro v q hv hq h3
    have h := ((library_lawful (solve := solve) (.simple (.mvFixed n))).entropy trivial hv hq h3).1
    rwa [← show ((mvFixed n v).pdf q) = _ from funext (C57_mv_fixed n hv q)]

theorem agrees_mvUnit (hn : n ≠ 0) :
    Agrees (library search) (.simple .mvUnit n) ((Simple.mvUnit n).setting solve) := by
  have hL := C51_library hs (.simple (.mvUnit n))
  refine agrees_mv hn (fun _ (q : Fin n → ℝ) => (mvUnit n).toExp q)
    (fun _ (q : Fin n → ℝ) => (1 : Matrix (Fin n) (Fin n) ℝ)) (fun y (x : Fin n → ℝ) => y = x)
    (fun rs p q hq => ⟨none, ?_, fun i hi => rfl,
      (natToScipy_expTo (s := .mvUnit) (n := n) rfl rfl (hL.toExp rs p q fun _ _ => trivial)).trans
        rfl⟩) (fun rs v hv => vector_obs rfl (fun _ => id) hv) ?_ ?_ ?_
  · rintro a ⟨⟩
  · intro v q hv hq
    exact PosDef.one
  · rintro v q y x hv hq rfl
    exact (C57_mv_unit n q y).symm
  · intro v q hv hq h3
    have h := ((library_lawful (solve := solve) (.simple (.mvUnit n))).entropy trivial hv hq h3).1
    rwa [← show ((mvUnit n).pdf q) = _ from funext (C57_mv_unit n q)]

theorem agrees_isotropic (hn : n ≠ 0) :
    Agrees (library search) (.simple .isotropic n) ((Simple.mvIsotropic n).setting solve) := by
  have hL := C51_library hs (.simple (.mvIsotropic n))
  refine agrees_mv hn (fun _ (q : (Fin n → ℝ) × ℝ) => ((mvIsotropic n).toExp q).1)
    (fun _ (q : (Fin n → ℝ) × ℝ) => mvIsotropicVariance ((mvIsotropic n).toExp q) • (1 : Matrix (Fin n) (Fin n) ℝ)) (fun y (x : Fin n → ℝ) => y = x)
    (fun rs p q hq => ⟨some _, ?_, fun i hi => matrixAt_matrices _ _ hi,
      (natToScipy_expTo (s := .isotropic) (n := n) rfl rfl (hL.toExp rs p q fun _ _ => trivial)).trans
        (congrArg (fun c => Tests.fromMc _ (some c)) (isotropic_args rs fun i => (mvIsotropic n).toExp (q i)))⟩) (fun rs v hv => vector_obs rfl (fun _ => id) hv) ?_ ?_ ?_
  · rintro a ⟨⟩
    rfl
  · intro v q hv hq
    exact PosDef.one.smul (isotropicVariance_pos hn hq)
  · rintro v q y x hv hq rfl
    exact (C57_mv_isotropic n hq y).symm
  · intro v q hv hq h3
    have h := ((library_lawful (solve := solve) (.simple (.mvIsotropic n))).entropy trivial hv hq h3).1
    rwa [← show ((mvIsotropic n).pdf q) = _ from funext (C57_mv_isotropic n hq)]

theorem agrees_mvDiagonal (hn : n ≠ 0) :
    Agrees (library search) (.simple .mvDiagonal n) ((Simple.mvDiagonal n).setting solve) := by
  have hL := C51_library hs (.simple (.mvDiagonal n))
  refine agrees_mv hn (fun _ (q : (Fin n → ℝ) × (Fin n → ℝ)) => ((mvDiagonal n).toExp q).1)
    (fun _ (q : (Fin n → ℝ) × (Fin n → ℝ)) => Matrix.diagonal (mvDiagonalVariance ((mvDiagonal n).toExp q))) (fun y (x : Fin n → ℝ) => y = x)
    (fun rs p q hq => ⟨some _, ?_, fun i hi => matrixAt_matrices _ _ hi,
      (natToScipy_expTo (s := .mvDiagonal) (n := n) rfl rfl (hL.toExp rs p q fun _ _ => trivial)).trans
        (congrArg (fun c => Tests.fromMc _ (some c)) (diagonalVariance_args rs fun i => (mvDiagonal n).toExp (q i)))⟩) (fun rs v hv => vector_obs rfl (fun _ => id) hv) ?_ ?_ ?_
  · rintro a ⟨⟩
    rfl
  · intro v q hv hq
    exact PosDef.diagonal (diagonalVariance_pos hq)
  · rintro v q y x hv hq rfl
    exact (C57_mv_diagonal n hq y).symm
  · intro v q hv hq h3
    have h := ((library_lawful (solve := solve) (.simple (.mvDiagonal n))).entropy trivial hv hq h3).1
    rwa [← show ((mvDiagonal n).pdf q) = _ from funext (C57_mv_diagonal n hq)]

theorem agrees_mvNormal (hn : n ≠ 0) :
    Agrees (library search) (.simple .mvNormal n) ((Simple.mvNormal n).setting solve) := by
  have hL := C51_library hs (.simple (.mvNormal n))
  refine agrees_mv hn (fun _ (q : (Fin n → ℝ) × Matrix (Fin n) (Fin n) ℝ) => ((mvNormal n).toExp q).1)
    (fun _ (q : (Fin n → ℝ) × Matrix (Fin n) (Fin n) ℝ) => mvNormalVariance ((mvNormal n).toExp q)) (fun y (x : Fin n → ℝ) => y = x)
    (fun rs p q hq => ⟨some _, ?_, fun i hi => matrixAt_matrices _ _ hi,
      (natToScipy_expTo (s := .mvNormal) (n := n) rfl rfl (hL.toExp rs p q fun _ _ => trivial)).trans
        (congrArg (fun c => Tests.fromMc _ (some c)) (mvVariance_args rs (fun i => (mvNormal n).toExp (q i)) fun i hi => isSymm_of_posDef (mvNormalVariance_posDef (hq i hi).2)))⟩) (fun rs v hv => vector_obs rfl (fun _ => id) hv) ?_ ?_ ?_
  · rintro a ⟨⟩
    rfl
  · intro v q hv hq
    exact mvNormalVariance_posDef hq
  · rintro v q y x hv hq rfl
    exact (C57_mv_normal n hq y).symm
  · intro v q hv hq h3
    have h := ((library_lawful (solve := solve) (.simple (.mvNormal n))).entropy trivial hv hq h3).1
    rwa [← show ((mvNormal n).pdf q) = _ from funext (C57_mv_normal n hq)]

end Efax
