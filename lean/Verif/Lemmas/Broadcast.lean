import Verif.Spec.Broadcast
import Verif.Lemmas.SpreadKind
import Verif.Lemmas.Collect

/-! # Arrays and distributions of different shapes -/

namespace Efax

open ClassTable Calc Spec

/-! ### Shapes -/

/-- An array of the first shape can be repeated to one of the second. -/
def Wider : List ℕ → List ℕ → Prop
  | [], _ => True
  | n :: s, m :: r => (n = m ∨ n = 1) ∧ Wider s r
  | _ :: _, [] => False

theorem Wider.refl (s : List ℕ) : Wider s s := by
  induction s with
  | nil => trivial
  | cons n s ih => exact ⟨.inl rfl, ih⟩

theorem wider_of_bcast {s t r : List ℕ} (h : bcast s t = .ok r) : Wider s r ∧ Wider t r := by
  induction s generalizing t r with
  | nil => cases h; exact ⟨trivial, .refl _⟩
  | cons n s ih =>
    cases t with
    | nil => cases h; exact ⟨.refl _, trivial⟩
    | cons m t =>
      rw [bcast] at h
      cases e : bcast s t with
      | error x => rw [e] at h; cases h
      | ok r' =>
        rw [e] at h
        obtain ⟨h1, h2⟩ := ih e
        simp only [Bind.bind, Except.bind] at h
        split_ifs at h with a b c <;> cases h
        · exact ⟨⟨.inl rfl, h1⟩, ⟨.inl a.symm, h2⟩⟩
        · exact ⟨⟨.inr b, h1⟩, ⟨.inl rfl, h2⟩⟩
        · exact ⟨⟨.inl rfl, h1⟩, ⟨.inr c, h2⟩⟩

theorem Wider.bcast {s r : List ℕ} (h : Wider s r) : bcast s r = .ok r := by
  induction s generalizing r with
  | nil => rfl
  | cons n s ih =>
    cases r with
    | nil => exact h.elim
    | cons m r =>
      rw [Efax.bcast, ih h.2]
      simp only [Bind.bind, Except.bind]
      rcases h.1 with h | h
      · rw [if_pos h, h]
      · by_cases e : n = m
        · rw [if_pos e, e]
        · rw [if_neg e, if_pos h]

theorem bcast_comm (s t : List ℕ) : bcast s t = bcast t s := by
  induction s generalizing t with
  | nil => exact (bcast_nil_right t).symm
  | cons n s ih =>
    cases t with
    | nil => rfl
    | cons m t =>
      rw [bcast, bcast, ih]
      cases bcast t s with
      | error => rfl
      | ok r =>
        simp only [Bind.bind, Except.bind]
        by_cases e : n = m
        · subst e; rfl
        · rw [if_neg e, if_neg (Ne.symm e)]
          by_cases h : n = 1
          · by_cases h' : m = 1
            · exact absurd (h.trans h'.symm) e
            · rw [if_pos h, if_neg h', if_pos h]
          · rw [if_neg h, if_neg h]

theorem Wider.bcast' {s r : List ℕ} (h : Wider s r) : Efax.bcast r s = .ok r :=
  (bcast_comm r s).trans h.bcast

theorem Wider.inB {s r i : List ℕ} (h : Wider s r) (hi : inB r i = true) : inB s (bidx s i) = true := by
  induction s generalizing r i with
  | nil => cases i <;> rfl
  | cons n s ih =>
    cases r with
    | nil => exact h.elim
    | cons m r =>
      obtain ⟨k, j, rfl, hk, hj⟩ := inB_cons_elim hi
      refine (inB_cons ..).2 ⟨?_, ih h.2 hj⟩
      split_ifs with e
      · omega
      · rcases h.1 with h | h
        · omega
        · exact absurd h e

theorem bcast_prefix (a : List ℕ) {s t r : List ℕ} (h : bcast s t = .ok r) :
    bcast (a ++ s) (a ++ t) = .ok (a ++ r) := by
  induction a with
  | nil => exact h
  | cons n a ih => simp [bcast, ih, Bind.bind, Except.bind]

theorem bcast_prefix_error (a : List ℕ) {s t : List ℕ} {x : Err} (h : bcast s t = .error x) :
    bcast (a ++ s) (a ++ t) = .error x := by
  induction a with
  | nil => exact h
  | cons n a ih => simp [bcast, ih, Bind.bind, Except.bind]

theorem bcast_error {s t : List ℕ} {x : Err} (h : bcast s t = .error x) : x = .valueError := by
  induction s generalizing t with
  | nil => cases h
  | cons n s ih =>
    cases t with
    | nil => cases h
    | cons m t =>
      rw [bcast] at h
      cases e : bcast s t with
      | error y => rw [e] at h; cases h; exact ih e
      | ok r =>
        rw [e] at h
        simp only [Bind.bind, Except.bind] at h
        split_ifs at h
        cases h; rfl

theorem along_cons (n : ℕ) (s : List ℕ) (i : List ℕ) :
    along (n :: s) i = (if n = 1 then 0 else i.getD 0 0) :: along s i.tail := by
  simp only [along, List.length_cons, List.range_succ_eq_map, List.map_cons, List.map_map]
  congr 1
  refine List.map_congr_left fun k _ => ?_
  cases i <;> simp [axisLength]

theorem along_eq (s i : List ℕ) : along s i = bidx s i := by
  induction s generalizing i with
  | nil => cases i <;> rfl
  | cons n s ih =>
    rw [along_cons, ih]
    cases i with
    | nil => simp [bidx]
    | cons k i => rfl

theorem bcast_iff {s t r : List ℕ} : bcast s t = .ok r ↔ Broadcast s t r := by
  induction s generalizing t r with
  | nil =>
    constructor
    · intro h
      cases h
      refine ⟨by simp, fun k => .inr (.inl ⟨by simp [axisLength], rfl⟩)⟩
    · intro h
      refine congrArg Except.ok (List.ext_getElem (by simpa using h.length.symm) fun k h1 h2 => ?_)
      have := h.axis k
      simp only [axisLength, List.getD_eq_getElem?_getD, List.getElem?_nil, Option.getD_none, List.getElem?_eq_getElem h1, List.getElem?_eq_getElem h2, Option.getD_some] at this
      omega
  | cons n s ih =>
    cases t with
    | nil =>
      constructor
      · intro h
        cases h
        refine ⟨by simp, fun k => .inr (.inr ⟨by simp [axisLength], rfl⟩)⟩
      · intro h
        refine congrArg Except.ok (List.ext_getElem (by simpa using h.length.symm) fun k h1 h2 => ?_)
        have := h.axis k
        simp only [axisLength, List.getD_eq_getElem?_getD, List.getElem?_nil, Option.getD_none, List.getElem?_eq_getElem h1, List.getElem?_eq_getElem h2, Option.getD_some] at this
        omega
    | cons m t =>
      rw [bcast]
      constructor
      · intro h
        cases e : bcast s t with
        | error x => rw [e] at h; cases h
        | ok r' =>
          rw [e] at h
          obtain ⟨i1, i2⟩ := ih.1 e
          simp only [Bind.bind, Except.bind] at h
          split_ifs at h with a b c <;> cases h
          · exact ⟨by simp [i1], fun k => by
              cases k with
              | zero => exact .inl ⟨a, rfl⟩
              | succ k => exact i2 k⟩
          · exact ⟨by simp [i1], fun k => by
              cases k with
              | zero => exact .inr (.inl ⟨b, rfl⟩)
              | succ k => exact i2 k⟩
          · exact ⟨by simp [i1], fun k => by
              cases k with
              | zero => exact .inr (.inr ⟨c, rfl⟩)
              | succ k => exact i2 k⟩
      · intro h
        cases r with
        | nil => have := h.length; simp at this
        | cons l r =>
          have e : bcast s t = .ok r := ih.2 ⟨by have := h.length; simp at this; omega, fun k => h.axis (k + 1)⟩
          rw [e]
          have h0 := h.axis 0
          simp only [axisLength, List.getD_cons_zero] at h0
          simp only [Bind.bind, Except.bind]
          split_ifs with a b c
          · have : l = n := by omega
            rw [this]
          · have : l = m := by omega
            rw [this]
          · have : l = n := by omega
            rw [this]
          · omega

theorem not_broadcast {s t : List ℕ} (h : ¬ ∃ r, Broadcast s t r) : bcast s t = .error .valueError := by
  cases e : bcast s t with
  | ok r => exact absurd ⟨r, bcast_iff.1 e⟩ h
  | error x => rw [bcast_error e]

/-! ### Arrays -/

theorem bin_scalars_bcast (op : ℝ → ℝ → ℝ) {s t r : List ℕ} (h : bcast s t = .ok r) (f g : List ℕ → ℝ) :
    bin op (ok (scalars s f)) (ok (scalars t g)) =
      ok (scalars r fun i => op (f (bidx s i)) (g (bidx t i))) := by
  obtain ⟨h1, h2⟩ := wider_of_bcast h
  simp only [bin, bind_ok, scalars, Arr.ofFn_rshape, h]
  refine ok_ofFn_congr fun j hj => ?_
  rw [Arr.ofFn_get (h1.inB hj), Arr.ofFn_get (h2.inB hj)]

/-- The second value is the first, repeated along axes. -/
def StretchVal (rs r : List ℕ) (v v' : Val) : Prop :=
  v.tag = v'.tag ∧ ∃ s, v.rshape = s ++ rs ∧ v'.rshape = s ++ r ∧
    ∀ i, inB (s ++ r) i = true → v'.toC.get i = v.toC.get (bidx (s ++ rs) i)

theorem StretchVal.refl {s r : List ℕ} {v : Val} (h : v.rshape = s ++ r) : StretchVal r r v v :=
  ⟨rfl, s, h, h, fun i hi => by rw [bidx_self hi]⟩

theorem stretch_scalars {α : Type} [Inhabited α] {rs r : List ℕ} (h : Wider rs r) (f : List ℕ → α)
    {i : List ℕ} (hi : inB r i = true) :
    (scalars r fun i => f (bidx rs i)).get i = (scalars rs f).get (bidx rs i) := by
  rw [scalars, scalars, Arr.ofFn_get hi, Arr.ofFn_get (h.inB hi)]

theorem bidx_cons_of_lt {n : ℕ} {s : List ℕ} {k : ℕ} {j : List ℕ} (h : k < n) :
    bidx (n :: s) (k :: j) = k :: bidx s j := by
  simp only [bidx]
  split_ifs with e
  · congr 1; omega
  · rfl

theorem stretch_vectors {α : Type} [Inhabited α] {d : ℕ} {rs r : List ℕ} (h : Wider rs r)
    (f : List ℕ → Fin d → α) {i : List ℕ} (hi : inB (d :: r) i = true) :
    (vectors r fun i => f (bidx rs i)).get i = (vectors rs f).get (bidx (d :: rs) i) := by
  obtain ⟨k, j, rfl, hk, hj⟩ := inB_cons_elim hi
  rw [vectors_get r j hj _ hk, bidx_cons_of_lt hk, vectors_get rs _ (h.inB hj) _ hk]

theorem stretch_matrices {α : Type} [Inhabited α] {d : ℕ} {rs r : List ℕ} (h : Wider rs r)
    (f : List ℕ → Matrix (Fin d) (Fin d) α) {i : List ℕ} (hi : inB (d :: d :: r) i = true) :
    (matrices r fun i => f (bidx rs i)).get i = (matrices rs f).get (bidx (d :: d :: rs) i) := by
  obtain ⟨k, j, rfl, hk, hj⟩ := inB_cons_elim hi
  obtain ⟨l, j, rfl, hl, hj⟩ := inB_cons_elim hj
  rw [matrices_get r j hj _ hl hk, bidx_cons_of_lt hk, bidx_cons_of_lt hl,
    matrices_get rs _ (h.inB hj) _ hl hk]

section

variable {rs r : List ℕ} (h : Wider rs r)

include h

theorem stretchS (f : List ℕ → ℝ) : StretchVal rs r (.real (scalars rs f))
    (.real (scalars r fun i => f (bidx rs i))) :=
  ⟨rfl, [], rfl, rfl, fun i hi => by
    have hi : inB r i = true := hi
    simp only [toC_get, Spec.entry, List.nil_append, stretch_scalars h f hi]⟩

theorem stretchC (f : List ℕ → ℂ) : StretchVal rs r (.complex (scalars rs f))
    (.complex (scalars r fun i => f (bidx rs i))) :=
  ⟨rfl, [], rfl, rfl, fun i hi => by
    have hi : inB r i = true := hi
    simp only [toC_get, Spec.entry, List.nil_append, stretch_scalars h f hi]⟩

theorem stretchInt (f : List ℕ → ℤ) : StretchVal rs r (.int (scalars rs f))
    (.int (scalars r fun i => f (bidx rs i))) :=
  ⟨rfl, [], rfl, rfl, fun i hi => by
    have hi : inB r i = true := hi
    simp only [toC_get, Spec.entry, List.nil_append, stretch_scalars h f hi]⟩

theorem stretchV {d : ℕ} (f : List ℕ → Fin d → ℝ) : StretchVal rs r (.real (vectors rs f))
    (.real (vectors r fun i => f (bidx rs i))) :=
  ⟨rfl, [d], rfl, rfl, fun i hi => by
    have hi : inB (d :: r) i = true := hi
    simp only [toC_get, Spec.entry, List.cons_append, List.nil_append, stretch_vectors h f hi]⟩

theorem stretchCV {d : ℕ} (f : List ℕ → Fin d → ℂ) : StretchVal rs r (.complex (vectors rs f))
    (.complex (vectors r fun i => f (bidx rs i))) :=
  ⟨rfl, [d], rfl, rfl, fun i hi => by
    have hi : inB (d :: r) i = true := hi
    simp only [toC_get, Spec.entry, List.cons_append, List.nil_append, stretch_vectors h f hi]⟩

theorem stretchM {d : ℕ} (f : List ℕ → Matrix (Fin d) (Fin d) ℝ) : StretchVal rs r (.real (matrices rs f))
    (.real (matrices r fun i => f (bidx rs i))) :=
  ⟨rfl, [d, d], rfl, rfl, fun i hi => by
    have hi : inB (d :: d :: r) i = true := hi
    simp only [toC_get, Spec.entry, List.cons_append, List.nil_append, stretch_matrices h f hi]⟩

theorem stretchCM {d : ℕ} (f : List ℕ → Matrix (Fin d) (Fin d) ℂ) :
    StretchVal rs r (.complex (matrices rs f)) (.complex (matrices r fun i => f (bidx rs i))) :=
  ⟨rfl, [d, d], rfl, rfl, fun i hi => by
    have hi : inB (d :: d :: r) i = true := hi
    simp only [toC_get, Spec.entry, List.cons_append, List.nil_append, stretch_matrices h f hi]⟩

end

theorem dotField_stretch {rs rs' r : List ℕ} (hb : bcast rs rs' = .ok r) {a a' b b' : Val}
    (h : StretchVal rs r a a') (h' : StretchVal rs' r b b') (he : a'.rshape = b'.rshape) (n : ℕ) :
    dotField a b n = dotField a' b' n := by
  obtain ⟨_, s, h1, h2, h3⟩ := h
  obtain ⟨_, t, g1, g2, g3⟩ := h'
  obtain rfl : s = t := List.append_cancel_right (h2.symm.trans (he.trans g2))
  have e : (Arr.ofFn (s ++ r) fun i => a.toC.get (bidx (s ++ rs) i) * b.toC.get (bidx (s ++ rs') i)) =
      Arr.ofFn (s ++ r) fun i => a'.toC.get (bidx (s ++ r) i) * b'.toC.get (bidx (s ++ r) i) :=
    Arr.ext rfl fun i hi => by
      have hi : inB (s ++ r) i = true := hi
      rw [Arr.ofFn_get hi, Arr.ofFn_get hi, bidx_self hi, h3 i hi, g3 i hi]
  simp only [dotField, h1, g1, h2, g2, bcast_prefix s hb, bcast_self, Bind.bind, Except.bind, e]

theorem dotField_incompatible {rs rs' s : List ℕ} (hb : bcast rs rs' = .error .valueError) {a b : Val}
    (h : a.rshape = s ++ rs) (h' : b.rshape = s ++ rs') (n : ℕ) :
    dotField a b n = .error .valueError := by
  simp only [dotField, h, h', bcast_prefix_error s hb, Bind.bind, Except.bind]

theorem Arr.eq_ofFn_get {α : Type} [Inhabited α] (x : Arr α) : x = Arr.ofFn x.rshape x.get :=
  Arr.ext rfl fun i hi => (Arr.ofFn_get hi).symm

/-- The difference of two values is that of the repeated ones. -/
theorem valSub_stretch {rs rs' r : List ℕ} (hb : bcast rs rs' = .ok r) {v v' w w' : Val}
    (h : StretchVal rs r v v') (h' : StretchVal rs' r w w') (hd : SameDtype v' w') :
    ∃ z, valSub [v, w] = .ok z ∧ z.rshape = v'.rshape ∧ w'.rshape = v'.rshape ∧
      ∀ i, inB v'.rshape i = true → Spec.entry z i = 1 * Spec.entry v' i + (-1) * Spec.entry w' i := by
  obtain ⟨t1, s, h1, h2, h3⟩ := h
  obtain ⟨t2, t, g1, g2, g3⟩ := h'
  have e0 : w'.rshape = v'.rshape := by
    cases v' <;> cases w' <;> simp only [SameDtype] at hd <;> exact hd.symm
  obtain rfl : t = s := List.append_cancel_right (g2.symm.trans (e0.trans h2))
  have hp := bcast_prefix t hb
  obtain ⟨w1, w2⟩ := wider_of_bcast hp
  rw [h2]
  have entryv : ∀ i, inB (t ++ r) i = true → Spec.entry v' i = Spec.entry v (bidx (t ++ rs) i) :=
    fun i hi => by rw [← toC_get, ← toC_get, h3 i hi]
  have entryw : ∀ i, inB (t ++ r) i = true → Spec.entry w' i = Spec.entry w (bidx (t ++ rs') i) :=
    fun i hi => by rw [← toC_get, ← toC_get, g3 i hi]
  cases v' <;> cases w' <;> simp only [SameDtype] at hd <;> cases v <;> cases w <;>
    simp only [Val.tag, reduceCtorEq, OfNat.ofNat_ne_zero, OfNat.zero_ne_ofNat, OfNat.ofNat_ne_one,
      OfNat.one_ne_ofNat, one_ne_zero, zero_ne_one, Nat.reduceEqDiff] at t1 t2
  case real.real.real.real a' b' a b =>
    have e : (ok a - ok b : Calc ℝ) = ok (Arr.ofFn (t ++ r) fun i =>
        a.get (bidx (t ++ rs) i) - b.get (bidx (t ++ rs') i)) := by
      change bin _ _ _ = _
      have q1 : a.rshape = t ++ rs := h1
      have q2 : b.rshape = t ++ rs' := g1
      simp only [bin, bind_ok, q1, q2, hp]
    refine ⟨_, by rw [valSub, e]; rfl, rfl, e0.trans h2, fun i hi => ?_⟩
    rw [entryv i hi, entryw i hi]
    simp [Spec.entry, Arr.ofFn_get hi, sub_eq_add_neg]
  case complex.complex.complex.complex a' b' a b =>
    have e : (ok a - ok b : Calc ℂ) = ok (Arr.ofFn (t ++ r) fun i =>
        a.get (bidx (t ++ rs) i) - b.get (bidx (t ++ rs') i)) := by
      change bin _ _ _ = _
      have q1 : a.rshape = t ++ rs := h1
      have q2 : b.rshape = t ++ rs' := g1
      simp only [bin, bind_ok, q1, q2, hp]
    refine ⟨_, by change Val.ofC (ok a - ok b) = _; rw [e]; rfl, rfl, e0.trans h2, fun i hi => ?_⟩
    rw [entryv i hi, entryw i hi]
    simp [Spec.entry, Arr.ofFn_get hi, sub_eq_add_neg]

/-! ### Distributions -/

section

variable {C : Type} [ClassTable C]

/-- The variable parameters and their supports, in the order of the flattening. -/
def varVals (x : Dist C) : List (Val × Support) := (x.paramList (some false) []).map Prod.snd

theorem parametersS_values {x : Dist C} (h : WF x) : (parametersS x (some false)).values = varVals x := by
  rw [parametersS_eq h]
  rfl

mutual
theorem TreeRel.variables {R : Val → Val → Prop} {base base' : Path} : {x y : Dist C} → TreeRel R x y →
    List.Forall₂ (fun a b : Val × Support => a.2 = b.2 ∧ R a.1 b.1)
      ((x.paramList (some false) base).map Prod.snd) ((y.paramList (some false) base').map Prod.snd)
  | .mk c v s, .mk c' v' s', h => by
    obtain ⟨rfl, h1, h2⟩ := h
    rw [Dist.paramList, Dist.paramList, List.map_append, List.map_append, nodeParams_variables,
      nodeParams_variables]
    refine List.rel_append ?_ (TreeRels.variables h2)
    rw [List.forall₂_map_left_iff, List.forall₂_map_right_iff, freeFields, freeFields]
    generalize fields c = fs
    induction h1 generalizing fs with
    | nil => simp
    | cons h _ ih =>
      cases fs with
      | nil => exact .nil
      | cons f fs =>
        rw [List.zip_cons_cons, List.zip_cons_cons, List.filter_cons, List.filter_cons]
        dsimp only
        split_ifs
        · exact .cons ⟨rfl, h⟩ (ih fs)
        · exact ih fs
theorem TreeRels.variables {R : Val → Val → Prop} {base base' : Path} : {x y : Subs C} → TreeRels R x y →
    List.Forall₂ (fun a b : Val × Support => a.2 = b.2 ∧ R a.1 b.1)
      ((x.paramList (some false) base).map Prod.snd) ((y.paramList (some false) base').map Prod.snd)
  | .nil, .nil, _ => .nil
  | .cons n d r, .cons n' d' r', h => by
    obtain ⟨rfl, h1, h2⟩ := h
    rw [Subs.paramList, Subs.paramList, List.map_append, List.map_append]
    exact List.rel_append (TreeRel.variables h1) (TreeRels.variables h2)
end

theorem zip_mapM_stretch {rs rs' r : List ℕ} (hb : bcast rs rs' = .ok r)
    {la la' lb lb' : List (Val × Support)}
    (h : List.Forall₂ (fun a b : Val × Support => a.2 = b.2 ∧ StretchVal rs r a.1 b.1) la la')
    (h' : List.Forall₂ (fun a b : Val × Support => a.2 = b.2 ∧ StretchVal rs' r a.1 b.1) lb lb')
    (he : List.Forall₂ (fun a b : Val × Support => a.1.rshape = b.1.rshape) la' lb') :
    (la.zip lb).mapM dotPair = (la'.zip lb').mapM dotPair := by
  induction h generalizing lb lb' with
  | nil => cases he; cases h'; rfl
  | cons hab _ ih =>
    cases he with
    | cons e es =>
      cases h' with
      | cons hb' hbs =>
        rename_i a b l l' _ x lb y lb'
        have e1 : dotPair (a, y) = dotPair (b, x) := by
          simp only [dotPair, hab.1, hb'.1, dotField_stretch hb hab.2 hb'.2 e]
        rw [List.zip_cons_cons, List.zip_cons_cons, List.mapM_cons, List.mapM_cons, e1, ih hbs es]

theorem paramDot_stretch {rs rs' r : List ℕ} (hb : bcast rs rs' = .ok r) {x x' y y' : Dist C}
    (wx : WF x) (wx' : WF x') (wy : WF y) (wy' : WF y')
    (hx : List.Forall₂ (fun a b : Val × Support => a.2 = b.2 ∧ StretchVal rs r a.1 b.1) (varVals x) (varVals x'))
    (hy : List.Forall₂ (fun a b : Val × Support => a.2 = b.2 ∧ StretchVal rs' r a.1 b.1) (varVals y) (varVals y'))
    (h : DotMatch r x' y') : paramDot x y = paramDot x' y' := by
  obtain ⟨p1, p2, p3, _⟩ := Dist.pairs_spec (base := []) (base' := []) h
  have k : List.Forall₂ (fun a b : Val × Support => a.1.rshape = b.1.rshape) (varVals x') (varVals y') := by
    rw [varVals, varVals, p2, p3, List.forall₂_map_left_iff, List.forall₂_map_right_iff, List.forall₂_same]
    exact fun ab hab => (p1 ab hab).2.1
  have key := zip_mapM_stretch hb hx hy k
  simp only [paramDot, parametersS_values wx, parametersS_values wx', parametersS_values wy,
    parametersS_values wy', zipStrict_ok (hx.length_eq.trans (k.length_eq.trans hy.length_eq.symm)),
    zipStrict_ok k.length_eq, Bind.bind, Except.bind, key]

theorem stretch_refl {r : List ℕ} {x y : Dist C} (h : DotMatch r x y) :
    List.Forall₂ (fun a b : Val × Support => a.2 = b.2 ∧ StretchVal r r a.1 b.1) (varVals x) (varVals x) := by
  obtain ⟨p1, p2, p3, _⟩ := Dist.pairs_spec (base := []) (base' := []) h
  rw [List.forall₂_same, varVals, p2]
  intro a ha
  obtain ⟨ab, h1, rfl⟩ := List.mem_map.1 ha
  obtain ⟨s, _, h2⟩ := (p1 ab h1).2.2
  exact ⟨rfl, .refl h2⟩

/-- The parameters of the distributions of a kind are repeated with the distributions. -/
structure Spec.Kind.Stretches (K : Kind C) : Prop where
  nat : ∀ {rs r}, Wider rs r → ∀ p q, TreeRel (StretchVal rs r) (K.nat rs p q)
    (K.nat r (fun i => p (bidx rs i)) fun i => q (bidx rs i))
  exp : ∀ {rs r}, Wider rs r → ∀ p χ, TreeRel (StretchVal rs r) (K.exp rs p χ)
    (K.exp r (fun i => p (bidx rs i)) fun i => χ (bidx rs i))

/-- `Kind.Stretches` for the parts of a joint distribution. -/
structure Parts.Stretches (R : Parts C) : Prop where
  nat : ∀ {rs r}, Wider rs r → ∀ p q, TreeRels (StretchVal rs r) (R.nat rs p q)
    (R.nat r (fun i => p (bidx rs i)) fun i => q (bidx rs i))
  exp : ∀ {rs r}, Wider rs r → ∀ p χ, TreeRels (StretchVal rs r) (R.exp rs p χ)
    (R.exp r (fun i => p (bidx rs i)) fun i => χ (bidx rs i))

theorem Parts.Stretches.ofList {l : List (String × Kind C)} (h : ∀ nk ∈ l, nk.2.Stretches) :
    Parts.Stretches (.ofList l) := by
  induction l with
  | nil => exact ⟨fun _ _ _ => trivial, fun _ _ _ => trivial⟩
  | cons nk l ih =>
    have h1 := h nk List.mem_cons_self
    have h2 := ih fun nk h' => h nk (List.mem_cons_of_mem _ h')
    exact ⟨fun w _ _ => ⟨rfl, h1.nat w _ _, h2.nat w _ _⟩, fun w _ _ => ⟨rfl, h1.exp w _ _, h2.exp w _ _⟩⟩

theorem Spec.Kind.Stretches.joint {c c' : C} {R : Parts C} (hR : Parts.Stretches R) :
    (Kind.joint c c' R).Stretches :=
  ⟨fun w _ _ => ⟨rfl, .nil, hR.nat w _ _⟩, fun w _ _ => ⟨rfl, .nil, hR.exp w _ _⟩⟩

variable {L : Library C} {K : Kind C}

theorem dotCalc_bcast (h : K.Ok L) (hs : K.Stretches) {rs rs' r : List ℕ} (hb : bcast rs rs' = .ok r)
    (p p' : List ℕ → K.P) (q : List ℕ → K.N) (χ : List ℕ → K.E) :
    dotCalc (K.nat rs p q) (K.exp rs' p' χ) =
      ok (scalars r fun i => (K.F (p (bidx rs i))).dot (q (bidx rs i)) (χ (bidx rs' i))) := by
  obtain ⟨w1, w2⟩ := wider_of_bcast hb
  rw [← h.dotCalc r (fun i => p (bidx rs i)) (fun i => p' (bidx rs' i)) (fun i => q (bidx rs i))
    fun i => χ (bidx rs' i)]
  exact paramDot_stretch hb (h.wfN _ _ _) (h.wfN _ _ _) (h.wfE _ _ _) (h.wfE _ _ _)
    (hs.nat w1 p q).variables (hs.exp w2 p' χ).variables (h.dotMatch _ _ _ _ _)

theorem difference_bcast (h : K.Ok L) (hs : K.Stretches) {rs rs' r : List ℕ} (hb : bcast rs rs' = .ok r)
    (p p' : List ℕ → K.P) (a b : List ℕ → K.N) :
    ∃ d, paramMap valSub (K.nat rs p a) [K.nat rs' p' b] = .ok d ∧ WF d ∧
      LinComb 1 (-1) (K.nat r (fun i => p (bidx rs i)) fun i => a (bidx rs i))
        (K.nat r (fun i => p' (bidx rs' i)) fun i => b (bidx rs' i)) d := by
  obtain ⟨w1, w2⟩ := wider_of_bcast hb
  obtain ⟨l, h1, _⟩ := h.infos rs p a []
  obtain ⟨s1, s2⟩ := h.same r (fun i => p (bidx rs i)) (fun i => a (bidx rs i))
    (fun i => p' (bidx rs' i)) fun i => b (bidx rs' i)
  have ta := hs.nat w1 p a
  have tb := hs.nat w2 p' b
  have st : SameTree (K.nat rs p a) (K.nat rs' p' b) := (ta.same.trans s1).trans tb.same.symm
  have hsub : ∀ k f v w, f.fixed = false → ParamAt (K.nat rs p a) k f v → ParamAt (K.nat rs' p' b) k f w →
      ∃ v' w' z, ParamAt (K.nat r (fun i => p (bidx rs i)) fun i => a (bidx rs i)) k f v' ∧
        ParamAt (K.nat r (fun i => p' (bidx rs' i)) fun i => b (bidx rs' i)) k f w' ∧
        valSub [v, w] = .ok z ∧ z.rshape = v'.rshape ∧ w'.rshape = v'.rshape ∧
        ∀ i, inB v'.rshape i = true → Spec.entry z i = 1 * Spec.entry v' i + (-1) * Spec.entry w' i := by
    intro k f v w hf hv hw
    obtain ⟨v', hv', r1⟩ := ta.param' hv
    obtain ⟨w', hw', r2⟩ := tb.param' hw
    obtain ⟨z, hz⟩ := valSub_stretch hb r1 r2 (s2 k f _ _ hf hv' hw')
    exact ⟨v', w', z, hv', hw', hz⟩
  obtain ⟨d, d1, d2, d3, d4⟩ := C16_map (x := K.nat rs p a) (ys := [K.nat rs' p' b]) (h.wfN _ _ _)
    (by rintro y hy; rw [List.mem_singleton.1 hy]; exact ⟨h.wfN _ _ _, st⟩) (infos := l) h1 (op := valSub)
    (fun k f v vs hv hf hvs => by
      cases hvs with
      | cons hw hnil =>
        cases hnil
        obtain ⟨_, _, z, _, _, hz, _⟩ := hsub k f v _ hf hv hw
        exact ⟨z, hz⟩)
  refine ⟨d, d1, d2, s1, ta.same.symm.trans d3, fun k f v₁ v₂ v₃ hf p1 p2 p3 => ?_⟩
  have := (d4 k f v₃).1 p3
  rw [hf] at this
  obtain ⟨v, vs, q1, q2, q3⟩ := this
  cases q2 with
  | cons q2 hnil =>
    cases hnil
    obtain ⟨v', w', z, g0, g1, g2, g3, g4, g5⟩ := hsub k f v _ hf q1 q2
    have e1 := (ParamAt.unique (h.wfN _ _ _) g0 p1).2
    have e2 := (ParamAt.unique (h.wfN _ _ _) g1 p2).2
    subst e1 e2
    rw [q3] at g2
    cases g2
    exact ⟨g4.symm, g3.symm, by simpa using g5⟩

theorem klWith_bcast (h : K.Ok L) (hs : K.Stretches) {rs rs' r : List ℕ} (hb : bcast rs rs' = .ok r)
    (p p' : List ℕ → K.P) (χ : List ℕ → K.E) (n q : List ℕ → K.N)
    (hp : ∀ i, inB r i = true → p' (bidx rs' i) = p (bidx rs i)) :
    (K.exp rs p χ).klE L (K.nat rs' p' q) (some (K.nat rs p n)) =
      ok (scalars r fun i =>
        (K.F (p (bidx rs i))).klWith (χ (bidx rs i)) (n (bidx rs i)) (q (bidx rs' i))) := by
  obtain ⟨w1, w2⟩ := wider_of_bcast hb
  obtain ⟨d, d1, d2, d3⟩ := difference_bcast h hs hb p p' n q
  have m := h.dotMatch r (fun i => p (bidx rs i)) (fun i => n (bidx rs i)) (fun i => p (bidx rs i))
    fun i => χ (bidx rs i)
  obtain ⟨_, m3⟩ := DotMatch.lin (h.wfN _ _ _) (h.wfN _ _ _) d2 d3 m
  have hd : dotCalc d (K.exp rs p χ) = ok (scalars r fun i =>
      (K.F (p (bidx rs i))).dot (n (bidx rs i) - q (bidx rs' i)) (χ (bidx rs i))) := by
    have e : dotCalc d (K.exp rs p χ) = dotCalc d (K.exp r (fun i => p (bidx rs i)) fun i => χ (bidx rs i)) :=
      paramDot_stretch w1.bcast' d2 d2 (h.wfE _ _ _) (h.wfE _ _ _) (stretch_refl m3)
        (hs.exp w1 p χ).variables m3
    rw [e]
    refine dotCalc_eq d2 (h.wfE _ _ _) m3 fun i hi => ?_
    rw [treeDot_lin (h.wfN _ _ _) (h.wfN _ _ _) d2 d3 m i, h.dot _ _ _ _ _ i hi, h.dot _ _ _ _ _ i hi,
      h.dot_sub, hp i hi]
    ring
  simp only [Dist.klE, Bind.bind, Except.bind, d1]
  rw [hd, h.logNormalizer, h.logNormalizer]
  refine (congrArg (· - _) (bin_scalars_bcast (· + ·) w2.bcast' _ _)).trans
    ((bin_scalars_bcast (· - ·) w1.bcast' _ _).trans (congrArg ok (scalars_congr fun i hi => ?_)))
  rw [bidx_self hi, bidx_self hi, hp i hi, ExpFam.klWith]

/-! ### Shapes that do not fit -/

omit [ClassTable C] in
theorem forall₂_trans {α β γ : Type} {R : α → β → Prop} {S : β → γ → Prop} {T : α → γ → Prop} {l : List α}
    {m : List β} {n : List γ} (h : List.Forall₂ R l m) (h' : List.Forall₂ S m n)
    (hT : ∀ a b c, R a b → S b c → T a c) : List.Forall₂ T l n := by
  induction h generalizing n with
  | nil => cases h'; exact .nil
  | cons hr _ ih =>
    cases h' with
    | cons hs hss => exact .cons (hT _ _ _ hr hs) (ih hss)

/-- The shapes of the variable parameters of two batches of the same kind have the same axes in front
of the batch. -/
theorem varVals_shapes (h : K.Ok L) (hs : K.Stretches) (rs rs' : List ℕ) (p p' : List ℕ → K.P)
    (q : List ℕ → K.N) (χ : List ℕ → K.E) : varVals (K.nat rs p q) ≠ [] ∧
    List.Forall₂ (fun a b : Val × Support => b.2.axes = a.2.axes ∧
      ∃ s, a.1.rshape = s ++ rs ∧ b.1.rshape = s ++ rs') (varVals (K.nat rs p q)) (varVals (K.exp rs' p' χ)) := by
  let Q (t : List ℕ) (a b : Val × Support) : Prop := b.2.axes = a.2.axes ∧ a.1.rshape = b.1.rshape ∧
    ∃ s, a.1.rshape = s ++ t
  have m : ∀ t (p p' : List ℕ → K.P) (q : List ℕ → K.N) (χ : List ℕ → K.E),
      List.Forall₂ (Q t) (varVals (K.nat t p q)) (varVals (K.exp t p' χ)) := by
    intro t p p' q χ
    obtain ⟨p1, p2, p3, _⟩ := Dist.pairs_spec (base := []) (base' := []) (h.dotMatch t p q p' χ)
    rw [varVals, varVals, p2, p3, List.forall₂_map_left_iff, List.forall₂_map_right_iff, List.forall₂_same]
    intro ab hab
    obtain ⟨g1, g2, s, _, g3⟩ := p1 ab hab
    exact ⟨g1, g2, s, g3⟩
  have e : ∀ t, List.Forall₂ (fun a b : Val × Support => a.2 = b.2 ∧ StretchVal [] t a.1 b.1)
      (varVals (K.exp [] (fun _ => p' []) fun _ => χ [])) (varVals (K.exp t (fun _ => p' []) fun _ => χ [])) :=
    fun t => (hs.exp (r := t) (rs := []) trivial (fun _ => p' []) fun _ => χ []).variables
  constructor
  · intro h0
    have h1 := h.dotCalc rs p p q fun _ => χ []
    have h2 := (m rs p p q fun _ => χ []).length_eq
    rw [h0] at h2
    have h3 := List.length_eq_zero_iff.1 h2.symm
    have : dotCalc (K.nat rs p q) (K.exp rs p fun _ => χ []) = fail .typeError := by
      rw [dotCalc, paramDot, parametersS_values (h.wfN _ _ _), parametersS_values (h.wfE _ _ _), h0, h3]
      rfl
    rw [this] at h1
    cases h1
  · refine forall₂_trans (m rs p (fun _ => p' []) q fun _ => χ []) (forall₂_trans (e rs).flip
      (forall₂_trans (e rs') (forall₂_trans (m rs' (fun _ => p' []) (fun _ => p' []) (fun _ => q [])
        fun _ => χ []).flip (m rs' (fun _ => p' []) p' (fun _ => q []) χ)
        (T := fun a b => b.2.axes = a.2.axes ∧ a.1.rshape = b.1.rshape) ?_)
        (T := fun a b => b.2.axes = a.2.axes ∧ b.1.rshape = a.1.rshape ++ rs') ?_)
      (T := fun a b => b.2.axes = a.2.axes ∧ ∃ s, a.1.rshape = s ++ rs ∧ b.1.rshape = s ++ rs') ?_) ?_
    · rintro a b c ⟨h1, h2, _⟩ ⟨h3, h4, _⟩
      exact ⟨h3.trans h1.symm, h2.symm.trans h4⟩
    · rintro a b c ⟨h1, _, s, h2, h3, _⟩ ⟨h4, h5⟩
      rw [List.append_nil] at h2
      exact ⟨h4.trans (congrArg Support.axes h1.symm), by rw [← h5, h3, h2]⟩
    · rintro a b c ⟨h1, _, s, h2, h3, _⟩ ⟨h4, h5⟩
      rw [List.append_nil] at h2
      exact ⟨h4.trans (congrArg Support.axes h1), s, h3, by rw [h5, h2]⟩
    · rintro a b c ⟨h1, h2, _⟩ ⟨h3, s, h4, h5⟩
      exact ⟨h3.trans h1, s, h2.trans h4, h5⟩

theorem dotCalc_incompatible (h : K.Ok L) (hs : K.Stretches) {rs rs' : List ℕ}
    (hb : bcast rs rs' = .error .valueError) (p p' : List ℕ → K.P) (q : List ℕ → K.N) (χ : List ℕ → K.E) :
    dotCalc (K.nat rs p q) (K.exp rs' p' χ) = fail .valueError := by
  obtain ⟨h0, h1⟩ := varVals_shapes h hs rs rs' p p' q χ
  rw [dotCalc, paramDot, parametersS_values (h.wfN _ _ _), parametersS_values (h.wfE _ _ _),
    zipStrict_ok h1.length_eq]
  generalize varVals (K.nat rs p q) = l at h0 h1
  generalize varVals (K.exp rs' p' χ) = l' at h1
  cases h1 with
  | nil => exact absurd rfl h0
  | cons hab _ =>
    rename_i e1 e2
    obtain ⟨g1, s, g2, g3⟩ := hab
    simp only [Bind.bind, Except.bind, List.zip_cons_cons, List.mapM_cons, dotPair, g1, if_true,
      dotField_incompatible hb g2 g3]
    rfl

theorem valSub_incompatible {rs rs' s : List ℕ} (hb : bcast rs rs' = .error .valueError) {v w : Val}
    (h : v.rshape = s ++ rs) (h' : w.rshape = s ++ rs') : valSub [v, w] = .error .valueError := by
  have hc : (v.toCalcC - w.toCalcC : Calc ℂ) = fail .valueError := by
    change bin _ (ok v.toC) (ok w.toC) = _
    simp only [bin, bind_ok, toC_rshape, h, h', bcast_prefix_error s hb]
  have hr : ∀ a b, v = .real a → w = .real b → (ok a - ok b : Calc ℝ) = fail .valueError := by
    rintro a b rfl rfl
    change bin _ (ok a) (ok b) = _
    have q1 : a.rshape = s ++ rs := h
    have q2 : b.rshape = s ++ rs' := h'
    simp only [bin, bind_ok, q1, q2, bcast_prefix_error s hb]
  have key : Val.ofC (v.toCalcC - w.toCalcC) = .error .valueError := by rw [hc]; rfl
  cases v <;> cases w <;> first | exact key | skip
  rw [valSub, hr _ _ rfl rfl]
  rfl

theorem difference_incompatible (h : K.Ok L) (hs : K.Stretches) {rs rs' : List ℕ}
    (hb : bcast rs rs' = .error .valueError) (p p' : List ℕ → K.P) (q q' : List ℕ → K.N) (χ : K.E) :
    paramMap valSub (K.nat rs p q) [K.nat rs' p' q'] = .error .valueError := by
  obtain ⟨h0, h1⟩ := varVals_shapes h hs rs rs' p p' q fun _ => χ
  have h2 := (varVals_shapes h hs rs' rs' p' p' q' fun _ => χ).2
  have h3 : List.Forall₂ (fun a b : Val × Support => ∃ s, a.1.rshape = s ++ rs ∧ b.1.rshape = s ++ rs')
      (varVals (K.nat rs p q)) (varVals (K.nat rs' p' q')) :=
    forall₂_trans h1 h2.flip fun a b c ⟨_, s, e1, e2⟩ ⟨_, s', e3, e4⟩ =>
      ⟨s, e1, by rw [e3, ← e4, e2]⟩
  have hv : ∀ x : Dist C, WF x → (parameters x (some false)).values = (varVals x).map Prod.fst := by
    intro x hx
    rw [parameters_eq hx, varVals, Dict.values, List.map_map, List.map_map]
    rfl
  rw [paramMap, List.map_singleton, hv _ (h.wfN _ _ _), hv _ (h.wfN _ _ _)]
  clear h1 h2
  generalize varVals (K.nat rs p q) = l at h0 h3
  generalize varVals (K.nat rs' p' q') = l' at h3
  cases h3 with
  | nil => exact absurd rfl h0
  | cons hab _ =>
    rename_i e1 e2
    obtain ⟨s, g2, g3⟩ := hab
    simp only [List.map_cons, starmapStrict, List.any_cons, List.isEmpty_cons, List.any_nil, Bool.or_false,
      Bool.false_eq_true, if_false, List.filterMap_cons, List.head?_cons, List.filterMap_nil,
      valSub_incompatible hb g2 g3, Bind.bind, Except.bind]

end

end Efax
