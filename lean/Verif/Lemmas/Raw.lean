import Verif.Model.Fisher
import Verif.Lemmas.Index
import Verif.Lemmas.ExpToNat
import Mathlib.LinearAlgebra.Matrix.Hermitian
import Mathlib.LinearAlgebra.Pi
import Mathlib.LinearAlgebra.Prod

/-! # Flattening without the plane map is linear -/

noncomputable section

namespace Efax

open Spec Calc

/-- How a support stores a value as `k` numbers, without the plane map (or with it, if `b` holds, where
the plane map is the identity). -/
structure Codec (s : Support) (d k : ℕ) (A : Type) [AddCommGroup A] [Module ℝ A]
    (arr : List ℕ → (List ℕ → A) → Val) (good : A → Prop) (b : Bool := false) where
  enc : A → Fin k → ℝ
  dec : (Fin k → ℝ) →ₗ[ℝ] A
  dec_enc : ∀ a, good a → dec (enc a) = a
  enc_dec : ∀ z, enc (dec z) = z
  dec_good : ∀ z, good (dec z)
  num : s.numElements d = k
  flat : ∀ rs f, (∀ i, inB rs i = true → good (f i)) →
    s.flattened b (arr rs f) = .ok (vectors rs fun i => enc (f i))
  unflat : ∀ rs z, s.unflattened b (vectors rs z) d = .ok (arr rs fun i => dec (z i))

theorem scalars_newaxis {α : Type} [Inhabited α] (rs : List ℕ) (f : List ℕ → α) :
    (scalars rs f).newaxis = vectors rs fun i (_ : Fin 1) => f i := by
  refine Arr.ext rfl fun i hi => ?_
  have hi : inB (1 :: rs) i = true := hi
  cases i with
  | nil => simp [inB] at hi
  | cons k i =>
    obtain ⟨hk, hi'⟩ := (inB_cons ..).1 hi
    rw [Calc.vectors_get _ hk hi', Arr.newaxis, Arr.ofFn_get (rs := 1 :: (scalars rs f).rshape) hi,
      List.tail_cons, scalars, Arr.ofFn_get hi']

theorem vectors_idx {α : Type} [Inhabited α] (rs : List ℕ) (z : List ℕ → Fin 1 → α) :
    (vectors rs z).idxLast 0 = .ok (scalars rs fun i => z i 0) := by
  simp only [Arr.idxLast, vectors_rshape, Nat.zero_lt_one, if_true]
  refine congrArg _ (Arr.ext rfl fun i hi => ?_)
  have hi : inB rs i = true := hi
  rw [Arr.ofFn_get hi, scalars, Arr.ofFn_get hi, Calc.vectors_get _ Nat.zero_lt_one hi]
  rfl

def codecS {mn mx : Option ℝ} {g : ℝ} {d : ℕ} : Codec (.scalar (.real mn mx g)) d 1 ℝ
    (fun rs f => .real (scalars rs f)) fun _ => True where
  enc a _ := a
  dec := LinearMap.proj 0
  dec_enc _ _ := rfl
  enc_dec z := by funext k; rw [Subsingleton.elim k 0]; rfl
  dec_good _ := trivial
  num := rfl
  flat rs f _ := by
    simp only [Support.flattened, Val.newaxis, Ring.flattened, Bool.false_eq_true, if_false, scalars_newaxis]
  unflat rs z := by
    simp only [Support.unflattened, Ring.unflattened, Bool.false_eq_true, if_false, Bind.bind, Except.bind,
      Val.lastDim, Val.rshape, vectors_rshape, if_true, Val.liftE, vectors_idx]
    rfl

def codecV {mn mx : Option ℝ} {g : ℝ} {d : ℕ} : Codec (.vector (.real mn mx g)) d d (Fin d → ℝ)
    (fun rs f => .real (vectors rs f)) fun _ => True where
  enc a := a
  dec := LinearMap.id
  dec_enc _ _ := rfl
  enc_dec _ := rfl
  dec_good _ := trivial
  num := rfl
  flat rs f _ := by
    simp only [Support.flattened, Ring.flattened, Bool.false_eq_true, if_false]
  unflat rs z := by
    simp only [Support.unflattened, Ring.unflattened, Bool.false_eq_true, if_false, Bind.bind, Except.bind,
      Val.lastDim, Val.rshape, vectors_rshape, if_true]
    rfl

def codecE {mn mx : Option ℝ} {g : ℝ} {d : ℕ} : Codec (.vector (.real mn mx g)) d d (EuclideanSpace ℝ (Fin d))
    (fun rs f => .real (vectors rs fun i k => f i k)) fun _ => True where
  enc a := fun k => a k
  dec := (WithLp.linearEquiv 2 ℝ (Fin d → ℝ)).symm.toLinearMap
  dec_enc _ _ := rfl
  enc_dec _ := rfl
  dec_good _ := trivial
  num := rfl
  flat rs f _ := by
    simp only [Support.flattened, Ring.flattened, Bool.false_eq_true, if_false]
  unflat rs z := by
    simp only [Support.unflattened, Ring.unflattened, Bool.false_eq_true, if_false, Bind.bind, Except.bind,
      Val.lastDim, Val.rshape, vectors_rshape, if_true]
    rfl

/-- The real parts, followed by the imaginary parts. -/
def reIm {n : ℕ} (a : Fin n → ℂ) : Fin (n + n) → ℝ :=
  Fin.append (fun k => (a k).re) fun k => (a k).im

/-- The complex numbers with these real and imaginary parts. -/
def ofReIm (n : ℕ) : (Fin (n + n) → ℝ) →ₗ[ℝ] Fin n → ℂ where
  toFun z k := ⟨z (Fin.castAdd n k), z (Fin.natAdd n k)⟩
  map_add' a b := by funext k; exact Complex.ext rfl rfl
  map_smul' a b := by funext k; refine Complex.ext ?_ ?_ <;> simp

theorem ofReIm_reIm {n : ℕ} (a : Fin n → ℂ) : ofReIm n (reIm a) = a := by
  funext k
  exact Complex.ext (Fin.append_left (fun k => (a k).re) (fun k => (a k).im) k)
    (Fin.append_right (fun k => (a k).re) (fun k => (a k).im) k)

theorem reIm_ofReIm {n : ℕ} (z : Fin (n + n) → ℝ) : reIm (ofReIm n z) = z :=
  Fin.append_castAdd_natAdd

theorem concatReIm_vectors {n : ℕ} (rs : List ℕ) (f : List ℕ → Fin n → ℂ) :
    Ring.concatReIm (vectors rs f) = .ok (vectors rs fun i => reIm (f i)) := by
  obtain ⟨y, h1, h2, h3, h4⟩ := concatReIm_ok (vectors_rshape rs f)
  rw [h1]
  refine congrArg _ (Arr.ext h2 fun i hi => ?_)
  rw [h2] at hi
  cases i with
  | nil => simp [inB] at hi
  | cons k i =>
    obtain ⟨hk, hi'⟩ := (inB_cons ..).1 hi
    clear hi
    rw [Calc.vectors_get _ hk hi']
    by_cases h : k < n
    · rw [h3 k i h hi', Calc.vectors_get _ h hi']
      exact (Fin.append_left (fun k => (f i k).re) (fun k => (f i k).im) ⟨k, h⟩).symm
    · obtain ⟨l, rfl⟩ := Nat.exists_eq_add_of_le (not_lt.1 h)
      have hl : l < n := by omega
      rw [h4 l i hl hi', Calc.vectors_get _ hl hi']
      exact (Fin.append_right (fun k => (f i k).re) (fun k => (f i k).im) ⟨l, hl⟩).symm

theorem splitReIm_vectors {n : ℕ} (rs : List ℕ) (z : List ℕ → Fin (n + n) → ℝ) :
    Ring.splitReIm (vectors rs z) = .ok (vectors rs fun i => ofReIm n (z i)) := by
  obtain ⟨c, h1, h2, h3⟩ := splitReIm_ok (y := vectors rs z) (n := n) (rs := rs) (by
    rw [vectors_rshape, two_mul])
  rw [h1]
  refine congrArg _ (Arr.ext h2 fun i hi => ?_)
  rw [h2] at hi
  cases i with
  | nil => simp [inB] at hi
  | cons k i =>
    obtain ⟨hk, hi⟩ := (inB_cons ..).1 hi
    rw [h3 k i hk hi, Calc.vectors_get _ hk hi, Calc.vectors_get _ (by omega) hi,
      Calc.vectors_get _ (by omega) hi]
    rfl

def codecC {mn : Arr ℝ} {mx : Option (Arr ℝ)} {d : ℕ} : Codec (.scalar (.complex mn mx)) d 2 ℂ
    (fun rs f => .complex (scalars rs f)) fun _ => True where
  enc a := reIm fun _ : Fin 1 => a
  dec := LinearMap.proj 0 ∘ₗ ofReIm 1
  dec_enc a _ := by rw [LinearMap.comp_apply, ofReIm_reIm]; rfl
  enc_dec z := by
    have := reIm_ofReIm (n := 1) z
    refine Eq.trans (congrArg reIm ?_) this
    funext k; rw [Subsingleton.elim k 0]; rfl
  dec_good _ := trivial
  num := rfl
  flat rs f _ := by
    simp only [Support.flattened, Val.newaxis, Ring.flattened, Bool.false_eq_true, if_false, scalars_newaxis,
      concatReIm_vectors]
  unflat rs z := by
    have h := splitReIm_vectors (n := 1) rs z
    simp only [Support.unflattened, Ring.unflattened, Bool.false_eq_true, if_false, Bind.bind, Except.bind,
      h, Val.lastDim, Val.rshape, vectors_rshape, if_true, Val.liftE, vectors_idx]
    rfl

def codecCV {mn : Arr ℝ} {mx : Option (Arr ℝ)} {d : ℕ} : Codec (.vector (.complex mn mx)) d (d + d) (Fin d → ℂ)
    (fun rs f => .complex (vectors rs f)) fun _ => True where
  enc a := reIm a
  dec := ofReIm d
  dec_enc a _ := ofReIm_reIm a
  enc_dec z := reIm_ofReIm z
  dec_good _ := trivial
  num := by simp [Support.numElements, Ring.numElements]; omega
  flat rs f _ := by
    simp only [Support.flattened, Ring.flattened, Bool.false_eq_true, if_false, concatReIm_vectors]
  unflat rs z := by
    have h := splitReIm_vectors (n := d) rs z
    simp only [Support.unflattened, Ring.unflattened, Bool.false_eq_true, if_false, Bind.bind, Except.bind,
      h, Val.lastDim, Val.rshape, vectors_rshape, if_true]

/-- Unbounded real numbers are stored in the same way with the plane map. -/
theorem flattened_unbounded (g : ℝ) (b : Bool) (v : Val) :
    (Ring.real none none g).flattened b v = (Ring.real none none g).flattened false v := by
  cases b with
  | false => rfl
  | true =>
    cases v with
    | real a =>
      simp only [Ring.flattened, if_true, Bool.false_eq_true, if_false, Ring.realFlat]
      rw [Arr.mapE_ok fun _ _ => rfl]
      refine congrArg _ (Arr.ext rfl fun i hi => ?_)
      have hi : inB a.rshape i = true := hi
      rw [Arr.ofFn_get hi]
      rfl
    | _ => rfl

theorem unflattened_unbounded (g : ℝ) (b : Bool) (y : Arr ℝ) :
    (Ring.real none none g).unflattened b y = (Ring.real none none g).unflattened false y := by
  cases b with
  | false => rfl
  | true =>
    simp only [Ring.unflattened, if_true, Bool.false_eq_true, if_false]
    refine congrArg (fun a => Except.ok (Val.real a)) (Arr.ext rfl fun i hi => ?_)
    have hi : inB y.rshape i = true := hi
    rw [Arr.map_get hi]
    rfl

/-- Where the plane map is the identity. -/
def Codec.plane {s : Support} {d k : ℕ} {A : Type} [AddCommGroup A] [Module ℝ A]
    {arr : List ℕ → (List ℕ → A) → Val} {good : A → Prop} (e : Codec s d k A arr good) (b : Bool)
    (hf : ∀ v, s.flattened b v = s.flattened false v)
    (hu : ∀ y, s.unflattened b y d = s.unflattened false y d) : Codec s d k A arr good b where
  enc := e.enc
  dec := e.dec
  dec_enc := e.dec_enc
  enc_dec := e.enc_dec
  dec_good := e.dec_good
  num := e.num
  flat rs f h := (hf _).trans (e.flat rs f h)
  unflat rs z := (hu _).trans (e.unflat rs z)

theorem scalar_plane (g : ℝ) (d : ℕ) (b : Bool) :
    (∀ v, (Support.scalar (.real none none g)).flattened b v =
      (Support.scalar (.real none none g)).flattened false v) ∧
    ∀ y, (Support.scalar (.real none none g)).unflattened b y d =
      (Support.scalar (.real none none g)).unflattened false y d :=
  ⟨fun v => by simp only [Support.flattened, flattened_unbounded g b],
    fun y => by simp only [Support.unflattened, unflattened_unbounded g b]⟩

theorem vector_plane (g : ℝ) (d : ℕ) (b : Bool) :
    (∀ v, (Support.vector (.real none none g)).flattened b v =
      (Support.vector (.real none none g)).flattened false v) ∧
    ∀ y, (Support.vector (.real none none g)).unflattened b y d =
      (Support.vector (.real none none g)).unflattened false y d :=
  ⟨fun v => by simp only [Support.flattened, flattened_unbounded g b],
    fun y => by simp only [Support.unflattened, unflattened_unbounded g b]⟩

/-! ## Symmetric matrices -/

/-- The entries of the upper triangle, row by row. -/
def upper {K : Type} [Inhabited K] {d : ℕ} (M : Matrix (Fin d) (Fin d) K) :
    Fin ((d + 1).choose 2) → K := fun k =>
  Calc.entry M ((triu d)[k.1]'(by rw [triu_length]; exact k.2)).1
    ((triu d)[k.1]'(by rw [triu_length]; exact k.2)).2

theorem triu_lt {d r c : ℕ} (h : r ≤ c) (hc : c < d) : (triu d).idxOf (r, c) < (d + 1).choose 2 := by
  rw [← triu_length]
  exact List.idxOf_lt_length_of_mem (mem_triu.2 ⟨h, hc⟩)

/-- The symmetric matrix with these entries in the upper triangle. -/
def ofUpper (d : ℕ) : (Fin ((d + 1).choose 2) → ℝ) →ₗ[ℝ] Matrix (Fin d) (Fin d) ℝ where
  toFun z := Matrix.of fun r c => z ⟨(triu d).idxOf (min r.1 c.1, max r.1 c.1),
    triu_lt min_le_max (max_lt r.2 c.2)⟩
  map_add' a b := by ext r c; rfl
  map_smul' a b := by ext r c; rfl

theorem ofUpper_apply {d : ℕ} (z : Fin ((d + 1).choose 2) → ℝ) (r c : Fin d) :
    ofUpper d z r c = z ⟨(triu d).idxOf (min r.1 c.1, max r.1 c.1),
      triu_lt min_le_max (max_lt r.2 c.2)⟩ := rfl

theorem upper_idx {K : Type} [Inhabited K] {d r c : ℕ} (M : Matrix (Fin d) (Fin d) K) (h : r ≤ c) (hc : c < d) :
    upper M ⟨(triu d).idxOf (r, c), triu_lt h hc⟩ = M ⟨r, by omega⟩ ⟨c, hc⟩ := by
  have e : (triu d)[(triu d).idxOf (r, c)]'(by
      rw [triu_length]; exact triu_lt h hc) = (r, c) := List.getElem_idxOf _
  simp only [upper, e, Calc.entry]
  rw [dif_pos ⟨by omega, hc⟩]

theorem ofUpper_upper {d : ℕ} {M : Matrix (Fin d) (Fin d) ℝ} (h : M.IsSymm) : ofUpper d (upper M) = M := by
  ext r c
  rw [ofUpper_apply, upper_idx M min_le_max (max_lt r.2 c.2)]
  rcases le_total r c with hrc | hrc
  · have h1 : min r.1 c.1 = r.1 := min_eq_left hrc
    have h2 : max r.1 c.1 = c.1 := max_eq_right hrc
    simp only [h1, h2]
  · have h1 : min r.1 c.1 = c.1 := min_eq_right hrc
    have h2 : max r.1 c.1 = r.1 := max_eq_left hrc
    simp only [h1, h2]
    exact h.apply r c

theorem ofUpper_symm {d : ℕ} (z : Fin ((d + 1).choose 2) → ℝ) : (ofUpper d z).IsSymm := by
  ext r c
  rw [Matrix.transpose_apply, ofUpper_apply, ofUpper_apply]
  simp only [min_comm, max_comm]

theorem upper_ofUpper {d : ℕ} (z : Fin ((d + 1).choose 2) → ℝ) : upper (ofUpper d z) = z := by
  funext k
  have hk : k.1 < (triu d).length := by rw [triu_length]; exact k.2
  rcases h : (triu d)[k.1] with ⟨r, c⟩
  have hm := mem_triu.1 (h ▸ List.getElem_mem hk)
  have hi : (triu d).idxOf (r, c) = k.1 := by rw [← h]; exact (triu_nodup d).idxOf_getElem k.1 hk
  have := upper_idx (ofUpper d z) hm.1 hm.2
  rw [ofUpper_apply] at this
  simp only [hi, min_eq_left hm.1, max_eq_right hm.1] at this
  exact this

theorem symGather_matrices {K : Type} [Inhabited K] {d : ℕ} (rs : List ℕ)
    (f : List ℕ → Matrix (Fin d) (Fin d) K) :
    symGather (matrices rs f) = .ok (vectors rs fun i => upper (f i)) := by
  obtain ⟨x, hx, hxs, hxg⟩ := gather_ok (a := matrices rs f) (n := d) (m := d) (rs := rs) rfl (triu d)
  have e : symGather (matrices rs f) = (matrices rs f).gather (triu d) := by
    have : (matrices rs f).rshape = d :: d :: rs := rfl
    simp [symGather, this]
  rw [e, hx]
  refine congrArg _ (Arr.ext (by rw [hxs, triu_length]; rfl) fun i hi => ?_)
  rw [hxs] at hi
  cases i with
  | nil => simp [inB] at hi
  | cons k i =>
    obtain ⟨hk, hi⟩ := (inB_cons ..).1 hi
    have hk' : k < (d + 1).choose 2 := by rw [← triu_length]; exact hk
    rw [hxg k hk i hi, Calc.vectors_get _ hk' hi]
    have hm := mem_triu.1 (List.getElem_mem hk)
    exact (Arr.ofFn_get (i := (triu d)[k].2 :: (triu d)[k].1 :: i)
      ((inB_cons ..).2 ⟨hm.2, (inB_cons ..).2 ⟨lt_of_le_of_lt hm.1 hm.2, hi⟩⟩)).trans rfl

theorem symScatter_vectors {d : ℕ} (rs : List ℕ) (z : List ℕ → Fin ((d + 1).choose 2) → ℝ) :
    symScatter id (vectors rs z) = .ok (matrices rs fun i => ofUpper d (z i)) := by
  obtain ⟨b, h1, h2, h3, h4⟩ := symScatter_ok id (x := vectors rs z) (d := d) (rs := rs) rfl
  rw [h1]
  refine congrArg _ (Arr.ext h2 fun i hi => ?_)
  rw [h2] at hi
  match i, hi with
  | [], hi => simp [inB] at hi
  | [_], hi => simp [inB] at hi
  | c :: r :: i, hi =>
    obtain ⟨hc, hi⟩ := (inB_cons ..).1 hi
    obtain ⟨hr, hi⟩ := (inB_cons ..).1 hi
    rw [matrices, Arr.ofFn_get ((inB_cons ..).2 ⟨hc, (inB_cons ..).2 ⟨hr, hi⟩⟩)]
    simp only [hr, hc, and_self, dif_pos, ofUpper_apply]
    rcases Nat.lt_or_ge c r with h | h
    · rw [h4 r c i h hr hi, Calc.vectors_get _ (triu_lt h.le hr) hi]
      simp only [min_eq_right h.le, max_eq_left h.le, id]
    · rw [h3 r c i h hc hi, Calc.vectors_get _ (triu_lt h hc) hi]
      simp only [min_eq_left h, max_eq_right h]

def codecM {mn mx : Option ℝ} {g : ℝ} {a b c : Bool} {d : ℕ} :
    Codec (.symmetric (.real mn mx g) a b c) d ((d + 1).choose 2) (Matrix (Fin d) (Fin d) ℝ)
    (fun rs f => .real (matrices rs f)) Matrix.IsSymm where
  enc := upper
  dec := ofUpper d
  dec_enc _ h := ofUpper_upper h
  enc_dec z := upper_ofUpper z
  dec_good := ofUpper_symm
  num := rfl
  flat rs f _ := by
    simp only [Support.flattened, Val.liftE, symGather_matrices]
    rfl
  unflat rs z := by
    simp only [Support.unflattened, Ring.unflattened, Bool.false_eq_true, if_false, Bind.bind, Except.bind,
      Val.liftE, symScatter_vectors]
    rfl

/-! ## Hermitian matrices -/

/-- The matrix with these entries in the upper triangle and their conjugates below it. -/
def ofUpperC {d : ℕ} (z : Fin ((d + 1).choose 2) → ℂ) : Matrix (Fin d) (Fin d) ℂ :=
  Matrix.of fun r c =>
    if h : r.1 ≤ c.1 then z ⟨(triu d).idxOf (r.1, c.1), triu_lt h c.2⟩
    else star (z ⟨(triu d).idxOf (c.1, r.1), triu_lt (Nat.le_of_lt (Nat.lt_of_not_le h)) r.2⟩)

/-- The matrix with these flat coordinates: the real parts, then the imaginary parts of the upper
triangle. -/
noncomputable def ofFlatC (d : ℕ) :
    (Fin ((d + 1).choose 2 + (d + 1).choose 2) → ℝ) →ₗ[ℝ] Matrix (Fin d) (Fin d) ℂ where
  toFun z := ofUpperC (ofReIm _ z)
  map_add' a b := by
    ext r c
    simp only [ofUpperC, Matrix.of_apply, Matrix.add_apply, map_add, Pi.add_apply]
    split <;> simp
  map_smul' a b := by
    ext r c
    simp only [ofUpperC, Matrix.of_apply, Matrix.smul_apply, map_smul, Pi.smul_apply, RingHom.id_apply]
    split <;> simp

theorem ofFlatC_apply {d : ℕ} (z : Fin ((d + 1).choose 2 + (d + 1).choose 2) → ℝ) :
    ofFlatC d z = ofUpperC (ofReIm _ z) := rfl

theorem upper_ofUpperC {d : ℕ} (z : Fin ((d + 1).choose 2) → ℂ) : upper (ofUpperC (d := d) z) = z := by
  funext k
  have hk : k.1 < (triu d).length := by rw [triu_length]; exact k.2
  rcases h : (triu d)[k.1] with ⟨r, c⟩
  have hm := mem_triu.1 (h ▸ List.getElem_mem hk)
  have hi : (triu d).idxOf (r, c) = k.1 := by rw [← h]; exact (triu_nodup d).idxOf_getElem k.1 hk
  have := upper_idx (ofUpperC (d := d) z) hm.1 hm.2
  simp only [ofUpperC, Matrix.of_apply, hi, dif_pos hm.1] at this
  exact this

/-- Hermitian, except that the diagonal is not necessarily real. -/
def HermOff {d : ℕ} (M : Matrix (Fin d) (Fin d) ℂ) : Prop := ∀ r c, c < r → M r c = star (M c r)

theorem hermOff_of {d : ℕ} {M : Matrix (Fin d) (Fin d) ℂ} (h : M.IsHermitian) : HermOff M :=
  fun r c _ => (h.apply r c).symm

theorem ofUpperC_upper {d : ℕ} {q : Matrix (Fin d) (Fin d) ℂ} (h : HermOff q) : ofUpperC (upper q) = q := by
  ext r c
  simp only [ofUpperC, Matrix.of_apply]
  by_cases hrc : r.1 ≤ c.1
  · rw [dif_pos hrc, upper_idx q hrc c.2]
  · rw [dif_neg hrc, upper_idx q (Nat.le_of_lt (Nat.lt_of_not_le hrc)) r.2]
    exact (h r c (Fin.lt_def.2 (Nat.lt_of_not_le hrc))).symm

theorem ofUpperC_off {d : ℕ} (z : Fin ((d + 1).choose 2) → ℂ) : HermOff (ofUpperC (d := d) z) := by
  intro r c h
  have h : c.1 < r.1 := h
  simp only [ofUpperC, Matrix.of_apply]
  rw [dif_neg (by omega), dif_pos (by omega)]

theorem symScatter_star {d : ℕ} (rs : List ℕ) (z : List ℕ → Fin ((d + 1).choose 2) → ℂ) :
    symScatter star (vectors rs z) = .ok (matrices rs fun i => ofUpperC (z i)) := by
  obtain ⟨b, h1, h2, h3, h4⟩ := symScatter_ok star (x := vectors rs z) (d := d) (rs := rs) rfl
  rw [h1]
  refine congrArg _ (Arr.ext h2 fun i hi => ?_)
  rw [h2] at hi
  match i, hi with
  | [], hi => simp [inB] at hi
  | [_], hi => simp [inB] at hi
  | c :: r :: i, hi =>
    obtain ⟨hc, hi⟩ := (inB_cons ..).1 hi
    obtain ⟨hr, hi⟩ := (inB_cons ..).1 hi
    rw [matrices, Arr.ofFn_get ((inB_cons ..).2 ⟨hc, (inB_cons ..).2 ⟨hr, hi⟩⟩)]
    simp only [hr, hc, and_self, dif_pos, ofUpperC, Matrix.of_apply]
    rcases Nat.lt_or_ge c r with h | h
    · rw [h4 r c i h hr hi, Calc.vectors_get _ (triu_lt h.le hr) hi, dif_neg (by omega)]
    · rw [h3 r c i h hc hi, Calc.vectors_get _ (triu_lt h hc) hi, dif_pos h]

/-! ## Simple classes -/

variable [MachEps]

/-- How a simple class stores its natural parameters as `n` numbers, without the plane map. -/
structure Raw {P N : Type} [AddCommGroup N] [Module ℝ N] (c : Cls) (lay : Layout P N) (n : ℕ)
    (good : N → Prop) (b : Bool := false) where
  enc : N → Fin n → ℝ
  dec : (Fin n → ℝ) →ₗ[ℝ] N
  dec_enc : ∀ q, good q → dec (enc q) = q
  enc_dec : ∀ z, enc (dec z) = z
  dec_good : ∀ z, good (dec z)
  fl : List ℕ → (List ℕ → P) → Flattener Cls
  flat : ∀ rs p q, (∀ i, inB rs i = true → good (q i)) →
    flatten (.mk c (lay rs p q) .nil) b = .ok (fl rs p, vectors rs fun i => enc (q i))
  flAt : ∀ rs p i, inB rs i = true → (fl rs p).at i = .ok (fl [] fun _ => p i)
  unflat : ∀ rs p z, (fl rs p).unflatten (vectors rs z) =
    .ok (.mk c (lay rs p fun i => dec (z i)) .nil)

/-- The flattener of a simple class. -/
def flRaw (c : Cls) (d : ℕ) (fx : Dict Path Val) (b : Bool := false) : Flattener Cls :=
  ⟨[⟨[], c, d, []⟩], fx, b⟩

def Raw.one {A : Type} [AddCommGroup A] [Module ℝ A] {c : Cls} {name : String} {s : Support} {d k : ℕ} {b : Bool}
    {arr : List ℕ → (List ℕ → A) → Val} {good : A → Prop} (e : Codec s d k A arr good b)
    (hf : Cls.fields c = [⟨name, s, false⟩]) (hj : Cls.isJoint c = false)
    (ha : Cls.adjust c name [] = .ok s)
    (hd : ∀ rs f, Cls.dimensions c [arr rs f] = .ok d) :
    Raw (P := Unit) c (fun rs _ q => [arr rs q]) k good b where
  enc := e.enc
  dec := e.dec
  dec_enc := e.dec_enc
  enc_dec := e.enc_dec
  dec_good := e.dec_good
  fl _ _ := flRaw c d [] b
  flat rs p q hq := by
    simp [flatten, Dist.walk, Subs.walk, makeFlat, parametersFlat, nodeParams, ClassTable.fields, hf,
      Dist.cls, Dist.vals, Dist.subs, Dict.ofList, Dict.set, makeFlatFields, ClassTable.adjust, ha, e.flat rs q hq,
      Bind.bind, Except.bind,
      reduceAppend, infosOf, makeInfo, ClassTable.dimensions, hd, parameters, Dist.paramList, Subs.paramList,
      keep, flRaw, Subs.names, pure, Except.pure]
  flAt rs p i hi := rfl
  unflat rs p z := by
    have hl : (vectors rs z).lastDim = .ok k := rfl
    simp [Flattener.unflatten, flRaw, hl, unflattenStep, supportOf, ClassTable.fields, hf, keep, Dict.ofList,
      Dict.set, Dict.keys, unflattenFields, ClassTable.adjust, ha, e.num, vectors_slice_all, e.unflat, Bind.bind,
      Except.bind, gatherSubs, construct, ClassTable.isJoint, hj, Dict.merge, argOf, Dict.get?, getDist,
      Dict.get, pure, Except.pure]

theorem append_vectors' {m n : ℕ} (rs : List ℕ) (a : List ℕ → Fin m → ℝ) (b : List ℕ → Fin n → ℝ) :
    (vectors rs a).append (vectors rs b) = .ok (vectors rs fun i => Fin.append (a i) (b i)) := by
  have := append_vectors rs a b
  simp only [Calc.append, bind_ok, vectors_rshape, if_true] at this
  simp only [Arr.append, vectors_rshape, if_true]
  have this := Except.ok.inj this
  rw [← this]
  refine congrArg _ (Arr.ext rfl fun i hi => ?_)
  have hi : inB ((m + n) :: rs) i = true := hi
  rw [Arr.ofFn_get hi, Arr.ofFn_get hi]
  cases i <;> rfl

/-- The first numbers. -/
def firstPart (m n : ℕ) : (Fin (m + n) → ℝ) →ₗ[ℝ] Fin m → ℝ := LinearMap.funLeft ℝ ℝ (Fin.castAdd n)

/-- The last numbers. -/
def lastPart (m n : ℕ) : (Fin (m + n) → ℝ) →ₗ[ℝ] Fin n → ℝ := LinearMap.funLeft ℝ ℝ (Fin.natAdd m)

theorem append_parts {m n : ℕ} (z : Fin (m + n) → ℝ) :
    Fin.append (firstPart m n z) (lastPart m n z) = z := Fin.append_castAdd_natAdd

theorem firstPart_append {m n : ℕ} (a : Fin m → ℝ) (b : Fin n → ℝ) : firstPart m n (Fin.append a b) = a := by
  funext k; exact Fin.append_left a b k

theorem lastPart_append {m n : ℕ} (a : Fin m → ℝ) (b : Fin n → ℝ) : lastPart m n (Fin.append a b) = b := by
  funext k; exact Fin.append_right a b k

theorem slice_left {m n : ℕ} (rs : List ℕ) (z : List ℕ → Fin (m + n) → ℝ) :
    (vectors rs z).slice 0 m = .ok (vectors rs fun i => firstPart m n (z i)) := by
  rw [← slice_append_left rs (fun i => firstPart m n (z i)) fun i => lastPart m n (z i)]
  simp only [append_parts]

theorem slice_right {m n : ℕ} (rs : List ℕ) (z : List ℕ → Fin (m + n) → ℝ) :
    (vectors rs z).slice m (m + n) = .ok (vectors rs fun i => lastPart m n (z i)) := by
  rw [← slice_append_right rs (fun i => firstPart m n (z i)) fun i => lastPart m n (z i)]
  simp only [append_parts]

def Raw.two {A B : Type} [AddCommGroup A] [Module ℝ A] [AddCommGroup B] [Module ℝ B] {c : Cls}
    {n₁ n₂ : String} {s₁ s₂ : Support} {d k₁ k₂ : ℕ}
    {arr₁ : List ℕ → (List ℕ → A) → Val} {arr₂ : List ℕ → (List ℕ → B) → Val}
    {good₁ : A → Prop} {good₂ : B → Prop} (e₁ : Codec s₁ d k₁ A arr₁ good₁)
    (e₂ : Codec s₂ d k₂ B arr₂ good₂)
    (hf : Cls.fields c = [⟨n₁, s₁, false⟩, ⟨n₂, s₂, false⟩]) (hj : Cls.isJoint c = false)
    (hne : n₁ ≠ n₂)
    (ha₁ : Cls.adjust c n₁ [] = .ok s₁) (ha₂ : ∀ kw, Cls.adjust c n₂ kw = .ok s₂)
    (hd : ∀ rs f g, Cls.dimensions c [arr₁ rs f, arr₂ rs g] = .ok d) :
    Raw (P := Unit) (N := A × B) c (fun rs _ q => [arr₁ rs fun i => (q i).1, arr₂ rs fun i => (q i).2])
      (k₁ + k₂) fun q => good₁ q.1 ∧ good₂ q.2 where
  enc q := Fin.append (e₁.enc q.1) (e₂.enc q.2)
  dec := (e₁.dec ∘ₗ firstPart k₁ k₂).prod (e₂.dec ∘ₗ lastPart k₁ k₂)
  dec_enc q hq := by
    refine Prod.ext ?_ ?_
    · change e₁.dec (firstPart k₁ k₂ _) = _
      rw [firstPart_append, e₁.dec_enc _ hq.1]
    · change e₂.dec (lastPart k₁ k₂ _) = _
      rw [lastPart_append, e₂.dec_enc _ hq.2]
  enc_dec z := by
    refine Eq.trans ?_ (append_parts z)
    exact congrArg₂ Fin.append (e₁.enc_dec _) (e₂.enc_dec _)
  dec_good z := ⟨e₁.dec_good _, e₂.dec_good _⟩
  fl _ _ := flRaw c d []
  flat rs p q hq := by
    simp [flatten, Dist.walk, Subs.walk, makeFlat, parametersFlat, nodeParams, ClassTable.fields, hf,
      Dist.cls, Dist.vals, Dist.subs, Dict.ofList, Dict.set, makeFlatFields, ClassTable.adjust, ha₁, ha₂,
      e₁.flat rs _ fun i hi => (hq i hi).1, e₂.flat rs _ fun i hi => (hq i hi).2,
      Bind.bind, Except.bind, hne, append_vectors', List.foldlM, pure, Except.pure,
      reduceAppend, infosOf, makeInfo, ClassTable.dimensions, hd, parameters, Dist.paramList, Subs.paramList,
      keep, flRaw, Subs.names]
  flAt rs p i hi := rfl
  unflat rs p z := by
    have hl : (vectors rs z).lastDim = .ok (k₁ + k₂) := rfl
    simp [Flattener.unflatten, flRaw, hl, unflattenStep, supportOf, ClassTable.fields, hf, keep, Dict.ofList,
      Dict.set, Dict.keys, unflattenFields, ClassTable.adjust, ha₁, ha₂, e₁.num, e₂.num, slice_left,
      slice_right, e₁.unflat, e₂.unflat, Bind.bind, Except.bind, hne,
      gatherSubs, construct, ClassTable.isJoint, hj, Dict.merge, argOf, Dict.get?, getDist, Dict.get, pure,
      Except.pure]

/-- One variable parameter, followed by a fixed one. -/
def Raw.varFixed {A P : Type} [AddCommGroup A] [Module ℝ A] {c : Cls} {name fixed : String}
    {s s' : Support} {d k : ℕ} {b : Bool}
    {arr : List ℕ → (List ℕ → A) → Val} {good : A → Prop} {fx : List ℕ → (List ℕ → P) → Val}
    (e : Codec s d k A arr good b)
    (hf : Cls.fields c = [⟨name, s, false⟩, ⟨fixed, s', true⟩]) (hj : Cls.isJoint c = false)
    (hne : name ≠ fixed)
    (ha : Cls.adjust c name [] = .ok s)
    (hd : ∀ rs f p, Cls.dimensions c [arr rs f, fx rs p] = .ok d)
    (hx : ∀ rs p i, inB rs i = true → (fx rs p).index i.reverse = .ok (fx [] fun _ => p i)) :
    Raw (P := P) c (fun rs p q => [arr rs q, fx rs p]) k good b where
  enc := e.enc
  dec := e.dec
  dec_enc := e.dec_enc
  enc_dec := e.enc_dec
  dec_good := e.dec_good
  fl rs p := flRaw c d [([fixed], fx rs p)] b
  flat rs p q hq := by
    simp [flatten, Dist.walk, Subs.walk, makeFlat, parametersFlat, nodeParams, ClassTable.fields, hf,
      Dist.cls, Dist.vals, Dist.subs, Dict.ofList, Dict.set, makeFlatFields, ClassTable.adjust, ha, e.flat rs q hq,
      Bind.bind, Except.bind, hne,
      reduceAppend, infosOf, makeInfo, ClassTable.dimensions, hd, parameters, Dist.paramList, Subs.paramList,
      keep, flRaw, Subs.names, pure, Except.pure]
  flAt rs p i hi := by
    simp [Flattener.at, flRaw, hx rs p i hi, Bind.bind, Except.bind, pure, Except.pure]
  unflat rs p z := by
    have hl : (vectors rs z).lastDim = .ok k := rfl
    simp [Flattener.unflatten, flRaw, hl, unflattenStep, supportOf, ClassTable.fields, hf, keep, Dict.ofList,
      Dict.set, Dict.keys, unflattenFields, ClassTable.adjust, ha, e.num, vectors_slice_all, e.unflat, Bind.bind,
      Except.bind, gatherSubs, construct, ClassTable.isJoint, hj, Dict.merge, argOf, Dict.get?, getDist,
      Dict.get, pure, Except.pure, hne]

/-- A fixed parameter, followed by a variable one. -/
def Raw.fixedVar {A P : Type} [AddCommGroup A] [Module ℝ A] {c : Cls} {name fixed : String}
    {s s' : Support} {d k : ℕ} {b : Bool}
    {arr : List ℕ → (List ℕ → A) → Val} {good : A → Prop} {fx : List ℕ → (List ℕ → P) → Val}
    (e : Codec s d k A arr good b)
    (hf : Cls.fields c = [⟨fixed, s', true⟩, ⟨name, s, false⟩]) (hj : Cls.isJoint c = false)
    (hne : fixed ≠ name)
    (ha : Cls.adjust c name [] = .ok s)
    (hd : ∀ rs f p, Cls.dimensions c [fx rs p, arr rs f] = .ok d)
    (hx : ∀ rs p i, inB rs i = true → (fx rs p).index i.reverse = .ok (fx [] fun _ => p i)) :
    Raw (P := P) c (fun rs p q => [fx rs p, arr rs q]) k good b where
  enc := e.enc
  dec := e.dec
  dec_enc := e.dec_enc
  enc_dec := e.enc_dec
  dec_good := e.dec_good
  fl rs p := flRaw c d [([fixed], fx rs p)] b
  flat rs p q hq := by
    simp [flatten, Dist.walk, Subs.walk, makeFlat, parametersFlat, nodeParams, ClassTable.fields, hf,
      Dist.cls, Dist.vals, Dist.subs, Dict.ofList, Dict.set, makeFlatFields, ClassTable.adjust, ha, e.flat rs q hq,
      Bind.bind, Except.bind, hne,
      reduceAppend, infosOf, makeInfo, ClassTable.dimensions, hd, parameters, Dist.paramList, Subs.paramList,
      keep, flRaw, Subs.names, pure, Except.pure]
  flAt rs p i hi := by
    simp [Flattener.at, flRaw, hx rs p i hi, Bind.bind, Except.bind, pure, Except.pure]
  unflat rs p z := by
    have hl : (vectors rs z).lastDim = .ok k := rfl
    simp [Flattener.unflatten, flRaw, hl, unflattenStep, supportOf, ClassTable.fields, hf, keep, Dict.ofList,
      Dict.set, Dict.keys, unflattenFields, ClassTable.adjust, ha, e.num, vectors_slice_all, e.unflat, Bind.bind,
      Except.bind, gatherSubs, construct, ClassTable.isJoint, hj, Dict.merge, argOf, Dict.get?, getDist,
      Dict.get, pure, Except.pure, hne, hne.symm]

theorem scalars_atIdx {α : Type} [Inhabited α] {rs i : List ℕ} (hi : inB rs i = true) (f : List ℕ → α) :
    (scalars rs f).index i.reverse = .ok (scalars [] fun _ => f i) := by
  refine (scalars_index (s := []) hi f).trans (congrArg _ (Arr.ext rfl fun j hj => ?_))
  have hj : inB [] j = true := hj
  rw [scalars, scalars, Arr.ofFn_get hj, Arr.ofFn_get hj, inB_nil_iff.1 hj, List.nil_append]

theorem real_at {rs i : List ℕ} (hi : inB rs i = true) (f : List ℕ → ℝ) :
    (Val.real (scalars rs f)).index i.reverse = .ok (.real (scalars [] fun _ => f i)) := by
  simp only [Val.index, Val.liftE, scalars_atIdx hi f]
  rfl

theorem int_at {rs i : List ℕ} (hi : inB rs i = true) (f : List ℕ → ℤ) :
    (Val.int (scalars rs f)).index i.reverse = .ok (.int (scalars [] fun _ => f i)) := by
  simp only [Val.index, Val.liftE, scalars_atIdx hi f]
  rfl

/-- A slice in the middle. -/
theorem slice_middle {l m n : ℕ} (rs : List ℕ) (z : List ℕ → Fin (l + m + n) → ℝ) :
    (vectors rs z).slice l (l + m) = .ok (vectors rs fun i => lastPart l m (firstPart (l + m) n (z i))) := by
  simp only [Arr.slice, vectors_rshape]
  rw [min_eq_left (by omega : l + m ≤ l + m + n), min_eq_left (by omega : l ≤ l + m + n),
    Nat.add_sub_cancel_left]
  refine congrArg _ (Arr.ext rfl fun i hi => ?_)
  have hi : inB (m :: rs) i = true := hi
  cases i with
  | nil => simp [inB] at hi
  | cons k i =>
    obtain ⟨hk', hi'⟩ := (inB_cons ..).1 hi
    rw [Arr.ofFn_get hi, Calc.vectors_get _ hk' hi']
    exact Calc.vectors_get _ (by omega) hi'

/-- The parameters of the complex normal distribution as five numbers. -/
def encCSC (q : ℂ × ℝ × ℂ) : Fin (2 + 1 + 2) → ℝ :=
  Fin.append (Fin.append (reIm (n := 1) fun _ => q.1) fun _ : Fin 1 => q.2.1) (reIm (n := 1) fun _ => q.2.2)

/-- The parameters of the complex normal distribution from five numbers. -/
def decCSC : (Fin (2 + 1 + 2) → ℝ) →ₗ[ℝ] ℂ × ℝ × ℂ :=
  ((LinearMap.proj 0 ∘ₗ ofReIm 1) ∘ₗ firstPart 2 1 ∘ₗ firstPart (2 + 1) 2).prod
    ((LinearMap.proj 0 ∘ₗ lastPart 2 1 ∘ₗ firstPart (2 + 1) 2).prod
      ((LinearMap.proj 0 ∘ₗ ofReIm 1) ∘ₗ lastPart (2 + 1) 2))

theorem decCSC_apply (z : Fin (2 + 1 + 2) → ℝ) :
    decCSC z = (⟨z 0, z 1⟩, z 2, ⟨z 3, z 4⟩) := rfl

theorem decCSC_encCSC (q : ℂ × ℝ × ℂ) : decCSC (encCSC q) = q := by
  rw [decCSC_apply]; rfl

theorem encCSC_decCSC (z : Fin (2 + 1 + 2) → ℝ) : encCSC (decCSC z) = z := by
  rw [decCSC_apply]
  funext k
  fin_cases k <;> rfl

/-- The complex normal distribution. -/
def Raw.complexNormal : Raw .complexNormalNP layCSC (2 + 1 + 2) fun _ => True where
  enc := encCSC
  dec := decCSC
  dec_enc q _ := decCSC_encCSC q
  enc_dec := encCSC_decCSC
  dec_good _ := trivial
  fl _ _ := flRaw .complexNormalNP 1 []
  flat rs p q hq := by
    have e1 := (codecC (mn := Arr.full [] 0) (mx := none) (d := 1)).flat rs (fun i => (q i).1) fun _ _ => trivial
    have e2 := (codecS (mn := none) (mx := some (Ring.openMax 0)) (g := 1) (d := 1)).flat rs (fun i => (q i).2.1)
      fun _ _ => trivial
    have e3 : ∀ mx, _ := fun mx => (codecC (mn := Arr.full [] 0) (mx := mx) (d := 1)).flat rs
      (fun i => (q i).2.2) fun _ _ => trivial
    simp [flatten, Dist.walk, Subs.walk, makeFlat, parametersFlat, nodeParams, ClassTable.fields, layCSC, 
      Dist.cls, Dist.vals, Dist.subs, Dict.ofList, Dict.set, makeFlatFields, ClassTable.adjust, Cls.adjust, Cls.fields,
      Ring.complexField, Ring.mkReal, e1, e2, e3, Dict.get, Dict.get?,
      Bind.bind, Except.bind, append_vectors', List.foldlM, pure, Except.pure,
      reduceAppend, infosOf, makeInfo, ClassTable.dimensions, Cls.dimensions, Cls.isMultidimensional, parameters, Dist.paramList, Subs.paramList,
      keep, flRaw, Subs.names]
    rfl
  flAt rs p i hi := rfl
  unflat rs p z := by
    have hl : (vectors rs z).lastDim = .ok (2 + 1 + 2) := rfl
    have e1 := (codecC (mn := Arr.full [] 0) (mx := none) (d := 1)).unflat rs fun i => firstPart 2 1 (firstPart (2 + 1) 2 (z i))
    have e2 := (codecS (mn := none) (mx := some (Ring.openMax 0)) (g := 1) (d := 1)).unflat rs fun i =>
      lastPart 2 1 (firstPart (2 + 1) 2 (z i))
    have e3 : ∀ mx, _ := fun mx => (codecC (mn := Arr.full [] 0) (mx := mx) (d := 1)).unflat rs fun i =>
      lastPart (2 + 1) 2 (z i)
    have n1 : ∀ mx, _ := fun mx => (codecC (mn := Arr.full [] 0) (mx := mx) (d := 1)).num
    have n2 := (codecS (mn := none) (mx := some (Ring.openMax 0)) (g := 1) (d := 1)).num
    have s1 : (vectors rs z).slice 0 2 = .ok (vectors rs fun i => firstPart 2 1 (firstPart (2 + 1) 2 (z i))) :=
      slice_left (m := 2) (n := 1 + 2) rs z
    have s2 := slice_middle (l := 2) (m := 1) (n := 2) rs z
    have s3 := slice_right (m := 2 + 1) (n := 2) rs z
    simp [Flattener.unflatten, flRaw, hl, unflattenStep, supportOf, ClassTable.fields, Cls.fields, keep, Dict.ofList,
      Dict.set, Dict.keys, unflattenFields, ClassTable.adjust, Cls.adjust, n1, n2, s1, s2, s3, e1, e2, e3,
      Ring.complexField, Ring.mkReal, Bind.bind, Except.bind,
      gatherSubs, construct, ClassTable.isJoint, Cls.isJoint, Dict.merge, argOf, Dict.get?, getDist, Dict.get, pure,
      Except.pure]
    rfl

noncomputable def codecCM {mn : Arr ℝ} {mx : Option (Arr ℝ)} {a b : Bool} {d : ℕ} :
    Codec (.symmetric (.complex mn mx) a b true) d ((d + 1).choose 2 + (d + 1).choose 2)
    (Matrix (Fin d) (Fin d) ℂ) (fun rs f => .complex (matrices rs f)) HermOff where
  enc q := reIm (upper q)
  dec := ofFlatC d
  dec_enc q h := by rw [ofFlatC_apply, ofReIm_reIm, ofUpperC_upper h]
  enc_dec z := by rw [ofFlatC_apply, upper_ofUpperC, reIm_ofReIm]
  dec_good z := ofUpperC_off _
  num := Nat.mul_two _
  flat rs f _ := by
    simp [Support.flattened, Val.liftE, symGather_matrices, Ring.flattened, concatReIm_vectors, Bind.bind,
      Except.bind, Functor.map, Except.map]
  unflat rs z := by
    have hss := symScatter_star (d := d) rs fun i => ofReIm _ (z i)
    have hss : symScatter (⇑(starRingEnd ℂ)) _ = _ := hss
    have hs := splitReIm_vectors (n := (d + 1).choose 2) rs z
    simp [Support.unflattened, Ring.unflattened, hs, hss, Bind.bind, Except.bind, Functor.map, Except.map]
    rfl

/-- The circularly symmetric complex normal distribution: the real parts, then the imaginary parts of
the upper triangle, including those of the diagonal. -/
theorem flatten_circular (d : ℕ) (rs : List ℕ) (p : List ℕ → Unit)
    (q : List ℕ → Matrix (Fin d) (Fin d) ℂ) :
    flatten (.mk .ccsnNP (layCM d rs p q) .nil) false =
      .ok (flRaw .ccsnNP d [], vectors rs fun i => reIm (upper (q i))) := by
  have hd : Cls.dimensions .ccsnNP [.complex (matrices rs q)] = .ok d := rfl
  simp [flatten, Dist.walk, Subs.walk, makeFlat, parametersFlat, nodeParams, ClassTable.fields, layCM,
    Dist.cls, Dist.vals, Dist.subs, Dict.ofList, Dict.set, makeFlatFields, ClassTable.adjust, Cls.adjust,
    Cls.fields, Dict.get, Dict.get?, Support.flattened, Val.liftE, symGather_matrices, Ring.complexField,
    Ring.flattened, concatReIm_vectors, Bind.bind, Except.bind, Functor.map, Except.map,
    reduceAppend, infosOf, makeInfo, ClassTable.dimensions, hd, parameters, Dist.paramList, Subs.paramList,
    keep, flRaw, Subs.names, pure, Except.pure]

theorem unflatten_circular (d : ℕ) (p : List ℕ → Unit)
    (z : Fin ((d + 1).choose 2 + (d + 1).choose 2) → ℝ) :
    (flRaw .ccsnNP d []).unflatten (vectors [] fun _ => z) =
      .ok (.mk .ccsnNP (layCM d [] p fun _ => ofUpperC (ofReIm _ z)) .nil) := by
  have hl : (vectors [] fun _ => z).lastDim = .ok ((d + 1).choose 2 + (d + 1).choose 2) := rfl
  have hn : (Support.symmetric (.complex (Arr.full [] 0) none) false true true).numElements d =
      (d + 1).choose 2 + (d + 1).choose 2 := Nat.mul_two _
  have hss := symScatter_star (d := d) [] fun _ => ofReIm _ z
  have hss : symScatter (⇑(starRingEnd ℂ)) _ = _ := hss
  have hs := splitReIm_vectors (n := (d + 1).choose 2) [] fun _ => z
  simp [Flattener.unflatten, flRaw, hl, unflattenStep, supportOf, ClassTable.fields, Cls.fields, keep, Dict.ofList,
    Dict.set, Dict.keys, unflattenFields, ClassTable.adjust, Cls.adjust, hn, vectors_slice_all,
    Support.unflattened, Ring.unflattened, Ring.complexField, hs, hss, Bind.bind,
    Except.bind, gatherSubs, construct, ClassTable.isJoint, Cls.isJoint, Dict.merge, argOf, Dict.get?, getDist,
    Dict.get, pure, Except.pure, Functor.map, Except.map, layCM]

end Efax
