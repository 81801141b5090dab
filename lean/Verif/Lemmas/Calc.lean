import Verif.Spec.Batch
import Verif.Lemmas.Arr
import Mathlib.LinearAlgebra.Matrix.NonsingularInverse

/-! # Evaluating array expressions on batches -/

namespace Efax

open Spec

theorem bcast_one (n : ℕ) (s : List ℕ) : bcast (1 :: s) (n :: s) = .ok (n :: s) := by
  simp only [bcast, bcast_self, bind, Except.bind]
  split_ifs with h
  · rw [h]
  · rfl

theorem bcast_one_right (n : ℕ) (s : List ℕ) : bcast (n :: s) (1 :: s) = .ok (n :: s) := by
  simp only [bcast, bcast_self, bind, Except.bind]
  split_ifs <;> simp_all

theorem bidx_one {n : ℕ} {s : List ℕ} {k : ℕ} {i : List ℕ} (h : inB (n :: s) (k :: i) = true) :
    bidx (1 :: s) (k :: i) = 0 :: i := by
  simp [bidx, bidx_self ((inB_cons ..).1 h).2]

namespace Calc

variable {α β γ : Type} [Inhabited α] [Inhabited β] [Inhabited γ]

theorem add_eq [Add α] (x y : Calc α) : x + y = bin (· + ·) x y := rfl
theorem sub_eq [Sub α] (x y : Calc α) : x - y = bin (· - ·) x y := rfl
theorem mul_eq [Mul α] (x y : Calc α) : x * y = bin (· * ·) x y := rfl
theorem div_eq [Div α] (x y : Calc α) : x / y = bin (· / ·) x y := rfl
theorem neg_eq [Neg α] (x : Calc α) : -x = map (- ·) x := rfl
theorem ofNat_eq {n : ℕ} [OfNat α n] : (OfNat.ofNat n : Calc α) = const (OfNat.ofNat n) := rfl
theorem ofSci_eq [OfScientific α] (m : ℕ) (s : Bool) (e : ℕ) :
    (OfScientific.ofScientific m s e : Calc α) = const (OfScientific.ofScientific m s e) := rfl

theorem bind_ok (a : Arr α) (f : Arr α → Calc β) : (ok a).bind f = f a := rfl
theorem bind_fail (e : Err) (f : Arr α → Calc β) : (fail e : Calc α).bind f = fail e := rfl
theorem bind_const (c : α) (f : Arr α → Calc β) : (const c).bind f = f (Arr.ofFn [] fun _ => c) := rfl
theorem run_ok (a : Arr α) : (ok a).run = .ok a := rfl

theorem ok_ofFn_congr {rs : List ℕ} {f g : List ℕ → α} (h : ∀ i, inB rs i = true → f i = g i) :
    ok (Arr.ofFn rs f) = ok (Arr.ofFn rs g) := by rw [Arr.ofFn_congr h]

theorem bin_same (f : α → β → γ) {a : Arr α} {b : Arr β} (h : a.rshape = b.rshape) :
    bin f (ok a) (ok b) = ok (Arr.ofFn a.rshape fun i => f (a.get i) (b.get i)) := by
  simp only [bin, bind_ok, ← h, bcast_self]
  exact ok_ofFn_congr fun i hi => by rw [bidx_self hi]

theorem bin_const_left (f : α → β → γ) (c : α) (b : Arr β) :
    bin f (const c) (ok b) = ok (Arr.ofFn b.rshape fun i => f c (b.get i)) := by
  simp only [bin, bind_ok, bind_const, Arr.ofFn_rshape, bcast]
  refine ok_ofFn_congr fun i hi => ?_
  rw [bidx_self hi]
  simp [bidx, Arr.ofFn_get (rs := []) (i := []) rfl]

theorem bin_const_right (f : α → β → γ) (a : Arr α) (c : β) :
    bin f (ok a) (const c) = ok (Arr.ofFn a.rshape fun i => f (a.get i) c) := by
  simp only [bin, bind_ok, bind_const, Arr.ofFn_rshape, bcast_nil_right]
  refine ok_ofFn_congr fun i hi => ?_
  rw [bidx_self hi]
  simp [bidx, Arr.ofFn_get (rs := []) (i := []) rfl]

theorem bin_const_const (f : α → β → γ) (c : α) (d : β) :
    bin f (const c) (const d) = const (f c d) := by
  rw [const, bin_const_right]
  exact ok_ofFn_congr fun i hi => by
    have hi : inB [] i = true := hi
    rw [Arr.ofFn_get hi]

theorem map_const (f : α → β) (c : α) : map f (const c) = const (f c) := by
  simp only [map, const]
  refine congrArg ok (Arr.ext rfl fun i hi => ?_)
  have hi : inB [] i = true := hi
  rw [Arr.map_get hi, Arr.ofFn_get hi, Arr.ofFn_get hi]

/-! ### Batches of numbers -/

theorem map_scalars (f : α → β) (rs : List ℕ) (a : List ℕ → α) :
    map f (ok (scalars rs a)) = ok (scalars rs fun i => f (a i)) := by
  simp only [map, bind_ok, scalars]
  refine congrArg ok (Arr.ext rfl fun i hi => ?_)
  have hi : inB rs i = true := hi
  rw [Arr.map_get hi, Arr.ofFn_get hi, Arr.ofFn_get hi]

theorem bin_scalars (f : α → β → γ) (rs : List ℕ) (a : List ℕ → α) (b : List ℕ → β) :
    bin f (ok (scalars rs a)) (ok (scalars rs b)) = ok (scalars rs fun i => f (a i) (b i)) := by
  rw [bin_same f rfl]
  exact ok_ofFn_congr fun i hi => by
    have hi : inB rs i = true := hi
    rw [scalars, scalars, Arr.ofFn_get hi, Arr.ofFn_get hi]

theorem bin_const_scalars (f : α → β → γ) (c : α) (rs : List ℕ) (b : List ℕ → β) :
    bin f (const c) (ok (scalars rs b)) = ok (scalars rs fun i => f c (b i)) := by
  rw [bin_const_left]
  exact ok_ofFn_congr fun i hi => by
    have hi : inB rs i = true := hi
    rw [scalars, Arr.ofFn_get hi]

theorem bin_scalars_const (f : α → β → γ) (rs : List ℕ) (a : List ℕ → α) (c : β) :
    bin f (ok (scalars rs a)) (const c) = ok (scalars rs fun i => f (a i) c) := by
  rw [bin_const_right]
  exact ok_ofFn_congr fun i hi => by
    have hi : inB rs i = true := hi
    rw [scalars, Arr.ofFn_get hi]

theorem zeros_scalars [Zero β] (rs : List ℕ) (a : List ℕ → α) :
    (zeros 0 (ok (scalars rs a)) : Calc β) = ok (scalars rs fun _ => 0) := rfl

theorem broadcastLike_scalars (rs : List ℕ) (a : List ℕ → α) (b : List ℕ → β) :
    broadcastLike (ok (scalars rs a)) (ok (scalars rs b)) = ok (scalars rs a) := by
  simp only [broadcastLike, bind_ok, scalars, Arr.ofFn_rshape, bcast_self, if_true]
  exact ok_ofFn_congr fun i hi => by rw [bidx_self hi, Arr.ofFn_get hi]

/-! ### Batches of vectors -/

theorem vectors_get {d : ℕ} {rs : List ℕ} (f : List ℕ → Fin d → α) {k : ℕ} {i : List ℕ} (hk : k < d)
    (hi : inB rs i = true) : (vectors rs f).get (k :: i) = f i ⟨k, hk⟩ := by
  rw [vectors, Arr.ofFn_get ((inB_cons ..).2 ⟨hk, hi⟩)]
  exact dif_pos hk

theorem vectors_rshape {d : ℕ} (rs : List ℕ) (f : List ℕ → Fin d → α) :
    (vectors rs f).rshape = d :: rs := rfl

theorem ofFn_vectors {d : ℕ} {rs : List ℕ} {g : List ℕ → α} {f : List ℕ → Fin d → α}
    (h : ∀ (k : Fin d) i, inB rs i = true → g (k.val :: i) = f i k) :
    ok (Arr.ofFn (d :: rs) g) = ok (vectors rs f) := by
  refine ok_ofFn_congr fun i hi => ?_
  obtain ⟨k, i, rfl, hk, hi⟩ := inB_cons_elim hi
  rw [h ⟨k, hk⟩ i hi]
  simp [hk]

theorem newaxis_scalars (rs : List ℕ) (a : List ℕ → α) :
    newaxis (ok (scalars rs a)) = ok (vectors rs fun i (_ : Fin 1) => a i) :=
  ofFn_vectors (rs := rs) fun _ _ hi => Arr.ofFn_get hi

theorem map_vectors (f : α → β) {d : ℕ} (rs : List ℕ) (a : List ℕ → Fin d → α) :
    map f (ok (vectors rs a)) = ok (vectors rs fun i k => f (a i k)) := by
  have : map f (ok (vectors rs a)) = ok (Arr.ofFn (d :: rs) fun i => f ((vectors rs a).get i)) := by
    refine congrArg ok (Arr.ext rfl fun i hi => ?_)
    have hi : inB (d :: rs) i = true := hi
    rw [Arr.map_get hi, Arr.ofFn_get hi]
  rw [this]
  exact ofFn_vectors fun k i hi => by rw [vectors_get a k.2 hi]

theorem bin_vectors (f : α → β → γ) {d : ℕ} (rs : List ℕ) (a : List ℕ → Fin d → α)
    (b : List ℕ → Fin d → β) :
    bin f (ok (vectors rs a)) (ok (vectors rs b)) = ok (vectors rs fun i k => f (a i k) (b i k)) := by
  rw [bin_same f rfl]
  exact ofFn_vectors fun k i hi => by rw [vectors_get a k.2 hi, vectors_get b k.2 hi]

theorem bin_const_vectors (f : α → β → γ) (c : α) {d : ℕ} (rs : List ℕ) (b : List ℕ → Fin d → β) :
    bin f (const c) (ok (vectors rs b)) = ok (vectors rs fun i k => f c (b i k)) := by
  rw [bin_const_left]
  exact ofFn_vectors fun k i hi => by rw [vectors_get b k.2 hi]

theorem bin_vectors_const (f : α → β → γ) {d : ℕ} (rs : List ℕ) (a : List ℕ → Fin d → α) (c : β) :
    bin f (ok (vectors rs a)) (const c) = ok (vectors rs fun i k => f (a i k) c) := by
  rw [bin_const_right]
  exact ofFn_vectors fun k i hi => by rw [vectors_get a k.2 hi]

/-- A new axis against the axis of a vector. -/
theorem bin_one_vectors (f : α → β → γ) {d : ℕ} (rs : List ℕ) (a : List ℕ → Fin 1 → α)
    (b : List ℕ → Fin d → β) :
    bin f (ok (vectors rs a)) (ok (vectors rs b)) = ok (vectors rs fun i k => f (a i 0) (b i k)) := by
  simp only [bin, bind_ok, vectors_rshape, bcast_one]
  refine ofFn_vectors fun k i hi => ?_
  have h : inB (d :: rs) (k.val :: i) = true := (inB_cons ..).2 ⟨k.2, hi⟩
  rw [bidx_one h, bidx_self h, vectors_get a Nat.one_pos hi, vectors_get b k.2 hi]
  rfl

theorem bin_vectors_one (f : α → β → γ) {d : ℕ} (rs : List ℕ) (a : List ℕ → Fin d → α)
    (b : List ℕ → Fin 1 → β) :
    bin f (ok (vectors rs a)) (ok (vectors rs b)) = ok (vectors rs fun i k => f (a i k) (b i 0)) := by
  simp only [bin, bind_ok, vectors_rshape, bcast_one_right]
  refine ofFn_vectors fun k i hi => ?_
  have h : inB (d :: rs) (k.val :: i) = true := (inB_cons ..).2 ⟨k.2, hi⟩
  rw [bidx_one h, bidx_self h, vectors_get a k.2 hi, vectors_get b Nat.one_pos hi]
  rfl

theorem zeros_vectors [Zero β] {d : ℕ} (rs : List ℕ) (a : List ℕ → Fin d → α) :
    (zeros 1 (ok (vectors rs a)) : Calc β) = ok (scalars rs fun _ => 0) := rfl

theorem dim_vectors [NatCast β] {d : ℕ} (rs : List ℕ) (a : List ℕ → Fin d → α) :
    (dim (ok (vectors rs a)) : Calc β) = const (d : β) := rfl

theorem sum_vectors {M : Type} [AddCommMonoid M] {d : ℕ} {rs : List ℕ} (a : List ℕ → Fin d → α)
    (f : α → M) {i : List ℕ} (hi : inB rs i = true) :
    ∑ k ∈ Finset.range d, f ((vectors rs a).get (k :: i)) = ∑ k, f (a i k) := by
  rw [Finset.sum_range]
  exact Finset.sum_congr rfl fun k _ => by rw [vectors_get a k.2 hi]

theorem sumLast_vectors [AddCommMonoid α] {d : ℕ} (rs : List ℕ) (a : List ℕ → Fin d → α) :
    sumLast (ok (vectors rs a)) = ok (scalars rs fun i => ∑ k, a i k) :=
  ok_ofFn_congr fun _ hi => sum_vectors a (fun x => x) hi

theorem logsumexp_vectors {d : ℕ} (rs : List ℕ) (a : List ℕ → Fin d → ℝ) :
    logsumexp (ok (vectors rs a)) = ok (scalars rs fun i => Real.log (∑ k, Real.exp (a i k))) :=
  ok_ofFn_congr fun _ hi => by rw [sum_vectors a Real.exp hi]

theorem norm_vectors {d : ℕ} (rs : List ℕ) (a : List ℕ → Fin d → ℝ) :
    norm (ok (vectors rs a)) = ok (scalars rs fun i => √(∑ k, a i k ^ 2)) :=
  ok_ofFn_congr fun _ hi => by rw [sum_vectors a (fun x => x ^ 2) hi]

theorem amax_vectors {d : ℕ} (rs : List ℕ) (a : List ℕ → Fin (d + 1) → ℝ) :
    amax (ok (vectors rs a)) =
      ok (scalars rs fun i => Finset.univ.sup' Finset.univ_nonempty (a i)) := by
  refine ok_ofFn_congr fun i hi => ?_
  refine le_antisymm (Finset.sup'_le _ _ fun k hk => ?_) (Finset.sup'_le _ _ fun k _ => ?_)
  · have hk := Finset.mem_range.1 hk
    rw [vectors_get a hk hi]
    exact Finset.le_sup' (a i) (Finset.mem_univ _)
  · have := Finset.le_sup' (fun k => (vectors rs a).get (k :: i)) (Finset.mem_range.2 k.2)
    rwa [vectors_get a k.2 hi] at this

theorem stack2_scalars (rs : List ℕ) (a b : List ℕ → α) :
    stack2 (ok (scalars rs a)) (ok (scalars rs b)) = ok (vectors rs fun i => ![a i, b i]) := by
  simp only [stack2, bind_ok, scalars, Arr.ofFn_rshape, if_true]
  refine ofFn_vectors fun k i hi => ?_
  change (if k.val = 0 then (Arr.ofFn rs a).get i else (Arr.ofFn rs b).get i) = _
  rw [Arr.ofFn_get hi, Arr.ofFn_get hi]
  fin_cases k <;> rfl

theorem append_vectors {m n : ℕ} (rs : List ℕ) (a : List ℕ → Fin m → α) (b : List ℕ → Fin n → α) :
    append (ok (vectors rs a)) (ok (vectors rs b)) = ok (vectors rs fun i => Fin.append (a i) (b i)) := by
  simp only [append, bind_ok, vectors_rshape, if_true]
  refine ofFn_vectors fun k i hi => ?_
  change (if k.val < m then (vectors rs a).get (k.val :: i) else (vectors rs b).get ((k.val - m) :: i)) = _
  refine Fin.addCases (fun j => ?_) (fun j => ?_) k
  · have h : (Fin.castAdd n j).val < m := j.2
    simp only [h, if_true, Fin.append_left]
    rw [vectors_get a h hi]
    rfl
  · have h : ¬ (Fin.natAdd m j).val < m := by simp
    have h2 : (Fin.natAdd m j).val - m = j.val := by simp
    simp only [h, if_false, Fin.append_right, h2]
    rw [vectors_get b j.2 hi]

theorem flip_vectors {d : ℕ} (rs : List ℕ) (a : List ℕ → Fin d → α) :
    flip (ok (vectors rs a)) = ok (vectors rs fun i k => a i k.rev) := by
  refine ofFn_vectors fun k i hi => ?_
  have h : d - 1 - k.val < d := by omega
  change (vectors rs a).get ((d - 1 - k.val) :: i) = _
  rw [vectors_get a h hi]
  congr 1
  ext
  simp [Fin.rev]
  omega

theorem sum_range_vectors {M : Type} [AddCommMonoid M] [Inhabited M] {d : ℕ} {rs : List ℕ}
    (a : List ℕ → Fin d → M) {i : List ℕ} (hi : inB rs i = true) {n : ℕ} (hn : n ≤ d) :
    ∑ j ∈ Finset.range n, (vectors rs a).get (j :: i) =
      ∑ j ∈ Finset.univ.filter (fun j : Fin d => j.val < n), a i j := by
  symm
  refine Finset.sum_bij (fun j _ => j.val) ?_ ?_ ?_ ?_
  · intro j hj
    simpa using hj
  · intro j _ k _ h
    exact Fin.ext h
  · intro j hj
    have hj := Finset.mem_range.1 hj
    exact ⟨⟨j, by omega⟩, by simpa using hj, rfl⟩
  · intro j hj
    rw [vectors_get a j.2 hi]

theorem cumsum_vectors [AddCommMonoid α] {d : ℕ} (rs : List ℕ) (a : List ℕ → Fin d → α) :
    cumsum (ok (vectors rs a)) = ok (vectors rs fun i k => ∑ j ∈ Finset.Iic k, a i j) := by
  refine ofFn_vectors fun k i hi => ?_
  change ∑ j ∈ Finset.range (k.val + 1), (vectors rs a).get (j :: i) = _
  rw [sum_range_vectors a hi (by omega)]
  refine Finset.sum_congr ?_ fun _ _ => rfl
  ext j
  simp only [Finset.mem_filter, Finset.mem_univ, true_and, Finset.mem_Iic, Fin.le_def]
  omega

theorem cumsum0_vectors [AddCommMonoid α] {d : ℕ} (rs : List ℕ) (a : List ℕ → Fin d → α) :
    cumsum0 (ok (vectors rs a)) =
      ok (vectors rs fun i (k : Fin (d + 1)) => ∑ j ∈ Finset.univ.filter (fun j : Fin d => j.val < k.val), a i j) := by
  refine ofFn_vectors fun k i hi => ?_
  change ∑ j ∈ Finset.range k.val, (vectors rs a).get (j :: i) = _
  rw [sum_range_vectors a hi (by omega)]

theorem init_vectors {d : ℕ} (rs : List ℕ) (a : List ℕ → Fin (d + 1) → α) :
    init (ok (vectors rs a)) = ok (vectors rs fun i (k : Fin d) => a i k.castSucc) :=
  ofFn_vectors fun k _ hi => vectors_get a (by omega) hi

theorem tail_vectors {d : ℕ} (rs : List ℕ) (a : List ℕ → Fin (d + 1) → α) :
    tail (ok (vectors rs a)) = ok (vectors rs fun i (k : Fin d) => a i k.succ) :=
  ofFn_vectors fun k _ hi => vectors_get a (by omega) hi

theorem at_vectors {d k : ℕ} (hk : k < d) (rs : List ℕ) (a : List ℕ → Fin d → α) :
    at_ k (ok (vectors rs a)) = ok (scalars rs fun i => a i ⟨k, hk⟩) := by
  simp only [at_, bind_ok, vectors_rshape, hk, if_true]
  exact ok_ofFn_congr fun _ hi => vectors_get a hk hi

/-! ### Batches of matrices -/

theorem matrices_get {m n : ℕ} {rs : List ℕ} (f : List ℕ → Matrix (Fin m) (Fin n) α) (r : Fin m)
    (c : Fin n) {i : List ℕ} (hi : inB rs i = true) :
    (matrices rs f).get (c.val :: r.val :: i) = f i r c := by
  rw [matrices, Arr.ofFn_get ((inB_cons ..).2 ⟨c.2, (inB_cons ..).2 ⟨r.2, hi⟩⟩)]
  simp

theorem matrices_rshape {m n : ℕ} (rs : List ℕ) (f : List ℕ → Matrix (Fin m) (Fin n) α) :
    (matrices rs f).rshape = n :: m :: rs := rfl

theorem ofFn_matrices {m n : ℕ} {rs : List ℕ} {g : List ℕ → α} {f : List ℕ → Matrix (Fin m) (Fin n) α}
    (h : ∀ (r : Fin m) (c : Fin n) i, inB rs i = true → g (c.val :: r.val :: i) = f i r c) :
    ok (Arr.ofFn (n :: m :: rs) g) = ok (matrices rs f) := by
  refine ok_ofFn_congr fun i hi => ?_
  obtain ⟨c, i, rfl, hc, hi⟩ := inB_cons_elim hi
  obtain ⟨r, i, rfl, hr, hi⟩ := inB_cons_elim hi
  rw [h ⟨r, hr⟩ ⟨c, hc⟩ i hi]
  simp [hr, hc]

theorem map_matrices (f : α → β) {m n : ℕ} (rs : List ℕ) (a : List ℕ → Matrix (Fin m) (Fin n) α) :
    map f (ok (matrices rs a)) = ok (matrices rs fun i => (a i).map f) := by
  have : map f (ok (matrices rs a)) =
      ok (Arr.ofFn (n :: m :: rs) fun i => f ((matrices rs a).get i)) := by
    refine congrArg ok (Arr.ext rfl fun i hi => ?_)
    have hi : inB (n :: m :: rs) i = true := hi
    rw [Arr.map_get hi, Arr.ofFn_get hi]
  rw [this]
  exact ofFn_matrices fun r c i hi => by rw [matrices_get a r c hi]; rfl

theorem bin_matrices (f : α → β → γ) {m n : ℕ} (rs : List ℕ) (a : List ℕ → Matrix (Fin m) (Fin n) α)
    (b : List ℕ → Matrix (Fin m) (Fin n) β) :
    bin f (ok (matrices rs a)) (ok (matrices rs b)) =
      ok (matrices rs fun i => .of fun r c => f (a i r c) (b i r c)) := by
  rw [bin_same f rfl]
  exact ofFn_matrices fun r c i hi => by rw [matrices_get a r c hi, matrices_get b r c hi]; rfl

theorem bin_const_matrices (f : α → β → γ) (x : α) {m n : ℕ} (rs : List ℕ)
    (b : List ℕ → Matrix (Fin m) (Fin n) β) :
    bin f (const x) (ok (matrices rs b)) = ok (matrices rs fun i => (b i).map (f x)) := by
  rw [bin_const_left]
  exact ofFn_matrices fun r c i hi => by rw [matrices_get b r c hi]; rfl

theorem dim_matrices [NatCast β] {d : ℕ} (rs : List ℕ) (a : List ℕ → Matrix (Fin d) (Fin d) α) :
    (dim (ok (matrices rs a)) : Calc β) = const (d : β) := rfl

theorem zeros_matrices [Zero β] {m n : ℕ} (rs : List ℕ) (a : List ℕ → Matrix (Fin m) (Fin n) α) :
    (zeros 2 (ok (matrices rs a)) : Calc β) = ok (scalars rs fun _ => 0) := rfl

theorem sumLast_matrices [AddCommMonoid α] {m n : ℕ} (rs : List ℕ)
    (a : List ℕ → Matrix (Fin m) (Fin n) α) :
    sumLast (ok (matrices rs a)) = ok (vectors rs fun i r => ∑ c, a i r c) := by
  refine ofFn_vectors fun r i hi => ?_
  rw [Finset.sum_range]
  exact Finset.sum_congr rfl fun c _ => by rw [matrices_get a r c hi]

theorem mat_matrices {d : ℕ} {rs : List ℕ} (a : List ℕ → Matrix (Fin d) (Fin d) α) {i : List ℕ}
    (hi : inB rs i = true) : mat d (matrices rs a) i = a i := by
  ext r c
  exact matrices_get a r c hi

theorem inv_matrices {K : Type} [Inhabited K] [_root_.Field K] {d : ℕ} (rs : List ℕ)
    (a : List ℕ → Matrix (Fin d) (Fin d) K) :
    inv (ok (matrices rs a)) = ok (matrices rs fun i => (a i)⁻¹) := by
  simp only [inv, bind_ok, matrices_rshape, if_true]
  refine ofFn_matrices fun r c i hi => ?_
  change entry (mat d (matrices rs a) i)⁻¹ r c = _
  rw [mat_matrices a hi]
  simp [entry]

theorem det_matrices {K : Type} [Inhabited K] [_root_.Field K] {d : ℕ} (rs : List ℕ)
    (a : List ℕ → Matrix (Fin d) (Fin d) K) :
    det (ok (matrices rs a)) = ok (scalars rs fun i => (a i).det) := by
  simp only [det, bind_ok, matrices_rshape, if_true]
  exact ok_ofFn_congr fun i hi => by rw [mat_matrices a hi]

theorem matVec_matrices [NonUnitalNonAssocSemiring α] {m n : ℕ} (rs : List ℕ)
    (a : List ℕ → Matrix (Fin m) (Fin n) α) (v : List ℕ → Fin n → α) :
    matVec (ok (matrices rs a)) (ok (vectors rs v)) = ok (vectors rs fun i => (a i).mulVec (v i)) := by
  simp only [matVec, bind_ok, matrices_rshape, vectors_rshape, and_self, if_true]
  refine ofFn_vectors fun r i hi => ?_
  change ∑ k ∈ Finset.range n, (matrices rs a).get (k :: r.val :: i) * (vectors rs v).get (k :: i) = _
  rw [Finset.sum_range]
  exact Finset.sum_congr rfl fun k _ => by rw [matrices_get a r k hi, vectors_get v k.2 hi]

theorem outer_vectors [Mul α] [Star α] {m n : ℕ} (rs : List ℕ) (a : List ℕ → Fin m → α)
    (b : List ℕ → Fin n → α) :
    outer (ok (vectors rs a)) (ok (vectors rs b)) =
      ok (matrices rs fun i => Matrix.vecMulVec (a i) (star (b i))) := by
  simp only [outer, bind_ok, vectors_rshape, if_true]
  exact ofFn_matrices fun r c i hi => by
    change (vectors rs a).get (r.val :: i) * star ((vectors rs b).get (c.val :: i)) = _
    rw [vectors_get a r.2 hi, vectors_get b c.2 hi]; rfl

end Calc

end Efax

namespace Efax

open Calc

/-- Evaluate array expressions on batches of numbers, vectors and matrices. -/
macro "calc_simp" : tactic => `(tactic| simp only [Calc.add_eq, Calc.sub_eq, Calc.mul_eq, Calc.div_eq,
  Calc.neg_eq, Calc.ofNat_eq, Calc.ofSci_eq, Calc.square, Calc.log, Calc.exp, Calc.toComplex, Calc.conj,
  Calc.re, Calc.absSquare, Calc.slogdet, Calc.matDot,
  Calc.bin_const_const, Calc.map_const, Calc.map_scalars, Calc.bin_scalars, Calc.bin_const_scalars,
  Calc.bin_scalars_const, Calc.zeros_scalars, Calc.newaxis_scalars, Calc.map_vectors, Calc.bin_vectors,
  Calc.bin_const_vectors, Calc.bin_vectors_const, Calc.bin_one_vectors, Calc.bin_vectors_one,
  Calc.zeros_vectors, Calc.dim_vectors, Calc.sumLast_vectors, Calc.logsumexp_vectors,
  Calc.norm_vectors, Calc.amax_vectors, Calc.stack2_scalars, Calc.append_vectors, Calc.flip_vectors,
  Calc.cumsum_vectors, Calc.cumsum0_vectors, Calc.init_vectors, Calc.tail_vectors,
  Calc.map_matrices, Calc.bin_matrices, Calc.bin_const_matrices, Calc.dim_matrices,
  Calc.zeros_matrices, Calc.sumLast_matrices, Calc.inv_matrices, Calc.det_matrices,
  Calc.matVec_matrices, Calc.outer_vectors])

end Efax
