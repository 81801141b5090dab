import Verif.Spec.Sampling
import Verif.Lemmas.Refines

/-! # Evaluating samplers on batches -/

namespace Efax

open Spec

theorem bcast_append (s t : List ℕ) : bcast s (s ++ t) = .ok (s ++ t) := by
  induction s with
  | nil => cases t <;> rfl
  | cons n s ih => simp [bcast, ih, bind, Except.bind]

theorem bcast_append_left (s t : List ℕ) : bcast (s ++ t) s = .ok (s ++ t) := by
  induction s with
  | nil => exact bcast_nil_right t
  | cons n s ih => simp [bcast, ih, bind, Except.bind]

theorem bidx_append {s t j : List ℕ} (h : inB (s ++ t) j = true) : bidx s j = j.take s.length := by
  induction s generalizing j with
  | nil => cases j <;> rfl
  | cons n s ih =>
    obtain ⟨k, j, rfl, hk, h'⟩ := inB_cons_elim h
    simp only [bidx, ih h', List.length_cons, List.take_succ_cons, List.cons.injEq, and_true]
    split_ifs with h1 <;> omega

theorem inB_take {s t j : List ℕ} (h : inB (s ++ t) j = true) : inB s (j.take s.length) = true := by
  induction s generalizing j with
  | nil => simp [inB]
  | cons n s ih =>
    obtain ⟨k, j, rfl, hk, h'⟩ := inB_cons_elim h
    exact (inB_cons ..).2 ⟨hk, ih h'⟩

theorem bcast_one_append (d : ℕ) (s t : List ℕ) :
    bcast (1 :: s) (d :: (s ++ t)) = .ok (d :: (s ++ t)) := by
  simp only [bcast, bcast_append, bind, Except.bind]
  split_ifs with h
  · rw [h]
  · rfl

theorem bcast_one_append_left (d : ℕ) (s t : List ℕ) :
    bcast (d :: (s ++ t)) (1 :: s) = .ok (d :: (s ++ t)) := by
  simp only [bcast, bcast_append_left, bind, Except.bind]
  split_ifs <;> simp_all

theorem drawShape_extend (s : List ℕ) (shape : Option (List ℕ)) :
    drawShape (Sampling.extend s shape) s = .ok (s ++ shape.getD []) := by
  cases shape with
  | none => simp [Sampling.extend, drawShape]
  | some t => simp [Sampling.extend, drawShape, bcast_append_left]

theorem drawShape_some (s t : List ℕ) : drawShape (some (s ++ t)) s = .ok (s ++ t) := by
  simp [drawShape, bcast_append_left]

theorem extendOr_eq (s : List ℕ) (shape : Option (List ℕ)) :
    Sampling.extendOr s shape = s ++ shape.getD [] := by
  cases shape <;> simp [Sampling.extendOr]

namespace Calc

variable {α β γ : Type} [Inhabited α] [Inhabited β] [Inhabited γ]

theorem bin_scalars_append (f : α → β → γ) (rs ss : List ℕ) (a : List ℕ → α) (b : List ℕ → β) :
    bin f (ok (scalars (rs ++ ss) a)) (ok (scalars rs b)) =
      ok (scalars (rs ++ ss) fun j => f (a j) (b (j.take rs.length))) := by
  simp only [bin, bind_ok, scalars, Arr.ofFn_rshape, bcast_append_left]
  refine ok_ofFn_congr fun j hj => ?_
  rw [bidx_self hj, bidx_append hj, Arr.ofFn_get hj, Arr.ofFn_get (inB_take hj)]

theorem bin_vectors_append (f : α → β → γ) {d : ℕ} (rs ss : List ℕ) (a : List ℕ → Fin d → α)
    (b : List ℕ → Fin d → β) :
    bin f (ok (vectors (rs ++ ss) a)) (ok (vectors rs b)) =
      ok (vectors (rs ++ ss) fun j k => f (a j k) (b (j.take rs.length) k)) := by
  simp only [bin, bind_ok, vectors_rshape]
  rw [← List.cons_append, bcast_append_left]
  refine ofFn_vectors fun k j hj => ?_
  have hj : inB (rs ++ ss) j = true := hj
  have h : inB ((d :: rs) ++ ss) (k.val :: j) = true := (inB_cons ..).2 ⟨k.2, hj⟩
  rw [bidx_self h, bidx_append h, vectors_get a k.2 hj]
  exact congrArg _ (vectors_get b k.2 (inB_take hj))

theorem bin_vectors_one_append (f : α → β → γ) {d : ℕ} (rs ss : List ℕ) (a : List ℕ → Fin d → α)
    (b : List ℕ → Fin 1 → β) :
    bin f (ok (vectors (rs ++ ss) a)) (ok (vectors rs b)) =
      ok (vectors (rs ++ ss) fun j k => f (a j k) (b (j.take rs.length) 0)) := by
  simp only [bin, bind_ok, vectors_rshape, bcast_one_append_left]
  refine ofFn_vectors fun k j hj => ?_
  have h : inB (d :: (rs ++ ss)) (k.val :: j) = true := (inB_cons ..).2 ⟨k.2, hj⟩
  rw [bidx_self h, vectors_get a k.2 hj]
  have : bidx (1 :: rs) (k.val :: j) = 0 :: j.take rs.length := by simp [bidx, bidx_append hj]
  rw [this]
  exact congrArg _ (vectors_get b Nat.one_pos (inB_take hj))

theorem drawFree_scalars (f : List ℕ → List ℕ → α) (s t : List ℕ) :
    drawFree f (s ++ t) = ok (scalars (s ++ t) (f (s ++ t))) := rfl

theorem drawFree_vectors (f : List ℕ → List ℕ → α) (d : ℕ) (s : List ℕ) :
    drawFree f (d :: s) = ok (vectors s fun j (k : Fin d) => f (d :: s) (k.val :: j)) :=
  ofFn_vectors fun _ _ _ => rfl

theorem draw_scalars (f : List ℕ → List ℕ → α → β) (rs : List ℕ) (shape : Option (List ℕ))
    (a : List ℕ → α) : draw f (ok (scalars rs a)) (Sampling.extend rs shape) =
      ok (scalars (rs ++ shape.getD []) fun j => f (rs ++ shape.getD []) j (a (j.take rs.length))) := by
  simp only [draw, bind_ok, scalars, Arr.ofFn_rshape, drawShape_extend]
  exact ok_ofFn_congr fun j hj => by rw [bidx_append hj, Arr.ofFn_get (inB_take hj)]

theorem draw_scalars_some (f : List ℕ → List ℕ → α → β) (rs ss : List ℕ)
    (a : List ℕ → α) : draw f (ok (scalars rs a)) (some (rs ++ ss)) =
      ok (scalars (rs ++ ss) fun j => f (rs ++ ss) j (a (j.take rs.length))) := by
  simp only [draw, bind_ok, scalars, Arr.ofFn_rshape, drawShape_some]
  exact ok_ofFn_congr fun j hj => by rw [bidx_append hj, Arr.ofFn_get (inB_take hj)]

theorem draw2_scalars (f : List ℕ → List ℕ → α → β → γ) (rs : List ℕ) (shape : Option (List ℕ))
    (a : List ℕ → α) (b : List ℕ → β) :
    draw2 f (ok (scalars rs a)) (ok (scalars rs b)) (Sampling.extend rs shape) =
      ok (scalars (rs ++ shape.getD []) fun j =>
        f (rs ++ shape.getD []) j (a (j.take rs.length)) (b (j.take rs.length))) := by
  rw [draw2, bin_scalars, draw_scalars]

theorem draw2_scalars_some (f : List ℕ → List ℕ → α → β → γ) (rs ss : List ℕ)
    (a : List ℕ → α) (b : List ℕ → β) :
    draw2 f (ok (scalars rs a)) (ok (scalars rs b)) (some (rs ++ ss)) =
      ok (scalars (rs ++ ss) fun j =>
        f (rs ++ ss) j (a (j.take rs.length)) (b (j.take rs.length))) := by
  rw [draw2, bin_scalars, draw_scalars_some]

variable {K : Type} (rng : Random K) (key : K)

theorem drawDirichlet_vectors {d : ℕ} (rs : List ℕ) (shape : Option (List ℕ))
    (a : List ℕ → Fin (d + 1) → ℝ) :
    drawDirichlet rng key (ok (vectors rs a)) (Sampling.extend rs shape) =
      ok (vectors (rs ++ shape.getD []) fun j =>
        rng.dirichlet key (rs ++ shape.getD []) j d (a (j.take rs.length))) := by
  simp only [drawDirichlet, bind_ok, vectors_rshape, drawShape_extend]
  refine ofFn_vectors fun k j hj => ?_
  simp only [k.2, dif_pos, bidx_append hj]
  exact congrArg (fun v => rng.dirichlet key _ j d v k)
    (funext fun m => vectors_get a m.2 (inB_take hj))

theorem drawCategorical_vectors {d : ℕ} (rs : List ℕ) (shape : Option (List ℕ))
    (a : List ℕ → Fin (d + 1) → ℝ) :
    drawCategorical rng key (ok (vectors rs a)) (Sampling.extend rs shape) =
      ok (scalars (rs ++ shape.getD []) fun j =>
        (rng.categorical key (rs ++ shape.getD []) j d (a (j.take rs.length))).val) := by
  simp only [drawCategorical, bind_ok, vectors_rshape, drawShape_extend]
  refine ok_ofFn_congr fun j hj => ?_
  rw [bidx_append hj]
  exact congrArg (fun v => (rng.categorical key _ j d v).val)
    (funext fun m => vectors_get a m.2 (inB_take hj))

theorem oneHot_scalars (rs : List ℕ) (n : ℕ) (c : List ℕ → ℕ) :
    oneHot (ok (scalars rs c)) n = ok (vectors rs fun j (k : Fin n) => if c j = k.val then 1 else 0) := by
  simp only [oneHot, bind_ok, scalars, Arr.ofFn_rshape]
  refine ofFn_vectors fun k j hj => ?_
  simp only [Arr.ofFn_get hj]

theorem drawMultivariateNormal_vectors {d : ℕ} (rs ss : List ℕ) (a : List ℕ → Fin d → ℝ)
    (c : List ℕ → Matrix (Fin d) (Fin d) ℝ) :
    drawMultivariateNormal rng key (ok (vectors rs a)) (ok (matrices rs c)) (rs ++ ss) =
      ok (vectors (rs ++ ss) fun j =>
        drawMvNormal (local_ rng (rs ++ ss) j) key (a (j.take rs.length), c (j.take rs.length))) := by
  simp only [drawMultivariateNormal, bind_ok, vectors_rshape, matrices_rshape, and_self, if_true,
    bcast_self, Bind.bind, Except.bind, drawShape_some]
  refine ofFn_vectors fun k j hj => ?_
  have ht := inB_take hj
  simp only [bidx_append hj]
  rw [vectors_get a k.2 ht, mat_matrices c ht]
  simp only [drawMvNormal, Pi.add_apply, Matrix.mulVec, dotProduct]
  congr 1
  rw [Finset.sum_range]
  refine Finset.sum_congr rfl fun m _ => ?_
  simp only [entry, k.2, m.2, and_self, dif_pos]
  rfl

theorem sqrt_eq (x : Calc ℝ) : x.sqrt = x.map Real.sqrt := rfl

theorem im_eq (x : Calc ℂ) : x.im = x.map Complex.im := rfl

theorem block_matrices {d : ℕ} (rs : List ℕ) (a b c e : List ℕ → Matrix (Fin d) (Fin d) α) :
    block (ok (matrices rs a)) (ok (matrices rs b)) (ok (matrices rs c)) (ok (matrices rs e)) =
      ok (matrices rs fun i => (Matrix.fromBlocks (a i) (b i) (c i) (e i)).reindex
        finSumFinEquiv finSumFinEquiv) := by
  simp only [block, bind_ok, matrices_rshape, and_self, if_true]
  refine ofFn_matrices fun r k i hi => ?_
  refine Fin.addCases (fun r => ?_) (fun r => ?_) r <;> refine Fin.addCases (fun k => ?_) (fun k => ?_) k
  · simpa [Matrix.reindex_apply, -Fin.natAdd_eq_addNat] using matrices_get a r k hi
  · simpa [Matrix.reindex_apply, -Fin.natAdd_eq_addNat] using matrices_get b r k hi
  · simpa [Matrix.reindex_apply, -Fin.natAdd_eq_addNat] using matrices_get c r k hi
  · simpa [Matrix.reindex_apply, -Fin.natAdd_eq_addNat] using matrices_get e r k hi

theorem stackRows_vectors {d : ℕ} (rs : List ℕ) (a b : List ℕ → Fin d → α) :
    stackRows (ok (vectors rs a)) (ok (vectors rs b)) =
      ok (matrices rs fun i => Matrix.of ![a i, b i]) := by
  simp only [stackRows, bind_ok, vectors_rshape, if_true]
  refine ofFn_matrices fun r k i hi => ?_
  fin_cases r
  · exact vectors_get a k.2 hi
  · exact vectors_get b k.2 hi

theorem take_vectors {m n : ℕ} (rs : List ℕ) (a : List ℕ → Fin (m + n) → α) :
    take m (ok (vectors rs a)) = ok (vectors rs fun i (k : Fin m) => a i (Fin.castAdd n k)) := by
  simp only [take, bind_ok, vectors_rshape]
  rw [Nat.min_eq_left (Nat.le_add_right m n)]
  exact ofFn_vectors fun k i hi => vectors_get a (by omega) hi

theorem drop_vectors {m n : ℕ} (rs : List ℕ) (a : List ℕ → Fin (m + n) → α) :
    drop m (ok (vectors rs a)) = ok (vectors rs fun i (k : Fin n) => a i (Fin.natAdd m k)) := by
  simp only [drop, bind_ok, vectors_rshape, Nat.add_sub_cancel_left]
  exact ofFn_vectors fun k i hi => vectors_get a (by omega) hi

end Calc

end Efax
