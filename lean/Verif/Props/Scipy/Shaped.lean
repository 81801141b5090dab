import Verif.Lemmas.Shaped
import Mathlib.Tactic.NormNum

/-!
# C60: arrays of distributions act on each of them

`ShapedDistribution`: the results are those of the distributions at the indices, at these indices.
-/

namespace Efax

open Scipy

variable {α G : Type} [Inhabited α]

/-- `np.ndindex` goes through the array in row-major order. -/
theorem C60_order (s : List ℕ) : Spec.RowMajor s (ndindex s) := ndindex_rowMajor s

example : ndindex [2, 3] = [[0, 0], [0, 1], [0, 2], [1, 0], [1, 1], [1, 2]] := by decide

/-- `rvs` draws from the distributions in turn, in row-major order, and its result has the shape
`shape + size + rvs_shape` and has the draw from the distribution number `i` at the index `i`. -/
theorem C60_rvs (D : Shaped (Frozen α G)) (size : Option (ℕ ⊕ List ℕ))
    (h : ∀ i, List.Forall₂ (· < ·) i D.shape → ∀ g, ∃ v g',
      (D.objects i).rvs (sizeTuple size) g = .ok (v, g') ∧
        v.rshape = (sizeTuple size ++ D.rvsShape).reverse) (g : G) :
    ∃ l r vs g', Spec.RowMajor D.shape l ∧ D.rvs size g = .ok (r, g') ∧
      r.rshape = (D.shape ++ sizeTuple size ++ D.rvsShape).reverse ∧
      Spec.DrawsInTurn (l.map fun i => (D.objects i).rvs (sizeTuple size)) g vs g' ∧
      List.Forall₂ (fun i v => r.index i = .ok v) l vs := by
  obtain ⟨b, g', vs, h1, h2, h3, h4⟩ := fillM_draws h g
  exact ⟨_, b, vs, g', C60_order _, h1, by rw [List.append_assoc]; exact h2, h3, h4⟩

/-- A counter in place of a generator. -/
def counting (c : ℕ) : Frozen ℕ ℕ where
  rvs size g := .ok (Arr.full size.reverse (10 * c + g), g + 1)
  pdf x := .ok (Arr.ofFn x.rshape fun i => x.get i)
  entropy := .ok (Arr.full [] c)

-- The first of three distributions draws first.
example : ∃ r, Shaped.rvs ⟨[3], [], fun i => counting (i.headD 0)⟩ (some (.inl 4)) 5 = .ok (r, 8) ∧
    r.rshape = [4, 3] ∧ r.index [0] = .ok (Arr.full [4] 5) ∧ r.index [2] = .ok (Arr.full [4] 27) := by
  obtain ⟨l, r, vs, g', h1, h2, h3, h4, h5⟩ := C60_rvs ⟨[3], [], fun i => counting (i.headD 0)⟩
    (some (.inl 4)) (fun i _ g => ⟨_, _, rfl, rfl⟩) 5
  obtain ⟨b, g'', vs', k1, k2, k3, k4⟩ := fillM_draws (s := [3]) (t := [4])
    (f := fun i => (counting (i.headD 0)).rvs [4]) (fun i _ g => ⟨_, _, rfl, rfl⟩) 5
  have e : (ndindex [3]) = [[0], [1], [2]] := by decide
  rw [e] at k3 k4
  cases k3 with
  | cons a k3 =>
    cases k3 with
    | cons b' k3 =>
      cases k3 with
      | cons c k3 =>
        cases k3
        cases a
        cases b'
        cases c
        refine ⟨b, k1, k2, ?_, ?_⟩
        · cases k4 with
          | cons h _ => exact h
        · cases k4 with
          | cons _ k4 =>
            cases k4 with
            | cons _ k4 =>
              cases k4 with
              | cons h _ => exact h

/-- With one observation for each distribution, `pdf` has the density of the distribution number `i` at
the observation number `i` at the index `i`. -/
theorem C60_pdf (D : Shaped (Frozen α G)) (x : Arr α) (hs : D.shape ≠ []) {p : List ℕ → Arr ℝ}
    (h : ∀ i, List.Forall₂ (· < ·) i D.shape → ∃ y, x.index i = .ok y ∧
      (D.objects i).pdf y = .ok (p i) ∧ (p i).rshape = []) :
    ∃ r, D.pdf x = .ok r ∧ r.rshape = D.shape.reverse ∧
      ∀ i, List.Forall₂ (· < ·) i D.shape → r.index i = .ok (p i) := by
  rw [Shaped.pdf, if_neg hs]
  obtain ⟨r, h1, h2, h3⟩ := fill_spec (s := D.shape) (t := [])
    (f := fun i => do (D.objects i).pdf (← x.index i)) (v := p) (fun i hi => by
      obtain ⟨y, a, b, c⟩ := h i hi
      exact ⟨by simp only [a, Bind.bind, Except.bind, b], c⟩)
  exact ⟨r, h1, by simpa using h2, h3⟩

/-- For one distribution without an array, `pdf` is that of the distribution, for any number of
observations. -/
theorem C60_pdf_single (D : Shaped (Frozen α G)) (x : Arr α) (hs : D.shape = []) :
    D.pdf x = (D.objects []).pdf x := by
  have h : x.index [] = .ok x := by
    rw [index_of (s := []) (t := x.rshape.reverse) (by simp) .nil]
    refine congrArg Except.ok (Arr.ext (by simp) fun i hi => ?_)
    rw [Arr.ofFn_get (by simpa using hi)]
    simp
  rw [Shaped.pdf, if_pos hs, h]
  rfl

/-- `entropy` has the entropy of the distribution number `i` at the index `i`. -/
theorem C60_entropy (D : Shaped (Frozen α G)) {e : List ℕ → Arr ℝ}
    (h : ∀ i, List.Forall₂ (· < ·) i D.shape → (D.objects i).entropy = .ok (e i) ∧ (e i).rshape = []) :
    ∃ r, D.entropy = .ok r ∧ r.rshape = D.shape.reverse ∧
      ∀ i, List.Forall₂ (· < ·) i D.shape → r.index i = .ok (e i) := by
  obtain ⟨r, h1, h2, h3⟩ := fill_spec (t := []) h
  exact ⟨r, h1, by simpa using h2, h3⟩

/-- A density and an entropy that depend on the number of the distribution. -/
def numbered (c : ℕ) : Frozen ℝ ℕ where
  rvs size g := .ok (Arr.full size.reverse 0, g)
  pdf x := .ok (x.map (· + c))
  entropy := .ok (Arr.full [] c)

example : ∃ r, Shaped.pdf ⟨[2, 3], [], fun i => numbered (i.headD 0)⟩ (Arr.full [3, 2] (1 / 2)) = .ok r ∧
    r.rshape = [3, 2] ∧ r.index [1, 2] = .ok (Arr.full [] (3 / 2)) := by
  obtain ⟨r, h1, h2, h3⟩ := C60_pdf ⟨[2, 3], [], fun i => numbered (i.headD 0)⟩
    (Arr.full [3, 2] (1 / 2)) (by simp) (p := fun i => Arr.full [] (1 / 2 + (i.headD 0 : ℝ)))
    (fun i hi => ⟨_, index_of (s := [2, 3]) (t := []) rfl hi, by
      refine congrArg Except.ok (Arr.ext rfl fun j hj => ?_)
      have hj : inB [] j = true := hj
      obtain rfl : j = [] := by simpa using inB_length hj
      rw [Arr.map_get rfl, Arr.ofFn_get rfl]
      have hi' : inB [3, 2] i.reverse = true := inB_reverse.2 (inB_iff_forall₂.2 hi)
      change (Arr.full [3, 2] (1 / 2 : ℝ)).get ([] ++ i.reverse) + _ = _
      rw [List.nil_append, Arr.full, Arr.full, Arr.ofFn_get hi', Arr.ofFn_get rfl], rfl⟩)
  refine ⟨r, h1, h2, (h3 [1, 2] (by simp)).trans ?_⟩
  norm_num

example : ∃ r, Shaped.entropy ⟨[3], [], fun i => numbered (i.headD 0)⟩ = .ok r ∧
    r.index [2] = .ok (Arr.full [] 2) := by
  obtain ⟨r, h1, -, h3⟩ := C60_entropy ⟨[3], [], fun i => numbered (i.headD 0)⟩
    (e := fun i => Arr.full [] (i.headD 0 : ℝ)) (fun i hi => ⟨rfl, rfl⟩)
  exact ⟨r, h1, (h3 [2] (by simp)).trans (by norm_num)⟩

example (x : Arr ℝ) : Shaped.pdf ⟨[], [], fun _ => numbered 3⟩ x = .ok (x.map (· + (3 : ℕ))) :=
  C60_pdf_single ⟨[], [], fun _ => numbered 3⟩ x rfl

/-- Several observations for each distribution of an array cannot be evaluated: the result has no axes for
them. -/
theorem C60_pdf_violated (D : Shaped (Frozen α G)) (x y : Arr α) (v : Arr ℝ) (hs : D.shape ≠ [])
    (h0 : 0 ∉ D.shape) (hx : x.index (List.replicate D.shape.length 0) = .ok y)
    (hy : (D.objects (List.replicate D.shape.length 0)).pdf y = .ok v) {n : ℕ} (hn : n ∈ v.rshape)
    (h1 : n ≠ 1) : D.pdf x = .error .valueError := by
  obtain ⟨l, hl⟩ := ndindex_cons h0
  rw [Shaped.pdf, if_neg hs]
  refine fill_error (v := v) hl (by simp only [hx, Bind.bind, Except.bind, hy]) ?_
  have : ∀ s : List ℕ, n ∈ s → assignable [] s = false := by
    intro s
    induction s with
    | nil => simp
    | cons m s ih =>
      intro hm
      rcases List.mem_cons.1 hm with rfl | hm
      · simp [assignable, h1]
      · simp [assignable, ih hm]
  exact this _ hn

-- Two distributions draw four values each, whose densities cannot be computed.
example : ∃ r, Shaped.rvs ⟨[2], [], fun i => numbered (i.headD 0)⟩ (some (.inl 4)) 0 = .ok (r, 0) ∧
    Shaped.pdf ⟨[2], [], fun i => numbered (i.headD 0)⟩ r = .error .valueError := by
  obtain ⟨b, g', vs, k1, k2, k3, k4⟩ := fillM_draws (s := [2]) (t := [4])
    (f := fun i => (numbered (i.headD 0)).rvs [4]) (fun i _ g => ⟨_, _, rfl, rfl⟩) 0
  have e : (ndindex [2]) = [[0], [1]] := by decide
  rw [e] at k3 k4
  cases k3 with
  | cons a k3 =>
    cases k3 with
    | cons b' k3 =>
      cases k3
      cases a
      cases b'
      cases k4 with
      | cons h _ =>
        refine ⟨b, k1, C60_pdf_violated _ b _ _ (by simp) (by simp) h rfl (n := 4) ?_ (by norm_num)⟩
        simp [Arr.map, Arr.ofFn, Arr.full]

/-- `ScipyMultivariateNormalUnvectorized.rvs` restores the axes of length one. -/
theorem C60_mvn_rvs {d : ℕ} {draw : List ℕ → G → Arr ℝ × G} {size : List ℕ} {g : G}
    (h : (draw size g).1.rshape = (size ++ [d]).reverse) : mvnRvs d draw size g = .ok (draw size g) := by
  rw [mvnRvs, ← h]
  simp only [reshape_squeeze, Bind.bind, Except.bind]

example : mvnRvs 1 (fun size (g : ℕ) => (Arr.full (size ++ [1]).reverse 5, g)) [1, 3] 0 =
    .ok (Arr.full [1, 3, 1] 5, 0) := C60_mvn_rvs rfl

end Efax
