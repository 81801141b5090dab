import Verif.Model.Tests.Bodies7
import Verif.Props.Scipy.MvArrays
import Verif.Props.Scipy.Dirichlet
import Verif.Props.TestDetect

/-!
# The test of the shapes of draws from the replacements for `scipy.stats` (C89)
-/

namespace Efax

open Spec Tests Scipy

variable {α G : Type} [Inhabited α] {m t : List ℕ} {n : ℕ}

theorem assign_rshape {a v b : Arr α} {key : List ℕ} (h : a.assign key v = .ok b) : b.rshape = a.rshape := by
  unfold Arr.assign at h
  simp only at h
  split_ifs at h
  rw [← Except.ok.inj h]
  rfl

theorem foldlM_rshape {f : List ℕ → G → Except Err (Arr α × G)} : ∀ (l : List (List ℕ)) {a : Arr α × G}
    {b : Arr α × G}, l.foldlM (fun (ret : Arr α × G) i => do
      let v ← f i ret.2
      let a ← ret.1.assign i v.1
      Except.ok (a, v.2)) a = .ok b → b.1.rshape = a.1.rshape
  | [], a, b, h => by rw [Except.ok.inj h]
  | i :: l, a, b, h => by
    rw [List.foldlM_cons] at h
    simp only [bind_ok_iff] at h
    obtain ⟨c, ⟨v, -, d, h1, h2⟩, h3⟩ := h
    rw [foldlM_rshape l h3, ← Except.ok.inj h2]
    exact assign_rshape h1

theorem foldlM_succeeds {f : List ℕ → G → Except Err (Arr α × G)}
    (hf : ∀ i, List.Forall₂ (· < ·) i m → ∀ g, ∃ v g', f i g = .ok (v, g') ∧ assignable t.reverse v.rshape = true) :
    ∀ (l : List (List ℕ)) (_ : ∀ i ∈ l, List.Forall₂ (· < ·) i m) {a : Arr α × G} (_ : a.1.rshape = (m ++ t).reverse),
      ∃ b, l.foldlM (fun (ret : Arr α × G) i => do
        let v ← f i ret.2
        let a ← ret.1.assign i v.1
        Except.ok (a, v.2)) a = .ok b
  | [], _, a, _ => ⟨a, rfl⟩
  | i :: l, hl, a, ha => by
    have hi := hl i (List.mem_cons_self ..)
    obtain ⟨v, g', h1, h2⟩ := hf i hi a.2
    have h3 := (assign_of (v := v) ha hi).trans (if_pos h2)
    obtain ⟨b, hb⟩ := foldlM_succeeds hf l (fun j hj => hl j (List.mem_cons_of_mem _ hj))
      (a := (_, g')) ((assign_rshape h3).trans ha)
    refine ⟨b, ?_⟩
    rw [List.foldlM_cons]
    simp only [h1, Bind.bind, Except.bind, h3]
    exact hb

/-- The result of `rvs` has the right shape, whatever the shapes of the draws are. -/
theorem C89_rvs_shape {D : Shaped (Frozen α G)} {size : Option (ℕ ⊕ List ℕ)} {g g' : G} {r : Arr α}
    (h : D.rvs size g = .ok (r, g')) : r.rshape = (D.shape ++ sizeTuple size ++ D.rvsShape).reverse := by
  rw [foldlM_rshape _ h, List.append_assoc]
  rfl

/-- The arguments of the five calls. -/
def testSizes : Fin 5 → Option (ℕ ⊕ List ℕ) :=
  ![none, some (.inl 1), some (.inr [1]), some (.inr [1, 1, 1]), some (.inr [1, 2, 3])]

/-- `test_shaped` finds out whether `rvs` raises for one of five sizes, and nothing else. -/
theorem C89_shaped_iff {D : Shaped (Frozen α G)} (hs : D.shape = m) (hr : D.rvsShape = [n]) (s : ℕ → G) :
    testShaped D m n s = .ok () ↔ ∀ j : Fin 5, ∃ r, D.rvs (testSizes j) (s j) = .ok r := by
  have key : ∀ (size : Option (ℕ ⊕ List ℕ)) (g : G) (sh : List ℕ), sh = m ++ sizeTuple size ++ [n] →
      ∀ u, (checkRvs D size g sh = .ok u ↔ ∃ r, D.rvs size g = .ok r) := by
    intro size g sh hsh u
    simp only [checkRvs, bind_ok_iff]
    refine exists_congr fun r => and_iff_left_of_imp fun h => ?_
    have := C89_rvs_shape (D := D) (r := r.1) (g' := r.2) h
    exact check_iff.2 (by rw [this, hs, hr, hsh])
  have k0 := key none (s 0) (m ++ [n]) (by simp [sizeTuple])
  have k1 := key (some (.inl 1)) (s 1) (m ++ [1, n]) (by simp [sizeTuple])
  have k2 := key (some (.inr [1])) (s 2) (m ++ [1, n]) (by simp [sizeTuple])
  have k3 := key (some (.inr [1, 1, 1])) (s 3) (m ++ [1, 1, 1, n]) (by simp [sizeTuple])
  have k4 := key (some (.inr [1, 2, 3])) (s 4) (m ++ [1, 2, 3, n]) (by simp [sizeTuple])
  simp only [testShaped, bind_ok_iff, k0, k1, k2, k3, k4]
  constructor
  · rintro ⟨-, h0, -, h1, -, h2, -, h3, h4⟩ j
    fin_cases j
    exacts [h0, h1, h2, h3, h4]
  · intro h
    exact ⟨(), h 0, (), h 1, (), h 2, (), h 3, h 4⟩

/-- The test passes when the draws have the right shapes. -/
theorem C89_shaped {D : Shaped (Frozen α G)} (hs : D.shape = m) (hr : D.rvsShape = [n]) (s : ℕ → G)
    (h : ∀ i, List.Forall₂ (· < ·) i m → ∀ size g, ∃ v g', (D.objects i).rvs size g = .ok (v, g') ∧
      v.rshape = (size ++ [n]).reverse) : testShaped D m n s = .ok () := by
  refine (C89_shaped_iff hs hr s).2 fun j => ?_
  obtain ⟨-, r, -, g', -, h', -⟩ := C60_rvs D (testSizes j) (fun i hi g => by
    rw [hr]
    exact h i (hs ▸ hi) _ g) (s j)
  exact ⟨_, h'⟩

/-- The test passes for every array of multivariate normal distributions. -/
theorem C89_shaped_normal {mean cov : Option (Arr ℝ)} {rs : List ℕ} (hm : ∀ a ∈ mean, a.rshape = n :: rs)
    (hc : ∀ a ∈ cov, a.rshape = n :: n :: rs) (hne : mean.isSome ∨ cov.isSome ∨ n = 1 ∧ rs = []) (hn : n ≠ 0)
    (hp : ∀ i, inB rs i = true → (matrixAt (n := n) cov 1 i).PosDef) {draw : List ℕ → List ℕ → G → Arr ℝ × G}
    (hd : ∀ i size g, (draw i size g).1.rshape = (size ++ [n]).reverse) (s : ℕ → G) :
    ∃ D, fromMc mean cov draw = .ok D ∧ testShaped D rs.reverse n s = .ok () :=
  ⟨_, (fromMc_eq hm hc hne hn).2 ⟨hp, rfl⟩, C89_shaped rfl rfl s fun i _ size g =>
    ⟨_, _, C60_mvn_rvs (hd i size g), hd i size g⟩⟩

/-- The test passes for every array of Dirichlet distributions. -/
theorem C89_shaped_dirichlet {alpha : Arr ℝ} {rs : List ℕ} (ha : alpha.rshape = n :: rs) (hn : n ≠ 0)
    (hp : ∀ i, inB (n :: rs) i = true → 0 < alpha.get i) {draw : List ℕ → List ℕ → G → Except Err (Arr ℝ × G)}
    (hd : ∀ i size g, ∃ v g', draw i size g = .ok (v, g') ∧ v.rshape = (size ++ [n]).reverse) (s : ℕ → G) :
    ∃ D, dirichletNew alpha draw = .ok D ∧ testShaped D rs.reverse n s = .ok () := by
  have h1 : alpha.lastDim = .ok n := by rw [Arr.lastDim, ha]
  have h2 : (ndindex rs.reverse).forM (fun i =>
      if ∀ k < n, 0 < alpha.get (k :: i.reverse) then (.ok () : Except Err Unit) else .error .valueError) = .ok () := by
    refine forM_ok_of fun i hi => if_pos fun k hk => hp _ ?_
    exact (inB_cons ..).2 ⟨hk, inB_of_forall₂ (mem_ndindex.1 hi)⟩
  have h3 : dirichletNew alpha draw = .ok ⟨rs.reverse, [n],
      fun i => dirichletFrozen n (fun k => alpha.get (k.val :: i.reverse)) (draw i)⟩ := by
    simp only [dirichletNew, h1, ha, List.tail_cons, Bind.bind, Except.bind, if_neg hn, pure, Except.pure]
    rw [h2]
  exact ⟨_, h3, C89_shaped rfl rfl s fun i _ size g => hd i size g⟩

/-- The five cases of `test_shaped`. -/
theorem C89_shaped_suite {draw : ℕ → List ℕ → List ℕ → G → Arr ℝ × G}
    (hd : ∀ n i size g, (draw n i size g).1.rshape = (size ++ [n]).reverse) (s : ℕ → G) :
    (∃ D, fromMc (some (Arr.full [4, 3] 0)) none (draw 4) = .ok D ∧ testShaped D [3] 4 s = .ok ()) ∧
    (∃ D, fromMc none (some (Arr.ofFn [2, 2] fun i => if i.headD 0 = i.tail.headD 0 then 1 else 0)) (draw 2) = .ok D ∧
      testShaped D [] 2 s = .ok ()) ∧
    (∃ D, fromMc none none (draw 1) = .ok D ∧ testShaped D [] 1 s = .ok ()) ∧
    (∃ D, dirichletNew (Arr.full [5, 2] 1) (fun i size g => .ok (draw 5 i size g)) = .ok D ∧
      testShaped D [2] 5 s = .ok ()) ∧
    ∃ D, dirichletNew (Arr.full [5, 3, 2] 1) (fun i size g => .ok (draw 5 i size g)) = .ok D ∧
      testShaped D [2, 3] 5 s = .ok () := by
  refine ⟨C89_shaped_normal (rs := [3]) (cov := none) (by rintro _ ⟨⟩; rfl) (by simp) (.inl rfl) (by norm_num)
      (fun i _ => Matrix.PosDef.one) (hd 4) s,
    C89_shaped_normal (rs := []) (by simp) (by rintro _ ⟨⟩; rfl) (.inr (.inl rfl)) (by norm_num)
      (fun i hi => ?_) (hd 2) s,
    C89_shaped_normal (rs := []) (mean := none) (cov := none) (by simp) (by simp) (.inr (.inr ⟨rfl, rfl⟩)) (by norm_num)
      (fun i _ => Matrix.PosDef.one) (hd 1) s,
    C89_shaped_dirichlet (rs := [2]) rfl (by norm_num) (fun i hi => ?_) (fun i size g => ⟨_, _, rfl, hd 5 i size g⟩) s,
    C89_shaped_dirichlet (rs := [3, 2]) rfl (by norm_num) (fun i hi => ?_)
      (fun i size g => ⟨_, _, rfl, hd 5 i size g⟩) s⟩
  · obtain rfl : i = [] := by simpa using inB_length hi
    convert Matrix.PosDef.one (n := Fin 2) (R := ℝ)
    ext r c
    change (Arr.ofFn [2, 2] fun i => if i.headD 0 = i.tail.headD 0 then (1 : ℝ) else 0).get [c.val, r.val] = _
    rw [Arr.ofFn_get (by simp [inB]; omega)]
    simp [Matrix.one_apply, Fin.ext_iff, eq_comm]
  · rw [Arr.full, Arr.ofFn_get hi]
    exact one_pos
  · rw [Arr.full, Arr.ofFn_get hi]
    exact one_pos

/-! ### What the test finds -/

/-- Draws that are squeezed, as SciPy leaves them. -/
def squeezed (draw : List ℕ → List ℕ → G → Arr ℝ × G) (m : List ℕ) (n : ℕ) : Shaped (Frozen ℝ G) where
  shape := m
  rvsShape := [n]
  objects i :=
    { rvs := fun size g => .ok ((draw i size g).1.squeeze, (draw i size g).2)
      pdf := fun _ => .error .valueError
      entropy := .error .valueError }

/-- Without the repair of the shapes of SciPy the test would fail for one component, and only then: the other cases
of the test do not need the repair. -/
theorem C89_squeezed {draw : List ℕ → List ℕ → G → Arr ℝ × G}
    (hd : ∀ i size g, (draw i size g).1.rshape = (size ++ [n]).reverse) (h0 : 0 ∉ m) (s : ℕ → G) :
    testShaped (squeezed draw m n) m n s = .ok () ↔ n ≠ 1 := by
  rw [C89_shaped_iff (D := squeezed draw m n) (m := m) (n := n) rfl rfl]
  constructor
  · rintro h rfl
    obtain ⟨r, hr⟩ := h 4
    obtain ⟨l, hl⟩ := ndindex_cons h0
    have := fillM_error (s := m) (t := [1, 2, 3] ++ [1]) (f := fun i => ((squeezed draw m 1).objects i).rvs [1, 2, 3])
      (g := s 4) hl rfl (by
        change assignable _ (List.filter _ (draw _ _ _).1.rshape) = false
        rw [hd]
        rfl)
    have hr : fillM m ([1, 2, 3] ++ [1]) (fun i => ((squeezed draw m 1).objects i).rvs [1, 2, 3]) (s 4) = .ok r := hr
    rw [this] at hr
    cases hr
  · intro hn j
    refine foldlM_succeeds (α := ℝ) (m := m) (t := sizeTuple (testSizes j) ++ [n]) (f := fun i =>
      ((squeezed draw m n).objects i).rvs (sizeTuple (testSizes j))) (fun i _ g => ⟨_, _, rfl, ?_⟩) _
      (fun i hi => mem_ndindex.1 hi) (a := (Arr.full (m ++ (sizeTuple (testSizes j) ++ [n])).reverse default, s j)) rfl
    change assignable _ (List.filter _ (draw _ _ _).1.rshape) = true
    rw [hd]
    fin_cases j <;> simp [testSizes, sizeTuple, assignable, List.filter_cons, hn]

/-! ### Examples -/

/-- Zeros of the right shape. -/
noncomputable def zeroDraws (n : ℕ) (_ size : List ℕ) (g : ℕ) : Arr ℝ × ℕ := (Arr.full (size ++ [n]).reverse 0, g)

example : ∃ D, dirichletNew (Arr.full [5, 3, 2] 1) (fun i size g => .ok (zeroDraws 5 i size g)) = .ok D ∧
    testShaped D [2, 3] 5 id = .ok () :=
  (C89_shaped_suite (draw := zeroDraws) (fun _ _ _ _ => rfl) id).2.2.2.2

example : testShaped (squeezed (zeroDraws 4) [3] 4) [3] 4 id = .ok () ∧
    testShaped (squeezed (zeroDraws 1) [] 1) [] 1 id ≠ .ok () :=
  ⟨(C89_squeezed (fun _ _ _ => rfl) (by simp) id).2 (by norm_num),
    fun h => (C89_squeezed (n := 1) (m := []) (fun _ _ _ => rfl) (by simp) id).1 h rfl⟩

end Efax
