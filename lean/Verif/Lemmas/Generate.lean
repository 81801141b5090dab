import Verif.Spec.Generate
import Verif.Lemmas.RingArr
import Verif.Lemmas.Classes
import Verif.Lemmas.Flat4
import Mathlib.Tactic.Positivity
import Mathlib.Tactic.Linarith

/-! # Lemmas about random parameters -/

namespace Efax

open Spec ClassTable

theorem boundOk_sup {b : Arr ℝ} {sup batch : List ℕ} (hb : IsBound b batch) :
    Ring.boundOk b (sup ++ batch) := by
  rcases hb with h | h <;> simp [Ring.boundOk, h]

theorem boundsOk_sup {mn : Arr ℝ} {mx : Option (Arr ℝ)} {sup batch : List ℕ}
    (hb : IsBound mn batch) (hM : ∀ M ∈ mx, IsBound M batch) :
    Ring.boundsOk mn mx (sup ++ batch) = true := by
  simp only [Ring.boundsOk, Bool.and_eq_true, decide_eq_true_eq]
  refine ⟨boundOk_sup hb, ?_⟩
  cases mx with
  | none => rfl
  | some M => simpa using boundOk_sup (hM M rfl)

theorem inB_split {sup batch i : List ℕ} (h : inB (sup ++ batch) i = true) :
    ∃ k j, i = k ++ j ∧ inB sup k = true ∧ inB batch j = true := by
  have hl := inB_length h
  have h2 : (i.take sup.length).length = sup.length := by
    rw [List.length_take]
    simp only [List.length_append] at hl
    omega
  refine ⟨i.take sup.length, i.drop sup.length, (List.take_append_drop _ _).symm, ?_⟩
  rw [← inB_append h2, List.take_append_drop]
  exact h

theorem complexUnflat_norm {mn : ℝ} {mx : Option ℝ} {c : ℂ} (h0 : 0 ≤ mn) (hc : c ≠ 0)
    (hM : ∀ M ∈ mx, 0 < M) : ∃ z, Ring.complexUnflat mn mx c = some z ∧ mn < ‖z‖ ∧
      ∀ M ∈ mx, ‖z‖ < mn + M := by
  have hn : 0 < ‖c‖ := norm_pos_iff.2 hc
  have key : ∀ t : ℝ, 0 ≤ t → ∃ z, cdiv? (c * ((t : ℝ) : ℂ)) ‖c‖ = some z ∧ ‖z‖ = t := by
    intro t ht
    refine ⟨_, if_neg hn.ne', ?_⟩
    rw [norm_div, norm_mul, Complex.norm_real, Complex.norm_real, norm_norm, Real.norm_eq_abs,
      abs_of_nonneg ht]
    field_simp
  cases mx with
  | none =>
    obtain ⟨z, h1, h2⟩ := key (‖c‖ + mn) (by positivity)
    exact ⟨z, h1, by linarith, by simp⟩
  | some M =>
    have hM := hM M rfl
    have h1 := expit_gt_half hn
    have h2 := expit_lt_one ‖c‖
    have h3 : 0 < M * (expit ‖c‖ - 0.5) * 2 := by
      refine mul_pos (mul_pos hM ?_) two_pos
      norm_num
      linarith
    have h4 : M * (expit ‖c‖ - 0.5) * 2 < M := by
      have : (expit ‖c‖ - 0.5) * 2 < 1 := by norm_num; linarith
      nlinarith
    obtain ⟨z, h5, h6⟩ := key (M * (expit ‖c‖ - 0.5) * 2 + mn) (by positivity)
    refine ⟨z, h5, by linarith, ?_⟩
    rintro _ ⟨⟩
    linarith

section

variable {g : Rng} (hg : InRange g)

include hg

theorem realGenerate_mem {mn mx : Option ℝ} {scale : ℝ} (hs : 0 ≤ scale)
    (hb : ∀ m ∈ mn, ∀ M ∈ mx, m ≤ M) (rs : List ℕ) (s : g.State) :
    (Ring.realGenerate mn mx scale g rs s).1.rshape = rs ∧ ∀ i, inB rs i = true →
      (∀ m ∈ mn, m ≤ (Ring.realGenerate mn mx scale g rs s).1.get i) ∧
      ∀ M ∈ mx, (Ring.realGenerate mn mx scale g rs s).1.get i ≤ M := by
  cases mn with
  | none =>
    cases mx with
    | none => exact ⟨hg.normal_shape rs s, fun i hi => ⟨by simp, by simp⟩⟩
    | some M =>
      refine ⟨hg.exponential_shape rs s, fun i hi => ⟨by simp, ?_⟩⟩
      rintro _ ⟨⟩
      have hi' : inB (g.exponential rs s).1.rshape i = true := by rwa [hg.exponential_shape]
      simp only [Ring.realGenerate]
      rw [Arr.map_get hi']
      have := mul_nonneg (hg.exponential_nonneg rs s i hi) hs
      linarith
  | some m =>
    cases mx with
    | none =>
      refine ⟨hg.exponential_shape rs s, fun i hi => ⟨?_, by simp⟩⟩
      rintro _ ⟨⟩
      have hi' : inB (g.exponential rs s).1.rshape i = true := by rwa [hg.exponential_shape]
      simp only [Ring.realGenerate]
      rw [Arr.map_get hi']
      have := mul_nonneg (hg.exponential_nonneg rs s i hi) hs
      linarith
    | some M =>
      have hmM := hb m rfl M rfl
      have h : ∀ i, inB rs i = true →
          (Ring.realGenerate (some m) (some M) scale g rs s).1.get i =
            m + (M - m) * (g.uniform rs s).1.get i := by
        intro i hi
        have hi' : inB (g.uniform rs s).1.rshape i = true := by rwa [hg.uniform_shape]
        simp only [Ring.realGenerate]
        rw [Arr.map_get hi']
      refine ⟨hg.uniform_shape rs s, fun i hi => ?_⟩
      rw [h i hi]
      have h0 := hg.uniform_nonneg rs s i hi
      have h1 := hg.uniform_lt rs s i hi
      constructor
      · rintro _ ⟨⟩
        nlinarith
      · rintro _ ⟨⟩
        nlinarith

theorem complexUnflatArr_ok {mn : Arr ℝ} {mx : Option (Arr ℝ)} {sup batch : List ℕ} {c : Arr ℂ}
    (hc : c.rshape = sup ++ batch) (hb : RingGenerates (.complex mn mx) batch)
    (h0 : ∀ i, inB (sup ++ batch) i = true → c.get i ≠ 0) :
    ∃ a, Ring.complexUnflatArr mn mx c = .ok (.complex a) ∧ a.rshape = sup ++ batch ∧
      ∀ i j, inB sup i = true → inB batch j = true → boundVal mn j < ‖a.get (i ++ j)‖ ∧
        ∀ M ∈ mx, ‖a.get (i ++ j)‖ < boundVal mn j + boundVal M j := by
  obtain ⟨b1, b2, b3⟩ := hb
  have key : ∀ i j, inB sup i = true → inB batch j = true →
      ∃ z, Ring.complexUnflat (Ring.boundAt mn (i ++ j)) (mx.map (Ring.boundAt · (i ++ j)))
        (c.get (i ++ j)) = some z ∧ boundVal mn j < ‖z‖ ∧
        ∀ M ∈ mx, ‖z‖ < boundVal mn j + boundVal M j := by
    intro i j hi hj
    obtain ⟨z, z1, z2, z3⟩ := complexUnflat_norm (mn := Ring.boundAt mn (i ++ j))
      (mx := mx.map (Ring.boundAt · (i ++ j))) (c := c.get (i ++ j))
      (by rw [boundAt_eq b1 hj]; exact (b3 j hj).1)
      (h0 _ ((inB_append (inB_length hi)).2 ⟨hi, hj⟩)) (by
        intro M hM
        obtain ⟨B, hB, rfl⟩ := Option.map_eq_some_iff.1 hM
        rw [boundAt_eq (b2 B hB) hj]
        exact (b3 j hj).2 B hB)
    rw [boundAt_eq b1 hj] at z2
    refine ⟨z, z1, z2, fun M hM => ?_⟩
    have := z3 (Ring.boundAt M (i ++ j)) (Option.map_eq_some_iff.2 ⟨M, hM, rfl⟩)
    rwa [boundAt_eq b1 hj, boundAt_eq (b2 M hM) hj] at this
  have hok := Arr.mapE_ok (a := c) (f := fun i v =>
    Ring.complexUnflat (Ring.boundAt mn i) (mx.map (Ring.boundAt · i)) v) (by
      intro i hi
      rw [hc] at hi
      obtain ⟨k, j, rfl, hk, hj⟩ := inB_split hi
      obtain ⟨z, z1, _⟩ := key k j hk hj
      simp only [z1, Option.isSome_some])
  refine ⟨Arr.ofFn c.rshape fun i => (Ring.complexUnflat (Ring.boundAt mn i)
    (mx.map (Ring.boundAt · i)) (c.get i)).getD default, ?_, hc, fun i j hi hj => ?_⟩
  · rw [Ring.complexUnflatArr, if_pos (by rw [hc]; exact boundsOk_sup b1 b2), hok]
    rfl
  · obtain ⟨z, z1, z2, z3⟩ := key i j hi hj
    have hin : inB c.rshape (i ++ j) = true := by
      rw [hc]
      exact (inB_append (inB_length hi)).2 ⟨hi, hj⟩
    rw [Arr.ofFn_get hin, z1]
    exact ⟨z2, z3⟩

theorem truncZ_ge {m : ℤ} {x : ℝ} (hm : 0 ≤ m) (hx : (m : ℝ) ≤ x) : m ≤ truncZ (x * 10) := by
  have h0 : (0 : ℝ) ≤ m := by exact_mod_cast hm
  rw [truncZ, if_pos (by linarith), Int.le_floor]
  linarith

variable [MachEps]

omit hg in
theorem openMin_ge (m : ℝ) : m ≤ Ring.openMin m :=
  le_trans (by linarith [MachEps.pos]) (le_max_left _ _)

omit hg in
theorem openMax_le (m : ℝ) : Ring.openMax m ≤ m :=
  le_trans (min_le_left _ _) (by linarith [MachEps.pos])

theorem Ring.generate_within {r : Ring} {sup batch : List ℕ} (hr : RingGenerates r batch)
    (hz : ∀ mn mx, r = .complex mn mx → NeverZero g) (s : g.State) :
    ∃ v s', r.generate g (sup ++ batch) s = .ok (v, s') ∧ BoundedBy r sup batch v := by
  cases r with
  | real mn mx scale =>
    obtain ⟨h1, h2⟩ := realGenerate_mem hg hr.1 hr.2 (sup ++ batch) s
    exact ⟨_, _, rfl, h1, h2⟩
  | complex mn mx =>
    have hz := hz mn mx rfl
    obtain ⟨a, h1, h2, h3⟩ := complexUnflatArr_ok (sup := sup) hg (c := Arr.ofFn (sup ++ batch) fun i =>
      ⟨(g.normal (sup ++ batch) s).1.get i,
        (g.normal (sup ++ batch) (g.normal (sup ++ batch) s).2).1.get i⟩) rfl hr (by
        intro i hi
        rw [Arr.ofFn_get hi]
        intro hc
        rcases hz (sup ++ batch) s i hi with h | h
        · exact h (congrArg Complex.re hc)
        · exact h (congrArg Complex.im hc))
    refine ⟨.complex a, (g.normal (sup ++ batch) (g.normal (sup ++ batch) s).2).2, ?_, h2,
      fun i j hi hj => ⟨(h3 i j hi hj).1.le, (h3 i j hi hj).2⟩⟩
    simp only [Ring.generate, h1, Bind.bind, Except.bind]
  | boolean => exact ⟨_, _, rfl, hg.binomial_shape _ s, trivial⟩
  | integral mn mx =>
    obtain ⟨hr1, rfl⟩ := hr
    obtain ⟨h1, h2⟩ := realGenerate_mem hg (mn := (Ring.integralBounds mn none).1)
      (mx := (Ring.integralBounds mn none).2) zero_le_one (by simp [Ring.integralBounds])
      (sup ++ batch) s
    refine ⟨_, _, rfl, h1, fun i hi => ⟨fun m hm => ?_, by simp⟩⟩
    have hi' := hi
    rw [← h1] at hi'
    rw [Arr.map_get hi']
    exact truncZ_ge hg (hr1 m hm) ((openMin_ge _).trans
      ((h2 i hi).1 (Ring.openMin m) (Option.map_eq_some_iff.2 ⟨m, hm, rfl⟩)))

omit hg [MachEps] in
theorem sandwich_sum {α : Type} [CommSemiring α] (d : ℕ) (u w e : ℕ → α) (M W : ℕ → ℕ → α) :
    ∑ i ∈ Finset.range d, ∑ k ∈ Finset.range d,
      u i * (∑ n ∈ Finset.range d, M n i * e n * W n k) * w k =
    ∑ n ∈ Finset.range d, e n * ((∑ i ∈ Finset.range d, u i * M n i) *
      ∑ k ∈ Finset.range d, W n k * w k) := by
  have h1 : ∀ i, ∑ k ∈ Finset.range d, u i * (∑ n ∈ Finset.range d, M n i * e n * W n k) * w k =
      ∑ n ∈ Finset.range d, ∑ k ∈ Finset.range d, u i * (M n i * e n * W n k) * w k := by
    intro i
    rw [Finset.sum_comm]
    refine Finset.sum_congr rfl fun k _ => ?_
    rw [Finset.mul_sum, Finset.sum_mul]
  rw [Finset.sum_congr rfl fun i _ => h1 i, Finset.sum_comm]
  refine Finset.sum_congr rfl fun n _ => ?_
  rw [Finset.sum_mul_sum, Finset.mul_sum]
  refine Finset.sum_congr rfl fun i _ => ?_
  rw [Finset.mul_sum]
  refine Finset.sum_congr rfl fun k _ => ?_
  ring

omit hg [MachEps] in
theorem sandwich_get {α : Type} [Inhabited α] [Semiring α] {ofReal : ℝ → α} {cj : α → α} {d : ℕ}
    {batch j : List ℕ} {m : Arr α} {eig : Arr ℝ} {k l : ℕ} (hk : k < d) (hl : l < d)
    (hj : inB batch j = true) : (Support.sandwich ofReal cj d batch m eig).get (k :: l :: j) =
      ∑ n ∈ Finset.range d, m.get (n :: l :: j) * ofReal (eig.get (n :: j)) *
        cj (m.get (n :: k :: j)) := by
  rw [Support.sandwich, Arr.ofFn_get ((inB_cons ..).2 ⟨hk, (inB_cons ..).2 ⟨hl, hj⟩⟩)]

omit hg [MachEps] in
theorem plusTranspose_get {α : Type} [Inhabited α] {add : α → α → α} {cj : α → α} {d : ℕ}
    {batch j : List ℕ} {m : Arr α} {k l : ℕ} (hk : k < d) (hl : l < d) (hj : inB batch j = true) :
    (Support.plusTranspose add cj d batch m).get (k :: l :: j) =
      add (m.get (k :: l :: j)) (cj (m.get (l :: k :: j))) := by
  rw [Support.plusTranspose, Arr.ofFn_get ((inB_cons ..).2 ⟨hk, (inB_cons ..).2 ⟨hl, hj⟩⟩)]

omit hg [MachEps] in
theorem quadratic_real (d : ℕ) (batch : List ℕ) (m : Arr ℝ) (eig : Arr ℝ) {j : List ℕ}
    (hj : inB batch j = true) (x : ℕ → ℂ) :
    quadratic d (.real (Support.sandwich id id d batch m eig)) j x =
      ∑ n ∈ Finset.range d, eig.get (n :: j) *
        (∑ i ∈ Finset.range d, (x i).re * m.get (n :: i :: j)) ^ 2 := by
  have : quadratic d (.real (Support.sandwich id id d batch m eig)) j x =
      ∑ i ∈ Finset.range d, ∑ k ∈ Finset.range d, (x i).re * (∑ n ∈ Finset.range d,
        m.get (n :: i :: j) * eig.get (n :: j) * m.get (n :: k :: j)) * (x k).re := by
    refine Finset.sum_congr rfl fun i hi => Finset.sum_congr rfl fun k hk => ?_
    rw [sandwich_get (Finset.mem_range.1 hk) (Finset.mem_range.1 hi) hj]
    rfl
  rw [this, sandwich_sum d (fun i => (x i).re) (fun i => (x i).re) (fun n => eig.get (n :: j))
    (fun n i => m.get (n :: i :: j)) fun n i => m.get (n :: i :: j)]
  refine Finset.sum_congr rfl fun n _ => ?_
  rw [sq]
  congr 2
  exact Finset.sum_congr rfl fun i _ => mul_comm _ _

omit hg [MachEps] in
theorem quadratic_complex (d : ℕ) (batch : List ℕ) (m : Arr ℂ) (eig : Arr ℝ) {j : List ℕ}
    (hj : inB batch j = true) (x : ℕ → ℂ) :
    quadratic d (.complex (Support.sandwich (fun x => (x : ℂ)) star d batch m eig)) j x =
      ∑ n ∈ Finset.range d, eig.get (n :: j) *
        Complex.normSq (∑ i ∈ Finset.range d, star (x i) * m.get (n :: i :: j)) := by
  have : (∑ i ∈ Finset.range d, ∑ k ∈ Finset.range d, star (x i) *
      (Support.sandwich (fun x => (x : ℂ)) star d batch m eig).get (k :: i :: j) * x k) =
      ∑ i ∈ Finset.range d, ∑ k ∈ Finset.range d, star (x i) * (∑ n ∈ Finset.range d,
        m.get (n :: i :: j) * (eig.get (n :: j) : ℂ) * star (m.get (n :: k :: j))) * x k := by
    refine Finset.sum_congr rfl fun i hi => Finset.sum_congr rfl fun k hk => ?_
    rw [sandwich_get (Finset.mem_range.1 hk) (Finset.mem_range.1 hi) hj]
  rw [quadratic, this, sandwich_sum d (fun i => star (x i)) x (fun n => (eig.get (n :: j) : ℂ))
    (fun n i => m.get (n :: i :: j)) fun n i => star (m.get (n :: i :: j)), Complex.re_sum]
  refine Finset.sum_congr rfl fun n _ => ?_
  have h2 : (∑ k ∈ Finset.range d, star (m.get (n :: k :: j)) * x k) =
      star (∑ i ∈ Finset.range d, star (x i) * m.get (n :: i :: j)) := by
    rw [star_sum]
    refine Finset.sum_congr rfl fun k _ => ?_
    rw [star_mul', star_star]
    exact mul_comm _ _
  rw [h2, Complex.re_ofReal_mul]
  congr 1
  rw [show (star : ℂ → ℂ) = starRingEnd ℂ from rfl, Complex.mul_conj, Complex.ofReal_re]

omit hg [MachEps] in
theorem isSymm_sandwich_real (herm : Bool) (d : ℕ) (batch : List ℕ) (m : Arr ℝ) (eig : Arr ℝ) :
    IsSymm herm d batch (.real (Support.sandwich id id d batch m eig)) := by
  intro r c j hr hc hj
  rw [sandwich_get hr hc hj, sandwich_get hc hr hj]
  refine Finset.sum_congr rfl fun n _ => ?_
  simp only [id]
  ring

omit hg [MachEps] in
theorem isSymm_sandwich_complex (d : ℕ) (batch : List ℕ) (m : Arr ℂ) (eig : Arr ℝ) :
    IsSymm true d batch (.complex (Support.sandwich (fun x => (x : ℂ)) star d batch m eig)) := by
  intro r c j hr hc hj
  rw [if_pos rfl, sandwich_get hr hc hj, sandwich_get hc hr hj, star_sum]
  refine Finset.sum_congr rfl fun n _ => ?_
  rw [star_mul', star_mul', star_star,
    show star ((eig.get (n :: j) : ℝ) : ℂ) = ((eig.get (n :: j) : ℝ) : ℂ) from Complex.conj_ofReal _]
  ring

end

end Efax
