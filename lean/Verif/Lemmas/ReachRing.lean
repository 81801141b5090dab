import Verif.Spec.RandomReach
import Verif.Lemmas.Generate

/-!
# Random streams that give a chosen value: rings
-/

namespace Efax

open Spec

/-- A generator whose draws are listed in its state, up to what the ranges of the primitive generators
require. -/
noncomputable def script : Rng where
  State := List (Arr ℝ)
  exponential rs s := (Arr.ofFn rs fun i => |(s.headD (Arr.full [] 0)).get i|, s.tail)
  uniform rs s := (Arr.ofFn rs fun i =>
    let x := (s.headD (Arr.full [] 0)).get i
    if 0 ≤ x ∧ x < 1 then x else 0, s.tail)
  normal rs s := (Arr.ofFn rs fun i => (s.headD (Arr.full [] 0)).get i, s.tail)
  binomial rs s := (Arr.ofFn rs fun i => if (s.headD (Arr.full [] 0)).get i = 0 then 0 else 1, s.tail)

theorem script_inRange : InRange script where
  exponential_shape _ _ := rfl
  exponential_nonneg rs s i hi := by
    change 0 ≤ (Arr.ofFn rs _).get i
    rw [Arr.ofFn_get hi]; exact abs_nonneg _
  uniform_shape _ _ := rfl
  uniform_nonneg rs s i hi := by
    change 0 ≤ (Arr.ofFn rs _).get i
    rw [Arr.ofFn_get hi]; dsimp only; split_ifs with h
    · exact h.1
    · exact le_rfl
  uniform_lt rs s i hi := by
    change (Arr.ofFn rs _).get i < 1
    rw [Arr.ofFn_get hi]; dsimp only; split_ifs with h
    · exact h.2
    · exact one_pos
  normal_shape _ _ := rfl
  binomial_shape _ _ := rfl
  binomial_mem rs s i hi := by
    change (Arr.ofFn rs _).get i = 0 ∨ (Arr.ofFn rs _).get i = 1
    rw [Arr.ofFn_get hi]; split_ifs
    · exact .inl rfl
    · exact .inr rfl

theorem script_normal (rs : List ℕ) (a : Arr ℝ) (t : List (Arr ℝ)) (ha : a.rshape = rs) :
    script.normal rs (a :: t) = (a, t) := by
  subst ha
  refine Prod.ext ?_ rfl
  refine Arr.ext rfl fun i hi => ?_
  exact Arr.ofFn_get hi

theorem script_exponential {rs i : List ℕ} (hi : inB rs i = true) (b : Arr ℝ) (t : List (Arr ℝ)) :
    (script.exponential rs (b :: t)).1.get i = |b.get i| := Arr.ofFn_get hi

theorem script_uniform {rs i : List ℕ} (hi : inB rs i = true) (b : Arr ℝ) (t : List (Arr ℝ))
    (h0 : 0 ≤ b.get i) (h1 : b.get i < 1) : (script.uniform rs (b :: t)).1.get i = b.get i :=
  (Arr.ofFn_get hi).trans (if_pos ⟨h0, h1⟩)

section

variable [MachEps]

/-- Every array within the bounds of a real ring is drawn for some script. -/
theorem realGenerate_reach {mn mx : Option ℝ} {scale : ℝ} {rs : List ℕ} {a : Arr ℝ} (ha : a.rshape = rs)
    (hs : 0 < scale) (hb : ∀ m ∈ mn, ∀ M ∈ mx, m < M)
    (h : ∀ i, inB rs i = true →
      (∀ m ∈ mn, m ≤ a.get i) ∧ ∀ M ∈ mx, a.get i ≤ M ∧ (mn ≠ none → a.get i < M)) :
    ∃ b : Arr ℝ, ∀ t : List (Arr ℝ), Ring.realGenerate mn mx scale script rs (b :: t) = (a, t) := by
  subst ha
  cases mn with
  | none =>
    cases mx with
    | none =>
      refine ⟨a.map fun x => x / scale, fun t => Prod.ext (Arr.ext rfl fun i hi => ?_) rfl⟩
      have hi : inB a.rshape i = true := hi
      change ((script.normal a.rshape ((a.map fun x => x / scale) :: t)).1.map fun x => x * scale).get i =
        a.get i
      rw [script_normal a.rshape (a.map fun x => x / scale) t rfl]
      refine (Arr.map_get (a := a.map fun x => x / scale) hi).trans ?_
      rw [Arr.map_get hi, div_mul_cancel₀ _ hs.ne']
    | some M =>
      refine ⟨a.map fun x => (M - x) / scale, fun t => Prod.ext (Arr.ext rfl fun i hi => ?_) rfl⟩
      have hi : inB a.rshape i = true := hi
      change ((script.exponential a.rshape ((a.map fun x => (M - x) / scale) :: t)).1.map
        fun x => M - x * scale).get i = a.get i
      refine (Arr.map_get (a := (script.exponential a.rshape _).1) hi).trans ?_
      rw [script_exponential hi, Arr.map_get hi,
        abs_of_nonneg (div_nonneg (sub_nonneg.2 ((h i hi).2 M rfl).1) hs.le), div_mul_cancel₀ _ hs.ne']
      exact sub_sub_cancel _ _
  | some m =>
    cases mx with
    | none =>
      refine ⟨a.map fun x => (x - m) / scale, fun t => Prod.ext (Arr.ext rfl fun i hi => ?_) rfl⟩
      have hi : inB a.rshape i = true := hi
      change ((script.exponential a.rshape ((a.map fun x => (x - m) / scale) :: t)).1.map
        fun x => x * scale + m).get i = a.get i
      refine (Arr.map_get (a := (script.exponential a.rshape _).1) hi).trans ?_
      rw [script_exponential hi, Arr.map_get hi,
        abs_of_nonneg (div_nonneg (sub_nonneg.2 ((h i hi).1 m rfl)) hs.le), div_mul_cancel₀ _ hs.ne']
      exact sub_add_cancel _ _
    | some M =>
      have hm := sub_pos.2 (hb m rfl M rfl)
      refine ⟨a.map fun x => (x - m) / (M - m), fun t => Prod.ext (Arr.ext rfl fun i hi => ?_) rfl⟩
      have hi : inB a.rshape i = true := hi
      have h1 := (h i hi).1 m rfl
      have h2 := ((h i hi).2 M rfl).2 (by simp)
      change ((script.uniform a.rshape ((a.map fun x => (x - m) / (M - m)) :: t)).1.map
        fun x => m + (M - m) * x).get i = a.get i
      refine (Arr.map_get (a := (script.uniform a.rshape _).1) hi).trans ?_
      rw [script_uniform hi _ _ (by rw [Arr.map_get hi]; exact div_nonneg (sub_nonneg.2 h1) hm.le)
        (by rw [Arr.map_get hi]; exact (div_lt_one hm).2 (by linarith)), Arr.map_get hi,
        mul_div_cancel₀ _ hm.ne']
      exact add_sub_cancel _ _

/-- Every value that `RingReach` allows is a random element of the ring for some script. -/
theorem Ring.generate_reach {r : Ring} {sup batch : List ℕ} {v : Val} (hr : Spread r batch)
    (h : RingReach r sup batch v) :
    ∃ s : List (Arr ℝ), ∀ t : List (Arr ℝ), r.generate script (sup ++ batch) (s ++ t) = .ok (v, t) := by
  obtain ⟨hv, h⟩ := h
  cases r with
  | real mn mx scale =>
    cases v with
    | real a =>
      obtain ⟨b, hb⟩ := realGenerate_reach hv hr.1 hr.2 h
      refine ⟨[b], fun t => ?_⟩
      simp only [Ring.generate, List.cons_append, List.nil_append, hb]
    | _ => exact h.elim
  | boolean =>
    cases v with
    | bool a =>
      have hv : a.rshape = sup ++ batch := hv
      refine ⟨[a.map fun x => if x then 1 else 0], fun t => ?_⟩
      simp only [Ring.generate]
      refine congrArg Except.ok (Prod.ext (congrArg Val.bool (Arr.ext hv.symm fun i hi => ?_)) rfl)
      have hi : inB (sup ++ batch) i = true := hi
      refine (Arr.map_get (a := (script.binomial (sup ++ batch) _).1) hi).trans ?_
      have : (script.binomial (sup ++ batch) ([a.map fun x => if x then (1 : ℝ) else 0] ++ t)).1.get i =
        if (a.map fun x => if x then (1 : ℝ) else 0).get i = 0 then 0 else 1 := Arr.ofFn_get hi
      rw [this, Arr.map_get (by rw [hv]; exact hi)]
      cases a.get i <;> simp
    | _ => exact h.elim
  | integral mn mx =>
    cases v with
    | int a =>
      have hv : a.rshape = sup ++ batch := hv
      obtain ⟨m, rfl, hm, rfl⟩ := hr
      have hm' : (0 : ℝ) ≤ m := by exact_mod_cast hm
      have hpos : 0 ≤ Ring.openMin (m : ℝ) := hm'.trans (openMin_ge _)
      obtain ⟨b, hb⟩ := realGenerate_reach (mn := some (Ring.openMin (m : ℝ))) (mx := none) (scale := 1)
        (a := a.map fun z : ℤ => max ((z : ℝ) / 10) (Ring.openMin m)) hv one_pos (by simp) (fun i hi => by
          refine ⟨fun m' hm' => ?_, by simp⟩
          cases hm'
          rw [Arr.map_get (by rw [hv]; exact hi)]
          exact le_max_right _ _)
      refine ⟨[b], fun t => ?_⟩
      simp only [Ring.generate, Ring.integralBounds, Option.map_some, Option.map_none, List.cons_append,
        List.nil_append, hb]
      refine congrArg Except.ok (Prod.ext (congrArg Val.int (Arr.ext rfl fun i hi => ?_)) rfl)
      have hi : inB a.rshape i = true := hi
      have hi' : inB (sup ++ batch) i = true := by rw [← hv]; exact hi
      have h1 := h i hi' m rfl
      refine (Arr.map_get (a := a.map fun z : ℤ => max ((z : ℝ) / 10) (Ring.openMin m)) hi).trans ?_
      rw [Arr.map_get hi, truncZ, if_pos (mul_nonneg (hpos.trans (le_max_right _ _)) (by norm_num)),
        Int.floor_eq_iff]
      have h2 : max ((a.get i : ℝ) / 10) (Ring.openMin m) * 10 = max (a.get i : ℝ) (10 * Ring.openMin m) := by
        rw [max_mul_of_nonneg _ _ (by norm_num)]
        congr 1
        · ring
        · ring
      rw [h2]
      exact ⟨le_max_left _ _, max_lt (by linarith) h1⟩
    | _ => exact h.elim
  | complex mn mx =>
    cases v with
    | complex a =>
      have hv : a.rshape = sup ++ batch := hv
      obtain ⟨b1, b2, b3⟩ := hr
      have key : ∀ i, ∃ c, inB (sup ++ batch) i = true →
          Ring.complexUnflat (Ring.boundAt mn i) (mx.map (Ring.boundAt · i)) c = some (a.get i) := by
        intro i
        by_cases hi : inB (sup ++ batch) i = true
        · obtain ⟨k, j, rfl, hk, hj⟩ := inB_split hi
          obtain ⟨c, -, -, hc⟩ := Ring.complexUnflat_complexFlat (mn := Ring.boundAt mn (k ++ j))
            (mx := mx.map (Ring.boundAt · (k ++ j))) (x := a.get (k ++ j))
            (by rw [boundAt_eq b1 hj]; exact (b3 j hj).1)
            (by rw [boundAt_eq b1 hj]; exact (h k j hk hj).1) (by
              intro M hM
              obtain ⟨B, hB, rfl⟩ := Option.map_eq_some_iff.1 hM
              rw [boundAt_eq b1 hj, boundAt_eq (b2 B hB) hj]
              exact (h k j hk hj).2 B hB)
          exact ⟨c, fun _ => hc⟩
        · exact ⟨0, fun h => absurd h hi⟩
      choose c hc using key
      have hok : Ring.complexUnflatArr mn mx (Arr.ofFn (sup ++ batch) c) = .ok (.complex a) := by
        rw [Ring.complexUnflatArr, if_pos (show Ring.boundsOk mn mx (Arr.ofFn (sup ++ batch) c).rshape = true from boundsOk_sup b1 b2)]
        have : ((Arr.ofFn (sup ++ batch) c).mapE fun i v =>
            Ring.complexUnflat (Ring.boundAt mn i) (mx.map (Ring.boundAt · i)) v) = .ok a := by
          rw [Arr.mapE_eq_ok_iff]
          refine ⟨hv, fun i hi => ?_⟩
          have hi : inB (sup ++ batch) i = true := hi
          rw [Arr.ofFn_get hi]
          exact hc i hi
        rw [this]
        rfl
      refine ⟨[Arr.ofFn (sup ++ batch) fun i => (c i).re, Arr.ofFn (sup ++ batch) fun i => (c i).im],
        fun t => ?_⟩
      have e1 : (Arr.ofFn (sup ++ batch) fun i => (⟨(Arr.ofFn (sup ++ batch) fun i => (c i).re).get i,
          (Arr.ofFn (sup ++ batch) fun i => (c i).im).get i⟩ : ℂ)) = Arr.ofFn (sup ++ batch) c := by
        refine Arr.ext rfl fun i hi => ?_
        have hi : inB (sup ++ batch) i = true := hi
        rw [Arr.ofFn_get hi, Arr.ofFn_get hi, Arr.ofFn_get hi, Arr.ofFn_get hi]
      simp only [Ring.generate, List.cons_append, List.nil_append]
      simp only [script_normal (sup ++ batch) (Arr.ofFn (sup ++ batch) fun i => (c i).re) _ rfl,
        script_normal (sup ++ batch) (Arr.ofFn (sup ++ batch) fun i => (c i).im) _ rfl,
        e1, hok, Bind.bind, Except.bind]
    | _ => exact h.elim

end

end Efax
