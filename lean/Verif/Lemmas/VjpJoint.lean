import Verif.Lemmas.Vjp

/-! # The Fisher information of joint distributions, applied to a vector -/

noncomputable section

namespace Efax

open Spec Filter Topology

variable [MachEps] {L : Library Cls}

theorem applyFisher_ok {d v e u : Dist Cls} (h : d.applyFisher L v = .ok (e, u)) :
    d.toExp L.toExp = .ok e ∧ v.sameType e = true ∧ u = pullback (fun q => q.toExp L.toExp) d v := by
  simp only [Dist.applyFisher, Bind.bind, Except.bind] at h
  cases he : d.toExp L.toExp with
  | error => rw [he] at h; cases h
  | ok e' =>
    rw [he] at h
    by_cases hs : v.sameType e' = true
    · simp only [hs, if_true] at h
      have h : e' = e ∧ _ = u := Prod.ext_iff.1 (Except.ok.inj h)
      obtain ⟨h1, h2⟩ := h
      subst h1
      exact ⟨rfl, hs, h2.symm⟩
    · simp only [hs, if_false] at h
      cases h

/-- The pairing of cotangents of parts with the values of a function that may raise. -/
def pairSubs (v : Subs Cls) : Except Err (Subs Cls) → ℝ
  | .ok e => v.pair e
  | .error _ => 0

theorem Subs.toExp_cons (n : String) (d : Dist Cls) (r : Subs Cls) :
    (Subs.cons n d r).toExp L.toExp = (do
      let d' ← d.toExp L.toExp
      let r' ← r.toExp L.toExp
      .ok (.cons n d' r')) := by rw [Subs.toExp]

theorem Subs.nudge_zero (n : String) (d : Dist Cls) (r : Subs Cls) (k i z path) :
    (Subs.cons n d r).nudge k i z 0 path = .cons n (d.nudge k i z path) r := by rw [Subs.nudge]

theorem Subs.nudge_succ (n : String) (d : Dist Cls) (r : Subs Cls) (k i z path m) :
    (Subs.cons n d r).nudge k i z (m + 1) path = .cons n d (r.nudge k i z m path) := by rw [Subs.nudge]

theorem Spec.PartsApplied.toExp {s sv se su : Subs Cls} (h : PartsApplied L s sv se su) :
    s.toExp L.toExp = .ok se ∧ sv.sameType se = true := by
  induction h with
  | nil => exact ⟨by rw [Subs.toExp], by rw [Subs.sameType]⟩
  | cons hd hs _ ih =>
    obtain ⟨h1, h2, -⟩ := applyFisher_ok hd
    exact ⟨by simp only [Subs.toExp_cons, h1, ih.1, Bind.bind, Except.bind],
      by simp [Subs.sameType, h2, ih.2]⟩

theorem Spec.PartsApplied.steady {s sv se su : Subs Cls} (h : PartsApplied L s sv se su) (k : ℕ) (i : List ℕ) (z : ℂ) (n : ℕ)
    (path : List ℕ) : ∀ᶠ t : ℝ in 𝓝 0, ∃ e, (s.nudge k i (t * z) n path).toExp L.toExp = .ok e := by
  induction h generalizing n with
  | nil => exact .of_forall fun t => ⟨.nil, by rw [Subs.nudge, Subs.toExp]⟩
  | cons hd hs hr ih =>
    cases n with
    | zero =>
      filter_upwards [hs path k i z] with t ⟨e, he⟩
      simp only [Subs.nudge_zero, Subs.toExp_cons, he, hr.toExp.1, Bind.bind, Except.bind]
      exact ⟨_, rfl⟩
    | succ n =>
      filter_upwards [ih n] with t ⟨e, he⟩
      simp only [Subs.nudge_succ, Subs.toExp_cons, he, (applyFisher_ok hd).1, Bind.bind, Except.bind]
      exact ⟨_, rfl⟩

theorem Spec.PartsApplied.cotangent {s sv se su : Subs Cls} (h : PartsApplied L s sv se su) (c : ℝ)
    (D : ℕ → List ℕ → ℕ → List ℕ → ℂ → ℝ)
    (hD : ∀ n path k i z, D n path k i z =
      deriv (fun t : ℝ => c + pairSubs sv ((s.nudge k i (t * z) n path).toExp L.toExp)) 0) :
    s.cotangent D = su := by
  induction h generalizing c D with
  | nil => rw [Subs.cotangent]
  | @cons n d v e u s sv se su hd hs hr ih =>
    obtain ⟨h1, -, h2⟩ := applyFisher_ok hd
    rw [Subs.cotangent]
    congr 1
    · rw [h2, pullback]
      congr 1
      funext path k i z
      rw [hD]
      have he : (fun t : ℝ => c + pairSubs (.cons n v sv)
          (((Subs.cons n d s).nudge k i (t * z) 0 path).toExp L.toExp)) =ᶠ[𝓝 0]
          fun t => (c + sv.pair se) + pairResult v ((d.nudge k i (t * z) path).toExp L.toExp) := by
        filter_upwards [hs path k i z] with t ⟨e', he'⟩
        simp only [Subs.nudge_zero, Subs.toExp_cons, he', hr.toExp.1, Bind.bind, Except.bind, pairSubs,
          Subs.pair, pairResult]
        ring
      rw [he.deriv_eq]
      exact deriv_const_add (c + sv.pair se)
    · refine ih (c + v.pair e) _ fun m path k i z => ?_
      rw [hD]
      refine Filter.EventuallyEq.deriv_eq ?_
      filter_upwards [hr.steady k i z m path] with t ⟨e', he'⟩
      simp only [Subs.nudge_succ, Subs.toExp_cons, he', h1, Bind.bind, Except.bind, pairSubs, Subs.pair]
      ring

theorem joint_toExp (s : Subs Cls) : (Dist.mk .jointN [] s).toExp L.toExp =
    (s.toExp L.toExp).bind fun e => .ok (.mk .jointE [] e) := by
  rw [Dist.toExp]
  rfl

theorem Spec.PartsApplied.joint {s sv se su : Subs Cls} (h : PartsApplied L s sv se su) :
    (Dist.mk .jointN [] s).applyFisher L (.mk .jointE [] sv) =
      .ok (.mk .jointE [] se, .mk .jointN [] su) := by
  simp only [Dist.applyFisher, joint_toExp, h.toExp.1, Except.bind, Bind.bind]
  rw [if_pos (by simp [Dist.sameType, h.toExp.2, sameTypes])]
  simp only [pullback, Dist.cotangent, List.mapIdx_nil]
  refine congrArg _ (congrArg _ (congrArg (Dist.mk Cls.jointN []) (h.cotangent 0 _ fun n path k i z => ?_)))
  congr 1
  funext t
  rw [Dist.nudge, joint_toExp, zero_add]
  cases (s.nudge k i (t * z) n path).toExp L.toExp with
  | error => rfl
  | ok e => simp [Except.bind, pairResult, pairSubs, Dist.pair]

theorem Spec.PartsApplied.jointSteady {s sv se su : Subs Cls} (h : PartsApplied L s sv se su) :
    Steady L (.mk .jointN [] s) := by
  intro path k i z
  cases path with
  | nil =>
    refine .of_forall fun t => ?_
    rw [Dist.nudge, List.modify_nil, joint_toExp, h.toExp.1]
    exact ⟨_, rfl⟩
  | cons n path =>
    filter_upwards [h.steady k i z n path] with t ⟨e, he⟩
    rw [Dist.nudge, joint_toExp, he]
    exact ⟨_, rfl⟩

/-! ### Classes whose `to_exp()` never fails -/

/-- Nudging an entry of the array of a batch gives the array of a batch. -/
def Moves {A : Type} (arr : List ℕ → (List ℕ → A) → Val) : Prop :=
  ∀ rs f j z, ∃ g, (arr rs f).nudge j z = arr rs g

theorem movesS : Moves fun rs (f : List ℕ → ℝ) => .real (scalars rs f) := fun rs f j z =>
  ⟨fun i => if i = j then f i + z.re else f i, congrArg Val.real (Arr.ext rfl fun i hi => by
    have hi : inB rs i = true := hi
    simp only [scalars, Arr.ofFn_rshape]
    rw [Arr.ofFn_get hi, Arr.ofFn_get hi, Arr.ofFn_get hi])⟩

theorem movesC : Moves fun rs (f : List ℕ → ℂ) => .complex (scalars rs f) := fun rs f j z =>
  ⟨fun i => if i = j then f i + z else f i, congrArg Val.complex (Arr.ext rfl fun i hi => by
    have hi : inB rs i = true := hi
    simp only [scalars, Arr.ofFn_rshape]
    rw [Arr.ofFn_get hi, Arr.ofFn_get hi, Arr.ofFn_get hi])⟩

theorem movesInt : Moves fun rs (f : List ℕ → ℕ) => .int (scalars rs fun i => (f i : ℤ)) :=
  fun _ f _ _ => ⟨f, rfl⟩

theorem movesV {d : ℕ} : Moves fun rs (f : List ℕ → Fin d → ℝ) => .real (vectors rs f) := fun rs f j z =>
  ⟨fun i k => if k.val :: i = j then f i k + z.re else f i k,
    congrArg Val.real (vectors_ext (by rw [Arr.ofFn_rshape, Calc.vectors_rshape]) fun k i hi => by
      rw [Arr.ofFn_get (by rw [Calc.vectors_rshape]; exact (inB_cons ..).2 ⟨k.2, hi⟩), Calc.vectors_get _ k.2 hi])⟩

theorem movesE {d : ℕ} : Moves fun rs (f : List ℕ → EuclideanSpace ℝ (Fin d)) =>
    .real (vectors rs fun i k => f i k) := fun rs f j z => by
  obtain ⟨g, h⟩ := movesV rs (fun i k => f i k) j z
  exact ⟨fun i => WithLp.toLp 2 (g i), h⟩

theorem movesCV {d : ℕ} : Moves fun rs (f : List ℕ → Fin d → ℂ) => .complex (vectors rs f) := fun rs f j z =>
  ⟨fun i k => if k.val :: i = j then f i k + z else f i k,
    congrArg Val.complex (vectors_ext (by rw [Arr.ofFn_rshape, Calc.vectors_rshape]) fun k i hi => by
      rw [Arr.ofFn_get (by rw [Calc.vectors_rshape]; exact (inB_cons ..).2 ⟨k.2, hi⟩), Calc.vectors_get _ k.2 hi])⟩

/-- Nudging an entry of the parameters of a batch gives the parameters of a batch. -/
def MovesLay {P N : Type} (nat : Layout P N) : Prop :=
  ∀ rs p q k j z, ∃ p' q', (nat rs p q).modify k (Val.nudge j z) = nat rs p' q'

section
variable {P A B G : Type} {a : List ℕ → (List ℕ → A) → Val} {b : List ℕ → (List ℕ → B) → Val}
  {g : List ℕ → (List ℕ → G) → Val}

theorem Moves.one (h : Moves a) : MovesLay (P := P) fun rs _ q => [a rs q] := fun rs p q k j z => by
  obtain ⟨u, hu⟩ := h rs q j z
  match k with
  | 0 => exact ⟨p, u, by simp [hu]⟩
  | k + 1 => exact ⟨p, q, by simp⟩

theorem Moves.two (h : Moves a) (h' : Moves b) : MovesLay (P := P) fun rs _ (q : List ℕ → A × B) =>
    [a rs fun i => (q i).1, b rs fun i => (q i).2] := fun rs p q k j z => by
  obtain ⟨u, hu⟩ := h rs (fun i => (q i).1) j z
  obtain ⟨v, hv⟩ := h' rs (fun i => (q i).2) j z
  match k with
  | 0 => exact ⟨p, fun i => (u i, (q i).2), by simp [hu]⟩
  | 1 => exact ⟨p, fun i => ((q i).1, v i), by simp [hv]⟩
  | k + 2 => exact ⟨p, q, by simp⟩

theorem Moves.three (h : Moves a) (h' : Moves b) (h'' : Moves g) :
    MovesLay (P := P) fun rs _ (q : List ℕ → A × B × G) =>
    [a rs fun i => (q i).1, b rs fun i => (q i).2.1, g rs fun i => (q i).2.2] := fun rs p q k j z => by
  obtain ⟨u, hu⟩ := h rs (fun i => (q i).1) j z
  obtain ⟨v, hv⟩ := h' rs (fun i => (q i).2.1) j z
  obtain ⟨w, hw⟩ := h'' rs (fun i => (q i).2.2) j z
  match k with
  | 0 => exact ⟨p, fun i => (u i, (q i).2), by simp [hu]⟩
  | 1 => exact ⟨p, fun i => ((q i).1, v i, (q i).2.2), by simp [hv]⟩
  | 2 => exact ⟨p, fun i => ((q i).1, (q i).2.1, w i), by simp [hw]⟩
  | k + 3 => exact ⟨p, q, by simp⟩

theorem Moves.both (h : Moves a) (h' : Moves b) : MovesLay fun rs (p : List ℕ → A) (q : List ℕ → B) =>
    [a rs p, b rs q] := fun rs p q k j z => by
  obtain ⟨u, hu⟩ := h rs p j z
  obtain ⟨v, hv⟩ := h' rs q j z
  match k with
  | 0 => exact ⟨u, q, by simp [hu]⟩
  | 1 => exact ⟨p, v, by simp [hv]⟩
  | k + 2 => exact ⟨p, q, by simp⟩

theorem Moves.both' (h : Moves b) (h' : Moves a) : MovesLay fun rs (p : List ℕ → A) (q : List ℕ → B) =>
    [b rs q, a rs p] := fun rs p q k j z => by
  obtain ⟨v, hv⟩ := h rs q j z
  obtain ⟨u, hu⟩ := h' rs p j z
  match k with
  | 0 => exact ⟨p, v, by simp [hv]⟩
  | 1 => exact ⟨u, q, by simp [hu]⟩
  | k + 2 => exact ⟨p, q, by simp⟩

end

theorem MovesLay.steady {P N E X : Type} {c c' : Cls} {nat : Layout P N} {exp : Layout P E} (l : MovesLay nat)
    {L : Library Cls} {F : P → ExpFam N E X} {m : NatMethods}
    {fixed : List ℕ → (List ℕ → P) → Dict String Val} {obs : List ℕ → (List ℕ → X) → Val → Prop}
    (hr : Refines m nat exp fixed obs F) (hm : L.nat c = some m) (hj : Cls.isJoint c = false)
    (he : Cls.expCls c = some c') : ∀ rs p q, Steady L (.mk c (nat rs p q) .nil) := by
  have hE : ∀ w : List Val, (Dist.mk c w .nil).toExp L.toExp =
      (m.toExp w).bind fun v => .ok (.mk c' v .nil) := fun w => by
    simp only [Dist.toExp, ClassTable.expCls, ClassTable.isJoint, he, hj, Library.toExp, hm]
    rfl
  intro rs p q path k i z
  refine .of_forall fun t => ?_
  cases path with
  | nil =>
    obtain ⟨p', q', h⟩ := l rs p q k i (t * z)
    rw [Dist.nudge, h, hE, hr.toExp rs p' q' fun _ _ => trivial]
    exact ⟨_, rfl⟩
  | cons n path =>
    rw [Dist.nudge, Subs.nudge, hE, hr.toExp rs p q fun _ _ => trivial]
    exact ⟨_, rfl⟩

end Efax
