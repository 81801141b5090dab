import Verif.Props.TestDetect
import Verif.Props.TestTangent

/-!
# A defect that one test overlooks and another finds (C86)
-/

namespace Efax

open Spec Tests ClassTable Calc Val

variable [MachEps] {solve : Solver} {search : Cls → List Val → Except Err (List Val)} {g : Rng}

/-- A wrong implementation: the expectation parameter of the exponential distribution is twice the mean, in both
directions. -/
noncomputable def doubled (L : Library Cls) : Library Cls where
  nat c := if c = .exponentialNP then some { Methods.exponentialNP with
    toExp := fun | [a] => vals [ofR (-2 / a.toR)] | _ => .error .typeError } else L.nat c
  exp c := if c = .exponentialEP then some { Methods.exponentialEP with
    toNat := fun _ => fun | [a] => vals [ofR (-2 / a.toR)] | _ => .error .typeError } else L.exp c
  hasEntropy := L.hasEntropy
  search := L.search

theorem doubled_toExp (L : Library Cls) (rs : List ℕ) (q : List ℕ → ℝ) :
    (Dist.mk Cls.exponentialNP [.real (scalars rs q)] .nil).toExp (doubled L).toExp =
      .ok (.mk .exponentialEP [.real (scalars rs fun i => -2 / q i)] .nil) := by
  have h : (doubled L).toExp .exponentialNP [.real (scalars rs q)] = .ok [.real (scalars rs fun i => -2 / q i)] := by
    change vals [ofR (-2 / (Val.real (scalars rs q)).toR)] = _
    simp only [toR_real]
    calc_simp
    rfl
  simp only [Dist.toExp]
  change (do let v ← (doubled L).toExp .exponentialNP [.real (scalars rs q)]; Except.ok (Dist.mk Cls.exponentialEP v .nil)) = _
  rw [h]
  rfl

theorem doubled_toNat (L : Library Cls) (rs : List ℕ) (q : List ℕ → ℝ) :
    (Dist.mk Cls.exponentialEP [.real (scalars rs q)] .nil).toNat (doubled L).toNat =
      .ok (.mk .exponentialNP [.real (scalars rs fun i => -2 / q i)] .nil) := by
  have h : (doubled L).toNat .exponentialEP [.real (scalars rs q)] = .ok [.real (scalars rs fun i => -2 / q i)] := by
    change vals [ofR (-2 / (Val.real (scalars rs q)).toR)] = _
    simp only [toR_real]
    calc_simp
    rfl
  simp only [Dist.toNat]
  change (do let v ← (doubled L).toNat .exponentialEP [.real (scalars rs q)]; Except.ok (Dist.mk Cls.exponentialNP v .nil)) = _
  rw [h]
  rfl

theorem doubled_tangent (hs : solve.For search) {q : List ℕ → ℝ} (hq : q [] < 0) :
    ¬ TangentHolds (doubled (library search)) (.mk .exponentialNP [.real (scalars [] q)] .nil) := by
  have hi : Sound (.simple .exponential 1) := rfl
  have hO := C51_library hs (sound_library (solve := solve) (.simple .exponential 1) hi).kind
  rintro ⟨v, a, χ, h4, h5, h6, h7⟩
  rw [doubled_toExp] at h6
  cases h6
  obtain ⟨l, hl, -⟩ := hO.infos [] (fun _ => ()) q []
  have h11 := (unitTangent_eq (hO.wfN [] (fun _ => ()) q) hl).symm.trans h4
  cases h11
  have h12 := hO.dotCalc [] (fun _ => ()) (fun _ => ()) (fun _ => (1 : ℝ)) fun i => -2 / q i
  have h13 : deriv (fun t : ℝ => -Real.log (-(q [] + t * 1))) 0 = 1 * (-2 / q []) := by
    refine Eq.trans ?_ (h7.trans (congrArg scalarOf h12))
    congr 1
  have h14 : HasDerivAt (fun t : ℝ => -Real.log (-(q [] + t * 1))) (-(-1 / -(q []))) 0 := by
    have := ((((hasDerivAt_id (0 : ℝ)).mul_const 1).const_add (q [])).neg.log (by simpa using hq.ne)).neg
    exact HasDerivAt.congr_deriv this (by simp)
  rw [h14.deriv, neg_div_neg_eq, ← neg_div, one_mul, div_left_inj' hq.ne] at h13
  norm_num at h13

/-- Non-vacuity of C86_detects: parameters that can be generated, for which an implementation is wrong. -/
example : ∃ q, Reachable (.simple .exponential 1) [] q ∧
    ¬ TangentHolds (doubled (library (searchFor zeroMinimizer))) q := by
  have h1 := MachEps.lt
  have e2 : -1 ≤ Ring.openMax (0 : ℝ) := by
    rw [Ring.openMax, zero_mul]
    exact le_min (by linarith) (by norm_num)
  refine ⟨.mk .exponentialNP [.real (scalars [] fun _ => -1)] .nil, ⟨?_, rfl, ⟨_, rfl, ⟨_, rfl, rfl, ?_⟩, trivial⟩, trivial⟩,
    doubled_tangent (C51_search zeroMinimizer_returns) (by norm_num)⟩
  · simp [WF, WFs, fields, isJoint, Cls.fields, Cls.isJoint, Subs.names]
  · intro i hi
    refine ⟨fun m hm => (by cases hm), fun M hM => ?_⟩
    cases hM
    refine ⟨?_, fun h => absurd rfl h⟩
    rw [show (scalars [] fun _ => (-1 : ℝ)).get i = -1 from Arr.ofFn_get hi]
    exact e2

/-- **C86 (limits of a test).** `test_conversion` only compares the two conversions with each other: for every generic
random stream it passes for an implementation in which the expectation parameter of the exponential distribution is twice
the mean.  `test_gradient_log_normalizer_jvp` fails for this implementation, for every generic random stream. -/
theorem C86_blind (hs : solve.For search) (hg : InRange g) (hz : NeverZero g) (hq : Generic g) (s : g.State) :
    (∃ s', testConversion (doubled (library search)) (.simple .exponential 1) g s = .ok s') ∧
    ∀ s', testJvp (doubled (library search)) (.simple .exponential 1) g s ≠ .ok s' := by
  have hi : Sound (.simple .exponential 1) := rfl
  have hO := C51_library hs (sound_library (solve := solve) (.simple .exponential 1) hi).kind
  have hg' : ∀ rs s, ∃ (q : List ℕ → ℝ) (s' : g.State), (TestInfo.simple .exponential 1).natParameters g rs s =
      .ok (.mk .exponentialNP [.real (scalars rs q)] .nil, s') ∧ ∀ i, inB rs i = true → q i < 0 := by
    intro rs s
    obtain ⟨p, q, s', h1, h2⟩ := C76_test_parameters (solve := solve) hi trivial hg hz hq rs s
    exact ⟨q, s', h1, fun i hi => (h2 i hi).2⟩
  constructor
  · refine times_ok (fun s => ?_) 10 s
    obtain ⟨q, s', h1, h2⟩ := hg' [4, 3] s
    refine ⟨s', (C86_rounds.1 _).2 ⟨_, h1, _, _, doubled_toExp _ _ _, doubled_toNat _ _ _, ?_, rfl⟩⟩
    refine (doubled_toExp _ _ _).trans ?_
    have e : (scalars [4, 3] fun i => -2 / (-2 / (-2 / q i))) = scalars [4, 3] fun i => -2 / q i :=
      congrArg (scalars [4, 3]) (funext fun i => by rw [div_div_cancel₀ (by norm_num)])
    rw [e]
  · intro s' h
    obtain ⟨f, qs, -, -, h2⟩ := (C86_loops.2.1 _ _ (.inl ⟨rfl, rfl⟩)).1 h
    obtain ⟨h3, v, a, χ, h4, h5, h6, h7⟩ := h2 0 (by decide)
    obtain ⟨q, s₁, h8, h9⟩ := hg' [] (f 0)
    have h10 := h8.symm.trans h3
    simp only [Except.ok.injEq, Prod.mk.injEq] at h10
    rw [← h10.1] at h4 h5 h6 h7
    exact doubled_tangent hs (h9 [] rfl) ⟨v, a, χ, h4, h5, h6, h7⟩

/-- Non-vacuity of C86_blind. -/
example : ∃ (g : Rng) (s s' : g.State), InRange g ∧ NeverZero g ∧ Generic g ∧
    testConversion (doubled (library (searchFor zeroMinimizer))) (.simple .exponential 1) g s = .ok s' ∧
    testJvp (doubled (library (searchFor zeroMinimizer))) (.simple .exponential 1) g s ≠ .ok s' := by
  obtain ⟨⟨s', h1⟩, h2⟩ := C86_blind (C51_search zeroMinimizer_returns) Samples.diagonal_inRange
    Samples.diagonal_neverZero Samples.diagonal_generic ()
  exact ⟨Samples.diagonal, (), s', Samples.diagonal_inRange, Samples.diagonal_neverZero, Samples.diagonal_generic, h1, h2 s'⟩

end Efax
