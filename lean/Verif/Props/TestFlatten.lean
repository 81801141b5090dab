import Verif.Props.TestConversion
import Verif.Props.Flatten
import Verif.Lemmas.Strict

/-!
# The tests of flattening pass (C80)
-/

namespace Efax

open Spec Tests ClassTable Calc

variable [MachEps] {solve : Solver} {search : Cls → List Val → Except Err (List Val)} {g : Rng}

/-- **C80.** `test_raises` passes. -/
theorem C80_raises : testRaises = .ok () := by
  have hw : WF (.mk Cls.mvUnitNormalNP [.real (Arr.full [10] 0)] .nil) :=
    ⟨rfl, by simp [isJoint, Cls.isJoint], List.nodup_nil, trivial⟩
  have hd : dimensions Cls.mvUnitNormalNP [.real (Arr.full [10] 0)] = .ok 10 := rfl
  have hf : FitsAll true [] (.mk Cls.mvUnitNormalNP [.real (Arr.full [10] 0)] .nil) := by
    refine ⟨⟨10, hd, ⟨.vector Ring.realField, ?_, rfl, fun _ i _ => ⟨by simp, by simp⟩⟩, trivial⟩,
      trivial⟩
    exact Cls.adjust_eq (c := .mvUnitNormalNP) (f := ⟨_, .vector Ring.realField, false⟩)
      (by simp [Cls.fields]) _ (by simp)
  obtain ⟨fl, y, h1, h2⟩ := C01_flatten_unflatten_mapped hw hf
  have hn : flatSize (.mk Cls.mvUnitNormalNP [.real (Arr.full [10] 0)] .nil) = 10 := by
    simp [flatSize, flatSizes, hd, varFields, fields, Cls.fields, coords, Ring.realField]
  have h3 := C04_flattened_shape hw hf h1
  rw [hn] at h3
  have hs : ¬HasSingular (.mk Cls.mvUnitNormalNP [.real (Arr.full [10] 0)] .nil) := by
    simp [HasSingular, HasSingulars, varFields, fields, Cls.fields, Singular, Support.ring, Ring.realField]
  have h4 : ∀ n, n ≠ 10 → fl.unflatten (Arr.full [n] 0) = .error .valueError := fun n hn' => by
    rcases C05_wrong_length_rejected (y := Arr.full [n] 0) hw h1 rfl (by rwa [hn]) with h | h
    · exact h
    · exact absurd h.2.1 hs
  simp only [testRaises, h1, Bind.bind, Except.bind]
  rw [check_ok h3, check_ok (h4 5 (by norm_num)), check_ok (h4 12 (by norm_num))]

/-- **C80.** The natural parameters that the tests generate lie strictly inside their supports, for every
sound description and all random numbers that satisfy what holds with probability one. -/
theorem C80_strictly_inside {info : TestInfo} (hi : Sound info) (hf : Shallow info) (hg : InRange g) (hz : NeverZero g)
    (hs : Strict g) (rs : List ℕ) (s : g.State) :
    ∃ q s', info.natParameters g rs s = .ok (q, s') ∧ WF q ∧ FitsAll true rs q := by
  let solve : Solver := solverOf zeroMinimizer
  obtain ⟨p₀, q₀, h1, h2⟩ := info_inside (solve := solve) info hi
  have hS := sound_library (solve := solve) info hi
  have hL := (C75_structures (solve := solve) hi hf [] (fun _ => p₀) (fun _ => q₀)
    fun _ => ((settingOf solve info).1.F p₀).toExp q₀).1
  have hw := nat_wf (rs := []) hS (fun _ => p₀) (fun _ => q₀)
  have hc : AllClasses (fun c => (∃ k : Simple, k.cls = c) ∨ c = .jointN)
      ((settingOf solve info).1.nat [] (fun _ => p₀) (fun _ => q₀)) :=
    nat_allClasses (fun s => .inl ⟨s, rfl⟩) (.inr rfl) hS _ _
  have hc' : AllClasses (fun c => c ≠ Cls.vonMisesFisherEP)
      ((settingOf solve info).1.nat [] (fun _ => p₀) (fun _ => q₀)) :=
    nat_allClasses (fun s => by cases s <;> simp [Simple.cls]) (by simp) hS _ _
  obtain ⟨q, ps, s', a1, a2, a3, a4, a5, a6, a7, _⟩ := Dist.generate_ok hg (batch := rs)
    (base := []) hw hL (AllClasses.imp (fun c hc => Cls.classGenerates hc (fun _ _ _ _ _ => hz) rs) hc') [] s
  refine ⟨q, s', ?_, a2, fits_of_made hg hs hz a2 (SameTree.classes a3 hc) a5⟩
  change generateRandom info.natStructure g rs s = _
  simp only [generateRandom, a1, Bind.bind, Except.bind]
  rw [assemble_ok a2 ((infosOf_skel hL).trans (Dist.skel_same a3)) a7]

/-- **C80.** `test_flatten` passes for natural parameters. -/
theorem C80_flatten (L : Library Cls) {info : TestInfo} (hi : Sound info) (hf : Shallow info) (hg : InRange g)
    (hz : NeverZero g) (hs : Strict g) (s : g.State) : ∃ s', testFlatten L info g false s = .ok s' := by
  obtain ⟨q, s', h1, h2, h3⟩ := C80_strictly_inside hi hf hg hz hs [4, 3] s
  obtain ⟨fl, y, h4, h5⟩ := C01_flatten_unflatten_mapped h2 h3
  refine ⟨s', ?_⟩
  simp only [testFlatten, Bool.false_eq_true, if_false, h1, h4, Bind.bind, Except.bind]
  rw [check_ok h5]

/-- **C80.** `test_flatten` passes for expectation parameters that lie strictly inside their supports. -/
theorem C80_flatten_exp (hs : solve.For search) {info : TestInfo} (hi : Sound info) (hf : Shallow info) (hg : InRange g)
    (hz : NeverZero g) (hq : Generic g) (hb : Between solve info g [4, 3])
    (hx : ∀ s q s', info.expParameters (library search) g [4, 3] s = .ok (q, s') → FitsAll true [4, 3] q)
    (s : g.State) : ∃ s', testFlatten (library search) info g true s = .ok s' := by
  obtain ⟨p, q, s', h1, h2⟩ := C76_test_parameters (solve := solve) hi hf hg hz hq [4, 3] s
  have h3 := C76_test_expectation hs hi h1 (hb _ _ _ _ h1 h2)
  have hw := (C51_library hs (sound_library (solve := solve) info hi).kind).wfE [4, 3] p
    fun i => ((settingOf solve info).1.F (p i)).toExp (q i)
  obtain ⟨fl, y, h4, h5⟩ := C01_flatten_unflatten_mapped hw (hx _ _ _ h3)
  refine ⟨s', ?_⟩
  simp only [testFlatten, if_true, h3, h4, Bind.bind, Except.bind]
  rw [check_ok h5]

namespace Samples

theorem diagonal_term {ts : List ℕ} {s s' : Unit} {v : Val}
    (h : Ring.complexField.generate diagonal ts s = .ok (v, s')) :
    ∃ a, v = .complex a ∧ ∀ i, inB ts i = true → ∃ u : ℝ, 0 < u ∧ a.get i = u * (1 + Complex.I) := by
  obtain ⟨a, rfl, _, h⟩ := complexField_get h
  refine ⟨a, rfl, fun i hi => ?_⟩
  have h1 : ∀ s : Unit, (diagonal.normal ts s).1.get i = (diagonal.normal ts ()).1.get i := fun _ => rfl
  refine ⟨(diagonal.normal ts ()).1.get i, ?_, ?_⟩
  · refine lt_of_lt_of_eq ?_ (Arr.ofFn_get hi).symm
    split
    · split <;> norm_num
    · norm_num
  · refine (h i hi).trans ?_
    rw [h1, h1 (diagonal.normal ts s).2]
    ring

theorem diagonal_strict : Strict diagonal where
  exponential_pos rs _ i hi := by
    change 0 < (Arr.full rs (1 : ℝ)).get i
    rw [full_get hi]
    norm_num
  uniform_pos rs _ i hi := by
    change 0 < (Arr.full rs (1 / 2 : ℝ)).get i
    rw [full_get hi]
    norm_num
  hermitian d rs s s' a h i hi := by
    obtain ⟨k, i, rfl, hk, hi⟩ := inB_cons_elim hi
    obtain ⟨l, j, rfl, hl, hj⟩ := inB_cons_elim hi
    simp only [Support.generate, Support.symmetricGenerate, Bind.bind, Except.bind] at h
    cases hm : Ring.complexField.generate diagonal (d :: d :: rs) s with
    | error e => rw [hm] at h; cases h
    | ok r =>
      obtain ⟨m, s1⟩ := r
      rw [hm] at h
      obtain ⟨m, rfl, hm'⟩ := diagonal_term hm
      simp only [Bool.or_false, if_true, Bool.false_eq_true, if_false, Except.ok.injEq, Prod.mk.injEq,
        Val.complex.injEq] at h
      rw [← h.1, sandwich_get hk hl hj]
      have h1 : ∀ n ∈ Finset.range d, (m.get (n :: l :: j) * ((Ring.realGenerate none (some (Ring.openMax 0)) 1
          diagonal (d :: rs) s1).1.get (n :: j) : ℂ) * star (m.get (n :: k :: j))).re < 0 := fun n hn => by
        have hn := Finset.mem_range.1 hn
        obtain ⟨u, hu, h2⟩ := hm' (n :: l :: j) ((inB_cons ..).2 ⟨hn, (inB_cons ..).2 ⟨hl, hj⟩⟩)
        obtain ⟨w, hw, h3⟩ := hm' (n :: k :: j) ((inB_cons ..).2 ⟨hn, (inB_cons ..).2 ⟨hk, hj⟩⟩)
        have h4 := eig_neg diagonal_inRange d s1 hn hj
        have h5 : (u * (1 + Complex.I) * ((Ring.realGenerate none (some (Ring.openMax 0)) 1
            diagonal (d :: rs) s1).1.get (n :: j) : ℂ) * star (w * (1 + Complex.I) : ℂ)).re =
            2 * (u * w) * (Ring.realGenerate none (some (Ring.openMax 0)) 1 diagonal (d :: rs) s1).1.get (n :: j) := by
          simp
          ring
        rw [h2, h3, h5]
        exact mul_neg_of_pos_of_neg (by positivity) h4
      intro h0
      have h2 := congrArg Complex.re h0
      rw [Complex.re_sum] at h2
      exact absurd h2 (Finset.sum_neg h1 ⟨k, Finset.mem_range.2 hk⟩).ne

end Samples

/-- Non-vacuity of C80: a joint distribution with Hermitian matrices, a von Mises-Fisher distribution and a fixed
parameter. -/
example (L : Library Cls) : ∃ g : Rng, InRange g ∧ NeverZero g ∧ Strict g ∧ ∃ info : TestInfo, Sound info ∧
    Shallow info ∧ ∀ s, ∃ s', testFlatten L info g false s = .ok s' := by
  have h0 : Sound (.joint (.cons "m" (.simple .cmvCircular 3) (.cons "v" (.simple .vonMisesFisher 4)
      (.cons "w" (.simple .weibull 1) .nil)))) :=
    ⟨⟨_, _, _, rfl⟩, by decide, show 1 ≤ 3 by norm_num, show 2 ≤ 4 by norm_num, rfl, trivial⟩
  exact ⟨_, Samples.diagonal_inRange, Samples.diagonal_neverZero, Samples.diagonal_strict, _, h0, trivial,
    C80_flatten L h0 trivial Samples.diagonal_inRange Samples.diagonal_neverZero Samples.diagonal_strict⟩

/-- Non-vacuity of C80: the expectation parameters of normal distributions with unit variance. -/
example : ∀ s, ∃ s', testFlatten (library (searchFor zeroMinimizer)) (.simple .unitNormal 1) Samples.diagonal true s =
    .ok s' := by
  have hi : Sound (.simple .unitNormal 1) := rfl
  have hb : ∀ rs, Between (solverOf zeroMinimizer) (.simple .unitNormal 1) Samples.diagonal rs :=
    fun rs s s' p q h1 h2 => (cooperative_closed hi trivial rs s s' p q h1 h2).1
  refine C80_flatten_exp (C51_search zeroMinimizer_returns) hi trivial Samples.diagonal_inRange
    Samples.diagonal_neverZero Samples.diagonal_generic (hb _) fun s x s' h => ?_
  obtain ⟨p, q, s₁, h1, h2⟩ := C76_test_parameters (solve := solverOf zeroMinimizer) hi trivial
    Samples.diagonal_inRange Samples.diagonal_neverZero Samples.diagonal_generic [4, 3] s
  have h3 := C76_test_expectation (C51_search zeroMinimizer_returns) hi h1 (hb _ _ _ _ _ h1 h2)
  have h4 := (Prod.mk.inj (Except.ok.inj (h.symm.trans h3))).1
  subst h4
  refine ⟨⟨1, rfl, ⟨.scalar Ring.realField, ?_, rfl, fun _ i _ => ⟨by simp, by simp⟩⟩, trivial⟩, trivial⟩
  exact Cls.adjust_eq (c := .unitNormalEP) (f := ⟨_, .scalar Ring.realField, false⟩)
    (by simp [Cls.fields]) _ (by simp)

end Efax
