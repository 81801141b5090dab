import Verif.Spec.PriorMode
import Verif.Lemmas.Stationary
import Verif.Props.Batch.Prior
import Verif.Props.TestGradient
import Verif.Props.Oracle.Fixtures

/-!
# The tests of conjugate priors (C84)
-/

namespace Efax

open Spec Tests ClassTable Calc

variable [MachEps] {solve : Solver} {search : Cls → List Val → Except Err (List Val)} {g : Rng}

theorem callPrior_ok {table : Cls → Option (Methods.PriorMethod × Cls)} {c c' : Cls} {v w : List Val}
    {m : Methods.PriorMethod} {n : Val} (h : table c = some (m, c')) (hm : m v n = .ok w) :
    callPrior table (.mk c v .nil) n = .ok (.mk c' w .nil) := by
  simp only [callPrior, Dist.cls, Dist.vals, h, hm, Bind.bind, Except.bind]

/-- **C84.** Bernoulli. -/
theorem C84_bernoulli (hs : solve.For search) (rs : List ℕ) (χ n : List ℕ → ℝ)
    (h : ∀ i, inB rs i = true → χ i ∈ Set.Ioo (0 : ℝ) 1) :
    PriorStationary (library search) priorOf (.mk .bernoulliEP (layS rs (fun _ => ()) χ) .nil) (countS rs n) rs :=
  have hO := C51_library hs (.simple (solve := solve) .beta)
  ⟨_, .real (scalars rs χ), callPrior_ok rfl (C64_bernoulli rs (fun _ => ()) χ n), hO.shapeN rs (fun _ => ()) _, rfl,
    stationary_scalar (fun y => C51_pdf hO rs (fun _ => ()) _ y _ ⟨_, rfl, rfl⟩)
      fun i hi => beta_stationary (h i hi) (n i)⟩

/-- Non-vacuity of C84_bernoulli. -/
example : PriorStationary (library (searchFor zeroMinimizer)) priorOf
    (.mk .bernoulliEP (layS [2] (fun _ => ()) fun _ => 1 / 3) .nil) (countS [2] fun _ => 5) [2] :=
  C84_bernoulli (C51_search zeroMinimizer_returns) [2] (fun _ => 1 / 3) (fun _ => 5) fun _ _ => ⟨by norm_num, by norm_num⟩

/-- **C84.** Poisson. -/
theorem C84_poisson (hs : solve.For search) (rs : List ℕ) (χ n : List ℕ → ℝ)
    (h : ∀ i, inB rs i = true → 0 < χ i) :
    PriorStationary (library search) priorOf (.mk .poissonEP (layS rs (fun _ => ()) χ) .nil) (countS rs n) rs :=
  have hO := C51_library hs (.simple (solve := solve) .gamma)
  ⟨_, .real (scalars rs χ), callPrior_ok rfl (C64_poisson rs (fun _ => ()) χ n), hO.shapeN rs (fun _ => ()) _, rfl,
    stationary_scalar (fun y => C51_pdf hO rs (fun _ => ()) _ y _ ⟨_, rfl, rfl⟩)
      fun i hi => gamma_stationary (h i hi) (show -n i * χ i + n i * χ i = 0 by ring)⟩

/-- Non-vacuity of C84_poisson. -/
example : PriorStationary (library (searchFor zeroMinimizer)) priorOf
    (.mk .poissonEP (layS [2] (fun _ => ()) fun _ => 3) .nil) (countS [2] fun _ => 5) [2] :=
  C84_poisson (C51_search zeroMinimizer_returns) [2] (fun _ => 3) (fun _ => 5) fun _ _ => by norm_num

/-- **C84.** Exponential, although this prior is not conjugate (C38). -/
theorem C84_exponential (hs : solve.For search) (rs : List ℕ) (χ n : List ℕ → ℝ)
    (h : ∀ i, inB rs i = true → 0 < χ i) :
    PriorStationary (library search) priorOf (.mk .exponentialEP (layS rs (fun _ => ()) χ) .nil) (countS rs n) rs :=
  have hO := C51_library hs (.simple (solve := solve) .gamma)
  ⟨_, .real (scalars rs χ), callPrior_ok rfl (C64_exponential rs (fun _ => ()) χ n), hO.shapeN rs (fun _ => ()) _, rfl,
    stationary_scalar (fun y => C51_pdf hO rs (fun _ => ()) _ y _ ⟨_, rfl, rfl⟩)
      fun i hi => gamma_stationary (h i hi) (show -n i / χ i * χ i + n i = 0 by
        rw [div_mul_cancel₀ _ (h i hi).ne']; ring)⟩

/-- Non-vacuity of C84_exponential. -/
example : PriorStationary (library (searchFor zeroMinimizer)) priorOf
    (.mk .exponentialEP (layS [2] (fun _ => ()) fun _ => 3) .nil) (countS [2] fun _ => 5) [2] :=
  C84_exponential (C51_search zeroMinimizer_returns) [2] (fun _ => 3) (fun _ => 5) fun _ _ => by norm_num

/-- **C84.** Normal with unit variance. -/
theorem C84_unit_normal (hs : solve.For search) (rs : List ℕ) (χ n : List ℕ → ℝ) :
    PriorStationary (library search) priorOf (.mk .unitNormalEP (layS rs (fun _ => ()) χ) .nil) (countS rs n) rs :=
  have hO := C51_library hs (.simple (solve := solve) .normal)
  ⟨_, .real (scalars rs χ), callPrior_ok rfl (C64_unit_normal rs (fun _ => ()) χ n), hO.shapeN rs (fun _ => ()) _, rfl,
    stationary_scalar (fun y => C51_pdf hO rs (fun _ => ()) _ y _ ⟨_, rfl, rfl⟩)
      fun i _ => normal_stationary (show n i * χ i + 2 * (-0.5 * n i) * χ i = 0 by ring)⟩

/-- Non-vacuity of C84_unit_normal. -/
example : PriorStationary (library (searchFor zeroMinimizer)) priorOf
    (.mk .unitNormalEP (layS [2] (fun _ => ()) fun _ => -3) .nil) (countS [2] fun _ => 5) [2] :=
  C84_unit_normal (C51_search zeroMinimizer_returns) [2] (fun _ => -3) (fun _ => 5)

/-- **C84.** Multivariate normal with unit variance. -/
theorem C84_mv_unit (hs : solve.For search) (d : ℕ) (rs : List ℕ) (χ : List ℕ → Fin d → ℝ) (n : List ℕ → ℝ) :
    PriorStationary (library search) priorOf (.mk .mvUnitNormalEP (layV d rs (fun _ => ()) χ) .nil) (countS rs n) rs :=
  have hO := C51_library hs (.simple (solve := solve) (.mvIsotropic d))
  ⟨_, .real (vectors rs χ), callPrior_ok rfl (C64_mv_unit d rs (fun _ => ()) χ n), hO.shapeN rs (fun _ => ()) _, rfl,
    stationary_vector (fun y => C51_pdf hO rs (fun _ => ()) _ y _ ⟨_, rfl, rfl⟩)
      fun i _ k => isotropic_stationary (show n i * χ i k + 2 * (-0.5 * n i * 1) * χ i k = 0 by ring)⟩

/-- Non-vacuity of C84_mv_unit. -/
example : PriorStationary (library (searchFor zeroMinimizer)) priorOf
    (.mk .mvUnitNormalEP (layV 2 [3] (fun _ => ()) fun _ => ![1, -1]) .nil) (countS [3] fun _ => 5) [3] :=
  C84_mv_unit (C51_search zeroMinimizer_returns) 2 [3] (fun _ => ![1, -1]) (fun _ => 5)

/-- **C84.** Multivariate normal with fixed variance. -/
theorem C84_mv_fixed (hs : solve.For search) (d : ℕ) (rs : List ℕ) (p : List ℕ → ℝ) (χ : List ℕ → Fin d → ℝ) (n : List ℕ → ℝ) :
    PriorStationary (library search) priorOf (.mk .fixedVarianceNormalEP (layVFixed d rs p χ) .nil) (countS rs n) rs :=
  have hO := C51_library hs (.simple (solve := solve) (.mvIsotropic d))
  ⟨_, .real (vectors rs χ), callPrior_ok rfl (C64_mv_fixed d rs p χ n), hO.shapeN rs (fun _ => ()) _, rfl,
    stationary_vector (fun y => C51_pdf hO rs (fun _ => ()) _ y _ ⟨_, rfl, rfl⟩)
      fun i _ k => isotropic_stationary (show n i / p i * χ i k + 2 * (-0.5 * (n i / p i)) * χ i k = 0 by ring)⟩

/-- Non-vacuity of C84_mv_fixed. -/
example : PriorStationary (library (searchFor zeroMinimizer)) priorOf
    (.mk .fixedVarianceNormalEP (layVFixed 2 [3] (fun _ => 2) fun _ => ![1, -1]) .nil) (countS [3] fun _ => 5) [3] :=
  C84_mv_fixed (C51_search zeroMinimizer_returns) 2 [3] (fun _ => 2) (fun _ => ![1, -1]) (fun _ => 5)

/-- **C84.** The generalized prior for unit variance. -/
theorem C84_mv_unit_general (hs : solve.For search) (d : ℕ) (rs : List ℕ) (χ : List ℕ → Fin d → ℝ) (n : List ℕ → Fin d → ℝ) :
    PriorStationary (library search) generalPriorOf (.mk .mvUnitNormalEP (layV d rs (fun _ => ()) χ) .nil) (countV rs n) rs :=
  have hO := C51_library hs (.simple (solve := solve) (.mvDiagonal d))
  ⟨_, .real (vectors rs χ), callPrior_ok rfl (C64_mv_unit_general d rs (fun _ => ()) χ n), hO.shapeN rs (fun _ => ()) _, rfl,
    stationary_vector (fun y => C51_pdf hO rs (fun _ => ()) _ y _ ⟨_, rfl, rfl⟩)
      fun i _ k => diagonal_stationary (show n i k * χ i k + 2 * (-0.5 * n i k) * χ i k = 0 by ring)⟩

/-- Non-vacuity of C84_mv_unit_general. -/
example : PriorStationary (library (searchFor zeroMinimizer)) generalPriorOf
    (.mk .mvUnitNormalEP (layV 2 [3] (fun _ => ()) fun _ => ![1, -1]) .nil) (countV (d := 2) [3] fun _ _ => 5) [3] :=
  C84_mv_unit_general (C51_search zeroMinimizer_returns) 2 [3] (fun _ => ![1, -1]) (fun _ _ => 5)

/-- **C84.** The generalized prior for fixed variance. -/
theorem C84_mv_fixed_general (hs : solve.For search) (d : ℕ) (rs : List ℕ) (p : List ℕ → ℝ) (χ : List ℕ → Fin d → ℝ) (n : List ℕ → Fin d → ℝ) :
    PriorStationary (library search) generalPriorOf (.mk .fixedVarianceNormalEP (layVFixed d rs p χ) .nil) (countV rs n) rs :=
  have hO := C51_library hs (.simple (solve := solve) (.mvDiagonal d))
  ⟨_, .real (vectors rs χ), callPrior_ok rfl (C64_mv_fixed_general d rs p χ n), hO.shapeN rs (fun _ => ()) _, rfl,
    stationary_vector (fun y => C51_pdf hO rs (fun _ => ()) _ y _ ⟨_, rfl, rfl⟩)
      fun i _ k => diagonal_stationary (show n i k / p i * χ i k + 2 * (-0.5 * (n i k / p i)) * χ i k = 0 by ring)⟩

/-- Non-vacuity of C84_mv_fixed_general. -/
example : PriorStationary (library (searchFor zeroMinimizer)) generalPriorOf
    (.mk .fixedVarianceNormalEP (layVFixed 2 [3] (fun _ => 2) fun _ => ![1, -1]) .nil) (countV (d := 2) [3] fun _ _ => 5) [3] :=
  C84_mv_fixed_general (C51_search zeroMinimizer_returns) 2 [3] (fun _ => 2) (fun _ => ![1, -1]) (fun _ _ => 5)

/-- **C84.** Multinomial. -/
theorem C84_multinomial (hs : solve.For search) (d : ℕ) (rs : List ℕ) (χ : List ℕ → Fin (d + 1) → ℝ) (n : List ℕ → ℝ)
    (h : ∀ i, inB rs i = true → (∀ k, 0 < χ i k) ∧ ∑ k, χ i k < 1) :
    PriorStationary (library search) priorOf (.mk .multinomialEP (layV (d + 1) rs (fun _ => ()) χ) .nil) (countS rs n)
      rs :=
  have hO := C51_library hs (.simple (solve := solve) (.dirichlet (d + 1)))
  ⟨_, .real (vectors rs χ), callPrior_ok rfl (C64_multinomial d rs (fun _ => ()) χ n), hO.shapeN rs (fun _ => ()) _, rfl,
    stationary_vector (fun y => C51_pdf hO rs (fun _ => ()) _ y _ ⟨_, rfl, rfl⟩)
      fun i hi k => dirichlet_stationary ((h i hi).1 k) (h i hi).2 (n i)⟩

/-- Non-vacuity of C84_multinomial. -/
example : PriorStationary (library (searchFor zeroMinimizer)) priorOf
    (.mk .multinomialEP (layV 2 [3] (fun _ => ()) fun _ => ![1 / 4, 1 / 4]) .nil) (countS [3] fun _ => 5) [3] :=
  C84_multinomial (C51_search zeroMinimizer_returns) 1 [3] (fun _ => ![1 / 4, 1 / 4]) (fun _ => 5)
    fun _ _ => ⟨fun k => by fin_cases k <;> norm_num, by
      rw [Fin.sum_univ_two]
      norm_num⟩

/-! ### The tests -/

/-- What the body of the tests checks: it raises unless this holds. -/
theorem priorBody_iff {L : Library Cls} {table : Cls → Option (Methods.PriorMethod × Cls)} {p : Dist Cls} {n : Val}
    {shape : List ℕ} : priorBody L table p n shape = .ok () ↔ ∃ q x sh, callPrior table p n = .ok q ∧
      q.shape L = .ok sh ∧ p.shape L = .ok sh ∧ Methods.priorObservation p.vals = .ok x ∧ Stationary L q x shape := by
  constructor
  · intro h
    simp only [priorBody, Bind.bind, Except.bind, check] at h
    cases h1 : callPrior table p n with
    | error e => rw [h1] at h; exact absurd h (by simp)
    | ok q =>
      simp only [h1] at h
      cases h2 : q.shape L with
      | error e => rw [h2] at h; exact absurd h (by simp)
      | ok sh =>
        simp only [h2] at h
        cases h3 : p.shape L with
        | error e => rw [h3] at h; exact absurd h (by simp)
        | ok sh' =>
          simp only [h3] at h
          split_ifs at h with h4
          · cases h5 : Methods.priorObservation p.vals with
            | error e => rw [h5] at h; exact absurd h (by simp)
            | ok x =>
              simp only [h5] at h
              split_ifs at h with h6
              exact ⟨q, x, sh, rfl, h2, h4 ▸ rfl, rfl, h6⟩
  · rintro ⟨q, x, sh, h1, h2, h3, h4, h5⟩
    simp only [priorBody, h1, h2, h3, h4, Bind.bind, Except.bind, check_ok trivial, check_ok h5]

theorem stationary_body {L : Library Cls} {table : Cls → Option (Methods.PriorMethod × Cls)} {p : Dist Cls} {n : Val}
    {rs : List ℕ} (h : PriorStationary L table p n rs) (hp : p.shape L = .ok rs) : priorBody L table p n rs = .ok () := by
  obtain ⟨q, x, h1, h2, h3, h4⟩ := h
  exact priorBody_iff.2 ⟨q, x, rs, h1, h2, hp, h3, h4⟩

/-- **C84.** The tests pass exactly if the parameters have the method, the shapes agree, and the density of the prior
is stationary at the prior observation; this holds for any implementation of the methods of distributions. -/
theorem C84_detects {L : Library Cls} {info : TestInfo} {s s' : g.State} :
    (testPrior L info g s = .ok s' ↔ ∃ p q x sh, info.expParameters L g [3, 4] s = .ok (p, s') ∧
      hasConjugatePrior p.cls = true ∧ callPrior priorOf p (countS [3, 4] fun _ => 100) = .ok q ∧
      q.shape L = .ok sh ∧ p.shape L = .ok sh ∧ Methods.priorObservation p.vals = .ok x ∧ Stationary L q x [3, 4]) ∧
    (testGeneralPrior L info g s = .ok s' ↔ ∃ p d q x sh, info.expParameters L g [3, 4] s = .ok (p, s') ∧
      hasGeneralizedConjugatePrior p.cls = true ∧ p.cls.dimensions p.vals = .ok d ∧
      callPrior generalPriorOf p (countV (d := d) [3, 4] fun _ _ => 100) = .ok q ∧
      q.shape L = .ok sh ∧ p.shape L = .ok sh ∧ Methods.priorObservation p.vals = .ok x ∧ Stationary L q x [3, 4]) := by
  constructor
  · constructor
    · intro h
      simp only [testPrior, Bind.bind, Except.bind] at h
      cases h1 : info.expParameters L g [3, 4] s with
      | error e => rw [h1] at h; exact absurd h (by simp)
      | ok r =>
        obtain ⟨p, s''⟩ := r
        simp only [h1, check] at h
        split_ifs at h with h2
        · cases h3 : priorBody L priorOf p (.real (Arr.full [3, 4] 100)) [3, 4] with
          | error e => rw [h3] at h; exact absurd h (by simp)
          | ok u =>
            rw [h3] at h
            cases Except.ok.inj h
            obtain ⟨q, x, sh, h4⟩ := priorBody_iff.1 h3
            exact ⟨p, q, x, sh, rfl, h2, h4⟩
    · rintro ⟨p, q, x, sh, h1, h2, h3⟩
      have h4 : priorBody L priorOf p (.real (Arr.full [3, 4] 100)) [3, 4] = .ok () := priorBody_iff.2 ⟨q, x, sh, h3⟩
      simp only [testPrior, h1, Bind.bind, Except.bind, check_ok h2, h4]
  · have e : ∀ d, Val.real (Arr.full [d, 3, 4] (100 : ℝ)) = countV (d := d) [3, 4] fun _ _ => 100 := fun d =>
      congrArg Val.real (vectors_ext rfl fun k i hi => Arr.ofFn_get ((inB_cons ..).2 ⟨k.2, hi⟩))
    constructor
    · intro h
      simp only [testGeneralPrior, Bind.bind, Except.bind] at h
      cases h1 : info.expParameters L g [3, 4] s with
      | error e => rw [h1] at h; exact absurd h (by simp)
      | ok r =>
        obtain ⟨p, s''⟩ := r
        simp only [h1, check] at h
        split_ifs at h with h2
        · cases h5 : p.cls.dimensions p.vals with
          | error e => rw [h5] at h; exact absurd h (by simp)
          | ok d =>
            simp only [h5] at h
            cases h3 : priorBody L generalPriorOf p (.real (Arr.full [d, 3, 4] 100)) [3, 4] with
            | error e => rw [h3] at h; exact absurd h (by simp)
            | ok u =>
              rw [h3] at h
              cases Except.ok.inj h
              obtain ⟨q, x, sh, h4⟩ := priorBody_iff.1 h3
              rw [e] at h4
              exact ⟨p, d, q, x, sh, rfl, h2, h5, h4⟩
    · rintro ⟨p, d, q, x, sh, h1, h2, h5, h3⟩
      rw [← e] at h3
      simp only [testGeneralPrior, h1, Bind.bind, Except.bind, check_ok h2, h5]
      rw [priorBody_iff.2 ⟨q, x, sh, h3⟩]

/-- **C84.** Every class that the fixture of `test_conjugate_prior` selects, for all batch shapes, counts, and
parameters that belong to natural parameters in the domain. -/
theorem C84_selected (hs : solve.For search) {f : SimpleInfo} {d : ℕ} (hi : Sound (.simple f d))
    (hc : cpSelected (.simple f d) = true) {rs : List ℕ} {p : List ℕ → (settingOf solve (.simple f d)).1.P}
    {q : List ℕ → (settingOf solve (.simple f d)).1.N} (h : (settingOf solve (.simple f d)).2.Inside rs p q)
    (n : List ℕ → ℝ) : (settingOf solve (.simple f d)).2.closed ∧
      hasConjugatePrior ((settingOf solve (.simple f d)).1.exp rs p
        fun i => ((settingOf solve (.simple f d)).1.F (p i)).toExp (q i)).cls = true ∧
      PriorStationary (library search) priorOf ((settingOf solve (.simple f d)).1.exp rs p
        fun i => ((settingOf solve (.simple f d)).1.F (p i)).toExp (q i)) (countS rs n) rs := by
  cases f
  all_goals first
    | exact (Bool.false_ne_true hc).elim
    | refine ⟨trivial, rfl, ?_⟩
  · exact C84_bernoulli hs rs _ n fun i _ => (C31_bernoulli.1 (q i) trivial).1
  · exact C84_poisson hs rs _ n fun i _ => Real.exp_pos _
  · exact C84_unit_normal hs rs _ n
  · exact C84_mv_fixed hs d rs p _ n
  · exact C84_mv_unit hs d rs _ n
  · exact C84_exponential hs rs _ n fun i hi => (C31_exponential.1 (q i) (h i hi).2).1

/-- **C84.** The same for `test_generalized_conjugate_prior`. -/
theorem C84_selected_general (hs : solve.For search) {f : SimpleInfo} {d : ℕ} (hi : Sound (.simple f d))
    (hc : gcpSelected (.simple f d) = true) {rs : List ℕ} {p : List ℕ → (settingOf solve (.simple f d)).1.P}
    {q : List ℕ → (settingOf solve (.simple f d)).1.N} (n : List ℕ → Fin d → ℝ) :
    (settingOf solve (.simple f d)).2.closed ∧
      hasGeneralizedConjugatePrior ((settingOf solve (.simple f d)).1.exp rs p
        fun i => ((settingOf solve (.simple f d)).1.F (p i)).toExp (q i)).cls = true ∧
      Cls.dimensions ((settingOf solve (.simple f d)).1.exp rs p
        fun i => ((settingOf solve (.simple f d)).1.F (p i)).toExp (q i)).cls ((settingOf solve (.simple f d)).1.exp rs p
        fun i => ((settingOf solve (.simple f d)).1.F (p i)).toExp (q i)).vals = .ok d ∧
      PriorStationary (library search) generalPriorOf ((settingOf solve (.simple f d)).1.exp rs p
        fun i => ((settingOf solve (.simple f d)).1.F (p i)).toExp (q i)) (countV rs n) rs := by
  cases f
  all_goals first
    | exact (Bool.false_ne_true hc).elim
    | refine ⟨trivial, rfl, rfl, ?_⟩
  · exact C84_mv_fixed_general hs d rs p _ n
  · exact C84_mv_unit_general hs d rs _ n

/-- **C84.** `test_conjugate_prior` passes with exact arithmetic for every distribution that its fixture selects and
every generic random stream. -/
theorem C84_test (hs : solve.For search) {f : SimpleInfo} {d : ℕ} (hi : Sound (.simple f d))
    (hc : cpSelected (.simple f d) = true) (hg : InRange g) (hz : NeverZero g) (hq : Generic g) (s : g.State) :
    ∃ s', testPrior (library search) (.simple f d) g s = .ok s' := by
  obtain ⟨p, q, s', h1, h2⟩ := C76_test_parameters (solve := solve) hi trivial hg hz hq [3, 4] s
  have hS := sound_library (solve := solve) (.simple f d) hi
  obtain ⟨h3, h4, x, v, k1, k2, k3, k4⟩ := C84_selected hs hi hc h2 fun _ => 100
  have h5 := (closed_regular hS h3 (rs := [3, 4]) (p := p) (q := q)
    (χ := fun i => ((settingOf solve (.simple f d)).1.F (p i)).toExp (q i))).1
  exact ⟨s', C84_detects.1.2 ⟨_, x, v, [3, 4], C76_test_expectation hs hi h1 h5, h4, k1, k2,
    (C51_library hs hS.kind).shapeE _ _ _, k3, k4⟩⟩

/-- Non-vacuity of C84_test and of C84_detects. -/
example : ∀ s, ∃ s', testPrior (library (searchFor zeroMinimizer)) (.simple .bernoulli 1) Samples.diagonal s = .ok s' :=
  C84_test (C51_search zeroMinimizer_returns) (f := .bernoulli) (d := 1) rfl rfl Samples.diagonal_inRange
    Samples.diagonal_neverZero Samples.diagonal_generic

/-- **C84.** The same for `test_generalized_conjugate_prior`. -/
theorem C84_test_general (hs : solve.For search) {f : SimpleInfo} {d : ℕ} (hi : Sound (.simple f d))
    (hc : gcpSelected (.simple f d) = true) (hg : InRange g) (hz : NeverZero g) (hq : Generic g) (s : g.State) :
    ∃ s', testGeneralPrior (library search) (.simple f d) g s = .ok s' := by
  obtain ⟨p, q, s', h1, h2⟩ := C76_test_parameters (solve := solve) hi trivial hg hz hq [3, 4] s
  have hS := sound_library (solve := solve) (.simple f d) hi
  obtain ⟨h3, h4, hd, x, v, k1, k2, k3, k4⟩ := C84_selected_general hs hi hc (rs := [3, 4]) (p := p) (q := q)
    fun _ _ => 100
  have h5 := (closed_regular hS h3 (rs := [3, 4]) (p := p) (q := q)
    (χ := fun i => ((settingOf solve (.simple f d)).1.F (p i)).toExp (q i))).1
  exact ⟨s', C84_detects.2.2 ⟨_, d, x, v, [3, 4], C76_test_expectation hs hi h1 h5, h4, hd, k1, k2,
    (C51_library hs hS.kind).shapeE _ _ _, k3, k4⟩⟩

/-- Non-vacuity of C84_test_general. -/
example : ∀ s, ∃ s', testGeneralPrior (library (searchFor zeroMinimizer)) (.simple .mvFixed 2) Samples.diagonal s = .ok s' :=
  C84_test_general (C51_search zeroMinimizer_returns) (f := .mvFixed) (d := 2) (show 1 ≤ 2 by decide) rfl Samples.diagonal_inRange
    Samples.diagonal_neverZero Samples.diagonal_generic

/-- **C84.** All distributions of the test suite. -/
theorem C84_suite (hs : solve.For search) {info : TestInfo} (hi : info ∈ createInfos) (hg : InRange g)
    (hz : NeverZero g) (hq : Generic g) (s : g.State) :
    (cpSelected info = true → ∃ s', testPrior (library search) info g s = .ok s') ∧
    (gcpSelected info = true → ∃ s', testGeneralPrior (library search) info g s = .ok s') := by
  have h1 := (C75_infos info hi).1
  rcases info with ⟨f, d⟩ | ⟨infos⟩
  · exact ⟨fun hc => C84_test hs h1 hc hg hz hq s, fun hc => C84_test_general hs h1 hc hg hz hq s⟩
  · simp only [createInfos, List.mem_cons, TestInfo.joint.injEq, reduceCtorEq, List.not_mem_nil, or_false,
      false_or] at hi
    subst hi
    exact ⟨fun h => absurd h (by decide), fun h => absurd h (by decide)⟩

/-- Non-vacuity of C84_suite: some distributions are selected. -/
example : (createInfos.filter cpSelected).length = 6 ∧ (createInfos.filter gcpSelected).length = 2 := ⟨rfl, rfl⟩

/-- **C84 (violated).** The fixtures also select joint distributions of distributions with priors, for which the tests
fail: joint distributions have no conjugate prior. -/
theorem C84_joint_fails (hs : solve.For search) {infos : TestInfos} (hi : Sound (.joint infos))
    (hf : Shallow (.joint infos)) (hcl : (settingOf solve (.joint infos)).2.closed) (hg : InRange g)
    (hz : NeverZero g) (hq : Generic g) (s : g.State) :
    testPrior (library search) (.joint infos) g s = .error .assertionError ∧
    testGeneralPrior (library search) (.joint infos) g s = .error .assertionError := by
  obtain ⟨p, q, s', h1, h2⟩ := C76_test_parameters (solve := solve) hi hf hg hz hq [3, 4] s
  have hS := sound_library (solve := solve) (.joint infos) hi
  have h5 := (closed_regular hS hcl (rs := [3, 4]) (p := p) (q := q)
    (χ := fun i => ((settingOf solve (.joint infos)).1.F (p i)).toExp (q i))).1
  have h6 := C76_test_expectation hs hi h1 h5
  constructor
  · have h7 : check (hasConjugatePrior ((settingOf solve (.joint infos)).1.exp [3, 4] p
        fun i => ((settingOf solve (.joint infos)).1.F (p i)).toExp (q i)).cls = true) = .error .assertionError :=
      if_neg Bool.false_ne_true
    simp only [testPrior, h6, h7, Bind.bind, Except.bind]
  · have h7 : check (hasGeneralizedConjugatePrior ((settingOf solve (.joint infos)).1.exp [3, 4] p
        fun i => ((settingOf solve (.joint infos)).1.F (p i)).toExp (q i)).cls = true) = .error .assertionError :=
      if_neg Bool.false_ne_true
    simp only [testGeneralPrior, h6, h7, Bind.bind, Except.bind]

/-- Non-vacuity of C84_joint_fails: a joint distribution that the fixture selects. -/
example : cpSelected (.joint (.cons "a" (.simple .poisson 1) (.cons "b" (.simple .bernoulli 1) .nil))) = true ∧
    ∀ s, testPrior (library (searchFor zeroMinimizer))
      (.joint (.cons "a" (.simple .poisson 1) (.cons "b" (.simple .bernoulli 1) .nil))) Samples.diagonal s =
        .error .assertionError :=
  ⟨rfl, fun s => (C84_joint_fails (C51_search zeroMinimizer_returns)
    (infos := .cons "a" (.simple .poisson 1) (.cons "b" (.simple .bernoulli 1) .nil))
    ⟨⟨_, _, _, rfl⟩, by decide, rfl, rfl, trivial⟩ trivial ⟨trivial, trivial, trivial⟩ Samples.diagonal_inRange
    Samples.diagonal_neverZero Samples.diagonal_generic s).1⟩

end Efax
