import Mathlib.Analysis.Calculus.IteratedDeriv.Lemmas
import Mathlib.MeasureTheory.Measure.Lebesgue.EqHaar
import Verif.Model.Tests.Bodies9
import Verif.Props.EntropyGradient
import Verif.Props.Batch.Search
import Verif.Lemmas.Bisection
import Verif.Props.Families.Search
import Verif.Lemmas.ShapedArrays
import Verif.Props.EverySampler
import Verif.Props.TestDetect

/-!
# C92: the derivatives of samples with respect to the parameters
-/

namespace Efax

open Spec Calc Tests

variable [MachEps] {search : Cls → List Val → Except Err (List Val)} {K : Type} {rng : Random K}

/-- The flat vector of the distribution is `z`, and the flat sample of the distribution with the flat vector `w` is
`g w`. -/
def SampledBy (search : Cls → List Val → Except Err (List Val)) (rng : Random K) {m r : ℕ} (p : Dist Cls) (key : K)
    (z : Fin m → ℝ) (g : (Fin m → ℝ) → Fin r → ℝ) : Prop :=
  ∃ fl, flatten p true = .ok (fl, vectors [] fun _ => z) ∧ ∀ w : Fin m → ℝ,
    sampleUsingFlattened search rng fl key (vectors [] fun _ => w) = .ok (vectors [] fun _ => g w)

theorem unitAt_vectors {m : ℕ} (z : Fin m → ℝ) (j : Fin m) :
    unitAt (vectors [] fun _ => z) j = vectors [] fun _ => Pi.single j 1 := by
  refine Arr.ext rfl fun i hi => ?_
  have hi : inB [m] i = true := hi
  obtain ⟨k, i, rfl, hk, hi'⟩ := inB_cons_elim hi
  have e : i = [] := by
    cases i with
    | nil => rfl
    | cons a b => simp [inB] at hi'
  subst e
  rw [Calc.vectors_get _ hk hi']
  refine (Arr.ofFn_get hi).trans ?_
  simp only [List.cons.injEq, and_true, Pi.single_apply, Fin.ext_iff]

theorem SampledBy.derivative {m r : ℕ} {p : Dist Cls} {key : K} {z : Fin m → ℝ} {g : (Fin m → ℝ) → Fin r → ℝ}
    (h : SampledBy search rng p key z g) (order : ℕ) (j : Fin m) :
    sampleDerivative search rng order j p key =
      .ok (∑ k, iteratedDeriv order (fun t : ℝ => g (z + t • Pi.single j 1) k) 0) := by
  obtain ⟨fl, h1, h2⟩ := h
  simp only [sampleDerivative, h1, h2, unitAt_vectors, movedBy_vectors, Bind.bind, Except.bind, vectors_rshape,
    List.headD_cons]
  refine congrArg Except.ok ?_
  rw [Finset.sum_range]
  refine Finset.sum_congr rfl fun k _ => ?_
  refine congrArg (fun f => iteratedDeriv order f 0) (funext fun t => ?_)
  simp only [entryOf]
  rw [Calc.vectors_get _ k.2 rfl]

theorem mapM_ofFn_ok {α : Type} {n : ℕ} (x : Fin n → α) {f : α → Except Err ℝ} {v : Fin n → ℝ}
    (h : ∀ i, f (x i) = .ok (v i)) : (List.ofFn x).mapM f = .ok (List.ofFn v) := by
  induction n with
  | zero => simp [pure, Except.pure]
  | succ n ih =>
    rw [List.ofFn_succ, List.ofFn_succ, List.mapM_cons, h 0, ih (fun i => x i.succ) fun i => h i.succ]
    rfl

/-- **C92.** What `test_sampling_cotangents` decides: whether for each parameter of the flat vector, the sum over
the batch and over the entries of the samples of the first derivatives, or that of the second derivatives, is not
zero. -/
theorem C92_decides {n m r : ℕ} (hn : 0 < n) {p : Fin n → Dist Cls} {key : Fin n → K} {z : Fin n → Fin m → ℝ}
    {g : Fin n → (Fin m → ℝ) → Fin r → ℝ} (h : ∀ i, SampledBy search rng (p i) (key i) (z i) (g i)) :
    testSamplingCotangents search rng (List.ofFn fun i => (p i, key i)) = .ok () ↔
      ∀ j : Fin m, (∑ i, ∑ k, deriv (fun t : ℝ => g i (z i + t • Pi.single j 1) k) 0) ≠ 0 ∨
        (∑ i, ∑ k, deriv (deriv fun t : ℝ => g i (z i + t • Pi.single j 1) k) 0) ≠ 0 := by
  obtain ⟨n, rfl⟩ := Nat.exists_eq_succ_of_ne_zero hn.ne'
  have hd (order : ℕ) (j : Fin m) : sampleDerivatives search rng order j (List.ofFn fun i => (p i, key i)) =
      .ok (∑ i, ∑ k, iteratedDeriv order (fun t : ℝ => g i (z i + t • Pi.single j 1) k) 0) := by
    rw [sampleDerivatives, mapM_ofFn_ok _ fun i => (h i).derivative order j]
    simp only [Bind.bind, Except.bind, List.sum_ofFn]
  have h0 := (h 0)
  obtain ⟨fl, h0, -⟩ := h0
  rw [show testSamplingCotangents search rng (List.ofFn fun i => (p i, key i)) = (do
    let (_, y) ← flatten (p 0) true
    (List.range (y.rshape.headD 0)).forM fun j => do
      let jacobian ← sampleDerivatives search rng 1 j (List.ofFn fun i => (p i, key i))
      let curvature ← sampleDerivatives search rng 2 j (List.ofFn fun i => (p i, key i))
      check (jacobian ≠ 0 ∨ curvature ≠ 0)) by rw [List.ofFn_succ]; rfl, h0]
  change (List.range m).forM _ = _ ↔ _
  rw [forM_ok]
  have key (j : Fin m) : (do
      let jacobian ← sampleDerivatives search rng 1 j (List.ofFn fun i => (p i, key i))
      let curvature ← sampleDerivatives search rng 2 j (List.ofFn fun i => (p i, key i))
      check (jacobian ≠ 0 ∨ curvature ≠ 0)) = .ok () ↔
        (∑ i, ∑ k, deriv (fun t : ℝ => g i (z i + t • Pi.single j 1) k) 0) ≠ 0 ∨
        (∑ i, ∑ k, deriv (deriv fun t : ℝ => g i (z i + t • Pi.single j 1) k) 0) ≠ 0 := by
    rw [hd, hd]
    simp only [iteratedDeriv_succ, iteratedDeriv_zero]
    exact check_iff
  exact ⟨fun h j => (key j).1 (h j (List.mem_range.2 j.2)),
    fun h j hj => (key ⟨j, List.mem_range.1 hj⟩).2 (h _)⟩

/-! ### One parameter -/

theorem sampled_scalar {c : Cls} {name : String} {mn mx a b : Option ℝ} {s₁ s₂ x z : ℝ} {key : K}
    {f : ℝ → List ℕ → ℝ}
    (hf : Cls.fields c = [⟨name, .scalar (.real mn mx s₁), false⟩]) (hj : Cls.isJoint c = false)
    (ha : Cls.adjust c name [] = .ok (.scalar (.real mn mx s₁)))
    (hd : ∀ v, Cls.dimensions c [v] = .ok 1) (ho : Cls.domainSupport c = some (.scalar (.real a b s₂)))
    (hz : Ring.realFlat mn mx x = some z)
    (hs : ∀ v : ℝ, Cls.sample search rng c [.real (scalars [] fun _ => v)] key none =
      .ok (outR [] (f v))) :
    SampledBy search rng (.mk c [.real (scalars [] fun _ => x)] .nil) key (fun _ : Fin 1 => z)
      fun w (_ : Fin 1) => f (Ring.realUnflat mn mx (w 0)) [] := by
  refine ⟨flOf c 1, flatten_one hf ha (hd _) (flattened_scalar fun _ _ => hz), fun w => ?_⟩
  have hu : (flOf c 1).unflatten (vectors [] fun _ => w) =
      .ok (.mk c [.real (scalars [] fun _ => Ring.realUnflat mn mx (w 0))] .nil) :=
    unflatten_one hf hj ha rfl unflattened_scalar
  simp only [sampleUsingFlattened, hu, Bind.bind, Except.bind, Dist.sample, Dist.cls, Dist.vals, hs, ho,
    Support.flattened, outR, Val.newaxis, Ring.flattened]
  rw [scalars_nil]
  exact newaxis_scalars [] fun _ => _

theorem hasDerivAt_softplus (x : ℝ) : HasDerivAt softplus (expit x) x := by
  have h : (0 : ℝ) < 1 + Real.exp x := by positivity
  refine (((Real.hasDerivAt_exp x).const_add 1).log h.ne').congr_deriv ?_
  rw [expit, Real.exp_neg]
  field_simp
  ring

theorem expit_pos' (x : ℝ) : 0 < expit x := by unfold expit; positivity

/-- A batch of distributions with one parameter and one number in a sample. -/
theorem passes_one {n : ℕ} (hn : 0 < n) {p : Fin n → Dist Cls} {key : Fin n → K} {z : Fin n → ℝ}
    {f : Fin n → ℝ → ℝ} {D : Fin n → ℝ}
    (h : ∀ i, SampledBy search rng (p i) (key i) (fun _ : Fin 1 => z i) fun w (_ : Fin 1) => f i (w 0))
    (hD : ∀ i, HasDerivAt (f i) (D i) (z i)) (h0 : ∑ i, D i ≠ 0) :
    testSamplingCotangents search rng (List.ofFn fun i => (p i, key i)) = .ok () := by
  refine (C92_decides hn h).2 fun j => .inl ?_
  convert h0 using 2 with i
  rw [Finset.univ_unique, Finset.sum_singleton, Subsingleton.elim j 0]
  have : HasDerivAt (fun t : ℝ => f i (z i + t)) (D i) 0 := by
    have := hD i
    rw [← add_zero (z i)] at this
    exact this.comp_const_add (z i) 0
  simpa using this.deriv

variable {n : ℕ} {key : Fin n → K}

theorem sum_pos_of {e d : Fin n → ℝ} (h : ∀ i, 0 ≤ e i) (h' : ∃ i, 0 < e i) (hd : ∀ i, 0 < d i) :
    ∑ i, e i * d i ≠ 0 := by
  obtain ⟨i, hi⟩ := h'
  exact (Finset.sum_pos' (fun i _ => mul_nonneg (h i) (hd i).le) ⟨i, Finset.mem_univ i, mul_pos hi (hd i)⟩).ne'

theorem flat_min {m x : ℝ} (h : m < x) : ∃ z, Ring.realFlat (some m) none x = some z :=
  ⟨_, (Ring.realUnflat_realFlat (mn := some m) (mx := none) (x := x) (by simpa using h) (by simp)).choose_spec.1⟩

theorem flat_max {m x : ℝ} (h : x < m) : ∃ z, Ring.realFlat none (some m) x = some z :=
  ⟨_, (Ring.realUnflat_realFlat (mn := none) (mx := some m) (x := x) (by simp) (by simpa using h)).choose_spec.1⟩

theorem hasDerivAt_min (m z : ℝ) : HasDerivAt (Ring.realUnflat (some m) none) (expit z) z :=
  (hasDerivAt_softplus z).add_const m

theorem hasDerivAt_max (m z : ℝ) : HasDerivAt (Ring.realUnflat none (some m)) (expit (-z)) z := by
  have := ((hasDerivAt_softplus (-z)).comp z (hasDerivAt_neg z)).const_sub m
  exact this.congr_deriv (by ring)

theorem softplus_pos' (x : ℝ) : 0 < softplus x := Real.log_pos (by linarith [Real.exp_pos x])

theorem unflat_max_neg (z : ℝ) : Ring.realUnflat none (some (Ring.openMax 0)) z < 0 := by
  have := openMax_lt 0
  have := softplus_pos' (-z)
  simp only [Ring.realUnflat]
  linarith

theorem unflat_min_pos (z : ℝ) : 0 < Ring.realUnflat (some (Ring.openMin 0)) none z := by
  have := openMin_gt 0
  have := softplus_pos' z
  simp only [Ring.realUnflat]
  linarith

/-- **C92.** The test passes for every batch of exponential distributions, given by natural parameters within the
stored bound, as soon as one of the draws, which are not negative, is positive. -/
theorem C92_exponential_natural (hn : 0 < n) (η : Fin n → ℝ) (hη : ∀ i, η i < Ring.openMax 0)
    (h : ∀ i, 0 ≤ rng.exponential (key i) [] []) (h' : ∃ i, 0 < rng.exponential (key i) [] []) :
    testSamplingCotangents search rng (List.ofFn fun i =>
      (.mk .exponentialNP [.real (scalars [] fun _ => η i)] .nil, key i)) = .ok () := by
  choose z hz using fun i => flat_max (hη i)
  refine passes_one hn (z := z)
    (fun i => sampled_scalar (name := "negative_rate") (c := .exponentialNP) rfl rfl rfl (fun _ => rfl) rfl (hz i)
      fun v => C62_exponential rng (key i) none [] (fun _ => ()) (fun _ => v) fun _ _ => trivial)
    (fun i => ((hasDerivAt_const _ _).div (hasDerivAt_max _ (z i)) (unflat_max_neg _).ne)) ?_
  have := sum_pos_of h h' fun i => div_pos (expit_pos' (-z i)) (sq_pos_of_neg (unflat_max_neg (z i)))
  refine fun e => this (Eq.trans (Finset.sum_congr rfl fun i _ => ?_) e)
  change _ = (0 * _ - -rng.exponential (key i) [] [] * _) / _
  ring

/-- **C92.** The same for expectation parameters. -/
theorem C92_exponential_expectation (hn : 0 < n) (χ : Fin n → ℝ) (hχ : ∀ i, Ring.openMin 0 < χ i)
    (h : ∀ i, 0 ≤ rng.exponential (key i) [] []) (h' : ∃ i, 0 < rng.exponential (key i) [] []) :
    testSamplingCotangents search rng (List.ofFn fun i =>
      (.mk .exponentialEP [.real (scalars [] fun _ => χ i)] .nil, key i)) = .ok () := by
  choose z hz using fun i => flat_min (hχ i)
  exact passes_one hn (z := z)
    (fun i => sampled_scalar (name := "mean") (c := .exponentialEP) rfl rfl rfl (fun _ => rfl) rfl (hz i)
      fun v => C62_exponential_exp rng (key i) none [] (fun _ => ()) (fun _ => v) fun _ _ => trivial)
    (fun i => (hasDerivAt_min _ (z i)).const_mul _)
    (sum_pos_of h h' fun i => expit_pos' (z i))

/-- **C92.** The test passes for every batch of normal distributions of unit variance and all draws. -/
theorem C92_unit_normal_natural (hn : 0 < n) (η : Fin n → ℝ) :
    testSamplingCotangents search rng (List.ofFn fun i =>
      (.mk .unitNormalNP [.real (scalars [] fun _ => η i)] .nil, key i)) = .ok () :=
  passes_one hn (z := η)
    (fun i => sampled_scalar (name := "mean") (c := .unitNormalNP) rfl rfl rfl (fun _ => rfl) rfl rfl
      fun v => C62_unit_normal rng (key i) none [] (fun _ => ()) (fun _ => v) fun _ _ => trivial)
    (fun i => (hasDerivAt_id (η i)).const_add _) (by simp [hn.ne'])

/-- **C92.** The same for expectation parameters. -/
theorem C92_unit_normal_expectation (hn : 0 < n) (χ : Fin n → ℝ) :
    testSamplingCotangents search rng (List.ofFn fun i =>
      (.mk .unitNormalEP [.real (scalars [] fun _ => χ i)] .nil, key i)) = .ok () :=
  passes_one hn (z := χ)
    (fun i => sampled_scalar (name := "mean") (c := .unitNormalEP) rfl rfl rfl (fun _ => rfl) rfl rfl
      fun v => C62_unit_normal_exp (search .unitNormalEP) rng (key i) none [] (fun _ => ()) (fun _ => v) fun _ _ => trivial)
    (fun i => (hasDerivAt_id (χ i)).const_add _) (by simp [hn.ne'])

/-- **C92.** The test passes for every batch of Rayleigh distributions, if the draws are the scale times draws that
are not negative, one of which is positive. -/
theorem C92_rayleigh_natural (hn : 0 < n) (η : Fin n → ℝ) (hη : ∀ i, η i < Ring.openMax 0)
    (hr : ∀ i σ, rng.rayleigh (key i) [] [] σ = rng.rayleigh (key i) [] [] 1 * σ)
    (h : ∀ i, 0 ≤ rng.rayleigh (key i) [] [] 1) (h' : ∃ i, 0 < rng.rayleigh (key i) [] [] 1) :
    testSamplingCotangents search rng (List.ofFn fun i =>
      (.mk .rayleighNP [.real (scalars [] fun _ => η i)] .nil, key i)) = .ok () := by
  choose z hz using fun i => flat_max (hη i)
  have hu (i : Fin n) : 0 < -0.5 / Ring.realUnflat none (some (Ring.openMax 0)) (z i) :=
    div_pos_of_neg_of_neg (by norm_num) (unflat_max_neg _)
  refine passes_one hn (z := z) (f := fun i w => rng.rayleigh (key i) [] [] √(-0.5 /
      Ring.realUnflat none (some (Ring.openMax 0)) w))
    (fun i => sampled_scalar (name := "eta") (c := .rayleighNP) rfl rfl rfl (fun _ => rfl) rfl (hz i)
      fun v => C62_rayleigh rng (key i) none [] (fun _ => ()) (fun _ => v) fun _ _ => trivial)
    (D := fun i => rng.rayleigh (key i) [] [] 1 * (0.5 * expit (-z i) /
      Ring.realUnflat none (some (Ring.openMax 0)) (z i) ^ 2 / (2 * √(-0.5 /
      Ring.realUnflat none (some (Ring.openMax 0)) (z i)))))
    (fun i => ?_) (sum_pos_of h h' fun i => ?_)
  · simp only [hr i √_]
    refine HasDerivAt.const_mul _ ?_
    refine HasDerivAt.sqrt ?_ (hu i).ne'
    refine ((hasDerivAt_const _ _).div (hasDerivAt_max _ (z i)) (unflat_max_neg _).ne).congr_deriv ?_
    congr 1
    ring
  · have := expit_pos' (-z i)
    have := sq_pos_of_neg (unflat_max_neg (z i))
    have := Real.sqrt_pos.2 (hu i)
    positivity

/-- **C92.** The same for expectation parameters. -/
theorem C92_rayleigh_expectation (hn : 0 < n) (χ : Fin n → ℝ) (hχ : ∀ i, Ring.openMin 0 < χ i)
    (hr : ∀ i σ, rng.rayleigh (key i) [] [] σ = rng.rayleigh (key i) [] [] 1 * σ)
    (h : ∀ i, 0 ≤ rng.rayleigh (key i) [] [] 1) (h' : ∃ i, 0 < rng.rayleigh (key i) [] [] 1) :
    testSamplingCotangents search rng (List.ofFn fun i =>
      (.mk .rayleighEP [.real (scalars [] fun _ => χ i)] .nil, key i)) = .ok () := by
  choose z hz using fun i => flat_min (hχ i)
  have hu (i : Fin n) : 0 < 0.5 * Ring.realUnflat (some (Ring.openMin 0)) none (z i) :=
    mul_pos (by norm_num) (unflat_min_pos _)
  refine passes_one hn (z := z) (f := fun i w => rng.rayleigh (key i) [] [] √(0.5 *
      Ring.realUnflat (some (Ring.openMin 0)) none w))
    (fun i => sampled_scalar (name := "chi") (c := .rayleighEP) rfl rfl rfl (fun _ => rfl) rfl (hz i)
      fun v => C62_rayleigh_exp rng (key i) none [] (fun _ => ()) (fun _ => v) fun _ _ => trivial)
    (D := fun i => rng.rayleigh (key i) [] [] 1 * (0.5 * expit (z i) / (2 * √(0.5 *
      Ring.realUnflat (some (Ring.openMin 0)) none (z i)))))
    (fun i => ?_) (sum_pos_of h h' fun i => ?_)
  · simp only [hr i √_]
    exact (((hasDerivAt_min _ (z i)).const_mul _).sqrt (hu i).ne').const_mul _
  · have := expit_pos' (z i)
    have := Real.sqrt_pos.2 (hu i)
    positivity

/-! ### Vectors -/

theorem sampled_vector {c : Cls} {name : String} {a b : Option ℝ} {d : ℕ} {s₁ s₂ : ℝ} {key : K} {x : Fin d → ℝ}
    {f : (Fin d → ℝ) → List ℕ → Fin d → ℝ}
    (hf : Cls.fields c = [⟨name, .vector (.real none none s₁), false⟩]) (hj : Cls.isJoint c = false)
    (ha : Cls.adjust c name [] = .ok (.vector (.real none none s₁)))
    (hd : ∀ v : Fin d → ℝ, Cls.dimensions c [.real (vectors [] fun _ => v)] = .ok d)
    (ho : Cls.domainSupport c = some (.vector (.real a b s₂)))
    (hs : ∀ v : Fin d → ℝ, Cls.sample search rng c [.real (vectors [] fun _ => v)] key none =
      .ok (outV [] (f v))) :
    SampledBy search rng (.mk c [.real (vectors [] fun _ => x)] .nil) key x fun w => f w [] := by
  refine ⟨flOf c d, flatten_one hf ha (hd _) (flattened_vector fun _ _ _ => rfl), fun w => ?_⟩
  have hu : (flOf c d).unflatten (vectors [] fun _ => w) = .ok (.mk c [.real (vectors [] fun _ => w)] .nil) :=
    unflatten_one hf hj ha rfl unflattened_vector
  simp only [sampleUsingFlattened, hu, Bind.bind, Except.bind, Dist.sample, Dist.cls, Dist.vals, hs, ho,
    Support.flattened, outV, Ring.flattened]
  refine congrArg Except.ok (Arr.ext rfl fun i hi => ?_)
  have hi : inB [d] i = true := hi
  obtain ⟨k, i, rfl, hk, hi'⟩ := inB_cons_elim hi
  have e : i = [] := by
    cases i with
    | nil => rfl
    | cons a b => simp [inB] at hi'
  subst e
  rw [Calc.vectors_get _ hk hi', Calc.vectors_get _ hk hi']

theorem passes_location (hn : 0 < n) {d : ℕ} {p : Fin n → Dist Cls} {z : Fin n → Fin d → ℝ}
    {x : Fin n → Fin d → ℝ}
    (h : ∀ i, SampledBy search rng (p i) (key i) (z i) fun w k => x i k + w k) :
    testSamplingCotangents search rng (List.ofFn fun i => (p i, key i)) = .ok () := by
  refine (C92_decides hn h).2 fun j => .inl ?_
  have e (i : Fin n) (k : Fin d) :
      deriv (fun t : ℝ => x i k + (z i + t • (Pi.single j 1 : Fin d → ℝ)) k) 0 = (Pi.single j (1 : ℝ) : Fin d → ℝ) k := by
    have : HasDerivAt (fun t : ℝ => x i k + (z i k + t * (Pi.single j (1 : ℝ) : Fin d → ℝ) k))
        (1 * (Pi.single j (1 : ℝ) : Fin d → ℝ) k) 0 :=
      (((hasDerivAt_id (0 : ℝ)).mul_const _).const_add _).const_add _
    rw [one_mul] at this
    exact this.deriv
  simp only [e]
  simp [hn.ne']

/-- **C92.** The test passes for every batch of multivariate normal distributions of unit variance and all
draws. -/
theorem C92_mv_unit_natural (hn : 0 < n) {d : ℕ} (η : Fin n → Fin d → ℝ) :
    testSamplingCotangents search rng (List.ofFn fun i =>
      (.mk .mvUnitNormalNP [.real (vectors [] fun _ => η i)] .nil, key i)) = .ok () :=
  passes_location hn fun i => sampled_vector (name := "mean") (c := .mvUnitNormalNP) rfl rfl rfl (fun _ => rfl) rfl
    fun v => C62_mv_unit d rng (key i) none [] (fun _ => ()) (fun _ => v) fun _ _ => trivial

/-- **C92.** The same for expectation parameters. -/
theorem C92_mv_unit_expectation (hn : 0 < n) {d : ℕ} (χ : Fin n → Fin d → ℝ) :
    testSamplingCotangents search rng (List.ofFn fun i =>
      (.mk .mvUnitNormalEP [.real (vectors [] fun _ => χ i)] .nil, key i)) = .ok () :=
  passes_location hn fun i => sampled_vector (name := "mean") (c := .mvUnitNormalEP) rfl rfl rfl (fun _ => rfl) rfl
    fun v => C62_mv_unit_exp (search .mvUnitNormalEP) d rng (key i) none [] (fun _ => ()) (fun _ => v) fun _ _ => trivial

/-! ### Two parameters -/

theorem sampled_two {c : Cls} {n₁ n₂ : String} {mn₁ mx₁ mn₂ mx₂ a b : Option ℝ} {s₁ s₂ s₃ x₁ z₁ x₂ z₂ : ℝ}
    {key : K} {f : ℝ → ℝ → List ℕ → ℝ}
    (hf : Cls.fields c = [⟨n₁, .scalar (.real mn₁ mx₁ s₁), false⟩, ⟨n₂, .scalar (.real mn₂ mx₂ s₂), false⟩])
    (hj : Cls.isJoint c = false) (hne : n₁ ≠ n₂)
    (ha₁ : Cls.adjust c n₁ [] = .ok (.scalar (.real mn₁ mx₁ s₁)))
    (ha₂ : ∀ kw, Cls.adjust c n₂ kw = .ok (.scalar (.real mn₂ mx₂ s₂)))
    (hd : ∀ v w, Cls.dimensions c [v, w] = .ok 1) (ho : Cls.domainSupport c = some (.scalar (.real a b s₃)))
    (hz₁ : Ring.realFlat mn₁ mx₁ x₁ = some z₁) (hz₂ : Ring.realFlat mn₂ mx₂ x₂ = some z₂)
    (hs : ∀ v w : ℝ, Cls.sample search rng c [.real (scalars [] fun _ => v), .real (scalars [] fun _ => w)] key none =
      .ok (outR [] (f v w))) :
    SampledBy search rng (.mk c [.real (scalars [] fun _ => x₁), .real (scalars [] fun _ => x₂)] .nil) key
      (Fin.append (fun _ : Fin 1 => z₁) fun _ : Fin 1 => z₂)
      fun w (_ : Fin 1) => f (Ring.realUnflat mn₁ mx₁ (w 0)) (Ring.realUnflat mn₂ mx₂ (w 1)) [] := by
  refine ⟨flOf c 1, flatten_two hf hne ha₁ ha₂ (hd _ _) (flattened_scalar fun _ _ => hz₁)
    (flattened_scalar fun _ _ => hz₂), fun w => ?_⟩
  have hu : (flOf c 1).unflatten (vectors [] fun _ => w) =
      .ok (.mk c [.real (scalars [] fun _ => Ring.realUnflat mn₁ mx₁ (w 0)),
        .real (scalars [] fun _ => Ring.realUnflat mn₂ mx₂ (w 1))] .nil) := by
    have e : w = Fin.append (fun _ : Fin 1 => w 0) fun _ : Fin 1 => w 1 := by
      funext i; fin_cases i <;> rfl
    rw [show (vectors [] fun _ => w) = vectors [] fun _ => Fin.append (fun _ : Fin 1 => w 0) fun _ : Fin 1 => w 1
      from congrArg (fun w => vectors [] fun _ => w) e]
    exact unflatten_two hf hj hne ha₁ ha₂ rfl rfl (unflattened_scalar (z := fun _ _ => w 0))
      (unflattened_scalar (z := fun _ _ => w 1))
  simp only [sampleUsingFlattened, hu, Bind.bind, Except.bind, Dist.sample, Dist.cls, Dist.vals, hs, ho,
    Support.flattened, outR, Val.newaxis, Ring.flattened]
  rw [scalars_nil]
  exact newaxis_scalars [] fun _ => _

/-- A batch of distributions with two parameters and one number in a sample. -/
theorem passes_two (hn : 0 < n) {p : Fin n → Dist Cls} {z₁ z₂ : Fin n → ℝ}
    {f : Fin n → ℝ → ℝ → ℝ} {D₁ D₂ : Fin n → ℝ}
    (h : ∀ i, SampledBy search rng (p i) (key i) (Fin.append (fun _ : Fin 1 => z₁ i) fun _ : Fin 1 => z₂ i)
      fun w (_ : Fin 1) => f i (w 0) (w 1))
    (hD₁ : ∀ i, HasDerivAt (fun t => f i t (z₂ i)) (D₁ i) (z₁ i))
    (hD₂ : ∀ i, HasDerivAt (f i (z₁ i)) (D₂ i) (z₂ i)) (h₁ : ∑ i, D₁ i ≠ 0) (h₂ : ∑ i, D₂ i ≠ 0) :
    testSamplingCotangents search rng (List.ofFn fun i => (p i, key i)) = .ok () := by
  refine (C92_decides hn h).2 fun j => .inl ?_
  match j with
  | 0 =>
    convert h₁ using 2 with i
    rw [Finset.univ_unique, Finset.sum_singleton]
    have : HasDerivAt (fun t : ℝ => f i (z₁ i + t) (z₂ i)) (D₁ i) 0 := by
      have := hD₁ i
      rw [← add_zero (z₁ i)] at this
      exact this.comp_const_add (z₁ i) 0
    rw [← this.deriv]
    congr 1
    funext t
    have e0 : (Fin.append (fun _ : Fin 1 => z₁ i) (fun _ : Fin 1 => z₂ i) + t • (Pi.single 0 1 : Fin (1 + 1) → ℝ)) 0 =
      z₁ i + t := by
      change z₁ i + t * 1 = _
      rw [mul_one]
    have e1 : (Fin.append (fun _ : Fin 1 => z₁ i) (fun _ : Fin 1 => z₂ i) + t • (Pi.single 0 1 : Fin (1 + 1) → ℝ)) 1 =
      z₂ i := by
      change z₂ i + t * 0 = _
      rw [mul_zero, add_zero]
    rw [e0, e1]
  | 1 =>
    convert h₂ using 2 with i
    rw [Finset.univ_unique, Finset.sum_singleton]
    have : HasDerivAt (fun t : ℝ => f i (z₁ i) (z₂ i + t)) (D₂ i) 0 := by
      have := hD₂ i
      rw [← add_zero (z₂ i)] at this
      exact this.comp_const_add (z₂ i) 0
    rw [← this.deriv]
    congr 1
    funext t
    have e0 : (Fin.append (fun _ : Fin 1 => z₁ i) (fun _ : Fin 1 => z₂ i) + t • (Pi.single 1 1 : Fin (1 + 1) → ℝ)) 0 =
      z₁ i := by
      change z₁ i + t * 0 = _
      rw [mul_zero, add_zero]
    have e1 : (Fin.append (fun _ : Fin 1 => z₁ i) (fun _ : Fin 1 => z₂ i) + t • (Pi.single 1 1 : Fin (1 + 1) → ℝ)) 1 =
      z₂ i + t := by
      change z₂ i + t * 1 = _
      rw [mul_one]
    rw [e0, e1]

open MeasureTheory in
/-- A linear equation that is not trivial holds for almost no draws. -/
theorem ae_linear {c : Fin n → ℝ} (b : ℝ) (hc : ∃ i, c i ≠ 0) : ∀ᵐ x : Fin n → ℝ, ∑ i, x i * c i ≠ b := by
  classical
  let s : AffineSubspace ℝ (Fin n → ℝ) := {
    carrier := {x | ∑ i, x i * c i = b}
    smul_vsub_vadd_mem' := fun t p q r hp hq hr => by
      simp only [Set.mem_setOf_eq, vsub_eq_sub, vadd_eq_add, Pi.add_apply, Pi.smul_apply, Pi.sub_apply,
        smul_eq_mul] at hp hq hr ⊢
      have : ∀ i, (t * (p i - q i) + r i) * c i = t * (p i * c i) - t * (q i * c i) + r i * c i := fun i => by ring
      simp only [this, Finset.sum_add_distrib, Finset.sum_sub_distrib, ← Finset.mul_sum, hp, hq, hr]
      ring }
  have hs : s ≠ ⊤ := fun e => by
    obtain ⟨i, hi⟩ := hc
    have h0 : (0 : Fin n → ℝ) ∈ s := e ▸ AffineSubspace.mem_top ..
    have h1 : (Pi.single i 1 : Fin n → ℝ) ∈ s := e ▸ AffineSubspace.mem_top ..
    have h0 : ∑ i, (0 : Fin n → ℝ) i * c i = b := h0
    have h1 : ∑ k, (Pi.single i 1 : Fin n → ℝ) k * c k = b := h1
    simp [Pi.single_apply] at h0 h1
    exact hi (h1.trans h0.symm)
  have := Measure.addHaar_affineSubspace volume s hs
  filter_upwards [compl_mem_ae_iff.2 this] with x hx using hx

open MeasureTheory in
/-- **C92.** The test passes for every batch of normal distributions, given by expectation parameters within the
stored bounds, and almost all draws. -/
theorem C92_normal_expectation (hn : 0 < n) (m s : Fin n → ℝ) (hs : ∀ i, Ring.openMin 0 < s i)
    (hv : ∀ i, m i ^ 2 < s i) : ∀ᵐ x : Fin n → ℝ, ∀ (rng : Random K) (key : Fin n → K),
    (∀ i, rng.normal (key i) [] [] = x i) → testSamplingCotangents search rng (List.ofFn fun i =>
      (.mk .normalEP [.real (scalars [] fun _ => m i), .real (scalars [] fun _ => s i)] .nil, key i)) = .ok () := by
  choose z hz using fun i => flat_min (hs i)
  have hu (i) : Ring.realUnflat (some (Ring.openMin 0)) none (z i) = s i := by
    obtain ⟨y, h1, h2⟩ := Ring.realUnflat_realFlat (mn := some (Ring.openMin 0)) (mx := none) (x := s i)
      (by simpa using hs i) (by simp)
    rw [hz i] at h1
    cases h1
    exact h2
  have hp (i) : 0 < s i - m i ^ 2 := sub_pos.2 (hv i)
  have h2 : ∀ᵐ x : Fin n → ℝ, ∑ i, x i * (expit (z i) / (2 * √(s i - m i ^ 2))) ≠ 0 :=
    ae_linear 0 ⟨⟨0, hn⟩, by
      have := expit_pos' (z ⟨0, hn⟩)
      have := Real.sqrt_pos.2 (hp ⟨0, hn⟩)
      positivity⟩
  have h1 : ∀ᵐ x : Fin n → ℝ, ∑ i, (x i * (-(2 * m i) / (2 * √(s i - m i ^ 2))) + 1) ≠ 0 := by
    by_cases hm : ∃ i, -(2 * m i) / (2 * √(s i - m i ^ 2)) ≠ 0
    · filter_upwards [ae_linear (-(n : ℝ)) hm] with x hx e
      refine hx ?_
      simp only [Finset.sum_add_distrib, Finset.sum_const, Finset.card_univ, Fintype.card_fin, nsmul_eq_mul,
        mul_one] at e
      linarith
    · push_neg at hm
      refine .of_forall fun x => ?_
      simp [hm, hn.ne']
  filter_upwards [h1, h2] with x h1 h2 rng key hx
  refine passes_two hn (z₁ := m) (z₂ := z)
    (f := fun i a b => rng.normal (key i) [] [] * √(Ring.realUnflat (some (Ring.openMin 0)) none b - a ^ 2) + a)
    (fun i => sampled_two (n₁ := "mean") (n₂ := "second_moment") (c := .normalEP) rfl rfl (by decide) rfl
      (fun _ => rfl) (fun _ _ => rfl) rfl rfl (hz i)
      fun v w => C62_normal_exp rng (key i) none [] (fun _ => ()) (fun _ => (v, w)) fun _ _ => trivial)
    (fun i => ?_) (fun i => ?_) h1 h2
  · have h : HasDerivAt (fun t : ℝ => s i - t ^ 2) (-(2 * m i)) (m i) := by
      simpa using (hasDerivAt_pow 2 (m i)).const_sub (s i)
    have := ((h.sqrt (hp i).ne').const_mul (x i)).add (hasDerivAt_id (m i))
    refine this.congr_of_eventuallyEq (.of_forall fun t => ?_)
    simp only [hu, ← hx i]
    rfl
  · have h := (hasDerivAt_min (Ring.openMin 0) (z i)).sub_const (m i ^ 2)
    have := ((h.sqrt (by rw [hu]; exact (hp i).ne')).const_mul (x i)).add_const (m i)
    simp only [hu] at this
    refine this.congr_of_eventuallyEq (.of_forall fun t => ?_)
    simp only [← hx i]

open MeasureTheory in
/-- **C92.** The same for natural parameters. -/
theorem C92_normal_natural (hn : 0 < n) (q r : Fin n → ℝ) (hr : ∀ i, r i < Ring.openMax 0) :
    ∀ᵐ x : Fin n → ℝ, ∀ (rng : Random K) (key : Fin n → K),
    (∀ i, rng.normal (key i) [] [] = x i) → testSamplingCotangents search rng (List.ofFn fun i =>
      (.mk .normalNP [.real (scalars [] fun _ => q i), .real (scalars [] fun _ => r i)] .nil, key i)) = .ok () := by
  choose z hz using fun i => flat_max (hr i)
  have hu (i) : Ring.realUnflat none (some (Ring.openMax 0)) (z i) = r i := by
    obtain ⟨y, h1, h2⟩ := Ring.realUnflat_realFlat (mn := none) (mx := some (Ring.openMax 0)) (x := r i)
      (by simp) (by simpa using hr i)
    rw [hz i] at h1
    cases h1
    exact h2
  have hr (i) : r i < 0 := hu i ▸ unflat_max_neg (z i)
  have hv (i) : 0 < -0.5 / r i := div_pos_of_neg_of_neg (by norm_num) (hr i)
  have h2 : ∀ᵐ x : Fin n → ℝ, ∑ i, (x i * (0.5 * expit (-z i) / r i ^ 2 / (2 * √(-0.5 / r i))) +
      q i * 2 * expit (-z i) / (2 * r i) ^ 2) ≠ 0 := by
    filter_upwards [ae_linear (c := fun i => 0.5 * expit (-z i) / r i ^ 2 / (2 * √(-0.5 / r i)))
      (-∑ i, q i * 2 * expit (-z i) / (2 * r i) ^ 2) ⟨⟨0, hn⟩, by
      have := expit_pos' (-z ⟨0, hn⟩)
      have := Real.sqrt_pos.2 (hv ⟨0, hn⟩)
      have := sq_pos_of_neg (hr ⟨0, hn⟩)
      positivity⟩] with x hx e
    refine hx ?_
    rw [Finset.sum_add_distrib] at e
    linarith
  filter_upwards [h2] with x h2 rng key hx
  have hvar (a b : ℝ) : (normalNatToVar (a, b)).2 = -0.5 / b := by
    simp only [normalNatToVar, normalToVar, normalVariance, normal]
    ring
  refine passes_two hn (z₁ := q) (z₂ := z) (D₁ := fun i => -1 / (2 * r i))
    (f := fun i a b => rng.normal (key i) [] [] *
      √((normalNatToVar (a, Ring.realUnflat none (some (Ring.openMax 0)) b)).2) +
      -a / (2 * Ring.realUnflat none (some (Ring.openMax 0)) b))
    (fun i => sampled_two (n₁ := "mean_times_precision") (n₂ := "negative_half_precision") (c := .normalNP) rfl rfl
      (by decide) rfl (fun _ => rfl) (fun _ _ => rfl) rfl rfl (hz i)
      fun v w => C62_normal rng (key i) none [] (fun _ => ()) (fun _ => (v, w)) fun _ _ => trivial)
    (fun i => ?_) (fun i => ?_) ?_ h2
  · have := ((hasDerivAt_neg (q i)).div_const (2 * r i)).const_add (x i * √(-0.5 / r i))
    refine this.congr_of_eventuallyEq (.of_forall fun t => ?_)
    simp only [hu, ← hx i, drawNormal, hvar]
  · have h := (hasDerivAt_max (Ring.openMax 0) (z i))
    have h1 := ((hasDerivAt_const (z i) (-0.5 : ℝ)).div h (unflat_max_neg _).ne).sqrt
      (by rw [Pi.div_apply, hu]; exact (hv i).ne')
    have h2 := (hasDerivAt_const (z i) (-q i)).div (h.const_mul 2)
      (mul_ne_zero two_ne_zero (unflat_max_neg (z i)).ne)
    have := (h1.const_mul (x i)).add h2
    simp only [hu, Pi.div_apply] at this
    refine (this.congr_of_eventuallyEq (.of_forall fun t => ?_)).congr_deriv ?_
    · simp only [← hx i, drawNormal, hvar]
      rfl
    · congr 1 <;> ring
  · refine (Finset.sum_pos (fun i _ => div_pos_of_neg_of_neg (by norm_num) ?_) ⟨⟨0, hn⟩, Finset.mem_univ _⟩).ne'
    linarith [hr i]

/-- **C92.** What the test is for: if a parameter never changes the samples, the test fails. -/
theorem C92_detects (hn : 0 < n) {m r : ℕ} {p : Fin n → Dist Cls} {z : Fin n → Fin m → ℝ}
    {g : Fin n → (Fin m → ℝ) → Fin r → ℝ} (h : ∀ i, SampledBy search rng (p i) (key i) (z i) (g i)) (j : Fin m)
    (hj : ∀ i w t, g i (Function.update w j t) = g i w) :
    testSamplingCotangents search rng (List.ofFn fun i => (p i, key i)) ≠ .ok () := by
  rw [Ne, C92_decides hn h]
  intro H
  have e (i : Fin n) (t : ℝ) : g i (z i + t • Pi.single j 1) = g i (z i) := by
    rw [← hj i (z i) (z i j + t)]
    congr 1
    funext k
    by_cases hk : k = j
    · subst hk; simp
    · simp [hk]
  simpa [e] using H j

/-- **C92.** The draws excluded above exist: if all the draws are zero, no sample depends on the second moment, and
the test fails. -/
theorem C92_normal_zero (hn : 0 < n) (m s : Fin n → ℝ) (hs : ∀ i, Ring.openMin 0 < s i)
    (hx : ∀ i, rng.normal (key i) [] [] = 0) : testSamplingCotangents search rng (List.ofFn fun i =>
      (.mk .normalEP [.real (scalars [] fun _ => m i), .real (scalars [] fun _ => s i)] .nil, key i)) ≠ .ok () := by
  choose z hz using fun i => flat_min (hs i)
  have h (i : Fin n) : SampledBy search rng
      (.mk .normalEP [.real (scalars [] fun _ => m i), .real (scalars [] fun _ => s i)] .nil) (key i)
      (Fin.append (fun _ : Fin 1 => m i) fun _ : Fin 1 => z i) fun w (_ : Fin 1) => rng.normal (key i) [] [] *
        √(Ring.realUnflat (some (Ring.openMin 0)) none (w 1) - w 0 ^ 2) + w 0 :=
    sampled_two (n₁ := "mean") (n₂ := "second_moment") (c := .normalEP) rfl rfl (by decide) rfl
      (fun _ => rfl) (fun _ _ => rfl) rfl rfl (hz i)
      fun v w => C62_normal_exp rng (key i) none [] (fun _ => ()) (fun _ => (v, w)) fun _ _ => trivial
  refine C92_detects hn h 1 fun i w t => ?_
  funext _
  rw [hx i, zero_mul, zero_mul, Function.update_of_ne (by decide)]

/-! ### The hypotheses can be met -/

section NonVacuous

/-- Every draw is `x`, or `x` times the scale. -/
private noncomputable def constant (x : ℝ) : Random Unit where
  split _ _ _ := ()
  normal _ _ _ := x
  exponential _ _ _ := x
  gamma _ _ _ _ := x
  chisquare _ _ _ _ := x
  rayleigh _ _ _ σ := x * σ
  weibull _ _ _ _ _ := x
  beta _ _ _ _ _ := x
  bernoulli _ _ _ _ := true
  poisson _ _ _ _ := 0
  geometric _ _ _ _ := 1
  dirichlet _ _ _ _ _ _ := x
  categorical _ _ _ _ _ := 0
  factor _ _ := 0

example : testSamplingCotangents search (constant 1) (List.ofFn fun i : Fin 23 =>
    (.mk .exponentialNP [.real (scalars [] fun _ => Ring.openMax 0 - 1)] .nil, ())) = .ok () :=
  C92_exponential_natural (by norm_num) _ (fun _ => by linarith) (fun _ => zero_le_one) ⟨0, zero_lt_one⟩

example : testSamplingCotangents search (constant 1) (List.ofFn fun i : Fin 23 =>
    (.mk .exponentialEP [.real (scalars [] fun _ => Ring.openMin 0 + 1)] .nil, ())) = .ok () :=
  C92_exponential_expectation (by norm_num) _ (fun _ => by linarith) (fun _ => zero_le_one) ⟨0, zero_lt_one⟩

example : testSamplingCotangents search (constant 1) (List.ofFn fun i : Fin 23 =>
    (.mk .rayleighNP [.real (scalars [] fun _ => Ring.openMax 0 - 1)] .nil, ())) = .ok () :=
  C92_rayleigh_natural (by norm_num) _ (fun _ => by linarith) (fun _ _ => by simp [constant])
    (fun _ => by simp [constant]) ⟨0, by simp [constant]⟩

example : testSamplingCotangents search (constant 1) (List.ofFn fun i : Fin 23 =>
    (.mk .rayleighEP [.real (scalars [] fun _ => Ring.openMin 0 + 1)] .nil, ())) = .ok () :=
  C92_rayleigh_expectation (by norm_num) _ (fun _ => by linarith) (fun _ _ => by simp [constant])
    (fun _ => by simp [constant]) ⟨0, by simp [constant]⟩

example : testSamplingCotangents search (constant 0) (List.ofFn fun i : Fin 23 =>
    (.mk .unitNormalNP [.real (scalars [] fun _ => (i : ℝ))] .nil, ())) = .ok () :=
  C92_unit_normal_natural (by norm_num) _

example : testSamplingCotangents search (constant 0) (List.ofFn fun i : Fin 23 =>
    (.mk .mvUnitNormalNP [.real (vectors [] fun _ (k : Fin 5) => (i * k : ℝ))] .nil, ())) = .ok () :=
  C92_mv_unit_natural (by norm_num) _

/-- Some draws of each batch of normal distributions make the test pass, and draws of zero make it fail. -/
example (m s : Fin 23 → ℝ) (hs : ∀ i, Ring.openMin 0 < s i) (hv : ∀ i, m i ^ 2 < s i) :
    (∃ x : Fin 23 → ℝ, ∀ (rng : Random K) (key : Fin 23 → K),
      (∀ i, rng.normal (key i) [] [] = x i) → testSamplingCotangents search rng (List.ofFn fun i =>
        (.mk .normalEP [.real (scalars [] fun _ => m i), .real (scalars [] fun _ => s i)] .nil, key i)) = .ok ()) ∧
    testSamplingCotangents search (constant 0) (List.ofFn fun i =>
      (.mk .normalEP [.real (scalars [] fun _ => m i), .real (scalars [] fun _ => s i)] .nil, ())) ≠ .ok () :=
  ⟨(C92_normal_expectation (by norm_num) m s hs hv).exists, C92_normal_zero (by norm_num) m s hs fun _ => rfl⟩

example : (∀ _ : Fin 23, Ring.openMin 0 < Ring.openMin 0 + 1) ∧ (∀ _ : Fin 23, (0 : ℝ) ^ 2 < Ring.openMin 0 + 1) :=
  ⟨fun _ => by linarith, fun _ => by have := openMin_gt 0; norm_num; linarith⟩

example : ∃ x : Fin 23 → ℝ, ∀ (rng : Random K) (key : Fin 23 → K),
    (∀ i, rng.normal (key i) [] [] = x i) → testSamplingCotangents search rng (List.ofFn fun i : Fin 23 =>
      (.mk .normalNP [.real (scalars [] fun _ => (i : ℝ)), .real (scalars [] fun _ => Ring.openMax 0 - 1)] .nil,
        key i)) = .ok () :=
  (C92_normal_natural (by norm_num) _ _ fun _ => by linarith).exists

end NonVacuous

end Efax
