import Mathlib.Probability.Independence.InfinitePi
import Mathlib.Probability.Kernel.Representation
import Mathlib.MeasureTheory.Constructions.UnitInterval
import Verif.Props.EntryLaws
import Verif.Props.Scipy.Dirichlet

/-!
# Ideal random numbers exist

The hypotheses of C63 are satisfiable: on a product of unit intervals there are seeds, and functions of
the seeds with the documented laws.
-/

namespace Efax

open MeasureTheory ProbabilityTheory Spec Set Matrix

/-! ### The documented laws are probability measures -/

theorem law_probability {N E X : Type} [MeasurableSpace X] {F : ExpFam N E X} {μ : Measure X} {q : N}
    (h : (∀ x, 0 ≤ F.pdf q x) ∧ ∫ x, F.pdf q x ∂μ = 1) : IsProbabilityMeasure (law F μ q) := by
  constructor
  rw [law, withDensity_apply _ MeasurableSet.univ, Measure.restrict_univ,
    ← ofReal_integral_eq_lintegral_ofReal (integrable_of_integral_eq_one h.2) (ae_of_all _ h.1), h.2]
  simp

theorem probability_of_map {X Y : Type} [MeasurableSpace X] [MeasurableSpace Y] {μ : Measure X}
    {f : X → Y} (hf : Measurable f) (h : IsProbabilityMeasure (μ.map f)) : IsProbabilityMeasure μ := by
  constructor
  rw [← h.measure_univ, Measure.map_apply hf MeasurableSet.univ, preimage_univ]

theorem randomExponential_probability : IsProbabilityMeasure randomExponential := by
  have h := C46_exponential_nat (q := -1) (by norm_num)
  exact probability_of_map (f := fun e => -e / (-1)) (by fun_prop)
    (show IsProbabilityMeasure (exponentialSampleN (-1)) from
      h ▸ law_probability (exponential_regular.density _ (by norm_num)))

theorem randomGamma_probability {a : ℝ} (ha : 0 < a) : IsProbabilityMeasure (randomGamma a) := by
  have hq : ((-1, a - 1) : ℝ × ℝ) ∈ gammaDom := ⟨by norm_num, by simpa using ha⟩
  have h := C46_gamma_nat hq
  have e : gammaSampleN (-1, a - 1) = (randomGamma a).map fun g => -g / (-1) := by
    simp [gammaSampleN]
  exact probability_of_map (f := fun e => -e / (-1)) (by fun_prop)
    (e ▸ h ▸ law_probability (gamma_regular.density _ hq))

theorem randomChisquare_probability {a : ℝ} (ha : 0 < a) : IsProbabilityMeasure (randomChisquare a) := by
  have hq : -1 < a / 2 - 1 := by linarith
  have h := C46_chi_square hq
  have e : chiSquareSampleN (a / 2 - 1) = randomChisquare a := by
    rw [chiSquareSampleN]; congr 1; ring
  exact e ▸ h ▸ law_probability (chiSquare_regular.density _ hq)

theorem randomRayleigh_probability {a : ℝ} (ha : 0 < a) : IsProbabilityMeasure (randomRayleigh a) := by
  have hq : 0 < 2 * a ^ 2 := by positivity
  have h := C46_rayleigh_exp hq
  have e : rayleighSampleE (2 * a ^ 2) = randomRayleigh a := by
    rw [rayleighSampleE, show 0.5 * (2 * a ^ 2) = a ^ 2 by norm_num; ring, Real.sqrt_sq ha.le]
  exact e ▸ h ▸ law_probability (rayleigh_regular.density _ (C31_rayleigh.2 _ hq).1)

theorem randomWeibull_probability {s c : ℝ} (hs : 0 < s) (hc : 0 < c) :
    IsProbabilityMeasure (randomWeibull s c) := by
  have hq : 0 < s ^ c := by positivity
  have h := C46_weibull_exp hc hq
  have e : weibullSampleE c (s ^ c) = randomWeibull s c := by
    rw [weibullSampleE, ← Real.rpow_mul hs.le, mul_one_div_cancel hc.ne', Real.rpow_one]
  exact e ▸ h ▸ law_probability ((weibull_regular hc).density _ ((C31_weibull c).2 _ hq).1)

theorem randomDirichlet_probability {d : ℕ} {a : Fin (d + 1) → ℝ} (ha : ∀ i, 0 < a i) :
    IsProbabilityMeasure (randomDirichlet a) := by
  have hq : (fun i => a i - 1) ∈ dirichletDom (d + 1) := fun i => by simpa using ha i
  have h := C46_dirichlet hq
  have e : dirichletSampleN (fun i => a i - 1) = (randomDirichlet a).map fun x i => x i.castSucc := by
    simp [dirichletSampleN]
  exact probability_of_map (f := fun (x : Fin (d + 1) → ℝ) (i : Fin d) => x i.castSucc) (by fun_prop)
    (e ▸ h ▸ law_probability ((dirichlet_regular d).density _ hq))

theorem randomBernoulli_probability {p : ℝ} (h0 : 0 ≤ p) (h1 : p ≤ 1) :
    IsProbabilityMeasure (randomBernoulli p) := by
  constructor
  simp only [randomBernoulli, Measure.add_apply, Measure.smul_apply, measure_univ, smul_eq_mul, mul_one]
  rw [← ENNReal.ofReal_add h0 (by linarith)]
  simp

theorem sum_probability {w : ℕ → ℝ} (hw : ∀ k, 0 ≤ w k) (h : HasSum w 1) (f : ℕ → ℕ) :
    IsProbabilityMeasure (Measure.sum fun k => ENNReal.ofReal (w k) • Measure.dirac (f k)) := by
  constructor
  simp only [Measure.sum_apply _ MeasurableSet.univ, Measure.smul_apply, measure_univ, smul_eq_mul,
    mul_one]
  rw [← ENNReal.ofReal_tsum_of_nonneg hw h.summable, h.tsum_eq, ENNReal.ofReal_one]

theorem randomPoisson_probability {m : ℝ} (hm : 0 ≤ m) : IsProbabilityMeasure (randomPoisson m) := by
  refine sum_probability (fun k => by positivity) ?_ _
  have h : HasSum (fun k : ℕ => m ^ k / k.factorial) (Real.exp m) := by
    rw [Real.exp_eq_exp_ℝ]
    exact NormedSpace.expSeries_div_hasSum_exp m
  have h2 := h.mul_left (Real.exp (-m))
  rw [← Real.exp_add, neg_add_cancel, Real.exp_zero] at h2
  simpa only [mul_div_assoc] using h2

theorem randomGeometric_probability {p : ℝ} (h0 : 0 < p) (h1 : p ≤ 1) :
    IsProbabilityMeasure (randomGeometric p) := by
  refine sum_probability (fun k => mul_nonneg h0.le (pow_nonneg (by linarith) _)) ?_ _
  have h := (hasSum_geometric_of_lt_one (r := 1 - p) (by linarith) (by linarith)).mul_left p
  rwa [sub_sub_cancel, mul_inv_cancel₀ h0.ne'] at h

theorem randomCategorical_probability {k : ℕ} (a : Fin (k + 1) → ℝ) :
    IsProbabilityMeasure (randomCategorical a) := by
  constructor
  have hs : 0 < ∑ j, Real.exp (a j) := Finset.sum_pos (fun i _ => Real.exp_pos _) ⟨0, Finset.mem_univ _⟩
  simp only [randomCategorical, Measure.coe_finset_sum, Finset.sum_apply, Measure.smul_apply,
    measure_univ, smul_eq_mul, mul_one]
  rw [← ENNReal.ofReal_sum_of_nonneg fun i _ => by positivity, ← Finset.sum_div, div_self hs.ne']
  simp

/-! ### The stream -/

/-- Every probability measure is the law of a function of a seed. -/
theorem exists_law {Y : Type} [MeasurableSpace Y] [StandardBorelSpace Y] [Nonempty Y] {A : Type}
    (μ : A → Measure Y) (p : A → Prop) (h : ∀ a, p a → IsProbabilityMeasure (μ a)) :
    ∃ f : A → unitInterval → Y, ∀ a, p a → MeasurePreserving (f a) volume (μ a) := by
  have h' : ∀ a, ∃ f : unitInterval → Y, p a → MeasurePreserving f volume (μ a) := fun a => by
    by_cases ha : p a
    · have := h a ha
      obtain ⟨f, hf, he⟩ := Measure.exists_measurable_map_eq (μ a)
      exact ⟨f, fun _ => ⟨hf, he⟩⟩
    · exact ⟨fun _ => Classical.arbitrary _, fun h => absurd h ha⟩
  choose f hf using h'
  exact ⟨f, hf⟩

theorem exists_poisson : ∃ f : ℝ → unitInterval → ℕ,
    (Measurable fun mu : ℝ × unitInterval => f mu.1 mu.2) ∧
      ∀ m, 0 < m → MeasurePreserving (f m) volume (randomPoisson m) := by
  let κ : Kernel ℝ ℕ := ⟨fun m => randomPoisson (max m 0),
    measurable_randomPoisson.comp (by fun_prop)⟩
  have : IsMarkovKernel κ := ⟨fun m => randomPoisson_probability (le_max_right _ _)⟩
  obtain ⟨f, hf, he⟩ := Kernel.exists_measurable_map_eq_unitInterval κ
  refine ⟨f, hf, fun m hm => ⟨hf.comp measurable_prodMk_left, (he m).trans ?_⟩⟩
  show randomPoisson (max m 0) = _
  rw [max_eq_left hm.le]

/-- The seeds: one number in the unit interval for each key, shape and index. -/
abbrev SeedSpace := List (ℕ × ℕ) × List ℕ × List ℕ → unitInterval

/-- Ideal random numbers exist. -/
theorem idealRandom_exists : Nonempty (IdealRandom (List (ℕ × ℕ))
    (Measure.infinitePi fun _ : List (ℕ × ℕ) × List ℕ × List ℕ => (volume : Measure unitInterval))) := by
  obtain ⟨normal, hnormal⟩ := exists_law (fun _ : Unit => randomNormal) (fun _ => True) fun _ _ =>
    inferInstance
  obtain ⟨exponential, hexponential⟩ := exists_law (fun _ : Unit => randomExponential) (fun _ => True)
    fun _ _ => randomExponential_probability
  obtain ⟨gamma, hgamma⟩ := exists_law randomGamma (0 < ·) fun _ => randomGamma_probability
  obtain ⟨chisquare, hchisquare⟩ := exists_law randomChisquare (0 < ·) fun _ =>
    randomChisquare_probability
  obtain ⟨rayleigh, hrayleigh⟩ := exists_law randomRayleigh (0 < ·) fun _ => randomRayleigh_probability
  obtain ⟨weibull, hweibull⟩ := exists_law (fun a : ℝ × ℝ => randomWeibull a.1 a.2)
    (fun a => 0 < a.1 ∧ 0 < a.2) fun _ h => randomWeibull_probability h.1 h.2
  obtain ⟨beta, hbeta⟩ := exists_law (fun a : ℝ × ℝ => randomBeta a.1 a.2)
    (fun a => 0 < a.1 ∧ 0 < a.2) fun _ h => randomBeta_prob h.1 h.2
  obtain ⟨bernoulli, hbernoulli⟩ := exists_law randomBernoulli (fun p => 0 ≤ p ∧ p ≤ 1) fun _ h =>
    randomBernoulli_probability h.1 h.2
  obtain ⟨poisson, hpoisson, hpoisson'⟩ := exists_poisson
  obtain ⟨geometric, hgeometric⟩ := exists_law randomGeometric (fun p => 0 < p ∧ p ≤ 1) fun _ h =>
    randomGeometric_probability h.1 h.2
  choose dirichlet hdirichlet using fun n => exists_law (randomDirichlet (d := n))
    (fun a => ∀ i, 0 < a i) fun _ => randomDirichlet_probability
  choose categorical hcategorical using fun n => exists_law (randomCategorical (k := n + 1))
    (fun _ => True) fun a _ => randomCategorical_probability a
  choose factor hfactor using fun n => C46_factor_exists (ι := Fin n)
  exact ⟨{
    Seed := unitInterval
    ν := volume
    seed := fun ω key s i => ω (key, s, i)
    split := fun key n i => (n, i.val) :: key
    factor := factor
    normal := normal ()
    exponential := exponential ()
    gamma := gamma
    chisquare := chisquare
    rayleigh := rayleigh
    weibull := fun s c => weibull (s, c)
    beta := fun a b => beta (a, b)
    bernoulli := bernoulli
    poisson := poisson
    geometric := geometric
    dirichlet := dirichlet
    categorical := categorical
    seed_law := fun key s i _ => measurePreserving_eval_infinitePi _ _
    seed_indep := fun shapes => (iIndepFun_infinitePi (X := fun _ x => x) fun _ => measurable_id).precomp
      (g := fun e : (key : List (ℕ × ℕ)) × Idx (shapes key) => (e.1, shapes e.1, e.2.1)) fun a b h => by
        obtain ⟨k, i, hi⟩ := a
        obtain ⟨k', i', hi'⟩ := b
        simp only [Prod.mk.injEq] at h
        obtain ⟨rfl, _, rfl⟩ := h
        rfl
    split_injective := fun k n i k' n' i' h => by
      simp only [List.cons.injEq, Prod.mk.injEq] at h
      exact ⟨h.2, h.1⟩
    split_ne := fun k n i h => by simpa using congrArg List.length h
    factor_mul := fun n V hV => hfactor n V hV
    normal_law := hnormal () trivial
    exponential_law := hexponential () trivial
    gamma_law := hgamma
    chisquare_law := hchisquare
    rayleigh_law := hrayleigh
    weibull_law := fun s c hs hc => hweibull (s, c) ⟨hs, hc⟩
    beta_law := fun a b ha hb => hbeta (a, b) ⟨ha, hb⟩
    bernoulli_law := fun p h0 h1 => hbernoulli p ⟨h0, h1⟩
    poisson_law := hpoisson'
    poisson_measurable := hpoisson
    geometric_law := fun p h0 h1 => hgeometric p ⟨h0, h1⟩
    dirichlet_law := hdirichlet
    categorical_law := fun n a => hcategorical n a trivial }⟩

/-- Non-vacuity of C63: with `shape=(2,)`, a batch of three gamma distributions gives independent gamma
numbers. -/
example : ∃ (Ω : Type) (_ : MeasurableSpace Ω) (P : Measure Ω) (I : IdealRandom (List (ℕ × ℕ)) P)
    (y : Ω → List ℕ → ℝ),
    (∀ ω, Sampling.gammaNP (I.rng ω) (laySS [3] (fun _ => ()) fun i => (-1, i.sum)) [] (some [2]) =
      .ok (outR [3, 2] (y ω))) ∧
    iIndepFun (fun (j : Idx [3, 2]) ω => y ω j.1) P ∧
    MeasurePreserving (fun ω => y ω [2, 1]) P (law gamma positive (-1, 2)) := by
  obtain ⟨I⟩ := idealRandom_exists
  obtain ⟨y, h1, h2, h3⟩ := C63_gamma _ _ _ I [] (some [2]) [3] (fun _ => ()) (fun i => (-1, i.sum))
    fun i _ => ⟨by norm_num, by
      show (-1 : ℝ) < (i.sum : ℝ)
      have : (0 : ℝ) ≤ (i.sum : ℝ) := Nat.cast_nonneg _
      linarith⟩
  refine ⟨_, _, _, I, y, h1, h2, ?_⟩
  have h := h3 [2, 1] rfl
  simpa using h

/-- A joint distribution of three gamma and three Weibull distributions. -/
noncomputable def gammaWeibull : Subs Cls :=
  .cons "g" (.mk .gammaNP (laySS [3] (fun _ => ()) fun _ => (-1, 0)) .nil)
    (.cons "w" (.mk .weibullNP (layFixedS [3] (fun _ => 2) fun _ => -1) .nil) .nil)

/-- Non-vacuity of `C63_joint`. -/
example [MachEps] (search : Cls → List Val → Except Err (List Val)) :
    ∃ (Ω : Type) (_ : MeasurableSpace Ω) (P : Measure Ω) (I : IdealRandom (List (ℕ × ℕ)) P)
      (y : Fin 2 → Ω → List ℕ → ℝ),
      (∀ ω, ∃ r, Subs.sample search (I.rng ω) none gammaWeibull [] = .ok r ∧
        r.leaves [] = [(["g"], outR [3] (y 0 ω)), (["w"], outR [3] (y 1 ω))]) ∧
      iIndepFun (fun (e : (_ : Fin 2) × Idx [3]) ω => y e.1 ω e.2.1) P := by
  obtain ⟨I⟩ := idealRandom_exists
  have h : ∀ i : Fin 2, ReadsBatch (K := List (ℕ × ℕ))
      (fun rng => Cls.sample search rng ((partsThat Cls.isSamplable gammaWeibull).get i).2.cls)
      ((partsThat Cls.isSamplable gammaWeibull).get i).2.vals [3] outR
      (![fun _ => law gamma positive (-1, 0), fun _ => law (weibull 2) positive (-1)] i) oneBit := by
    intro i
    match i with
    | 0 => exact reads_gamma [3] (fun _ => ()) (fun _ => (-1, 0)) fun _ _ => ⟨by norm_num, by norm_num⟩
    | 1 => exact reads_weibull [3] (fun _ => 2) (fun _ => -1) fun _ _ => by norm_num
  obtain ⟨y, h1, h2, h3⟩ := C63_joint (s := gammaWeibull) (Y := fun _ => ℝ) (bits := fun _ => oneBit)
    h I [] none
  refine ⟨_, _, _, I, y, fun ω => ?_, h2⟩
  obtain ⟨r, hr, _, hl⟩ := h1 ω
  exact ⟨r, hr, hl⟩

end Efax
