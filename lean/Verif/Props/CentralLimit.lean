import Verif.Lemmas.CentralLimit
import Verif.Lemmas.SampleEstimate
import Verif.Props.CramerRao

/-!
# C102: the errors of estimates are asymptotically normal, and their variance is the Fisher information
-/

namespace Efax

open MeasureTheory ProbabilityTheory Spec Calc Filter Topology Set

/-- Statistics in a direction that changes the distribution are not constant. -/
theorem Spec.LocallyRegular.variance_pos {N E X : Type} [AddCommGroup N] [Module ℝ N] [MeasurableSpace X]
    {F : ExpFam N E X} {μ : Measure X} {dirs : Submodule ℝ N} (M : Minimal F μ dirs)
    {q v : N} (hv : v ∈ dirs) (hne : v ≠ 0) {c σ : ℝ}
    (hσ : HasMean μ (F.pdf q) (fun x => (F.dot v (F.stat x) - c) ^ 2) σ) : 0 < σ := by
  have h0 : ∀ x, 0 ≤ (F.dot v (F.stat x) - c) ^ 2 * F.pdf q x := fun x =>
    mul_nonneg (sq_nonneg _) (F.pdf_pos _ _).le
  refine lt_of_le_of_ne (hσ.2 ▸ integral_nonneg h0) fun e => hne (M v hv c ?_)
  have := (integral_eq_zero_iff_of_nonneg h0 hσ.1).1 (hσ.2.trans e.symm)
  filter_upwards [this] with x hx
  have hx : (F.dot v (F.stat x) - c) ^ 2 * F.pdf q x = 0 := hx
  rcases mul_eq_zero.1 hx with h | h
  · linarith [pow_eq_zero_iff (two_ne_zero) |>.1 h]
  · exact absurd h (F.pdf_pos _ _).ne'

theorem Spec.Setting.Lawful.variance_pos {C : Type} {K : Kind C} {S : Setting K} (h : S.Lawful) {p : K.P}
    (hp : S.ok p) {q v : K.N} (hv : v ∈ S.dirs) (hne : S.line q v 1 ≠ q) {c σ : ℝ} : letI := S.ms
    HasMean S.μ ((K.F p).pdf q) (fun x => ((K.F p).dot v ((K.F p).stat x) - c) ^ 2) σ → 0 < σ := by
  have h4 := h.minimal p hp
  obtain ⟨G, M, MS, μ, ok, dom, dirs, closed⟩ := S
  refine fun hσ => LocallyRegular.variance_pos h4 hv (fun e => hne ?_) hσ
  show q + (1 : ℝ) • v = q
  rw [e, smul_zero, add_zero]

variable [MachEps] {solve : Solver} {search : Cls → List Val → Except Err (List Val)}

/-- **C102.** Let `σ` be the second derivative of `log_normalizer` in a direction `v` in which the parameters
change, `c` the expectation of the statistics in this direction, and `R` the estimate of `c` by the recipe for maximum
likelihood estimation from `n` observations.  The distribution function of `√n (R - c)` converges to that of the
normal distribution with mean 0 and variance `σ`, which is positive. -/
theorem C102_normal (hs : solve.For search) {K : Kind Cls} {S : Setting K} (hK : LibrarySetting solve K S)
    {rs : List ℕ} {p : List ℕ → K.P} {q v : List ℕ → K.N} (hq : S.Inside rs p q)
    (hv : ∀ i, inB rs i = true → v i ∈ S.dirs) :
    ∃ (l : ℝ → ℝ → List ℕ → ℝ) (σ : List ℕ → ℝ),
      (∀ t r : ℝ, (K.nat rs p fun i => S.line (S.line (q i) (v i) t) (v i) r).logNormalizer (library search) =
        ok (scalars rs (l t r))) ∧
      ∀ i, inB rs i = true →
        HasDerivAt (fun t => deriv (fun r => l t r i) 0) (σ i) 0 ∧
        (S.line (q i) (v i) 1 ≠ q i → 0 < σ i ∧
          ∃ f c, Component (library search) S rs (K.nat rs p q) (K.nat rs p v) i f c ∧
          ∀ z : ℝ, ∃ P : List ℕ → ℝ,
            (∀ ss : List ℕ, (∀ n ∈ ss, 0 < n) → ∃ R : (box ss → K.X) → ℝ,
              RecipeIs (library search) K rs ss p v i R ∧
              Expects S f ({y | √ss.prod * (R y - c) ≤ z}.indicator 1) (P ss)) ∧
            ∀ ε > 0, ∃ n₀ : ℕ, ∀ ss : List ℕ, (∀ n ∈ ss, 0 < n) → n₀ ≤ ss.prod →
              |P ss - ∫ x in Iic z, Real.exp (-x ^ 2 / (2 * σ i)) / √(2 * Real.pi * σ i)| < ε) := by
  let := S.ms
  have h := C51_library hs hK.kind
  have hL := library_lawful hK
  have := hL.sigma
  have hc : ∀ i, ∃ σ, inB rs i = true →
      HasCov S.μ ((K.F (p i)).pdf (q i)) (fun x => (K.F (p i)).dot (v i) ((K.F (p i)).stat x))
        (fun x => (K.F (p i)).dot (v i) ((K.F (p i)).stat x)) σ ∧
      HasDerivAt (fun t => deriv (fun s => (K.F (p i)).logNormalizer
        (S.line (S.line (q i) (v i) t) (v i) s)) 0) σ 0 := fun i => by
    by_cases hi : inB rs i = true
    · obtain ⟨σ, hσ⟩ := hL.fisher (hq i hi).1 (hq i hi).2 (hv i hi) (hv i hi)
      exact ⟨σ, fun _ => hσ⟩
    · exact ⟨0, fun h => absurd h hi⟩
  choose σ hσ using hc
  refine ⟨_, σ, fun t r => h.logNormalizer _ _ _, fun i hi => ⟨(hσ i hi).2, fun hne => ?_⟩⟩
  have hm := hL.mean (hq i hi).1 (hq i hi).2 (hv i hi)
  have hd := hL.density (hq i hi).1 (hq i hi).2
  have h3 : HasMean S.μ ((K.F (p i)).pdf (q i)) (fun x => ((K.F (p i)).dot (v i) ((K.F (p i)).stat x) -
      (K.F (p i)).dot (v i) ((K.F (p i)).toExp (q i))) ^ 2) (σ i) := by
    obtain ⟨a, b, h1, h2, h3⟩ := (hσ i hi).1
    obtain rfl := h1.unique hm
    obtain rfl := h2.unique hm
    exact h3.congr (fun x => sq _) rfl
  have h0 := hL.variance_pos (hq i hi).1 (hv i hi) hne h3
  refine ⟨h0, _, _, (component_iff hs hK hi (hq i hi).1 (hq i hi).2 (hv i hi)).2 ⟨rfl, rfl⟩, fun z => ?_⟩
  obtain ⟨o1, o2, o3, o4⟩ := hL.moments (hq i hi).1 (hq i hi).2 (hv i hi) (hσ i hi).1
  have ha : AEMeasurable (fun x => (K.F (p i)).dot (v i) ((K.F (p i)).stat x)) S.μ := by
    refine (hm.1.aemeasurable.div hd.integrable.aemeasurable).congr (Eventually.of_forall fun x => ?_)
    have : (K.F (p i)).pdf (q i) x ≠ 0 := (Real.exp_pos _).ne'
    simp only [Pi.div_apply]
    field_simp
  obtain ⟨P, h4, h5⟩ := central_limit hd ha o2 o3 o4 h0 z
  have hcard : ∀ ss : List ℕ, Fintype.card (box ss) = ss.prod := fun ss => by rw [Fintype.card_coe, card_box]
  refine ⟨fun ss => P ss.prod, fun ss hss => ⟨_, recipeIs_average hs hK hss v hi, ?_⟩, fun ε hε => ?_⟩
  · have : Nonempty (box ss) := by
      rw [← Fintype.card_pos_iff, hcard]
      exact List.prod_pos hss
    have h6 := h5 (box ss)
    rw [hcard] at h6 ⊢
    exact h6
  · have e : ∀ x : ℝ, gaussianPDFReal 0 (σ i).toNNReal x =
        Real.exp (-x ^ 2 / (2 * σ i)) / √(2 * Real.pi * σ i) := fun x => by
      rw [gaussianPDFReal, Real.coe_toNNReal _ h0.le, sub_zero, inv_mul_eq_div]
    simp only [e] at h4
    obtain ⟨n₀, h7⟩ := Metric.tendsto_atTop.1 h4 ε hε
    exact ⟨n₀, fun ss _ hn => h7 _ hn⟩

omit [MachEps] in
theorem normal_half {σ : ℝ} (h : 0 < σ) :
    ∫ x in Iic (0 : ℝ), Real.exp (-x ^ 2 / (2 * σ)) / √(2 * Real.pi * σ) = 1 / 2 := by
  have e := integral_comp_neg_Iic 0 fun x : ℝ => Real.exp (-(1 / (2 * σ)) * x ^ 2)
  rw [neg_zero, integral_gaussian_Ioi] at e
  have e' : ∀ x : ℝ, Real.exp (-(1 / (2 * σ)) * (-x) ^ 2) = Real.exp (-x ^ 2 / (2 * σ)) := fun x => by
    congr 1
    field_simp
  simp only [e'] at e
  rw [integral_div, e, show Real.pi / (1 / (2 * σ)) = 2 * Real.pi * σ by field_simp]
  have : √(2 * Real.pi * σ) ≠ 0 := (Real.sqrt_pos.2 (by positivity)).ne'
  field_simp

/-- **C102.** In the limit, one half of the estimates are too small. -/
theorem C102_half (hs : solve.For search) {K : Kind Cls} {S : Setting K} (hK : LibrarySetting solve K S)
    {rs : List ℕ} {p : List ℕ → K.P} {q v : List ℕ → K.N} (hq : S.Inside rs p q)
    (hv : ∀ i, inB rs i = true → v i ∈ S.dirs) {i : List ℕ} (hi : inB rs i = true)
    (hne : S.line (q i) (v i) 1 ≠ q i) :
    ∃ f c, Component (library search) S rs (K.nat rs p q) (K.nat rs p v) i f c ∧ ∃ P : List ℕ → ℝ,
      (∀ ss : List ℕ, (∀ n ∈ ss, 0 < n) → ∃ R : (box ss → K.X) → ℝ,
        RecipeIs (library search) K rs ss p v i R ∧ Expects S f ({y | R y ≤ c}.indicator 1) (P ss)) ∧
      ∀ ε > 0, ∃ n₀ : ℕ, ∀ ss : List ℕ, (∀ n ∈ ss, 0 < n) → n₀ ≤ ss.prod → |P ss - 1 / 2| < ε := by
  obtain ⟨l, σ, -, h1⟩ := C102_normal hs hK hq hv
  obtain ⟨h0, f, c, h2, h3⟩ := (h1 i hi).2 hne
  obtain ⟨P, h4, h5⟩ := h3 0
  simp only [normal_half h0] at h5
  refine ⟨f, c, h2, P, fun ss hss => ?_, h5⟩
  obtain ⟨R, h6, h7⟩ := h4 ss hss
  refine ⟨R, h6, ?_⟩
  have hp : 0 < √(ss.prod : ℝ) := Real.sqrt_pos.2 (by exact_mod_cast List.prod_pos hss)
  have : {y | √(ss.prod : ℝ) * (R y - c) ≤ 0} = {y | R y ≤ c} := by
    ext y
    constructor
    · exact fun h => sub_nonpos.1 (nonpos_of_mul_nonpos_right h hp)
    · exact fun h => mul_nonpos_of_nonneg_of_nonpos hp.le (sub_nonpos.2 h)
  rwa [this] at h7

/-- The mean of a Poisson distribution with the mean one, estimated from many observations. -/
example (hs : solve.For search) : ∃ f c,
    Component (library search) (Simple.poisson.setting solve) []
      ((Simple.poisson.kind solve).nat [] (fun _ => ()) fun _ => (0 : ℝ))
      ((Simple.poisson.kind solve).nat [] (fun _ => ()) fun _ => (1 : ℝ)) [] f c ∧ ∃ P : List ℕ → ℝ,
    (∀ ss : List ℕ, (∀ n ∈ ss, 0 < n) → ∃ R : (box ss → (Simple.poisson.kind solve).X) → ℝ,
      RecipeIs (library search) (Simple.poisson.kind solve) [] ss (fun _ => ()) (fun _ => (1 : ℝ)) [] R ∧
      Expects (Simple.poisson.setting solve) f ({y | R y ≤ c}.indicator 1) (P ss)) ∧
    ∃ n₀ : ℕ, ∀ ss : List ℕ, (∀ n ∈ ss, 0 < n) → n₀ ≤ ss.prod → 49 / 100 < P ss ∧ P ss < 51 / 100 := by
  have hK : LibrarySetting solve _ (Simple.poisson.setting solve) := .simple .poisson
  obtain ⟨f, c, h1, P, h2, h3⟩ := C102_half hs hK (rs := []) (p := fun _ => ()) (q := fun _ => (0 : ℝ))
    (v := fun _ => (1 : ℝ)) (fun _ _ => ⟨trivial, trivial⟩) (fun _ _ => trivial) (i := []) rfl
    (show (0 : ℝ) + (1 : ℝ) • (1 : ℝ) ≠ 0 by norm_num)
  obtain ⟨n₀, h4⟩ := h3 (1 / 100) (by norm_num)
  refine ⟨f, c, h1, P, h2, n₀, fun ss hss hn => ?_⟩
  have := abs_lt.1 (h4 ss hss hn)
  constructor <;> linarith [this.1, this.2]

end Efax
