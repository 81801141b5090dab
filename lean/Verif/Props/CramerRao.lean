import Verif.Spec.CramerRao
import Verif.Lemmas.CramerRao
import Verif.Props.Analysis
import Verif.Props.Estimation

/-!
# C100: no unbiased estimate is better than the recipe for maximum likelihood estimation
-/

namespace Efax

open MeasureTheory Spec Calc Filter Topology

namespace Spec.Setting.Lawful

variable {C : Type} {K : Kind C} {S : Setting K}

theorem line_zero (q v : K.N) : S.line q v 0 = q := by
  obtain ⟨G, M, MS, μ, ok, dom, dirs, closed⟩ := S
  show q + (0 : ℝ) • v = q
  rw [zero_smul, add_zero]

theorem open_line (h : S.Lawful) {p : K.P} (hp : S.ok p) {q v : K.N} (hq : q ∈ S.dom p) (hv : v ∈ S.dirs) :
    ∀ᶠ t in 𝓝 (0 : ℝ), S.line q v t ∈ S.dom p := by
  have h := h.regular p hp
  obtain ⟨G, M, MS, μ, ok, dom, dirs, closed⟩ := S
  exact h.is_open q hq v hv

theorem cramer_rao (h : S.Lawful) {p : K.P} (hp : S.ok p) {q v : K.N} (hq : q ∈ S.dom p) (hv : v ∈ S.dirs)
    {σ : ℝ} (hσ : HasDerivAt (fun t => deriv (fun s => (K.F p).logNormalizer (S.line (S.line q v t) v s)) 0) σ 0)
    {ι : Type} [Fintype ι] {T : (ι → K.X) → ℝ} : letI := S.ms
    (∀ᶠ t in 𝓝 (0 : ℝ), HasMean (Measure.pi fun _ : ι => S.μ) (fun y => ∏ j, (K.F p).pdf (S.line q v t) (y j)) T
      ((K.F p).dot v ((K.F p).toExp (S.line q v t)))) → ∀ {V : ℝ},
    HasMean (Measure.pi fun _ : ι => S.μ) (fun y => ∏ j, (K.F p).pdf q (y j))
      (fun y => (T y - (K.F p).dot v ((K.F p).toExp q)) ^ 2) V → σ ≤ Fintype.card ι * V := by
  have h1 := h.regular p hp
  have h2 := h.sigma
  obtain ⟨G, M, MS, μ, ok, dom, dirs, closed⟩ := S
  intro hT V hV
  exact h1.cramer_rao hq hv hσ hT hV

end Spec.Setting.Lawful

variable [MachEps] {solve : Solver} {search : Cls → List Val → Except Err (List Val)}

section

variable (hs : solve.For search) {K : Kind Cls} {S : Setting K} (hK : LibrarySetting solve K S) {rs : List ℕ}
  {p : List ℕ → K.P}

include hs hK

theorem component_iff {q v : List ℕ → K.N} {i : List ℕ} (hi : inB rs i = true) (hp : S.ok (p i))
    (hq : q i ∈ S.dom (p i)) (hv : v i ∈ S.dirs) {f : K.X → ℝ} {c : ℝ} :
    Component (library search) S rs (K.nat rs p q) (K.nat rs p v) i f c ↔
      f = (K.F (p i)).pdf (q i) ∧ c = (K.F (p i)).dot (v i) ((K.F (p i)).toExp (q i)) := by
  let := S.ms
  have hm := (library_lawful hK).mean hp hq hv
  constructor
  · rintro ⟨g, s, h1, h2, rfl, h3⟩
    rw [pdfIs_eq hs hK h1 hi, statisticIs_eq hs hK h2 hi] at h3
    exact ⟨pdfIs_eq hs hK h1 hi, h3.unique hm⟩
  · rintro ⟨rfl, rfl⟩
    exact ⟨fun i => (K.F (p i)).pdf (q i), fun i x => (K.F (p i)).dot (v i) ((K.F (p i)).stat x),
      fun x t ht => C51_pdf (C51_library hs hK.kind) rs p q x t ht, fun x t ht => statistic_eq hs hK ht, rfl, hm⟩

theorem unbiased_iff {q v : List ℕ → K.N} (hq : S.Inside rs p q)
    {i : List ℕ} (hi : inB rs i = true) (hv : v i ∈ S.dirs) {ι : Type} [Fintype ι] {T : (ι → K.X) → ℝ} :
    Unbiased (library search) S rs p q v i T ↔ ∀ᶠ t in 𝓝 (0 : ℝ),
      Expects S ((K.F (p i)).pdf (S.line (q i) (v i) t)) T
        ((K.F (p i)).dot (v i) ((K.F (p i)).toExp (S.line (q i) (v i) t))) := by
  have ho := (library_lawful hK).open_line (hq i hi).1 (hq i hi).2 hv
  refine eventually_congr ?_
  filter_upwards [ho] with t ht
  constructor
  · rintro ⟨f, c, h1, h2⟩
    obtain ⟨rfl, rfl⟩ := (component_iff hs hK (q := fun k => S.line (q k) (v k) t) hi (hq i hi).1 ht hv).1 h1
    exact h2
  · exact fun h => ⟨_, _, (component_iff hs hK (q := fun k => S.line (q k) (v k) t) hi (hq i hi).1 ht hv).2
      ⟨rfl, rfl⟩, h⟩

theorem hasVariance_iff {q v : List ℕ → K.N} (hq : S.Inside rs p q)
    {i : List ℕ} (hi : inB rs i = true) (hv : v i ∈ S.dirs) {ι : Type} [Fintype ι] {T : (ι → K.X) → ℝ} {V : ℝ} :
    HasVariance (library search) S rs p q v i T V ↔ Expects S ((K.F (p i)).pdf (q i))
      (fun y => (T y - (K.F (p i)).dot (v i) ((K.F (p i)).toExp (q i))) ^ 2) V := by
  constructor
  · rintro ⟨f, c, h1, h2⟩
    obtain ⟨rfl, rfl⟩ := (component_iff hs hK hi (hq i hi).1 (hq i hi).2 hv).1 h1
    exact h2
  · exact fun h => ⟨_, _, (component_iff hs hK hi (hq i hi).1 (hq i hi).2 hv).2 ⟨rfl, rfl⟩, h⟩

/-- The components of the result of the recipe are the averages of the components of the statistics. -/
theorem recipeIs_average {ss : List ℕ} (hss : ∀ n ∈ ss, 0 < n) (v : List ℕ → K.N) {i : List ℕ}
    (hi : inB rs i = true) : RecipeIs (library search) K rs ss p v i fun y =>
      (Fintype.card (box ss) : ℝ)⁻¹ * ∑ j, (K.F (p i)).dot (v i) ((K.F (p i)).stat (y j)) := by
  intro χ x t ht
  have hn' : (ss.prod : ℝ) ≠ 0 := Nat.cast_ne_zero.2 (List.prod_pos hss).ne'
  have hcard : Fintype.card (box ss) = ss.prod := by rw [Fintype.card_coe, card_box]
  obtain ⟨m, hm, -⟩ := estimates_ok hs hK.kind hss p χ ht
  obtain ⟨d, h1, h2⟩ := estimate_dot hs hK.kind hss ht hm v
  refine ⟨m, d, hm, h1, ?_⟩
  rw [hcard, eq_inv_mul_iff_mul_eq₀ hn', h2 i hi]
  exact (Finset.sum_coe_sort (box ss) fun j => (K.F (p i)).dot (v i) ((K.F (p i)).stat (x (i ++ j)))).symm

/-- **C100.** Let `σ` be the second derivative of `log_normalizer` in the direction `v`.  Every unbiased
estimate from `n` independent observations has at least the variance `σ / n`; the recipe for maximum likelihood
estimation is unbiased, and its variance is `σ / n`. -/
theorem C100_efficient {q v : List ℕ → K.N} (hq : S.Inside rs p q)
    (hv : ∀ i, inB rs i = true → v i ∈ S.dirs) :
    ∃ (l : ℝ → ℝ → List ℕ → ℝ) (σ : List ℕ → ℝ),
      (∀ t r : ℝ, (K.nat rs p fun i => S.line (S.line (q i) (v i) t) (v i) r).logNormalizer (library search) =
        ok (scalars rs (l t r))) ∧
      ∀ i, inB rs i = true →
        HasDerivAt (fun t => deriv (fun r => l t r i) 0) (σ i) 0 ∧
        (∀ (ι : Type) [Fintype ι] (T : (ι → K.X) → ℝ) (V : ℝ), Unbiased (library search) S rs p q v i T →
          HasVariance (library search) S rs p q v i T V → σ i ≤ Fintype.card ι * V) ∧
        ∀ ss : List ℕ, (∀ n ∈ ss, 0 < n) → ∃ T : (box ss → K.X) → ℝ,
          RecipeIs (library search) K rs ss p v i T ∧ Unbiased (library search) S rs p q v i T ∧
          HasVariance (library search) S rs p q v i T (σ i / ss.prod) := by
  let := S.ms
  have h := C51_library hs hK.kind
  have hL := library_lawful hK
  have := hL.sigma
  have hc : ∀ i, ∃ σ, inB rs i = true →
      HasCov S.μ ((K.F (p i)).pdf (q i)) (fun x => (K.F (p i)).dot (v i) ((K.F (p i)).stat x))
        (fun x => (K.F (p i)).dot (v i) ((K.F (p i)).stat x)) σ ∧
      HasDerivAt (fun t => deriv (fun s => (K.F (p i)).logNormalizer
        (S.line (S.line (q i) (v i) t) (v i) s)) 0) σ 0 := fun i => by
    by_cases hi : inB rs i = true
    · obtain ⟨σ, hσ⟩ := hL.fisher (hq i hi).1 (hq i hi).2 (hv i hi) (hv i hi)
      exact ⟨σ, fun _ => hσ⟩
    · exact ⟨0, fun h => absurd h hi⟩
  choose σ hσ using hc
  refine ⟨_, σ, fun t r => h.logNormalizer _ _ _, fun i hi => ⟨(hσ i hi).2, fun ι _ T V hT hV => ?_,
    fun ss hss => ?_⟩⟩
  · rw [unbiased_iff hs hK hq hi (hv i hi)] at hT
    rw [hasVariance_iff hs hK hq hi (hv i hi)] at hV
    exact hL.cramer_rao (hq i hi).1 (hq i hi).2 (hv i hi) (hσ i hi).2 hT hV
  · have hn : ss.prod ≠ 0 := (List.prod_pos hss).ne'
    have hn' : (ss.prod : ℝ) ≠ 0 := Nat.cast_ne_zero.2 hn
    have hcard : Fintype.card (box ss) = ss.prod := by rw [Fintype.card_coe, card_box]
    have : Nonempty (box ss) := by
      rw [← Fintype.card_pos_iff, hcard]
      exact List.prod_pos hss
    refine ⟨fun y => (Fintype.card (box ss) : ℝ)⁻¹ * ∑ j, (K.F (p i)).dot (v i) ((K.F (p i)).stat (y j)),
      recipeIs_average hs hK hss v hi, ?_, ?_⟩
    · rw [unbiased_iff hs hK hq hi (hv i hi)]
      filter_upwards [hL.open_line (hq i hi).1 (hq i hi).2 (hv i hi)] with t ht
      classical
      refine ((HasMean.sum Finset.univ fun j _ => (hL.mean (hq i hi).1 ht (hv i hi)).at
        (hL.density (hq i hi).1 ht) j).const_mul _).congr (fun y => rfl) ?_
      rw [Finset.sum_const, Finset.card_univ, hcard, nsmul_eq_mul]
      field_simp
    · have hm := hL.mean (hq i hi).1 (hq i hi).2 (hv i hi)
      have h3 : HasMean S.μ ((K.F (p i)).pdf (q i)) (fun x => ((K.F (p i)).dot (v i) ((K.F (p i)).stat x) -
          (K.F (p i)).dot (v i) ((K.F (p i)).toExp (q i))) ^ 2) (σ i) := by
        obtain ⟨a, b, h1, h2, h3⟩ := (hσ i hi).1
        obtain rfl := h1.unique hm
        obtain rfl := h2.unique hm
        exact h3.congr (fun x => sq _) rfl
      have h4 := average_variance (ι := box ss) (hL.density (hq i hi).1 (hq i hi).2) hm h3
      rw [hcard] at h4 ⊢
      exact (hasVariance_iff hs hK hq hi (hv i hi)).2 h4

/-- **C100.** An unbiased estimate whose variance is not larger than that of the recipe is the recipe. -/
theorem C100_unique {q v : List ℕ → K.N} (hq : S.Inside rs p q)
    (hv : ∀ i, inB rs i = true → v i ∈ S.dirs) {i : List ℕ} (hi : inB rs i = true) {ss : List ℕ}
    (hss : ∀ n ∈ ss, 0 < n) : letI := S.ms
    ∃ (R : (box ss → K.X) → ℝ) (V : ℝ), RecipeIs (library search) K rs ss p v i R ∧
      HasVariance (library search) S rs p q v i R V ∧
      ∀ T U, Unbiased (library search) S rs p q v i T → HasVariance (library search) S rs p q v i T U →
        U ≤ V → T =ᵐ[Measure.pi fun _ => S.μ] R := by
  let := S.ms
  have hL := library_lawful hK
  have := hL.sigma
  obtain ⟨l, σ, -, h⟩ := C100_efficient hs hK hq hv
  obtain ⟨-, hb, hr⟩ := h i hi
  obtain ⟨R, h1, h2, h3⟩ := hr ss hss
  have hn : (0 : ℝ) < ss.prod := Nat.cast_pos.2 (List.prod_pos hss)
  have hb : ∀ (T : (box ss → K.X) → ℝ) (U : ℝ), Unbiased (library search) S rs p q v i T →
      HasVariance (library search) S rs p q v i T U → σ i / ss.prod ≤ U := fun T U hT hU => by
    have := hb _ T U hT hU
    rw [Fintype.card_coe, card_box] at this
    rw [div_le_iff₀ hn]
    linarith
  refine ⟨R, _, h1, h3, fun T U hT hU hle => ?_⟩
  obtain rfl : U = σ i / ss.prod := le_antisymm hle (hb T U hT hU)
  have hu : Unbiased (library search) S rs p q v i fun y => (T y + R y) / 2 := by
    rw [unbiased_iff hs hK hq hi (hv i hi)] at hT h2 ⊢
    filter_upwards [hT, h2] with t a b
    have a : HasMean _ _ _ _ := a
    exact ((a.add b).const_mul (1 / 2)).congr (fun y => by ring) (by ring)
  have e0 : ∀ {T : (box ss → K.X) → ℝ}, Unbiased (library search) S rs p q v i T →
      Expects S ((K.F (p i)).pdf (q i)) T ((K.F (p i)).dot (v i) ((K.F (p i)).toExp (q i))) := fun hT => by
    have := ((unbiased_iff hs hK hq hi (hv i hi)).1 hT).self_of_nhds
    rwa [Setting.Lawful.line_zero] at this
  exact least_variance_unique (hL.density (hq i hi).1 (hq i hi).2).pi
    (fun y => Finset.prod_pos fun j _ => Real.exp_pos _) (e0 hT) (e0 h2)
    ((hasVariance_iff hs hK hq hi (hv i hi)).1 hU) ((hasVariance_iff hs hK hq hi (hv i hi)).1 h3)
    fun U hU => hb _ U hu ((hasVariance_iff hs hK hq hi (hv i hi)).2 hU)

end

/-- Estimates from a batch of three gamma distributions, four observations of each. -/
example (hs : solve.For search) : ∃ T : (box [4] → ℝ) → ℝ,
    RecipeIs (library search) (Simple.gamma.kind solve) [3] [4] (fun _ => ()) (fun _ => ((0, 1) : ℝ × ℝ)) [1] T ∧
    Unbiased (library search) (Simple.gamma.setting solve) [3] (fun _ => ()) (fun _ => ((-1, 2) : ℝ × ℝ))
      (fun _ => ((0, 1) : ℝ × ℝ)) [1] T := by
  obtain ⟨l, σ, -, h⟩ := C100_efficient hs (.simple .gamma) (rs := [3]) (p := fun _ => ())
    (q := fun _ => ((-1, 2) : ℝ × ℝ)) (v := fun _ => ((0, 1) : ℝ × ℝ))
    (fun _ _ => ⟨trivial, by constructor <;> norm_num⟩) fun _ _ => trivial
  obtain ⟨T, h1, h2, -⟩ := (h [1] rfl).2.2 [4] (by simp)
  exact ⟨T, h1, h2⟩

/-- The first of two observations is an unbiased estimate, too. -/
example (hs : solve.For search) : Unbiased (library search) (Simple.poisson.setting solve) [] (fun _ => ())
    (fun _ => (0 : ℝ)) (fun _ => (1 : ℝ)) [] fun y : Fin 2 → ℕ => (y 0 : ℝ) := by
  have hK : LibrarySetting solve (Simple.poisson.kind solve) (Simple.poisson.setting solve) := .simple .poisson
  let := (Simple.poisson.setting solve).ms
  have hL := library_lawful hK
  have := hL.sigma
  refine (unbiased_iff hs hK (fun _ _ => ⟨trivial, trivial⟩) rfl trivial).2
    (Eventually.of_forall fun t => ?_)
  refine ((hL.mean (p := ()) trivial (q := (Simple.poisson.setting solve).line (0 : ℝ) (1 : ℝ) t) trivial
    (v := (1 : ℝ)) trivial).at (hL.density trivial trivial) (0 : Fin 2)).congr (fun y => ?_) rfl
  exact (one_mul _).symm

end Efax
