import Verif.Lemmas.SampleEstimate
import Verif.Props.EntryLaws
import Verif.Props.IdealExists
import Verif.Props.Families.MvCarrier
import Verif.Props.Families.ComplexCarrier

/-!
# C73: estimates from samples are unbiased, efficient and consistent
-/

namespace Efax

open MeasureTheory ProbabilityTheory Spec Calc Set

variable [MachEps] {solve : Solver} {search : Cls → List Val → Except Err (List Val)} {Key : Type}

/-- The estimates from the samples of a law whose statistics have the expectation `exp` and variance `σ`. -/
theorem Spec.Draws.averages (hs : solve.For search) {K : Kind Cls} {S : Setting K}
    (hK : LibrarySetting solve K S) {N : Type} {sample : Random Key → Sampler Key} {lay : Layout K.P N}
    {out : List ℕ → (List ℕ → K.X) → Val} {law : letI := S.ms; K.P → N → Measure K.X}
    {exp : K.P → N → K.E} {dom : K.P → N → Prop} {σ : K.P → N → K.N → ℝ}
    (hD : letI := S.ms; Draws sample lay out law dom)
    (hout : ∀ rs y, K.obs rs y (.leaf (out rs y)))
    (hm : ∀ p q v, dom p q → v ∈ S.dirs → letI := S.ms
      IsProbabilityMeasure (law p q) ∧ MemLp (fun x => (K.F p).dot v ((K.F p).stat x)) 2 (law p q) ∧
      ∫ x, (K.F p).dot v ((K.F p).stat x) ∂law p q = (K.F p).dot v (exp p q) ∧
      ∫ x, ((K.F p).dot v ((K.F p).stat x) - (K.F p).dot v (exp p q)) ^ 2 ∂law p q = σ p q v) :
    SampleAverages (library search) K S sample lay exp dom σ := by
  letI := S.ms
  intro Ω _ P I key ss rs p q hss hq
  obtain ⟨y, h1, h2, h3⟩ := hD Ω _ P I key (some ss) rs p q hq
  simp only [Option.getD_some] at h1 h2 h3
  have h := C51_library hs hK.kind
  choose m hm' using fun ω => estimates_ok hs hK.kind hss p (fun i => exp (p i) (q i)) (hout _ (y ω))
  refine ⟨_, m, fun ω => ⟨h1 ω, (hm' ω).1⟩, fun v hv => ?_⟩
  choose d hd hd' using fun ω => estimate_dot hs hK.kind hss (hout _ (y ω)) (hm' ω).1 v
  refine ⟨d, _, hd, h.dotCalc _ _ _ _ _, fun i hi => ?_⟩
  obtain ⟨o1, o2, o3, o4⟩ := hm _ _ _ (hq i hi) (hv i hi)
  have hj : ∀ j ∈ box ss, inB (rs ++ ss) (i ++ j) = true := fun j hj =>
    (inB_append (inB_length hi)).2 ⟨hi, mem_box.1 hj⟩
  have h4 : ∀ j ∈ box ss, MeasurePreserving (fun ω => y ω (i ++ j)) P (law (p i) (q i)) := fun j hjj => by
    have := h3 _ (hj j hjj)
    rwa [take_append_of hi] at this
  have hn0 : (box ss).Nonempty := by
    rw [← Finset.card_pos, card_box]
    exact List.prod_pos hss
  obtain ⟨j0, hj0⟩ := hn0
  have hP : IsProbabilityMeasure P := (h4 j0 hj0).isProbability o1
  rw [← card_box]
  refine Efax.averages (X := fun j ω => (K.F (p i)).dot (v i) ((K.F (p i)).stat (y ω (i ++ j)))) ⟨j0, hj0⟩
    (fun j hjj => o2.comp_measurePreserving (h4 j hjj)) (fun j hjj k hk hjk => ?_)
    (fun j hjj => ((h4 j hjj).integral_eq o2.aestronglyMeasurable.aemeasurable).trans o3)
    (fun j hjj => ((h4 j hjj).integral_eq
      ((o2.aestronglyMeasurable.aemeasurable.sub_const _).pow_const 2)).trans o4) fun ω => ?_
  · have := h2.indepFun (i := ⟨i ++ j, hj j hjj⟩) (j := ⟨i ++ k, hj k hk⟩) fun h =>
      hjk (List.append_cancel_left (congrArg Subtype.val h))
    exact this.comp₀ (h4 j hjj).aemeasurable (h4 k hk).aemeasurable
      (by rw [(h4 j hjj).map_eq]; exact o2.aestronglyMeasurable.aemeasurable)
      (by rw [(h4 k hk).map_eq]; exact o2.aestronglyMeasurable.aemeasurable)
  · rw [card_box]
    exact hd' ω i hi

/-- A sampler that draws from the right distributions gives the right estimates. -/
theorem Spec.Draws.estimates (hs : solve.For search) {K : Kind Cls} {S : Setting K}
    (hK : LibrarySetting solve K S) {N : Type} {sample : Random Key → Sampler Key} {lay : Layout K.P N}
    {out : List ℕ → (List ℕ → K.X) → Val} {nat : K.P → N → K.N} {exp : K.P → N → K.E}
    {dom : K.P → N → Prop}
    (hD : letI := S.ms; Draws sample lay out (fun p q => law (K.F p) S.μ (nat p q)) dom)
    (hout : ∀ rs y, K.obs rs y (.leaf (out rs y)))
    (hdom : ∀ p q, dom p q → S.ok p ∧ nat p q ∈ S.dom p ∧ (K.F p).toExp (nat p q) = exp p q) :
    SampleEstimates (library search) K S sample lay nat exp dom := by
  letI := S.ms
  have h := C51_library hs hK.kind
  have hL := library_lawful hK
  have hc : ∀ p q v, ∃ σ, dom p q → v ∈ S.dirs →
      HasCov S.μ ((K.F p).pdf (nat p q)) (fun x => (K.F p).dot v ((K.F p).stat x))
        (fun x => (K.F p).dot v ((K.F p).stat x)) σ ∧
      HasDerivAt (fun t => deriv (fun s => (K.F p).logNormalizer
        (S.line (S.line (nat p q) v t) v s)) 0) σ 0 := fun p q v => by
    by_cases hi : dom p q ∧ v ∈ S.dirs
    · obtain ⟨ho, hn, -⟩ := hdom _ _ hi.1
      obtain ⟨σ, hσ⟩ := hL.fisher ho hn hi.2 hi.2
      exact ⟨σ, fun _ _ => hσ⟩
    · exact ⟨0, fun h h' => absurd ⟨h, h'⟩ hi⟩
  choose σ hσ using hc
  refine ⟨σ, hD.averages hs hK hout fun p q v hd hv => ?_, fun rs p q v hd =>
    ⟨_, fun t r => h.logNormalizer _ _ _, fun i hi => (hσ _ _ _ (hd i hi).1 (hd i hi).2).2⟩⟩
  obtain ⟨ho, hn, he⟩ := hdom _ _ hd
  rw [← he]
  exact hL.moments ho hn hv (hσ _ _ _ hd hv).1

theorem Spec.Draws.mono {A N Y : Type} [MeasurableSpace Y] {sample : Random Key → Sampler Key}
    {lay : Layout A N} {out : List ℕ → (List ℕ → Y) → Val} {law : A → N → Measure Y} {dom dom' : A → N → Prop}
    (h : Draws sample lay out law dom) (hd : ∀ p q, dom' p q → dom p q) : Draws sample lay out law dom' :=
  fun Ω _ P I key shape rs p q hq => h Ω _ P I key shape rs p q fun i hi => hd _ _ (hq i hi)

theorem normalVarToNat_mem {w : ℝ × ℝ} (h : 0 < w.2) : normalVarToNat w ∈ normalDom := by
  show -0.5 * (1 / w.2) < 0
  have := one_div_pos.2 h
  linarith

theorem normalVar_toExp {w : ℝ × ℝ} (h : 0 < w.2) :
    normal.toExp (normalVarToNat w) = (w.1, w.1 ^ 2 + w.2) := by
  have h0 := h.ne'
  simp only [normal, normalVarToNat]
  ext
  · norm_num
    field_simp
  · norm_num
    field_simp
    ring

theorem mvDiagonalVar_toExp {d : ℕ} {w : (Fin d → ℝ) × (Fin d → ℝ)} (h : ∀ i, 0 < w.2 i) :
    (mvDiagonal d).toExp (mvDiagonalVarToNat w) = (w.1, fun i => w.1 i ^ 2 + w.2 i) := by
  refine Prod.ext (funext fun i => ?_) (funext fun i => ?_)
  · exact congrArg Prod.fst (normalVar_toExp (w := (w.1 i, w.2 i)) (h i))
  · exact congrArg Prod.snd (normalVar_toExp (w := (w.1 i, w.2 i)) (h i))

theorem mvNormalVar_mem {d : ℕ} {w : (Fin d → ℝ) × Matrix (Fin d) (Fin d) ℝ} (h : w.2.PosDef) :
    mvNormalVarToExp w ∈ {χ : (Fin d → ℝ) × Matrix (Fin d) (Fin d) ℝ |
      (χ.2 - Matrix.vecMulVec χ.1 χ.1).PosDef} := by
  simpa [mvNormalVarToExp] using h

theorem holds_outB (rs : List ℕ) (y : List ℕ → Bool) : HoldsR rs (fun i => ofBool (y i)) (outB rs y) := by
  exact map_scalars ..


theorem holds_outN (rs : List ℕ) (y : List ℕ → ℕ) : HoldsR rs (fun i => (y i : ℝ)) (outN rs y) := by
  rw [HoldsR, outN, toR_int_scalars]
  simp


section

variable (hs : solve.For search)

include hs

/-- **C73.** -/
theorem C73_bernoulli_exp :
    SampleEstimates (K := Key) (library search) (Simple.bernoulli.kind solve)
      (Simple.bernoulli.setting solve) (fun rng => Cls.sample search rng .bernoulliEP) layS
      (fun _ p => bernoulliToNat p) (fun _ χ => χ) (fun _ p => p ∈ Ioo (0 : ℝ) 1) :=
  C63_bernoulli_exp.estimates hs (.simple .bernoulli) (fun _ _ => ⟨_, rfl, holds_outB _ _⟩)
    fun _ _ h => ⟨trivial, C31_bernoulli.2 _ h⟩

/-- **C73.** -/
theorem C73_bernoulli :
    SampleEstimates (K := Key) (library search) (Simple.bernoulli.kind solve)
      (Simple.bernoulli.setting solve) (fun rng => Cls.sample search rng .bernoulliNP) layS
      (fun _ q => q) (fun _ q => bernoulli.toExp q) (fun _ _ => True) :=
  C63_bernoulli.estimates hs (.simple .bernoulli) (fun _ _ => ⟨_, rfl, holds_outB _ _⟩)
    fun _ _ _ => ⟨trivial, mem_univ _, rfl⟩

/-- **C73.** -/
theorem C73_poisson_exp :
    SampleEstimates (K := Key) (library search) (Simple.poisson.kind solve)
      (Simple.poisson.setting solve) (fun rng => Cls.sample search rng .poissonEP) layS
      (fun _ m => poissonToNat m) (fun _ χ => χ) (fun _ m => 0 < m) :=
  C63_poisson_exp.estimates hs (.simple .poisson) (fun _ _ => ⟨_, rfl, holds_outN _ _⟩)
    fun _ _ h => ⟨trivial, C31_poisson.2 _ h⟩

/-- **C73.** -/
theorem C73_poisson :
    SampleEstimates (K := Key) (library search) (Simple.poisson.kind solve)
      (Simple.poisson.setting solve) (fun rng => Cls.sample search rng .poissonNP) layS
      (fun _ q => q) (fun _ q => poisson.toExp q) (fun _ _ => True) :=
  C63_poisson.estimates hs (.simple .poisson) (fun _ _ => ⟨_, rfl, holds_outN _ _⟩)
    fun _ _ _ => ⟨trivial, mem_univ _, rfl⟩

/-- **C73.** -/
theorem C73_negative_binomial_exp :
    SampleEstimates (K := Key) (library search) (Simple.negativeBinomial.kind solve)
      (Simple.negativeBinomial.setting solve) (fun rng => Cls.sample search rng .negativeBinomialEP) laySFixedInt
      (fun (r : ℕ) (m : ℝ) => negativeBinomialToNat r m) (fun _ χ => χ) (fun (r : ℕ) (m : ℝ) => 1 ≤ r ∧ 0 < m) :=
  C63_negative_binomial_exp.estimates hs (.simple .negativeBinomial) (fun _ _ => ⟨_, rfl, holds_outN _ _⟩)
    fun _ _ h => ⟨h.1, (C31_negative_binomial h.1).2 _ h.2⟩

/-- **C73.** -/
theorem C73_negative_binomial :
    SampleEstimates (K := Key) (library search) (Simple.negativeBinomial.kind solve)
      (Simple.negativeBinomial.setting solve) (fun rng => Cls.sample search rng .negativeBinomialNP) laySFixedInt
      (fun (r : ℕ) (q : ℝ) => q) (fun r q => (negativeBinomial r).toExp q) (fun (r : ℕ) (q : ℝ) => 1 ≤ r ∧ q < 0) :=
  C63_negative_binomial.estimates hs (.simple .negativeBinomial) (fun _ _ => ⟨_, rfl, holds_outN _ _⟩)
    fun _ _ h => ⟨h.1, h.2, rfl⟩

/-- **C73.** -/
theorem C73_beta :
    SampleEstimates (K := Key) (library search) (Simple.beta.kind solve)
      (Simple.beta.setting solve) (fun rng => Cls.sample search rng .betaNP) (layV 2)
      (fun _ q => q) (fun _ q => beta.toExp q) (fun _ q => q ∈ dirichletDom 2) :=
  C63_beta.estimates hs (.simple .beta) (fun _ _ => ⟨_, rfl, rfl⟩)
    fun _ _ h => ⟨trivial, h, rfl⟩

/-- **C73.** -/
theorem C73_chi_square :
    SampleEstimates (K := Key) (library search) (Simple.chiSquare.kind solve)
      (Simple.chiSquare.setting solve) (fun rng => Cls.sample search rng .chiSquareNP) layS
      (fun _ q => q) (fun _ q => chiSquare.toExp q) (fun _ q => -1 < q) :=
  C63_chi_square.estimates hs (.simple .chiSquare) (fun _ _ => ⟨_, rfl, rfl⟩)
    fun _ _ h => ⟨trivial, h, rfl⟩

/-- **C73.** -/
theorem C73_exponential :
    SampleEstimates (K := Key) (library search) (Simple.exponential.kind solve)
      (Simple.exponential.setting solve) (fun rng => Cls.sample search rng .exponentialNP) layS
      (fun _ q => q) (fun _ q => exponential.toExp q) (fun _ q => q < 0) :=
  C63_exponential.estimates hs (.simple .exponential) (fun _ _ => ⟨_, rfl, rfl⟩)
    fun _ _ h => ⟨trivial, h, rfl⟩

/-- **C73.** -/
theorem C73_exponential_exp :
    SampleEstimates (K := Key) (library search) (Simple.exponential.kind solve)
      (Simple.exponential.setting solve) (fun rng => Cls.sample search rng .exponentialEP) layS
      (fun _ m => exponentialToNat m) (fun _ χ => χ) (fun _ m => 0 < m) :=
  C63_exponential_exp.estimates hs (.simple .exponential) (fun _ _ => ⟨_, rfl, rfl⟩)
    fun _ _ h => ⟨trivial, C31_exponential.2 _ h⟩

/-- **C73.** -/
theorem C73_gamma :
    SampleEstimates (K := Key) (library search) (Simple.gamma.kind solve)
      (Simple.gamma.setting solve) (fun rng => Cls.sample search rng .gammaNP) laySS
      (fun _ q => q) (fun _ q => gamma.toExp q) (fun _ q => q ∈ gammaDom) :=
  C63_gamma.estimates hs (.simple .gamma) (fun _ _ => ⟨_, rfl, rfl⟩)
    fun _ _ h => ⟨trivial, h, rfl⟩

/-- **C73.** -/
theorem C73_gamma_var :
    SampleEstimates (K := Key) (library search) (Simple.gamma.kind solve)
      (Simple.gamma.setting solve) (fun rng => Cls.sample search rng .gammaVP) laySS
      (fun _ w => gammaVarToNat w) (fun _ => gammaVarToExp) (fun _ w => 0 < w.1 ∧ 0 < w.2) :=
  C63_gamma_var.estimates hs (.simple .gamma) (fun _ _ => ⟨_, rfl, rfl⟩)
    fun _ _ h => ⟨trivial, gammaVarToNat_mem h.1 h.2, rfl⟩

/-- **C73.** -/
theorem C73_rayleigh :
    SampleEstimates (K := Key) (library search) (Simple.rayleigh.kind solve)
      (Simple.rayleigh.setting solve) (fun rng => Cls.sample search rng .rayleighNP) layS
      (fun _ q => q) (fun _ q => rayleigh.toExp q) (fun _ q => q < 0) :=
  C63_rayleigh.estimates hs (.simple .rayleigh) (fun _ _ => ⟨_, rfl, rfl⟩)
    fun _ _ h => ⟨trivial, h, rfl⟩

/-- **C73.** -/
theorem C73_rayleigh_exp :
    SampleEstimates (K := Key) (library search) (Simple.rayleigh.kind solve)
      (Simple.rayleigh.setting solve) (fun rng => Cls.sample search rng .rayleighEP) layS
      (fun _ χ => rayleighToNat χ) (fun _ χ => χ) (fun _ χ => 0 < χ) :=
  C63_rayleigh_exp.estimates hs (.simple .rayleigh) (fun _ _ => ⟨_, rfl, rfl⟩)
    fun _ _ h => ⟨trivial, C31_rayleigh.2 _ h⟩

/-- **C73.** -/
theorem C73_weibull_exp :
    SampleEstimates (K := Key) (library search) (Simple.weibull.kind solve)
      (Simple.weibull.setting solve) (fun rng => Cls.sample search rng .weibullEP) layFixedS
      (fun (k : ℝ) (χ : ℝ) => weibullToNat χ) (fun _ χ => χ) (fun (k : ℝ) (χ : ℝ) => 0 < k ∧ 0 < χ) :=
  C63_weibull_exp.estimates hs (.simple .weibull) (fun _ _ => ⟨_, rfl, rfl⟩)
    fun _ _ h => ⟨h.1, (C31_weibull _).2 _ h.2⟩

/-- **C73.** -/
theorem C73_weibull :
    SampleEstimates (K := Key) (library search) (Simple.weibull.kind solve)
      (Simple.weibull.setting solve) (fun rng => Cls.sample search rng .weibullNP) layFixedS
      (fun (k : ℝ) (q : ℝ) => q) (fun k q => (weibull k).toExp q) (fun (k : ℝ) (q : ℝ) => 0 < k ∧ q < 0) :=
  C63_weibull.estimates hs (.simple .weibull) (fun _ _ => ⟨_, rfl, rfl⟩)
    fun _ _ h => ⟨h.1, h.2, rfl⟩

/-- **C73.** -/
theorem C73_normal_var :
    SampleEstimates (K := Key) (library search) (Simple.normal.kind solve)
      (Simple.normal.setting solve) (fun rng => Cls.sample search rng .normalVP) laySS
      (fun _ w => normalVarToNat w) (fun _ w => (w.1, w.1 ^ 2 + w.2)) (fun _ w => 0 < w.2) :=
  C63_normal_var.estimates hs (.simple .normal) (fun _ _ => ⟨_, rfl, rfl⟩)
    fun _ _ h => ⟨trivial, normalVarToNat_mem h, normalVar_toExp h⟩

/-- **C73.** -/
theorem C73_normal_exp :
    SampleEstimates (K := Key) (library search) (Simple.normal.kind solve)
      (Simple.normal.setting solve) (fun rng => Cls.sample search rng .normalEP) laySS
      (fun _ χ => normalToNat χ) (fun _ χ => χ) (fun _ χ => χ.1 ^ 2 < χ.2) :=
  C63_normal_exp.estimates hs (.simple .normal) (fun _ _ => ⟨_, rfl, rfl⟩)
    fun _ _ h => ⟨trivial, C31_normal.2 _ h⟩

/-- **C73.** -/
theorem C73_normal :
    SampleEstimates (K := Key) (library search) (Simple.normal.kind solve)
      (Simple.normal.setting solve) (fun rng => Cls.sample search rng .normalNP) laySS
      (fun _ q => q) (fun _ q => normal.toExp q) (fun _ q => q ∈ normalDom) :=
  C63_normal.estimates hs (.simple .normal) (fun _ _ => ⟨_, rfl, rfl⟩)
    fun _ _ h => ⟨trivial, h, rfl⟩

/-- **C73.** -/
theorem C73_unit_normal :
    SampleEstimates (K := Key) (library search) (Simple.unitNormal.kind solve)
      (Simple.unitNormal.setting solve) (fun rng => Cls.sample search rng .unitNormalNP) layS
      (fun _ m => m) (fun _ q => unitNormal.toExp q) (fun _ _ => True) :=
  C63_unit_normal.estimates hs (.simple .unitNormal) (fun _ _ => ⟨_, rfl, rfl⟩)
    fun _ _ _ => ⟨trivial, mem_univ _, rfl⟩

/-- **C73.** -/
theorem C73_dirichlet (d : ℕ) (hd : 0 < d) :
    SampleEstimates (K := Key) (library search) ((Simple.dirichlet d).kind solve)
      ((Simple.dirichlet d).setting solve) (fun rng => Cls.sample search rng .dirichletNP) (layV (d + 1))
      (fun _ q => q) (fun _ q => (dirichlet d).toExp q) (fun _ q => q ∈ dirichletDom (d + 1)) :=
  (C63_dirichlet d).estimates hs (.simple (.dirichlet d)) (fun _ _ => ⟨_, rfl, rfl⟩)
    fun _ _ h => ⟨hd, h, rfl⟩

/-- **C73.** -/
theorem C73_mv_normal_var (d : ℕ) :
    SampleEstimates (K := Key) (library search) ((Simple.mvNormal d).kind solve)
      ((Simple.mvNormal d).setting solve) (fun rng => Cls.sample search rng .mvNormalVP) (layVM d)
      (fun _ w => mvNormalToNat (mvNormalVarToExp w)) (fun _ => mvNormalVarToExp) (fun _ w => w.2.PosDef) :=
  (C63_mv_normal_var d).estimates hs (.simple (.mvNormal d)) (fun _ _ => ⟨_, rfl, rfl⟩)
    fun _ _ h => ⟨trivial, C31_mv_normal.2 _ (mvNormalVar_mem h)⟩

/-- **C73.** -/
theorem C73_mv_normal_exp (d : ℕ) :
    SampleEstimates (K := Key) (library search) ((Simple.mvNormal d).kind solve)
      ((Simple.mvNormal d).setting solve) (fun rng => Cls.sample search rng .mvNormalEP) (layVM d)
      (fun _ χ => mvNormalToNat χ) (fun _ χ => χ) (fun _ χ => (χ.2 - Matrix.vecMulVec χ.1 χ.1).PosDef) :=
  (C63_mv_normal_exp d).estimates hs (.simple (.mvNormal d)) (fun _ _ => ⟨_, rfl, rfl⟩)
    fun _ _ h => ⟨trivial, C31_mv_normal.2 _ h⟩

/-- **C73.** -/
theorem C73_mv_diagonal_var (d : ℕ) :
    SampleEstimates (K := Key) (library search) ((Simple.mvDiagonal d).kind solve)
      ((Simple.mvDiagonal d).setting solve) (fun rng => Cls.sample search rng .diagonalNormalVP) (layVV d)
      (fun _ w => mvDiagonalVarToNat w) (fun _ w => (w.1, fun i => w.1 i ^ 2 + w.2 i)) (fun _ w => ∀ i, 0 < w.2 i) :=
  (C63_mv_diagonal_var d).estimates hs (.simple (.mvDiagonal d)) (fun _ _ => ⟨_, rfl, rfl⟩)
    fun _ _ h => ⟨trivial, fun i => normalVarToNat_mem (w := (0, _)) (h i), mvDiagonalVar_toExp h⟩

/-- **C73.** -/
theorem C73_mv_diagonal_exp (d : ℕ) :
    SampleEstimates (K := Key) (library search) ((Simple.mvDiagonal d).kind solve)
      ((Simple.mvDiagonal d).setting solve) (fun rng => Cls.sample search rng .diagonalNormalEP) (layVV d)
      (fun _ χ => mvDiagonalToNat χ) (fun _ χ => χ) (fun _ χ => ∀ i, χ.1 i ^ 2 < χ.2 i) :=
  (C63_mv_diagonal_exp d).estimates hs (.simple (.mvDiagonal d)) (fun _ _ => ⟨_, rfl, rfl⟩)
    fun _ _ h => ⟨trivial, C31_mv_diagonal.2 _ h⟩

/-- **C73.** -/
theorem C73_mv_diagonal (d : ℕ) :
    SampleEstimates (K := Key) (library search) ((Simple.mvDiagonal d).kind solve)
      ((Simple.mvDiagonal d).setting solve) (fun rng => Cls.sample search rng .diagonalNormalNP) (layVV d)
      (fun _ q => q) (fun _ q => (mvDiagonal d).toExp q) (fun _ q => q ∈ mvDiagonalDom d) :=
  (C63_mv_diagonal d).estimates hs (.simple (.mvDiagonal d)) (fun _ _ => ⟨_, rfl, rfl⟩)
    fun _ _ h => ⟨trivial, h, rfl⟩

/-- **C73.** -/
theorem C73_mv_fixed_exp (d : ℕ) :
    SampleEstimates (K := Key) (library search) ((Simple.mvFixed d).kind solve)
      ((Simple.mvFixed d).setting solve) (fun rng => Cls.sample search rng .fixedVarianceNormalEP) (layVFixed d)
      (fun (v : ℝ) (m : Fin d → ℝ) => mvFixedToNat v m) (fun _ χ => χ) (fun (v : ℝ) (_ : Fin d → ℝ) => 0 < v) :=
  (C63_mv_fixed_exp d).estimates hs (.simple (.mvFixed d)) (fun _ _ => ⟨_, rfl, rfl⟩)
    fun _ _ h => ⟨h, (C31_mv_fixed h).2 _ (mem_univ _)⟩

/-- **C73.** -/
theorem C73_mv_fixed (d : ℕ) :
    SampleEstimates (K := Key) (library search) ((Simple.mvFixed d).kind solve)
      ((Simple.mvFixed d).setting solve) (fun rng => Cls.sample search rng .fixedVarianceNormalNP) (layVFixed d)
      (fun (v : ℝ) (q : Fin d → ℝ) => q) (fun v q => (mvFixed d v).toExp q) (fun (v : ℝ) (_ : Fin d → ℝ) => 0 < v) :=
  (C63_mv_fixed d).estimates hs (.simple (.mvFixed d)) (fun _ _ => ⟨_, rfl, rfl⟩)
    fun _ _ h => ⟨h, mem_univ _, rfl⟩

/-- **C73.** -/
theorem C73_mv_isotropic_exp (d : ℕ) :
    SampleEstimates (K := Key) (library search) ((Simple.mvIsotropic (d + 1)).kind solve)
      ((Simple.mvIsotropic (d + 1)).setting solve) (fun rng => Cls.sample search rng .isotropicNormalEP) (layVS (d + 1))
      (fun _ χ => mvIsotropicToNat χ) (fun _ χ => χ) (fun _ χ => ∑ i, χ.1 i ^ 2 < χ.2) :=
  (C63_mv_isotropic_exp d).estimates hs (.simple (.mvIsotropic (d + 1))) (fun _ _ => ⟨_, rfl, rfl⟩)
    fun _ _ h => ⟨d.succ_pos, C31_mv_isotropic.2 _ h⟩

/-- **C73.** -/
theorem C73_mv_isotropic (d : ℕ) :
    SampleEstimates (K := Key) (library search) ((Simple.mvIsotropic (d + 1)).kind solve)
      ((Simple.mvIsotropic (d + 1)).setting solve) (fun rng => Cls.sample search rng .isotropicNormalNP) (layVS (d + 1))
      (fun _ q => q) (fun _ q => (mvIsotropic (d + 1)).toExp q) (fun _ q => q ∈ mvIsotropicDom (d + 1)) :=
  (C63_mv_isotropic d).estimates hs (.simple (.mvIsotropic (d + 1))) (fun _ _ => ⟨_, rfl, rfl⟩)
    fun _ _ h => ⟨d.succ_pos, h, rfl⟩

/-- **C73.** -/
theorem C73_mv_unit (d : ℕ) :
    SampleEstimates (K := Key) (library search) ((Simple.mvUnit d).kind solve)
      ((Simple.mvUnit d).setting solve) (fun rng => Cls.sample search rng .mvUnitNormalNP) (layV d)
      (fun _ m => m) (fun _ q => (mvUnit d).toExp q) (fun _ _ => True) :=
  (C63_mv_unit d).estimates hs (.simple (.mvUnit d)) (fun _ _ => ⟨_, rfl, rfl⟩)
    fun _ _ _ => ⟨trivial, mem_univ _, rfl⟩

/-- **C73.** -/
theorem C73_complex_normal_exp :
    SampleEstimates (K := Key) (library search) (Simple.complexNormal.kind solve)
      (Simple.complexNormal.setting solve) (fun rng => Cls.sample search rng .complexNormalEP) layCSC
      (fun _ χ => complexNormalToNat χ) (fun _ χ => χ) (fun _ χ => ‖χ.2.2 - χ.1 ^ 2‖ < χ.2.1 - ‖χ.1‖ ^ 2) :=
  C63_complex_normal_exp.estimates hs (.simple .complexNormal) (fun _ _ => ⟨_, rfl, rfl⟩)
    fun _ _ h => ⟨trivial, C31_complex_normal.2 _ h⟩

/-- **C73.** -/
theorem C73_complex_normal :
    SampleEstimates (K := Key) (library search) (Simple.complexNormal.kind solve)
      (Simple.complexNormal.setting solve) (fun rng => Cls.sample search rng .complexNormalNP) layCSC
      (fun _ q => q) (fun _ q => complexNormal.toExp q) (fun _ q => q ∈ complexNormalDom) :=
  C63_complex_normal.estimates hs (.simple .complexNormal) (fun _ _ => ⟨_, rfl, rfl⟩)
    fun _ _ h => ⟨trivial, h, rfl⟩

open scoped ComplexOrder in
/-- **C73.** -/
theorem C73_cmv_circular_exp (d : ℕ) :
    SampleEstimates (K := Key) (library search) ((Simple.cmvCircular d).kind solve)
      ((Simple.cmvCircular d).setting solve) (fun rng => Cls.sample search rng .ccsnEP) (layCM d)
      (fun _ χ => cmvCircularToNat χ) (fun _ χ => χ) (fun _ χ => χ.PosDef) :=
  (C63_cmv_circular_exp d).estimates hs (.simple (.cmvCircular d)) (fun _ _ => ⟨_, rfl, rfl⟩)
    fun _ _ h => ⟨trivial, C31_cmv_circular.2 _ h⟩

open scoped ComplexOrder in
/-- **C73.** -/
theorem C73_cmv_circular (d : ℕ) :
    SampleEstimates (K := Key) (library search) ((Simple.cmvCircular d).kind solve)
      ((Simple.cmvCircular d).setting solve) (fun rng => Cls.sample search rng .ccsnNP) (layCM d)
      (fun _ q => q) (fun _ q => (cmvCircular d).toExp q) (fun _ q => q ∈ cmvCircularDom d) :=
  (C63_cmv_circular d).estimates hs (.simple (.cmvCircular d)) (fun _ _ => ⟨_, rfl, rfl⟩)
    fun _ _ h => ⟨trivial, h, rfl⟩

/-- **C73.** -/
theorem C73_mv_unit_exp (d : ℕ) :
    SampleEstimates (K := Key) (library search) ((Simple.mvUnit d).kind solve)
      ((Simple.mvUnit d).setting solve) (fun rng => Cls.sample search rng .mvUnitNormalEP) (layV d)
      (fun _ χ => mvUnitToNat χ) (fun _ χ => χ) (fun _ _ => True) :=
  (C63_mv_unit_exp (search .mvUnitNormalEP) d).estimates hs (.simple (.mvUnit d)) (fun _ _ => ⟨_, rfl, rfl⟩)
    fun _ _ _ => ⟨trivial, C31_mv_unit.2 _ (mem_univ _)⟩

/-- **C73.** -/
theorem C73_unit_normal_exp :
    SampleEstimates (K := Key) (library search) (Simple.unitNormal.kind solve)
      (Simple.unitNormal.setting solve) (fun rng => Cls.sample search rng .unitNormalEP) layS
      (fun _ χ => unitNormalToNat χ) (fun _ χ => χ) (fun _ _ => True) :=
  (C63_unit_normal_exp (search .unitNormalEP)).estimates hs (.simple .unitNormal) (fun _ _ => ⟨_, rfl, rfl⟩)
    fun _ _ _ => ⟨trivial, C31_unit_normal.2 _ (mem_univ _)⟩

/-- **C73.** -/
theorem C73_beta_exp :
    SampleEstimates (K := Key) (library search) (Simple.beta.kind solve)
      (Simple.beta.setting solve) (fun rng => Cls.sample search rng .betaEP) (layV 2)
      (fun _ χ => solve.beta χ) (fun _ χ => χ) (fun _ χ => ((∀ k, χ k < Ring.openMax 0) ∧ solve.beta χ ∈ dirichletDom 2) ∧ beta.toExp (solve.beta χ) = χ) :=
  ((C63_beta_exp hs).mono fun _ _ h => h.1).estimates hs (.simple .beta) (fun _ _ => ⟨_, rfl, rfl⟩)
    fun _ _ h => ⟨trivial, h.1.2, h.2⟩

/-- **C73.** -/
theorem C73_dirichlet_exp (d : ℕ) (hd : 0 < d) :
    SampleEstimates (K := Key) (library search) ((Simple.dirichlet d).kind solve)
      ((Simple.dirichlet d).setting solve) (fun rng => Cls.sample search rng .dirichletEP) (layV (d + 1))
      (fun _ χ => solve.dirichlet (d + 1) χ) (fun _ χ => χ) (fun _ χ => ((∀ k, χ k < Ring.openMax 0) ∧ solve.dirichlet (d + 1) χ ∈ dirichletDom (d + 1)) ∧ (dirichlet d).toExp (solve.dirichlet (d + 1) χ) = χ) :=
  ((C63_dirichlet_exp hs d).mono fun _ _ h => h.1).estimates hs (.simple (.dirichlet d)) (fun _ _ => ⟨_, rfl, rfl⟩)
    fun _ _ h => ⟨hd, h.1.2, h.2⟩

/-- **C73.** -/
theorem C73_chi_square_exp :
    SampleEstimates (K := Key) (library search) (Simple.chiSquare.kind solve)
      (Simple.chiSquare.setting solve) (fun rng => Cls.sample search rng .chiSquareEP) layS
      (fun _ χ => solve.chiSquare χ) (fun _ χ => χ) (fun _ χ => -1 < solve.chiSquare χ ∧ chiSquare.toExp (solve.chiSquare χ) = χ) :=
  ((C63_chi_square_exp hs).mono fun _ _ h => h.1).estimates hs (.simple .chiSquare) (fun _ _ => ⟨_, rfl, rfl⟩)
    fun _ _ h => ⟨trivial, h.1, h.2⟩

/-- **C73.** -/
theorem C73_gamma_exp :
    SampleEstimates (K := Key) (library search) (Simple.gamma.kind solve)
      (Simple.gamma.setting solve) (fun rng => Cls.sample search rng .gammaEP) laySS
      (fun _ χ => solve.gamma χ) (fun _ χ => χ) (fun _ χ => (Ring.openMin 0 < χ.1 ∧ solve.gamma χ ∈ gammaDom) ∧ gamma.toExp (solve.gamma χ) = χ) :=
  ((C63_gamma_exp hs).mono fun _ _ h => h.1).estimates hs (.simple .gamma) (fun _ _ => ⟨_, rfl, rfl⟩)
    fun _ _ h => ⟨trivial, h.1.2, h.2⟩

end

/-- Non-vacuity: the estimates from samples of three gamma distributions are finite and unbiased. -/
example (hs : solve.For search) : ∃ (Ω : Type) (_ : MeasurableSpace Ω) (P : Measure Ω)
    (I : IdealRandom (List (ℕ × ℕ)) P) (x : Ω → Val) (m : Ω → Dist Cls) (d : Ω → List ℕ → ℝ)
    (c σ : List ℕ → ℝ),
    (∀ ω, Cls.sample search (I.rng ω) .gammaNP (laySS [3] (fun _ => ()) fun _ => (-1, 2)) [] (some [64, 1024]) =
      .ok (x ω)) ∧
    (∀ ω, Estimates (library search) ((Simple.gamma.kind solve).exp [3] (fun _ => ())
      fun _ => gamma.toExp (-1, 2)) 2 (.leaf (x ω)) (m ω)) ∧
    (∀ ω, dotCalc ((Simple.gamma.kind solve).nat [3] (fun _ => ()) fun _ => (1, 0)) (m ω) =
      ok (scalars [3] (d ω))) ∧
    Averages P 65536 (fun ω => d ω [1]) (c [1]) (σ [1]) := by
  obtain ⟨I⟩ := idealRandom_exists
  obtain ⟨σ, h0, -⟩ := C73_gamma (Key := List (ℕ × ℕ)) hs
  obtain ⟨x, m, h1, h2⟩ := h0 _ _ _ I [] [64, 1024] [3] (fun _ => ()) (fun _ => ((-1, 2) : ℝ × ℝ))
    (by simp) fun _ _ => by constructor <;> norm_num
  obtain ⟨d, c, h3, h4, h5⟩ := h2 (fun _ => ((1, 0) : ℝ × ℝ)) fun _ _ => trivial
  exact ⟨_, _, _, I, x, m, d, c, fun _ => σ () (-1, 2) (1, 0), fun ω => (h1 ω).1, fun ω => (h1 ω).2, h3,
    h5 [1] rfl⟩

end Efax
