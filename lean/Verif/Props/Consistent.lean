import Verif.Spec.Consistent
import Verif.Lemmas.MeanSpace
import Verif.Props.SampleEstimate

/-!
# C98: maximum likelihood estimates from samples exist and converge
-/

namespace Efax

open MeasureTheory ProbabilityTheory Spec Calc Set

variable [MachEps] {solve : Solver} {search : Cls → List Val → Except Err (List Val)} {Key : Type}

/-- Parameters whose expectations are the averages of the statistics make the observations most likely. -/
theorem mostLikely_of (hs : solve.For search) {K : Kind Cls} {S : Setting K} (hK : LibrarySetting solve K S)
    {rs ss : List ℕ} (hss : ∀ n ∈ ss, 0 < n) {p : List ℕ → K.P} {x : List ℕ → K.X} {t : Tree Val}
    (ht : K.obs (rs ++ ss) x t) {a : List ℕ → K.N} (ha : S.Inside rs p a)
    (hd : ∀ i, inB rs i = true → ∀ w ∈ S.dirs, (K.F (p i)).dot w ((K.F (p i)).toExp (a i)) =
      ((box ss).card : ℝ)⁻¹ * ∑ j ∈ box ss, (K.F (p i)).dot w ((K.F (p i)).stat (x (i ++ j)))) :
    MostLikely (library search) K S rs ss p t a := by
  refine ⟨ha, _, C67_log_pdf hs hK.kind rs ss p a x t ht, fun b hb => ⟨_,
    C67_log_pdf hs hK.kind rs ss p b x t ht, fun i hi hne => ?_⟩⟩
  have hl : ∀ (q : List ℕ → K.N),
      ∑ j ∈ box ss, (K.F (p ((i ++ j).take rs.length))).logPdf (q ((i ++ j).take rs.length)) (x (i ++ j)) =
        (((box ss).toList.map fun j => x (i ++ j)).map ((K.F (p i)).logPdf (q i))).sum := by
    intro q
    rw [sum_data]
    exact Finset.sum_congr rfl fun j _ => by rw [take_append_of hi]
  have hc : (box ss).card ≠ 0 := by rw [card_box]; exact (List.prod_pos hss).ne'
  rw [hl a, hl b]
  refine (library_lawful hK).mle_unique (ha i hi).1 (fun h0 => ?_) (ha i hi).2 (fun v hv => ?_)
    (hb i hi).2 hne
  · have := congrArg List.length h0
    rw [List.length_map, Finset.length_toList] at this
    exact hc (by simpa using this)
  · rw [List.length_map, Finset.length_toList, sum_data, hd i hi v hv,
      mul_inv_cancel_left₀ (Nat.cast_ne_zero.2 hc)]

/-- **C98.** The parameters that make observations most likely are unique. -/
theorem C98_unique {K : Kind Cls} {S : Setting K} {L : Library Cls} {rs ss : List ℕ} {p : List ℕ → K.P}
    {t : Tree Val} {a b : List ℕ → K.N} (ha : MostLikely L K S rs ss p t a) (hb : MostLikely L K S rs ss p t b)
    {i : List ℕ} (hi : inB rs i = true) : a i = b i := by
  obtain ⟨ha0, l, hl, ha⟩ := ha
  obtain ⟨hb0, l', hl', hb⟩ := hb
  obtain ⟨m, hm, h1⟩ := ha b hb0
  obtain ⟨m', hm', h2⟩ := hb a ha0
  by_contra hne
  have key : ∀ {f g : List ℕ → ℝ}, ok (scalars (rs ++ ss) f) = ok (scalars (rs ++ ss) g) →
      ∑ j ∈ box ss, f (i ++ j) = ∑ j ∈ box ss, g (i ++ j) := fun h =>
    Finset.sum_congr rfl fun j hj =>
      ok_scalars_inj h _ ((inB_append (inB_length hi)).2 ⟨hi, mem_box.1 hj⟩)
  have h3 := h1 i hi (Ne.symm hne)
  have h4 := h2 i hi hne
  rw [key (hm.symm.trans hl')] at h3
  rw [key (hm'.symm.trans hl)] at h4
  exact lt_asymm h3 h4

/-- **C98.** Around every batch of distributions there is a neighbourhood in the expectation parameters,
given by finitely many components and a tolerance, such that observations whose estimate lies in it have
natural parameters that make them most likely, near those of the batch and with the expectation parameters
that were estimated. -/
theorem C98_estimate (hs : solve.For search) {K : Kind Cls} {S : Setting K} (hK : LibrarySetting solve K S)
    (rs : List ℕ) (p : List ℕ → K.P) (q : List ℕ → K.N) (hq : S.Inside rs p q) :
    letI := S.grp
    letI := S.mod
    ∀ (f : K.N →ₗ[ℝ] ℝ) (ε : ℝ), 0 < ε → ∃ (B : List ℕ → List K.N) (η : List ℕ → ℝ),
      (∀ i, inB rs i = true → (∀ w ∈ B i, w ∈ S.dirs) ∧ 0 < η i) ∧
      ∀ (ss : List ℕ) (x : List ℕ → K.X) (t : Tree Val) (χ : List ℕ → K.E) (m : Dist Cls),
        (∀ n ∈ ss, 0 < n) → K.obs (rs ++ ss) x t →
        Estimates (library search) (K.exp rs p χ) ss.length t m →
        (∀ i, inB rs i = true → ∀ w ∈ B i, ∀ d c,
          dotCalc (K.nat rs p fun _ => w) m = ok (scalars rs d) →
          dotCalc (K.nat rs p fun _ => w) (K.exp rs p fun i => (K.F (p i)).toExp (q i)) = ok (scalars rs c) →
          |d i - c i| ≤ η i) →
        ∃ a, MostLikely (library search) K S rs ss p t a ∧
          (∀ v : List ℕ → K.N, (∀ i, inB rs i = true → v i ∈ S.dirs) →
            dotCalc (K.nat rs p v) m = dotCalc (K.nat rs p v) (K.exp rs p fun i => (K.F (p i)).toExp (a i))) ∧
          ∀ i, inB rs i = true → |f (a i) - f (q i)| < ε := by
  classical
  let := S.grp
  let := S.mod
  intro f ε hε
  have h := C51_library hs hK.kind
  have hm : ∀ i, ∃ (B : List K.N) (η : ℝ), inB rs i = true → (∀ w ∈ B, w ∈ S.dirs) ∧ 0 < η ∧
      ∀ (ι : Type) (s : Finset ι) (x : ι → K.X),
      (∀ w ∈ B, |(s.card : ℝ)⁻¹ * ∑ j ∈ s, (K.F (p i)).dot w ((K.F (p i)).stat (x j)) -
        (K.F (p i)).dot w ((K.F (p i)).toExp (q i))| ≤ η) →
      ∃ a ∈ S.dom (p i), |f a - f (q i)| < ε ∧
        ∀ w ∈ S.dirs, (K.F (p i)).dot w ((K.F (p i)).toExp a) =
          (s.card : ℝ)⁻¹ * ∑ j ∈ s, (K.F (p i)).dot w ((K.F (p i)).stat (x j)) := fun i => by
    by_cases hi : inB rs i = true
    · obtain ⟨n, b, η, h1, h2, h3⟩ := (library_lawful hK).mean_space (library_open hK) (hq i hi).1 (hq i hi).2 hε f
      exact ⟨List.ofFn b, η, fun _ => ⟨by simpa using h1, h2, fun ι s x hx => h3 ι s x fun k => hx _ (by simp)⟩⟩
    · exact ⟨[], 0, fun h => absurd h hi⟩
  choose B η hm using hm
  refine ⟨B, η, fun i hi => ⟨(hm i hi).1, (hm i hi).2.1⟩, fun ss x t χ m hss ht hE hn => ?_⟩
  have hprod : (0 : ℝ) < ss.prod := by exact_mod_cast List.prod_pos hss
  have ha : ∀ i, ∃ a : K.N, inB rs i = true → a ∈ S.dom (p i) ∧ |f a - f (q i)| < ε ∧
      ∀ w ∈ S.dirs, (K.F (p i)).dot w ((K.F (p i)).toExp a) = ((box ss).card : ℝ)⁻¹ *
        ∑ j ∈ box ss, (K.F (p i)).dot w ((K.F (p i)).stat (x (i ++ j))) := fun i => by
    by_cases hi : inB rs i = true
    · obtain ⟨a, h2, h3, h4⟩ := (hm i hi).2.2 _ (box ss) (fun j => x (i ++ j)) fun w hw => by
        obtain ⟨d, h5, h6⟩ := estimate_dot hs hK.kind hss ht hE fun _ => w
        have := hn i hi w hw _ _ h5 (h.dotCalc _ _ _ _ _)
        rwa [card_box, ← h6 i hi, inv_mul_cancel_left₀ hprod.ne']
      exact ⟨a, fun _ => ⟨h2, h3, h4⟩⟩
    · exact ⟨0, fun h => absurd h hi⟩
  choose a ha using ha
  refine ⟨a, mostLikely_of hs hK hss ht (fun i hi => ⟨(hq i hi).1, (ha i hi).1⟩) fun i hi => (ha i hi).2.2,
    fun v hv => ?_, fun i hi => (ha i hi).2.1⟩
  obtain ⟨d, h5, h6⟩ := estimate_dot hs hK.kind hss ht hE v
  rw [h5, h.dotCalc]
  refine congrArg ok (scalars_congr fun i hi => ?_)
  rw [(ha i hi).2.2 _ (hv i hi), ← h6 i hi, card_box, inv_mul_cancel_left₀ hprod.ne']

/-- A sampler that draws from the right distributions identifies them. -/
theorem Spec.Draws.identify (hs : solve.For search) {K : Kind Cls} {S : Setting K}
    (hK : LibrarySetting solve K S) {N : Type} {sample : Random Key → Sampler Key} {lay : Layout K.P N}
    {out : List ℕ → (List ℕ → K.X) → Val} {nat : K.P → N → K.N} {exp : K.P → N → K.E}
    {dom : K.P → N → Prop}
    (hD : letI := S.ms; Draws sample lay out (fun p q => law (K.F p) S.μ (nat p q)) dom)
    (hout : ∀ rs y, K.obs rs y (.leaf (out rs y)))
    (hdom : ∀ p q, dom p q → S.ok p ∧ nat p q ∈ S.dom p ∧ (K.F p).toExp (nat p q) = exp p q) :
    SamplesIdentify (library search) K S sample lay nat exp dom := by
  classical
  obtain ⟨σ, hA, -⟩ := hD.estimates hs hK hout hdom
  intro Ω _ P I key rs p q hq
  let := S.grp
  let := S.mod
  intro f ε δ hε hδ
  have h := C51_library hs hK.kind
  have hL := library_lawful hK
  have hO := library_open hK
  -- the directions that matter
  have hm : ∀ i, ∃ (n : ℕ) (b : Fin n → K.N) (η : ℝ), inB rs i = true → (∀ k, b k ∈ S.dirs) ∧ 0 < η ∧
      ∀ (ι : Type) (s : Finset ι) (x : ι → K.X),
      (∀ k, |(s.card : ℝ)⁻¹ * ∑ j ∈ s, (K.F (p i)).dot (b k) ((K.F (p i)).stat (x j)) -
        (K.F (p i)).dot (b k) (exp (p i) (q i))| ≤ η) →
      ∃ a ∈ S.dom (p i), |f a - f (nat (p i) (q i))| < ε ∧
        ∀ w ∈ S.dirs, (K.F (p i)).dot w ((K.F (p i)).toExp a) =
          (s.card : ℝ)⁻¹ * ∑ j ∈ s, (K.F (p i)).dot w ((K.F (p i)).stat (x j)) := fun i => by
    by_cases hi : inB rs i = true
    · obtain ⟨h1, h2, h3⟩ := hdom _ _ (hq i hi)
      obtain ⟨n, b, η, h⟩ := hL.mean_space hO h1 h2 hε f
      rw [h3] at h
      exact ⟨n, b, η, fun _ => h⟩
    · exact ⟨0, 0, 0, fun h => absurd h hi⟩
  choose n b η hm using hm
  set T : ℝ := ∑ i ∈ box rs, ∑ k : Fin (n i), |σ (p i) (q i) (b i k)| / η i ^ 2 with hT
  have hT0 : 0 ≤ T := Finset.sum_nonneg fun i _ => Finset.sum_nonneg fun k _ => by positivity
  obtain ⟨n₀, hn₀⟩ := exists_nat_gt (T / δ)
  refine ⟨n₀, fun ss hss hn => ?_⟩
  obtain ⟨x, m, hx, hv⟩ := hA Ω _ P I key ss rs p q hss hq
  let := S.ms
  obtain ⟨y, h1, -, -⟩ := hD Ω _ P I key (some ss) rs p q hq
  simp only [Option.getD_some] at h1
  have hxy : ∀ ω, x ω = out (rs ++ ss) (y ω) := fun ω => by
    have := (hx ω).1.symm.trans (h1 ω)
    injection this
  have hobs : ∀ ω, K.obs (rs ++ ss) (y ω) (.leaf (x ω)) := fun ω => hxy ω ▸ hout _ _
  refine ⟨x, fun ω => (hx ω).1, ?_⟩
  have hprod : (0 : ℝ) < ss.prod := by exact_mod_cast List.prod_pos hss
  -- Chebyshev's inequality in every direction
  have hnear : ∀ i, inB rs i = true → ∀ k, P {ω | η i ≤ |((box ss).card : ℝ)⁻¹ *
      ∑ j ∈ box ss, (K.F (p i)).dot (b i k) ((K.F (p i)).stat (y ω (i ++ j))) -
        (K.F (p i)).dot (b i k) (exp (p i) (q i))|} ≤
      ENNReal.ofReal (|σ (p i) (q i) (b i k)| / η i ^ 2 / ss.prod) := fun i hi k => by
    obtain ⟨hb, hη, -⟩ := hm i hi
    obtain ⟨d, c, h2, h3, h4⟩ := hv (fun _ => b i k) fun _ _ => hb k
    have ec : c i = (K.F (p i)).dot (b i k) (exp (p i) (q i)) :=
      (ok_scalars_inj (h3.symm.trans (h.dotCalc _ _ _ _ _)) i hi)
    have ed : ∀ ω, d ω i = ((box ss).card : ℝ)⁻¹ *
        ∑ j ∈ box ss, (K.F (p i)).dot (b i k) ((K.F (p i)).stat (y ω (i ++ j))) := fun ω => by
      obtain ⟨d', h5, h6⟩ := estimate_dot hs hK.kind hss (hobs ω) (hx ω).2 fun _ => b i k
      rw [ok_scalars_inj ((h2 ω).symm.trans h5) i hi, ← h6 i hi, card_box, inv_mul_cancel_left₀ hprod.ne']
    have := (h4 i hi).near (η i) hη
    simp only [ed, ec] at this
    refine this.trans (ENNReal.ofReal_le_ofReal ?_)
    rw [div_div, mul_comm (η i ^ 2)]
    gcongr
    exact le_abs_self _
  have hsub : {ω | ¬ ∃ a m, MostLikely (library search) K S rs ss p (.leaf (x ω)) a ∧
      Estimates (library search) (K.exp rs p fun i => exp (p i) (q i)) ss.length (.leaf (x ω)) m ∧
      (∀ v : List ℕ → K.N, (∀ i, inB rs i = true → v i ∈ S.dirs) →
        dotCalc (K.nat rs p v) m = dotCalc (K.nat rs p v) (K.exp rs p fun i => (K.F (p i)).toExp (a i))) ∧
      ∀ i, inB rs i = true → |f (a i) - f (nat (p i) (q i))| < ε} ⊆
      ⋃ i ∈ box rs, ⋃ k ∈ (Finset.univ : Finset (Fin (n i))), {ω | η i ≤ |((box ss).card : ℝ)⁻¹ *
        ∑ j ∈ box ss, (K.F (p i)).dot (b i k) ((K.F (p i)).stat (y ω (i ++ j))) -
          (K.F (p i)).dot (b i k) (exp (p i) (q i))|} := fun ω hω => by
    by_contra hno
    simp only [mem_iUnion, mem_ofPred_eq, not_exists, not_le, mem_box] at hno
    refine hω ?_
    have ha : ∀ i, ∃ a : K.N, inB rs i = true → a ∈ S.dom (p i) ∧ |f a - f (nat (p i) (q i))| < ε ∧
        ∀ w ∈ S.dirs, (K.F (p i)).dot w ((K.F (p i)).toExp a) = ((box ss).card : ℝ)⁻¹ *
          ∑ j ∈ box ss, (K.F (p i)).dot w ((K.F (p i)).stat (y ω (i ++ j))) := fun i => by
      by_cases hi : inB rs i = true
      · obtain ⟨a, h2, h3, h4⟩ := (hm i hi).2.2 _ (box ss) (fun j => y ω (i ++ j)) fun k =>
          (hno i hi k (Finset.mem_univ _)).le
        exact ⟨a, fun _ => ⟨h2, h3, h4⟩⟩
      · exact ⟨0, fun h => absurd h hi⟩
    choose a ha using ha
    refine ⟨a, m ω, mostLikely_of hs hK hss (hobs ω)
      (fun i hi => ⟨(hdom _ _ (hq i hi)).1, (ha i hi).1⟩) fun i hi => (ha i hi).2.2, (hx ω).2, fun v hv => ?_,
      fun i hi => (ha i hi).2.1⟩
    obtain ⟨d, h5, h6⟩ := estimate_dot hs hK.kind hss (hobs ω) (hx ω).2 v
    rw [h5, h.dotCalc]
    refine congrArg ok (scalars_congr fun i hi => ?_)
    rw [(ha i hi).2.2 _ (hv i hi), ← h6 i hi, card_box, inv_mul_cancel_left₀ hprod.ne']
  refine (measure_mono hsub).trans ((measure_biUnion_finset_le _ _).trans ?_)
  calc ∑ i ∈ box rs, P (⋃ k ∈ (Finset.univ : Finset (Fin (n i))), {ω | η i ≤ |((box ss).card : ℝ)⁻¹ *
        ∑ j ∈ box ss, (K.F (p i)).dot (b i k) ((K.F (p i)).stat (y ω (i ++ j))) -
          (K.F (p i)).dot (b i k) (exp (p i) (q i))|})
      ≤ ∑ i ∈ box rs, ∑ k : Fin (n i), ENNReal.ofReal (|σ (p i) (q i) (b i k)| / η i ^ 2 / ss.prod) :=
        Finset.sum_le_sum fun i hi => (measure_biUnion_finset_le _ _).trans
          (Finset.sum_le_sum fun k _ => hnear i (mem_box.1 hi) k)
    _ = ENNReal.ofReal (T / ss.prod) := by
        rw [hT, Finset.sum_div, ENNReal.ofReal_sum_of_nonneg fun i _ => by positivity]
        refine Finset.sum_congr rfl fun i _ => ?_
        rw [Finset.sum_div, ENNReal.ofReal_sum_of_nonneg fun k _ => by positivity]
    _ ≤ ENNReal.ofReal δ := by
        refine ENNReal.ofReal_le_ofReal ?_
        rw [div_le_iff₀ hprod]
        have h3 : (n₀ : ℝ) ≤ ss.prod := by exact_mod_cast hn
        rw [div_lt_iff₀ hδ] at hn₀
        nlinarith

section

variable (hs : solve.For search)

include hs

/-- **C98.** -/
theorem C98_bernoulli_exp :
    SamplesIdentify (K := Key) (library search) (Simple.bernoulli.kind solve)
      (Simple.bernoulli.setting solve) (fun rng => Cls.sample search rng .bernoulliEP) layS
      (fun _ p => bernoulliToNat p) (fun _ χ => χ) (fun _ p => p ∈ Ioo (0 : ℝ) 1) :=
  C63_bernoulli_exp.identify hs (.simple .bernoulli) (fun _ _ => ⟨_, rfl, holds_outB _ _⟩)
    fun _ _ h => ⟨trivial, C31_bernoulli.2 _ h⟩

/-- **C98.** -/
theorem C98_bernoulli :
    SamplesIdentify (K := Key) (library search) (Simple.bernoulli.kind solve)
      (Simple.bernoulli.setting solve) (fun rng => Cls.sample search rng .bernoulliNP) layS
      (fun _ q => q) (fun _ q => bernoulli.toExp q) (fun _ _ => True) :=
  C63_bernoulli.identify hs (.simple .bernoulli) (fun _ _ => ⟨_, rfl, holds_outB _ _⟩)
    fun _ _ _ => ⟨trivial, mem_univ _, rfl⟩

/-- **C98.** -/
theorem C98_poisson_exp :
    SamplesIdentify (K := Key) (library search) (Simple.poisson.kind solve)
      (Simple.poisson.setting solve) (fun rng => Cls.sample search rng .poissonEP) layS
      (fun _ m => poissonToNat m) (fun _ χ => χ) (fun _ m => 0 < m) :=
  C63_poisson_exp.identify hs (.simple .poisson) (fun _ _ => ⟨_, rfl, holds_outN _ _⟩)
    fun _ _ h => ⟨trivial, C31_poisson.2 _ h⟩

/-- **C98.** -/
theorem C98_poisson :
    SamplesIdentify (K := Key) (library search) (Simple.poisson.kind solve)
      (Simple.poisson.setting solve) (fun rng => Cls.sample search rng .poissonNP) layS
      (fun _ q => q) (fun _ q => poisson.toExp q) (fun _ _ => True) :=
  C63_poisson.identify hs (.simple .poisson) (fun _ _ => ⟨_, rfl, holds_outN _ _⟩)
    fun _ _ _ => ⟨trivial, mem_univ _, rfl⟩

/-- **C98.** -/
theorem C98_negative_binomial_exp :
    SamplesIdentify (K := Key) (library search) (Simple.negativeBinomial.kind solve)
      (Simple.negativeBinomial.setting solve) (fun rng => Cls.sample search rng .negativeBinomialEP) laySFixedInt
      (fun (r : ℕ) (m : ℝ) => negativeBinomialToNat r m) (fun _ χ => χ) (fun (r : ℕ) (m : ℝ) => 1 ≤ r ∧ 0 < m) :=
  C63_negative_binomial_exp.identify hs (.simple .negativeBinomial) (fun _ _ => ⟨_, rfl, holds_outN _ _⟩)
    fun _ _ h => ⟨h.1, (C31_negative_binomial h.1).2 _ h.2⟩

/-- **C98.** -/
theorem C98_negative_binomial :
    SamplesIdentify (K := Key) (library search) (Simple.negativeBinomial.kind solve)
      (Simple.negativeBinomial.setting solve) (fun rng => Cls.sample search rng .negativeBinomialNP) laySFixedInt
      (fun (r : ℕ) (q : ℝ) => q) (fun r q => (negativeBinomial r).toExp q) (fun (r : ℕ) (q : ℝ) => 1 ≤ r ∧ q < 0) :=
  C63_negative_binomial.identify hs (.simple .negativeBinomial) (fun _ _ => ⟨_, rfl, holds_outN _ _⟩)
    fun _ _ h => ⟨h.1, h.2, rfl⟩

/-- **C98.** -/
theorem C98_beta :
    SamplesIdentify (K := Key) (library search) (Simple.beta.kind solve)
      (Simple.beta.setting solve) (fun rng => Cls.sample search rng .betaNP) (layV 2)
      (fun _ q => q) (fun _ q => beta.toExp q) (fun _ q => q ∈ dirichletDom 2) :=
  C63_beta.identify hs (.simple .beta) (fun _ _ => ⟨_, rfl, rfl⟩)
    fun _ _ h => ⟨trivial, h, rfl⟩

/-- **C98.** -/
theorem C98_chi_square :
    SamplesIdentify (K := Key) (library search) (Simple.chiSquare.kind solve)
      (Simple.chiSquare.setting solve) (fun rng => Cls.sample search rng .chiSquareNP) layS
      (fun _ q => q) (fun _ q => chiSquare.toExp q) (fun _ q => -1 < q) :=
  C63_chi_square.identify hs (.simple .chiSquare) (fun _ _ => ⟨_, rfl, rfl⟩)
    fun _ _ h => ⟨trivial, h, rfl⟩

/-- **C98.** -/
theorem C98_exponential :
    SamplesIdentify (K := Key) (library search) (Simple.exponential.kind solve)
      (Simple.exponential.setting solve) (fun rng => Cls.sample search rng .exponentialNP) layS
      (fun _ q => q) (fun _ q => exponential.toExp q) (fun _ q => q < 0) :=
  C63_exponential.identify hs (.simple .exponential) (fun _ _ => ⟨_, rfl, rfl⟩)
    fun _ _ h => ⟨trivial, h, rfl⟩

/-- **C98.** -/
theorem C98_exponential_exp :
    SamplesIdentify (K := Key) (library search) (Simple.exponential.kind solve)
      (Simple.exponential.setting solve) (fun rng => Cls.sample search rng .exponentialEP) layS
      (fun _ m => exponentialToNat m) (fun _ χ => χ) (fun _ m => 0 < m) :=
  C63_exponential_exp.identify hs (.simple .exponential) (fun _ _ => ⟨_, rfl, rfl⟩)
    fun _ _ h => ⟨trivial, C31_exponential.2 _ h⟩

/-- **C98.** -/
theorem C98_gamma :
    SamplesIdentify (K := Key) (library search) (Simple.gamma.kind solve)
      (Simple.gamma.setting solve) (fun rng => Cls.sample search rng .gammaNP) laySS
      (fun _ q => q) (fun _ q => gamma.toExp q) (fun _ q => q ∈ gammaDom) :=
  C63_gamma.identify hs (.simple .gamma) (fun _ _ => ⟨_, rfl, rfl⟩)
    fun _ _ h => ⟨trivial, h, rfl⟩

/-- **C98.** -/
theorem C98_gamma_var :
    SamplesIdentify (K := Key) (library search) (Simple.gamma.kind solve)
      (Simple.gamma.setting solve) (fun rng => Cls.sample search rng .gammaVP) laySS
      (fun _ w => gammaVarToNat w) (fun _ => gammaVarToExp) (fun _ w => 0 < w.1 ∧ 0 < w.2) :=
  C63_gamma_var.identify hs (.simple .gamma) (fun _ _ => ⟨_, rfl, rfl⟩)
    fun _ _ h => ⟨trivial, gammaVarToNat_mem h.1 h.2, rfl⟩

/-- **C98.** -/
theorem C98_rayleigh :
    SamplesIdentify (K := Key) (library search) (Simple.rayleigh.kind solve)
      (Simple.rayleigh.setting solve) (fun rng => Cls.sample search rng .rayleighNP) layS
      (fun _ q => q) (fun _ q => rayleigh.toExp q) (fun _ q => q < 0) :=
  C63_rayleigh.identify hs (.simple .rayleigh) (fun _ _ => ⟨_, rfl, rfl⟩)
    fun _ _ h => ⟨trivial, h, rfl⟩

/-- **C98.** -/
theorem C98_rayleigh_exp :
    SamplesIdentify (K := Key) (library search) (Simple.rayleigh.kind solve)
      (Simple.rayleigh.setting solve) (fun rng => Cls.sample search rng .rayleighEP) layS
      (fun _ χ => rayleighToNat χ) (fun _ χ => χ) (fun _ χ => 0 < χ) :=
  C63_rayleigh_exp.identify hs (.simple .rayleigh) (fun _ _ => ⟨_, rfl, rfl⟩)
    fun _ _ h => ⟨trivial, C31_rayleigh.2 _ h⟩

/-- **C98.** -/
theorem C98_weibull_exp :
    SamplesIdentify (K := Key) (library search) (Simple.weibull.kind solve)
      (Simple.weibull.setting solve) (fun rng => Cls.sample search rng .weibullEP) layFixedS
      (fun (k : ℝ) (χ : ℝ) => weibullToNat χ) (fun _ χ => χ) (fun (k : ℝ) (χ : ℝ) => 0 < k ∧ 0 < χ) :=
  C63_weibull_exp.identify hs (.simple .weibull) (fun _ _ => ⟨_, rfl, rfl⟩)
    fun _ _ h => ⟨h.1, (C31_weibull _).2 _ h.2⟩

/-- **C98.** -/
theorem C98_weibull :
    SamplesIdentify (K := Key) (library search) (Simple.weibull.kind solve)
      (Simple.weibull.setting solve) (fun rng => Cls.sample search rng .weibullNP) layFixedS
      (fun (k : ℝ) (q : ℝ) => q) (fun k q => (weibull k).toExp q) (fun (k : ℝ) (q : ℝ) => 0 < k ∧ q < 0) :=
  C63_weibull.identify hs (.simple .weibull) (fun _ _ => ⟨_, rfl, rfl⟩)
    fun _ _ h => ⟨h.1, h.2, rfl⟩

/-- **C98.** -/
theorem C98_normal_var :
    SamplesIdentify (K := Key) (library search) (Simple.normal.kind solve)
      (Simple.normal.setting solve) (fun rng => Cls.sample search rng .normalVP) laySS
      (fun _ w => normalVarToNat w) (fun _ w => (w.1, w.1 ^ 2 + w.2)) (fun _ w => 0 < w.2) :=
  C63_normal_var.identify hs (.simple .normal) (fun _ _ => ⟨_, rfl, rfl⟩)
    fun _ _ h => ⟨trivial, normalVarToNat_mem h, normalVar_toExp h⟩

/-- **C98.** -/
theorem C98_normal_exp :
    SamplesIdentify (K := Key) (library search) (Simple.normal.kind solve)
      (Simple.normal.setting solve) (fun rng => Cls.sample search rng .normalEP) laySS
      (fun _ χ => normalToNat χ) (fun _ χ => χ) (fun _ χ => χ.1 ^ 2 < χ.2) :=
  C63_normal_exp.identify hs (.simple .normal) (fun _ _ => ⟨_, rfl, rfl⟩)
    fun _ _ h => ⟨trivial, C31_normal.2 _ h⟩

/-- **C98.** -/
theorem C98_normal :
    SamplesIdentify (K := Key) (library search) (Simple.normal.kind solve)
      (Simple.normal.setting solve) (fun rng => Cls.sample search rng .normalNP) laySS
      (fun _ q => q) (fun _ q => normal.toExp q) (fun _ q => q ∈ normalDom) :=
  C63_normal.identify hs (.simple .normal) (fun _ _ => ⟨_, rfl, rfl⟩)
    fun _ _ h => ⟨trivial, h, rfl⟩

/-- **C98.** -/
theorem C98_unit_normal :
    SamplesIdentify (K := Key) (library search) (Simple.unitNormal.kind solve)
      (Simple.unitNormal.setting solve) (fun rng => Cls.sample search rng .unitNormalNP) layS
      (fun _ m => m) (fun _ q => unitNormal.toExp q) (fun _ _ => True) :=
  C63_unit_normal.identify hs (.simple .unitNormal) (fun _ _ => ⟨_, rfl, rfl⟩)
    fun _ _ _ => ⟨trivial, mem_univ _, rfl⟩

/-- **C98.** -/
theorem C98_dirichlet (d : ℕ) (hd : 0 < d) :
    SamplesIdentify (K := Key) (library search) ((Simple.dirichlet d).kind solve)
      ((Simple.dirichlet d).setting solve) (fun rng => Cls.sample search rng .dirichletNP) (layV (d + 1))
      (fun _ q => q) (fun _ q => (dirichlet d).toExp q) (fun _ q => q ∈ dirichletDom (d + 1)) :=
  (C63_dirichlet d).identify hs (.simple (.dirichlet d)) (fun _ _ => ⟨_, rfl, rfl⟩)
    fun _ _ h => ⟨hd, h, rfl⟩

/-- **C98.** -/
theorem C98_mv_normal_var (d : ℕ) :
    SamplesIdentify (K := Key) (library search) ((Simple.mvNormal d).kind solve)
      ((Simple.mvNormal d).setting solve) (fun rng => Cls.sample search rng .mvNormalVP) (layVM d)
      (fun _ w => mvNormalToNat (mvNormalVarToExp w)) (fun _ => mvNormalVarToExp) (fun _ w => w.2.PosDef) :=
  (C63_mv_normal_var d).identify hs (.simple (.mvNormal d)) (fun _ _ => ⟨_, rfl, rfl⟩)
    fun _ _ h => ⟨trivial, C31_mv_normal.2 _ (mvNormalVar_mem h)⟩

/-- **C98.** -/
theorem C98_mv_normal_exp (d : ℕ) :
    SamplesIdentify (K := Key) (library search) ((Simple.mvNormal d).kind solve)
      ((Simple.mvNormal d).setting solve) (fun rng => Cls.sample search rng .mvNormalEP) (layVM d)
      (fun _ χ => mvNormalToNat χ) (fun _ χ => χ) (fun _ χ => (χ.2 - Matrix.vecMulVec χ.1 χ.1).PosDef) :=
  (C63_mv_normal_exp d).identify hs (.simple (.mvNormal d)) (fun _ _ => ⟨_, rfl, rfl⟩)
    fun _ _ h => ⟨trivial, C31_mv_normal.2 _ h⟩

/-- **C98.** -/
theorem C98_mv_diagonal_var (d : ℕ) :
    SamplesIdentify (K := Key) (library search) ((Simple.mvDiagonal d).kind solve)
      ((Simple.mvDiagonal d).setting solve) (fun rng => Cls.sample search rng .diagonalNormalVP) (layVV d)
      (fun _ w => mvDiagonalVarToNat w) (fun _ w => (w.1, fun i => w.1 i ^ 2 + w.2 i)) (fun _ w => ∀ i, 0 < w.2 i) :=
  (C63_mv_diagonal_var d).identify hs (.simple (.mvDiagonal d)) (fun _ _ => ⟨_, rfl, rfl⟩)
    fun _ _ h => ⟨trivial, fun i => normalVarToNat_mem (w := (0, _)) (h i), mvDiagonalVar_toExp h⟩

/-- **C98.** -/
theorem C98_mv_diagonal_exp (d : ℕ) :
    SamplesIdentify (K := Key) (library search) ((Simple.mvDiagonal d).kind solve)
      ((Simple.mvDiagonal d).setting solve) (fun rng => Cls.sample search rng .diagonalNormalEP) (layVV d)
      (fun _ χ => mvDiagonalToNat χ) (fun _ χ => χ) (fun _ χ => ∀ i, χ.1 i ^ 2 < χ.2 i) :=
  (C63_mv_diagonal_exp d).identify hs (.simple (.mvDiagonal d)) (fun _ _ => ⟨_, rfl, rfl⟩)
    fun _ _ h => ⟨trivial, C31_mv_diagonal.2 _ h⟩

/-- **C98.** -/
theorem C98_mv_diagonal (d : ℕ) :
    SamplesIdentify (K := Key) (library search) ((Simple.mvDiagonal d).kind solve)
      ((Simple.mvDiagonal d).setting solve) (fun rng => Cls.sample search rng .diagonalNormalNP) (layVV d)
      (fun _ q => q) (fun _ q => (mvDiagonal d).toExp q) (fun _ q => q ∈ mvDiagonalDom d) :=
  (C63_mv_diagonal d).identify hs (.simple (.mvDiagonal d)) (fun _ _ => ⟨_, rfl, rfl⟩)
    fun _ _ h => ⟨trivial, h, rfl⟩

/-- **C98.** -/
theorem C98_mv_fixed_exp (d : ℕ) :
    SamplesIdentify (K := Key) (library search) ((Simple.mvFixed d).kind solve)
      ((Simple.mvFixed d).setting solve) (fun rng => Cls.sample search rng .fixedVarianceNormalEP) (layVFixed d)
      (fun (v : ℝ) (m : Fin d → ℝ) => mvFixedToNat v m) (fun _ χ => χ) (fun (v : ℝ) (_ : Fin d → ℝ) => 0 < v) :=
  (C63_mv_fixed_exp d).identify hs (.simple (.mvFixed d)) (fun _ _ => ⟨_, rfl, rfl⟩)
    fun _ _ h => ⟨h, (C31_mv_fixed h).2 _ (mem_univ _)⟩

/-- **C98.** -/
theorem C98_mv_fixed (d : ℕ) :
    SamplesIdentify (K := Key) (library search) ((Simple.mvFixed d).kind solve)
      ((Simple.mvFixed d).setting solve) (fun rng => Cls.sample search rng .fixedVarianceNormalNP) (layVFixed d)
      (fun (v : ℝ) (q : Fin d → ℝ) => q) (fun v q => (mvFixed d v).toExp q) (fun (v : ℝ) (_ : Fin d → ℝ) => 0 < v) :=
  (C63_mv_fixed d).identify hs (.simple (.mvFixed d)) (fun _ _ => ⟨_, rfl, rfl⟩)
    fun _ _ h => ⟨h, mem_univ _, rfl⟩

/-- **C98.** -/
theorem C98_mv_isotropic_exp (d : ℕ) :
    SamplesIdentify (K := Key) (library search) ((Simple.mvIsotropic (d + 1)).kind solve)
      ((Simple.mvIsotropic (d + 1)).setting solve) (fun rng => Cls.sample search rng .isotropicNormalEP) (layVS (d + 1))
      (fun _ χ => mvIsotropicToNat χ) (fun _ χ => χ) (fun _ χ => ∑ i, χ.1 i ^ 2 < χ.2) :=
  (C63_mv_isotropic_exp d).identify hs (.simple (.mvIsotropic (d + 1))) (fun _ _ => ⟨_, rfl, rfl⟩)
    fun _ _ h => ⟨d.succ_pos, C31_mv_isotropic.2 _ h⟩

/-- **C98.** -/
theorem C98_mv_isotropic (d : ℕ) :
    SamplesIdentify (K := Key) (library search) ((Simple.mvIsotropic (d + 1)).kind solve)
      ((Simple.mvIsotropic (d + 1)).setting solve) (fun rng => Cls.sample search rng .isotropicNormalNP) (layVS (d + 1))
      (fun _ q => q) (fun _ q => (mvIsotropic (d + 1)).toExp q) (fun _ q => q ∈ mvIsotropicDom (d + 1)) :=
  (C63_mv_isotropic d).identify hs (.simple (.mvIsotropic (d + 1))) (fun _ _ => ⟨_, rfl, rfl⟩)
    fun _ _ h => ⟨d.succ_pos, h, rfl⟩

/-- **C98.** -/
theorem C98_mv_unit (d : ℕ) :
    SamplesIdentify (K := Key) (library search) ((Simple.mvUnit d).kind solve)
      ((Simple.mvUnit d).setting solve) (fun rng => Cls.sample search rng .mvUnitNormalNP) (layV d)
      (fun _ m => m) (fun _ q => (mvUnit d).toExp q) (fun _ _ => True) :=
  (C63_mv_unit d).identify hs (.simple (.mvUnit d)) (fun _ _ => ⟨_, rfl, rfl⟩)
    fun _ _ _ => ⟨trivial, mem_univ _, rfl⟩

/-- **C98.** -/
theorem C98_complex_normal_exp :
    SamplesIdentify (K := Key) (library search) (Simple.complexNormal.kind solve)
      (Simple.complexNormal.setting solve) (fun rng => Cls.sample search rng .complexNormalEP) layCSC
      (fun _ χ => complexNormalToNat χ) (fun _ χ => χ) (fun _ χ => ‖χ.2.2 - χ.1 ^ 2‖ < χ.2.1 - ‖χ.1‖ ^ 2) :=
  C63_complex_normal_exp.identify hs (.simple .complexNormal) (fun _ _ => ⟨_, rfl, rfl⟩)
    fun _ _ h => ⟨trivial, C31_complex_normal.2 _ h⟩

/-- **C98.** -/
theorem C98_complex_normal :
    SamplesIdentify (K := Key) (library search) (Simple.complexNormal.kind solve)
      (Simple.complexNormal.setting solve) (fun rng => Cls.sample search rng .complexNormalNP) layCSC
      (fun _ q => q) (fun _ q => complexNormal.toExp q) (fun _ q => q ∈ complexNormalDom) :=
  C63_complex_normal.identify hs (.simple .complexNormal) (fun _ _ => ⟨_, rfl, rfl⟩)
    fun _ _ h => ⟨trivial, h, rfl⟩

open scoped ComplexOrder in
/-- **C98.** -/
theorem C98_cmv_circular_exp (d : ℕ) :
    SamplesIdentify (K := Key) (library search) ((Simple.cmvCircular d).kind solve)
      ((Simple.cmvCircular d).setting solve) (fun rng => Cls.sample search rng .ccsnEP) (layCM d)
      (fun _ χ => cmvCircularToNat χ) (fun _ χ => χ) (fun _ χ => χ.PosDef) :=
  (C63_cmv_circular_exp d).identify hs (.simple (.cmvCircular d)) (fun _ _ => ⟨_, rfl, rfl⟩)
    fun _ _ h => ⟨trivial, C31_cmv_circular.2 _ h⟩

open scoped ComplexOrder in
/-- **C98.** -/
theorem C98_cmv_circular (d : ℕ) :
    SamplesIdentify (K := Key) (library search) ((Simple.cmvCircular d).kind solve)
      ((Simple.cmvCircular d).setting solve) (fun rng => Cls.sample search rng .ccsnNP) (layCM d)
      (fun _ q => q) (fun _ q => (cmvCircular d).toExp q) (fun _ q => q ∈ cmvCircularDom d) :=
  (C63_cmv_circular d).identify hs (.simple (.cmvCircular d)) (fun _ _ => ⟨_, rfl, rfl⟩)
    fun _ _ h => ⟨trivial, h, rfl⟩

/-- **C98.** -/
theorem C98_mv_unit_exp (d : ℕ) :
    SamplesIdentify (K := Key) (library search) ((Simple.mvUnit d).kind solve)
      ((Simple.mvUnit d).setting solve) (fun rng => Cls.sample search rng .mvUnitNormalEP) (layV d)
      (fun _ χ => mvUnitToNat χ) (fun _ χ => χ) (fun _ _ => True) :=
  (C63_mv_unit_exp (search .mvUnitNormalEP) d).identify hs (.simple (.mvUnit d)) (fun _ _ => ⟨_, rfl, rfl⟩)
    fun _ _ _ => ⟨trivial, C31_mv_unit.2 _ (mem_univ _)⟩

/-- **C98.** -/
theorem C98_unit_normal_exp :
    SamplesIdentify (K := Key) (library search) (Simple.unitNormal.kind solve)
      (Simple.unitNormal.setting solve) (fun rng => Cls.sample search rng .unitNormalEP) layS
      (fun _ χ => unitNormalToNat χ) (fun _ χ => χ) (fun _ _ => True) :=
  (C63_unit_normal_exp (search .unitNormalEP)).identify hs (.simple .unitNormal) (fun _ _ => ⟨_, rfl, rfl⟩)
    fun _ _ _ => ⟨trivial, C31_unit_normal.2 _ (mem_univ _)⟩

/-- **C98.** -/
theorem C98_beta_exp :
    SamplesIdentify (K := Key) (library search) (Simple.beta.kind solve)
      (Simple.beta.setting solve) (fun rng => Cls.sample search rng .betaEP) (layV 2)
      (fun _ χ => solve.beta χ) (fun _ χ => χ) (fun _ χ => ((∀ k, χ k < Ring.openMax 0) ∧ solve.beta χ ∈ dirichletDom 2) ∧ beta.toExp (solve.beta χ) = χ) :=
  ((C63_beta_exp hs).mono fun _ _ h => h.1).identify hs (.simple .beta) (fun _ _ => ⟨_, rfl, rfl⟩)
    fun _ _ h => ⟨trivial, h.1.2, h.2⟩

/-- **C98.** -/
theorem C98_dirichlet_exp (d : ℕ) (hd : 0 < d) :
    SamplesIdentify (K := Key) (library search) ((Simple.dirichlet d).kind solve)
      ((Simple.dirichlet d).setting solve) (fun rng => Cls.sample search rng .dirichletEP) (layV (d + 1))
      (fun _ χ => solve.dirichlet (d + 1) χ) (fun _ χ => χ) (fun _ χ => ((∀ k, χ k < Ring.openMax 0) ∧ solve.dirichlet (d + 1) χ ∈ dirichletDom (d + 1)) ∧ (dirichlet d).toExp (solve.dirichlet (d + 1) χ) = χ) :=
  ((C63_dirichlet_exp hs d).mono fun _ _ h => h.1).identify hs (.simple (.dirichlet d)) (fun _ _ => ⟨_, rfl, rfl⟩)
    fun _ _ h => ⟨hd, h.1.2, h.2⟩

/-- **C98.** -/
theorem C98_chi_square_exp :
    SamplesIdentify (K := Key) (library search) (Simple.chiSquare.kind solve)
      (Simple.chiSquare.setting solve) (fun rng => Cls.sample search rng .chiSquareEP) layS
      (fun _ χ => solve.chiSquare χ) (fun _ χ => χ) (fun _ χ => -1 < solve.chiSquare χ ∧ chiSquare.toExp (solve.chiSquare χ) = χ) :=
  ((C63_chi_square_exp hs).mono fun _ _ h => h.1).identify hs (.simple .chiSquare) (fun _ _ => ⟨_, rfl, rfl⟩)
    fun _ _ h => ⟨trivial, h.1, h.2⟩

/-- **C98.** -/
theorem C98_gamma_exp :
    SamplesIdentify (K := Key) (library search) (Simple.gamma.kind solve)
      (Simple.gamma.setting solve) (fun rng => Cls.sample search rng .gammaEP) laySS
      (fun _ χ => solve.gamma χ) (fun _ χ => χ) (fun _ χ => (Ring.openMin 0 < χ.1 ∧ solve.gamma χ ∈ gammaDom) ∧ gamma.toExp (solve.gamma χ) = χ) :=
  ((C63_gamma_exp hs).mono fun _ _ h => h.1).identify hs (.simple .gamma) (fun _ _ => ⟨_, rfl, rfl⟩)
    fun _ _ h => ⟨trivial, h.1.2, h.2⟩

end

/-- Non-vacuity: for enough samples of three gamma distributions, the estimate most likely exists. -/
example (hs : solve.For search) : ∃ (Ω : Type) (_ : MeasurableSpace Ω) (P : Measure Ω)
    (I : IdealRandom (List (ℕ × ℕ)) P) (n : ℕ) (x : Ω → Val),
    (∀ ω, Cls.sample search (I.rng ω) .gammaNP (laySS [3] (fun _ => ()) fun _ => (-1, 2)) [] (some [n, 2]) =
      .ok (x ω)) ∧
    P {ω | ¬ ∃ a : List ℕ → ℝ × ℝ, MostLikely (library search) (Simple.gamma.kind solve)
      (Simple.gamma.setting solve) [3] [n, 2] (fun _ => ()) (.leaf (x ω)) a ∧
      |(a [1]).2 - 2| < 1 / 1000} ≤ ENNReal.ofReal (1 / 100) := by
  obtain ⟨I⟩ := idealRandom_exists
  obtain ⟨n, h⟩ := C98_gamma (Key := List (ℕ × ℕ)) hs _ _ _ I [] [3] (fun _ => ())
    (fun _ => ((-1, 2) : ℝ × ℝ)) (fun _ _ => by constructor <;> norm_num)
    (LinearMap.snd ℝ ℝ ℝ) (1 / 1000) (1 / 100) (by norm_num) (by norm_num)
  obtain ⟨x, h1, h2⟩ := h [n + 1, 2] (by simp) (by simp; omega)
  refine ⟨_, _, _, I, n + 1, x, h1, (measure_mono fun ω hω => ?_).trans h2⟩
  rintro ⟨a, m, h3, -, -, h4⟩
  exact hω ⟨a, h3, h4 [1] rfl⟩

/-- Non-vacuity: the batch of `C98_estimate`. -/
example : (Simple.gamma.setting solve).Inside [3] (fun _ => ()) fun _ => ((-1, 2) : ℝ × ℝ) :=
  fun _ _ => ⟨trivial, by constructor <;> norm_num⟩

end Efax
