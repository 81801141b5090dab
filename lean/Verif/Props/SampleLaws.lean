import Verif.Lemmas.Independence
import Verif.Lemmas.NormalMoments
import Verif.Props.EverySampler
import Verif.Props.Families.ComplexSamplers
import Verif.Props.Families.DiscreteSamplers

/-!
# C63: with ideal random numbers, samples of batches have independent entries with the right laws
-/

namespace Efax

open MeasureTheory ProbabilityTheory Spec Set

variable {K : Type}

/-! ### Which seeds -/

/-- One seed. -/
def oneBit : Bits where
  B := Unit
  path _ := none
  event := []
  idx _ := []
  mem _ := rfl
  inj _ _ _ _ := rfl

/-- A seed for each element of a set of `n` numbers. -/
def vectorBits {B : Type} [Fintype B] (n : ℕ) (e : B ≃ Fin n) : Bits where
  B := B
  path _ := none
  event := [n]
  idx k := [(e k).val]
  mem k := by simp [inB]
  inj a b _ h := e.injective (Fin.ext (by simpa using h))

/-- A seed for each of two keys that are split off. -/
def pairBits : Bits where
  B := Fin 2
  path b := some b
  event := []
  idx _ := []
  mem _ := rfl
  inj _ _ h _ := by simpa using h

section

variable {Ω : Type} [MeasurableSpace Ω] {P : Measure Ω}

theorem Spec.IdealRandom.probability (I : IdealRandom K P) : IsProbabilityMeasure I.ν := by
  have h := I.normal_law.measure_preimage MeasurableSet.univ.nullMeasurableSet
  rw [preimage_univ] at h
  exact ⟨h.trans measure_univ⟩

/-- Standard normal numbers. -/
theorem Spec.IdealRandom.normals_law (I : IdealRandom K P) (B : Type) [Fintype B] :
    MeasurePreserving (fun (u : B → I.Seed) k => I.normal (u k)) (Measure.pi fun _ => I.ν)
      (randomNormals B) := by
  have := I.probability
  exact measurePreserving_pi _ _ fun _ => I.normal_law

end

variable {A N Y : Type} [MeasurableSpace Y] {sample : Random K → Sampler K} {lay : Layout A N}
  {out : List ℕ → (List ℕ → Y) → Val} {draw : Draw K A N Y} {dom' : A → N → Prop}

theorem Samples.reads_one (h : Samples sample lay out draw dom') {law : A → N → Measure Y}
    {dom : A → N → Prop} (hd : ∀ p q, dom p q → dom' p q)
    (hr : ∀ {Ω : Type} [MeasurableSpace Ω] {P : Measure Ω} (I : IdealRandom K P),
      ∃ g : A → N → I.Seed → Y, (∀ p q, dom p q → MeasurePreserving (g p q) I.ν (law p q)) ∧
        ∀ ω t j key p q, draw (local_ (I.rng ω) t j) key p q = g p q (I.seed ω key t j)) :
    ReadsLaw sample lay out law dom oneBit := fun rs p q hq Ω _ P I => by
  obtain ⟨g, hg, he⟩ := hr I
  have := I.probability
  refine ⟨fun i u => g (p i) (q i) (u ()), fun i hi =>
    (hg _ _ (hq i hi)).comp (measurePreserving_eval (fun _ : Unit => I.ν) ()), fun ω key shape => ?_⟩
  rw [h (I.rng ω) key shape rs p q fun i hi => hd _ _ (hq i hi)]
  simp only [he]
  rfl

theorem Samples.reads_vector (h : Samples sample lay out draw dom') {law : A → N → Measure Y}
    {dom : A → N → Prop} {B : Type} [Fintype B] {n : ℕ} (e : B ≃ Fin n)
    (hd : ∀ p q, dom p q → dom' p q)
    (hr : ∀ {Ω : Type} [MeasurableSpace Ω] {P : Measure Ω} (I : IdealRandom K P),
      ∃ g : A → N → (B → ℝ) → Y,
        (∀ p q, dom p q → Measurable (g p q) ∧ (randomNormals B).map (g p q) = law p q) ∧
        ∀ ω t j key p q, draw (local_ (I.rng ω) t j) key p q =
          g p q fun k => (I.rng ω).normal key (n :: t) ((e k).val :: j)) :
    ReadsLaw sample lay out law dom (vectorBits n e) := fun rs p q hq Ω _ P I => by
  obtain ⟨g, hg, he⟩ := hr I
  refine ⟨fun i u => g (p i) (q i) fun k => I.normal (u k), fun i hi => ?_, fun ω key shape => ?_⟩
  · beta_reduce
    rw [← (hg _ _ (hq i hi)).2]
    exact MeasurePreserving.andThen (I.normals_law B) (hg _ _ (hq i hi)).1
  · rw [h (I.rng ω) key shape rs p q fun i hi => hd _ _ (hq i hi)]
    simp only [he]
    rfl

theorem Samples.reads_pair (h : Samples sample lay out draw dom') {law : A → N → Measure Y}
    {dom : A → N → Prop} (hd : ∀ p q, dom p q → dom' p q)
    (hr : ∀ {Ω : Type} [MeasurableSpace Ω] {P : Measure Ω} (I : IdealRandom K P),
      ∃ g : A → N → I.Seed → I.Seed → Y, (∀ p q, dom p q → MeasurePreserving (fun u => g p q u.1 u.2)
          (I.ν.prod I.ν) (law p q)) ∧
        ∀ ω t j key p q, draw (local_ (I.rng ω) t j) key p q =
          g p q (I.seed ω (I.split key 2 0) t j) (I.seed ω (I.split key 2 1) t j)) :
    ReadsLaw sample lay out law dom pairBits := fun rs p q hq Ω _ P I => by
  obtain ⟨g, hg, he⟩ := hr I
  have := I.probability
  refine ⟨fun i (u : Fin 2 → I.Seed) => g (p i) (q i) (u 0) (u 1), fun i hi =>
    (hg _ _ (hq i hi)).comp (measurePreserving_finTwoArrow I.ν), fun ω key shape => ?_⟩
  rw [h (I.rng ω) key shape rs p q fun i hi => hd _ _ (hq i hi)]
  simp only [he]
  rfl

/-- Converting first. -/
theorem Spec.ReadsLaw.convert {M : Type} {law : A → N → Measure Y} {dom : A → N → Prop} {bits : Bits}
    (h : ReadsLaw sample lay out law dom bits) {lay' : Layout A M}
    {conv : List Val → Except Err (List Val)} {f : A → M → N} {dom'' : A → M → Prop}
    {law' : A → M → Measure Y} {domc : A → M → Prop}
    (hc : ∀ rs p q, (∀ i, inB rs i = true → domc (p i) (q i)) →
      conv (lay' rs p q) = .ok (lay rs p fun i => f (p i) (q i)))
    (hd : ∀ p q, dom'' p q → dom p (f p q)) (hl : ∀ p q, dom'' p q → law p (f p q) = law' p q)
    (hdc : ∀ p q, dom'' p q → domc p q := by exact fun _ _ _ => trivial) :
    ReadsLaw (fun rng => Sampling.via conv (sample rng)) lay' out law' dom'' bits :=
  fun rs p q hq Ω _ P I => by
  obtain ⟨g, hg, hs⟩ := h rs p (fun i => f (p i) (q i)) (fun i hi => hd _ _ (hq i hi)) Ω _ P I
  refine ⟨g, fun i hi => ?_, fun ω key shape => ?_⟩
  · beta_reduce
    rw [← hl _ _ (hq i hi)]
    exact hg i hi
  simp only [Sampling.via, hc rs p q fun i hi => hdc _ _ (hq i hi), Bind.bind, Except.bind]
  exact hs ω key shape

/-- A Poisson number with a random mean. -/
theorem Spec.IdealRandom.mixture_law {Ω : Type} [MeasurableSpace Ω] {P : Measure Ω}
    (I : IdealRandom K P) {G : I.Seed → ℝ} {μ : Measure ℝ} (hG : MeasurePreserving G I.ν μ)
    (hpos : ∀ᵐ x ∂μ, 0 < x) :
    MeasurePreserving (fun u : I.Seed × I.Seed => I.poisson (G u.1) u.2) (I.ν.prod I.ν)
      (μ.bind randomPoisson) := by
  have := I.probability
  have hm : Measurable fun u : I.Seed × I.Seed => I.poisson (G u.1) u.2 :=
    I.poisson_measurable.comp ((hG.measurable.comp measurable_fst).prodMk measurable_snd)
  refine ⟨hm, Measure.ext fun s hs => ?_⟩
  have hp := measurable_randomPoisson
  have e := hG.lintegral_comp (f := fun x => randomPoisson x s) ((Measure.measurable_coe hs).comp hp)
  rw [Measure.map_apply hm hs, Measure.prod_apply (hm hs), Measure.bind_apply hs hp.aemeasurable, ← e]
  refine lintegral_congr_ae ?_
  filter_upwards [hG.quasiMeasurePreserving.ae hpos] with u hu
  rw [← (I.poisson_law (G u) hu).measure_preimage hs.nullMeasurableSet]
  rfl

theorem gammaSampleN_law {Ω : Type} [MeasurableSpace Ω] {P : Measure Ω} (I : IdealRandom K P) {q : ℝ × ℝ}
    (hq : q ∈ gammaDom) :
    MeasurePreserving (fun u => -I.gamma (q.2 + 1) u / q.1) I.ν (gammaSampleN q) :=
  MeasurePreserving.andThen (I.gamma_law (q.2 + 1) (by linarith [hq.2])) (g := fun x => -x / q.1)
    (by fun_prop)

theorem ae_law {N E X : Type} [MeasurableSpace X] {F : ExpFam N E X} {μ : Measure X} {q : N}
    {p : X → Prop} (h : ∀ᵐ x ∂μ, p x) : ∀ᵐ x ∂law F μ q, p x :=
  (withDensity_absolutelyContinuous μ _).ae_le h

/-! ### Bernoulli, Poisson, geometric, multinomial, negative binomial -/

theorem reads_bernoulli_exp : ReadsLaw (K := K) Sampling.bernoulliEP layS outB
    (fun _ p => law bernoulli Measure.count (bernoulliToNat p)) (fun _ p => p ∈ Ioo (0 : ℝ) 1) oneBit :=
  Samples.reads_one C62_bernoulli_exp (fun _ _ _ => trivial) fun I => ⟨fun _ p => I.bernoulli p,
    fun _ p hp => C46_bernoulli_exp hp ▸ I.bernoulli_law p hp.1.le hp.2.le, fun _ _ _ _ _ _ => rfl⟩

theorem reads_bernoulli : ReadsLaw (K := K) Sampling.bernoulliNP layS outB
    (fun _ q => law bernoulli Measure.count q) (fun _ _ => True) oneBit :=
  Samples.reads_one C62_bernoulli (fun _ _ _ => trivial) fun I => ⟨fun _ q => I.bernoulli (bernoulli.toExp q),
    fun _ q _ => C46_bernoulli_nat q ▸ I.bernoulli_law _ (C31_bernoulli.1 q trivial).1.1.le
      (C31_bernoulli.1 q trivial).1.2.le, fun _ _ _ _ _ _ => rfl⟩

theorem reads_poisson_exp : ReadsLaw (K := K) Sampling.poissonEP layS outN
    (fun _ m => law poisson Measure.count (poissonToNat m)) (fun _ m => 0 < m) oneBit :=
  Samples.reads_one C62_poisson_exp (fun _ _ _ => trivial) fun I => ⟨fun _ m => I.poisson m,
    fun _ m hm => C46_poisson_exp hm ▸ I.poisson_law m hm, fun _ _ _ _ _ _ => rfl⟩

theorem reads_poisson : ReadsLaw (K := K) Sampling.poissonNP layS outN
    (fun _ q => law poisson Measure.count q) (fun _ _ => True) oneBit :=
  Samples.reads_one C62_poisson (fun _ _ _ => trivial) fun I => ⟨fun _ q => I.poisson (poisson.toExp q),
    fun _ q _ => C46_poisson_nat q ▸ I.poisson_law _ (C31_poisson.1 q trivial).1, fun _ _ _ _ _ _ => rfl⟩

theorem reads_geometric_exp : ReadsLaw (K := K) Sampling.geometricEP layS outN
    (fun _ m => geometricSampleE m) (fun _ m => 1 ≤ m) oneBit :=
  Samples.reads_one C62_geometric_exp (fun _ _ _ => trivial) fun I => ⟨fun _ m => I.geometric (1 / m),
    fun _ m hm => I.geometric_law (1 / m) (by positivity) (by
      rw [div_le_one (by linarith)]; exact hm), fun _ _ _ _ _ _ => rfl⟩

theorem reads_multinomial (d : ℕ) : ReadsLaw (K := K) Sampling.multinomialNP (layV (d + 1)) outV
    (fun _ q => multinomialSampleN q) (fun _ _ => True) oneBit :=
  Samples.reads_one (C62_multinomial d) (fun _ _ _ => trivial) fun I =>
    ⟨fun _ q u k => if I.categorical d q u = k then 1 else 0, fun _ q _ => by
      have := MeasurePreserving.andThen (I.categorical_law d q)
        (g := fun k i => if i = k then (1 : ℝ) else 0) (measurable_of_finite _)
      have e : (fun u k => if I.categorical d q u = k then (1 : ℝ) else 0) =
          fun u i => if i = I.categorical d q u then 1 else 0 := by
        funext u k
        simp only [eq_comm]
      show MeasurePreserving (fun u k => if I.categorical d q u = k then (1 : ℝ) else 0) _ _
      rw [e]
      exact this, fun _ _ _ _ _ _ => rfl⟩

theorem reads_negative_binomial_exp : ReadsLaw (K := K) Sampling.negativeBinomialEP laySFixedInt outN
    (fun r m => law (negativeBinomial r) Measure.count (negativeBinomialToNat r m))
    (fun r m => 1 ≤ r ∧ 0 < m) pairBits :=
  Samples.reads_pair C62_negative_binomial_exp (fun _ _ _ => trivial) fun I =>
    ⟨fun r m u v => I.poisson (-I.gamma ((r : ℝ) - 1 + 1) u / (-r / m)) v, fun r m ⟨hr, hm⟩ => by
      have hr' : (0 : ℝ) < r := Nat.cast_pos.2 hr
      have hq : ((-r / m, (r : ℝ) - 1) : ℝ × ℝ) ∈ gammaDom := by
        refine ⟨?_, ?_⟩
        · show -(r : ℝ) / m < 0
          rw [neg_div]
          exact neg_neg_of_pos (div_pos hr' hm)
        · show (-1 : ℝ) < r - 1
          linarith
      rw [← C46_negative_binomial_exp hr hm]
      exact I.mixture_law (gammaSampleN_law I hq) (by
        rw [C46_gamma_nat hq]
        exact ae_law (ae_positive fun x hx => hx)), fun _ _ _ _ _ _ => rfl⟩

theorem reads_negative_binomial : ReadsLaw (K := K) Sampling.negativeBinomialNP laySFixedInt outN
    (fun r q => law (negativeBinomial r) Measure.count q) (fun r q => 1 ≤ r ∧ q < 0) pairBits :=
  Spec.ReadsLaw.convert reads_negative_binomial_exp C51_negative_binomial.toExp
    (fun r q ⟨hr, hq⟩ => ⟨hr, ((C31_negative_binomial hr).1 q hq).1⟩)
    fun r q ⟨hr, hq⟩ => by rw [((C31_negative_binomial hr).1 q hq).2]

/-! ### Numbers -/

theorem gammaVarToNat_mem {w : ℝ × ℝ} (h1 : 0 < w.1) (h2 : 0 < w.2) : gammaVarToNat w ∈ gammaDom := by
  refine ⟨?_, ?_⟩
  · show -(w.1 / w.2) < 0
    linarith [div_pos h1 h2]
  · show -1 < w.1 * (w.1 / w.2) - 1
    have := mul_pos h1 (div_pos h1 h2)
    linarith

theorem reads_beta : ReadsLaw (K := K) Sampling.betaNP (layV 2) outR
    (fun _ q => law beta (volume.restrict (Ioo 0 1)) q) (fun _ q => q ∈ dirichletDom 2) oneBit :=
  Samples.reads_one C62_beta (fun _ _ _ => trivial) fun I => ⟨fun _ q => I.beta (1 + q 0) (1 + q 1),
    fun _ q hq => C46_beta hq ▸ I.beta_law _ _ (by linarith [hq 0]) (by linarith [hq 1]),
    fun _ _ _ _ _ _ => rfl⟩

theorem reads_chi_square : ReadsLaw (K := K) Sampling.chiSquareNP layS outR
    (fun _ q => law chiSquare positive q) (fun _ q => -1 < q) oneBit :=
  Samples.reads_one C62_chi_square (fun _ _ _ => trivial) fun I => ⟨fun _ q => I.chisquare ((q + 1) * 2),
    fun _ q hq => C46_chi_square hq ▸ I.chisquare_law _ (by linarith), fun _ _ _ _ _ _ => rfl⟩

theorem reads_exponential : ReadsLaw (K := K) Sampling.exponentialNP layS outR
    (fun _ q => law exponential positive q) (fun _ q => q < 0) oneBit :=
  Samples.reads_one C62_exponential (fun _ _ _ => trivial) fun I => ⟨fun _ q u => -I.exponential u / q,
    fun _ q hq => C46_exponential_nat hq ▸ MeasurePreserving.andThen I.exponential_law
      (g := fun e => -e / q) (by fun_prop), fun _ _ _ _ _ _ => rfl⟩

theorem reads_exponential_exp : ReadsLaw (K := K) Sampling.exponentialEP layS outR
    (fun _ m => law exponential positive (exponentialToNat m)) (fun _ m => 0 < m) oneBit :=
  Samples.reads_one C62_exponential_exp (fun _ _ _ => trivial) fun I => ⟨fun _ m u => I.exponential u * m,
    fun _ m hm => C46_exponential_exp hm ▸ MeasurePreserving.andThen I.exponential_law
      (g := fun e => e * m) (by fun_prop), fun _ _ _ _ _ _ => rfl⟩

theorem reads_gamma : ReadsLaw (K := K) Sampling.gammaNP laySS outR
    (fun _ q => law gamma positive q) (fun _ q => q ∈ gammaDom) oneBit :=
  Samples.reads_one C62_gamma (fun _ _ _ => trivial) fun I => ⟨fun _ q u => -I.gamma (q.2 + 1) u / q.1,
    fun _ q hq => C46_gamma_nat hq ▸ gammaSampleN_law I hq, fun _ _ _ _ _ _ => rfl⟩

theorem reads_gamma_var : ReadsLaw (K := K) Sampling.gammaVP laySS outR
    (fun _ w => law gamma positive (gammaVarToNat w)) (fun _ w => 0 < w.1 ∧ 0 < w.2) oneBit :=
  Samples.reads_one C62_gamma_var (fun _ _ _ => trivial) fun I =>
    ⟨fun _ w u => -I.gamma ((gammaVarToNat w).2 + 1) u / (gammaVarToNat w).1,
    fun _ w hw => C46_gamma_var hw.1 hw.2 ▸ gammaSampleN_law I (gammaVarToNat_mem hw.1 hw.2),
    fun _ _ _ _ _ _ => rfl⟩

theorem reads_rayleigh : ReadsLaw (K := K) Sampling.rayleighNP layS outR
    (fun _ q => law rayleigh positive q) (fun _ q => q < 0) oneBit :=
  Samples.reads_one C62_rayleigh (fun _ _ _ => trivial) fun I => ⟨fun _ q => I.rayleigh √(-0.5 / q),
    fun _ q hq => C46_rayleigh_nat hq ▸ I.rayleigh_law _ (Real.sqrt_pos.2
      (div_pos_of_neg_of_neg (by norm_num) hq)), fun _ _ _ _ _ _ => rfl⟩

theorem reads_rayleigh_exp : ReadsLaw (K := K) Sampling.rayleighEP layS outR
    (fun _ χ => law rayleigh positive (rayleighToNat χ)) (fun _ χ => 0 < χ) oneBit :=
  Samples.reads_one C62_rayleigh_exp (fun _ _ _ => trivial) fun I => ⟨fun _ χ => I.rayleigh √(0.5 * χ),
    fun _ χ hχ => C46_rayleigh_exp hχ ▸ I.rayleigh_law _ (Real.sqrt_pos.2 (by positivity)),
    fun _ _ _ _ _ _ => rfl⟩

theorem reads_weibull_exp : ReadsLaw (K := K) Sampling.weibullEP layFixedS outR
    (fun k χ => law (weibull k) positive (weibullToNat χ)) (fun k χ => 0 < k ∧ 0 < χ) oneBit :=
  Samples.reads_one C62_weibull_exp (fun _ _ _ => trivial) fun I =>
    ⟨fun k χ => I.weibull (χ ^ (1 / k)) k, fun k χ h => C46_weibull_exp h.1 h.2 ▸
      I.weibull_law _ _ (Real.rpow_pos_of_pos h.2 _) h.1, fun _ _ _ _ _ _ => rfl⟩

theorem reads_weibull : ReadsLaw (K := K) Sampling.weibullNP layFixedS outR
    (fun k q => law (weibull k) positive q) (fun k q => 0 < k ∧ q < 0) oneBit :=
  Spec.ReadsLaw.convert reads_weibull_exp C51_weibull.toExp
    (fun k q h => ⟨h.1, ((C31_weibull k).1 q h.2).1⟩) fun k q h => by rw [((C31_weibull k).1 q h.2).2]

theorem reads_normal_var : ReadsLaw (K := K) Sampling.normalVP laySS outR
    (fun _ w => law normal volume (normalVarToNat w)) (fun _ w => 0 < w.2) oneBit :=
  Samples.reads_one C62_normal_var (fun _ _ _ => trivial) fun I =>
    ⟨fun _ w u => I.normal u * √w.2 + w.1, fun _ w hw => C46_normal_var hw ▸
      MeasurePreserving.andThen I.normal_law (g := fun z => z * √w.2 + w.1) (by fun_prop),
      fun _ _ _ _ _ _ => rfl⟩

theorem reads_normal_exp : ReadsLaw (K := K) Sampling.normalEP laySS outR
    (fun _ χ => law normal volume (normalToNat χ)) (fun _ χ => χ.1 ^ 2 < χ.2) oneBit :=
  Samples.reads_one C62_normal_exp (fun _ _ _ => trivial) fun I =>
    ⟨fun _ χ u => I.normal u * √(normalVariance χ) + χ.1, fun _ χ h => C46_normal_exp h ▸
      MeasurePreserving.andThen I.normal_law (g := fun z => z * √(normalVariance χ) + χ.1) (by fun_prop),
      fun _ _ _ _ _ _ => rfl⟩

theorem reads_normal : ReadsLaw (K := K) Sampling.normalNP laySS outR
    (fun _ q => law normal volume q) (fun _ q => q ∈ normalDom) oneBit :=
  Samples.reads_one C62_normal (fun _ _ _ => trivial) fun I =>
    ⟨fun _ q u => I.normal u * √(normalNatToVar q).2 + (normalNatToVar q).1, fun _ q h =>
      C46_normal_nat h ▸ MeasurePreserving.andThen I.normal_law
        (g := fun z => z * √(normalNatToVar q).2 + (normalNatToVar q).1) (by fun_prop),
      fun _ _ _ _ _ _ => rfl⟩

theorem reads_unit_normal : ReadsLaw (K := K) Sampling.unitNormalNP layS outR
    (fun _ m => law unitNormal volume m) (fun _ _ => True) oneBit :=
  Samples.reads_one C62_unit_normal (fun _ _ _ => trivial) fun I => ⟨fun _ m u => I.normal u + m,
    fun _ m _ => C46_unit_normal m ▸ MeasurePreserving.andThen I.normal_law (g := fun z => z + m)
      (by fun_prop), fun _ _ _ _ _ _ => rfl⟩

theorem reads_complex_unit_exp : ReadsLaw (K := K) Sampling.complexUnitNormalEP layC outC
    (fun _ m => complexUnitSampleE m) (fun _ _ => True) oneBit :=
  Samples.reads_one C62_complex_unit_exp (fun _ _ _ => trivial) fun I =>
    ⟨fun _ m u => (I.normal u : ℂ) + Complex.I * (I.normal u : ℂ) + m, fun _ m _ =>
      MeasurePreserving.andThen I.normal_law (g := fun a : ℝ => (a : ℂ) + Complex.I * (a : ℂ) + m)
        (by fun_prop), fun _ _ _ _ _ _ => rfl⟩

/-! ### Vectors -/

theorem reads_dirichlet (d : ℕ) : ReadsLaw (K := K) Sampling.dirichletNP (layV (d + 1)) (outV (d := d))
    (fun _ q => law (dirichlet d) (volume.restrict (simplex d)) q)
    (fun _ q => q ∈ dirichletDom (d + 1)) oneBit :=
  Samples.reads_one (C62_dirichlet d) (fun _ _ _ => trivial) fun I =>
    ⟨fun _ q u k => I.dirichlet d (fun j => 1 + q j) u k.castSucc, fun _ q hq =>
      C46_dirichlet hq ▸ MeasurePreserving.andThen (I.dirichlet_law d (fun j => 1 + q j) fun i => by
        linarith [hq i]) (g := fun x (i : Fin d) => x i.castSucc) (by fun_prop), fun _ _ _ _ _ _ => rfl⟩

theorem reads_mv_normal_var (d : ℕ) : ReadsLaw (K := K) Sampling.mvNormalVP (layVM d) outV
    (fun _ w => law (mvNormal d) volume (mvNormalToNat (mvNormalVarToExp w))) (fun _ w => w.2.PosDef)
    (vectorBits d (Equiv.refl _)) :=
  Samples.reads_vector (C62_mv_normal_var d) _ (fun _ _ _ => trivial) fun I =>
    ⟨fun _ w z => w.1 + (I.factor d w.2).mulVec z, fun _ w hw => ⟨by fun_prop, by
      have e : mvNormalToVar (mvNormalVarToExp w) = w := by
        simp [mvNormalToVar, mvNormalVarToExp, mvNormalVariance]
      have h2 : (mvNormalVarToExp w).2 - Matrix.vecMulVec (mvNormalVarToExp w).1 (mvNormalVarToExp w).1 =
        w.2 := congrArg Prod.snd e
      have := C46_mv_normal_exp (factor := I.factor d) (χ := mvNormalVarToExp w) (by rwa [h2])
        (by rw [h2]; exact I.factor_mul d _ hw)
      rw [← this, mvNormalSampleE, e]
      rfl⟩, fun _ _ _ _ _ _ => rfl⟩

theorem reads_mv_normal_exp (d : ℕ) : ReadsLaw (K := K) Sampling.mvNormalEP (layVM d) outV
    (fun _ χ => law (mvNormal d) volume (mvNormalToNat χ))
    (fun _ χ => (χ.2 - Matrix.vecMulVec χ.1 χ.1).PosDef) (vectorBits d (Equiv.refl _)) :=
  Samples.reads_vector (C62_mv_normal_exp d) _ (fun _ _ _ => trivial) fun I =>
    ⟨fun _ χ z => (mvNormalToVar χ).1 + (I.factor d (mvNormalToVar χ).2).mulVec z, fun _ χ h =>
      ⟨by fun_prop, C46_mv_normal_exp (factor := I.factor d) h (I.factor_mul d _ h)⟩,
      fun _ _ _ _ _ _ => rfl⟩

theorem reads_mv_diagonal_var (d : ℕ) : ReadsLaw (K := K) Sampling.diagonalNormalVP (layVV d) outV
    (fun _ w => law (mvDiagonal d) volume (mvDiagonalVarToNat w)) (fun _ w => ∀ i, 0 < w.2 i)
    (vectorBits d (Equiv.refl _)) :=
  Samples.reads_vector (C62_mv_diagonal_var d) _ (fun _ _ _ => trivial) fun _ =>
    ⟨fun _ w z k => z k * √(w.2 k) + w.1 k, fun _ _ h => ⟨by fun_prop, C46_mv_diagonal_var h⟩,
      fun _ _ _ _ _ _ => rfl⟩

theorem reads_mv_diagonal_exp (d : ℕ) : ReadsLaw (K := K) Sampling.diagonalNormalEP (layVV d) outV
    (fun _ χ => law (mvDiagonal d) volume (mvDiagonalToNat χ)) (fun _ χ => ∀ i, χ.1 i ^ 2 < χ.2 i)
    (vectorBits d (Equiv.refl _)) :=
  Samples.reads_vector (C62_mv_diagonal_exp d) _ (fun _ _ _ => trivial) fun _ =>
    ⟨fun _ χ z k => z k * √((mvDiagonalToVar χ).2 k) + (mvDiagonalToVar χ).1 k,
      fun _ _ h => ⟨by fun_prop, C46_mv_diagonal_exp h⟩, fun _ _ _ _ _ _ => rfl⟩

theorem reads_mv_diagonal (d : ℕ) : ReadsLaw (K := K) Sampling.diagonalNormalNP (layVV d) outV
    (fun _ q => law (mvDiagonal d) volume q) (fun _ q => q ∈ mvDiagonalDom d)
    (vectorBits d (Equiv.refl _)) :=
  Spec.ReadsLaw.convert (reads_mv_diagonal_exp d) (C51_mv_diagonal d).toExp
    (fun _ q h => (C31_mv_diagonal.1 q h).1) fun _ q h => by rw [(C31_mv_diagonal.1 q h).2]

theorem reads_mv_fixed_exp (d : ℕ) : ReadsLaw (K := K) Sampling.fixedVarianceNormalEP (layVFixed d) outV
    (fun v m => law (mvFixed d v) volume (mvFixedToNat v m)) (fun v _ => 0 < v)
    (vectorBits d (Equiv.refl _)) :=
  Samples.reads_vector (C62_mv_fixed_exp d) _ (fun _ _ _ => trivial) fun _ =>
    ⟨fun v m z k => z k * √v + m k, fun _ m h => ⟨by fun_prop, C46_mv_fixed_exp h m⟩,
      fun _ _ _ _ _ _ => rfl⟩

theorem reads_mv_fixed (d : ℕ) : ReadsLaw (K := K) Sampling.fixedVarianceNormalNP (layVFixed d) outV
    (fun v q => law (mvFixed d v) volume q) (fun v _ => 0 < v) (vectorBits d (Equiv.refl _)) :=
  Spec.ReadsLaw.convert (reads_mv_fixed_exp d) (C51_mv_fixed d).toExp (fun _ _ h => h)
    fun _ q h => by rw [((C31_mv_fixed h).1 q trivial).2]

theorem reads_mv_isotropic_exp (d : ℕ) : ReadsLaw (K := K) Sampling.isotropicNormalEP (layVS (d + 1)) outV
    (fun _ χ => law (mvIsotropic (d + 1)) volume (mvIsotropicToNat χ))
    (fun _ χ => ∑ i, χ.1 i ^ 2 < χ.2) (vectorBits (d + 1) (Equiv.refl _)) :=
  Samples.reads_vector (C62_mv_isotropic_exp (d + 1)) _ (fun _ _ _ => trivial) fun _ =>
    ⟨fun _ χ z k => z k * √(mvIsotropicVariance χ) + χ.1 k,
      fun _ _ h => ⟨by fun_prop, C46_mv_isotropic_exp h⟩, fun _ _ _ _ _ _ => rfl⟩

theorem reads_mv_isotropic (d : ℕ) : ReadsLaw (K := K) Sampling.isotropicNormalNP (layVS (d + 1)) outV
    (fun _ q => law (mvIsotropic (d + 1)) volume q) (fun _ q => q ∈ mvIsotropicDom (d + 1))
    (vectorBits (d + 1) (Equiv.refl _)) :=
  Spec.ReadsLaw.convert (reads_mv_isotropic_exp d) (C51_mv_isotropic (d + 1)).toExp
    (fun _ q h => (C31_mv_isotropic.1 q h).1) fun _ q h => by rw [(C31_mv_isotropic.1 q h).2]

theorem reads_mv_unit (d : ℕ) : ReadsLaw (K := K) Sampling.mvUnitNormalNP (layV d) outV
    (fun _ m => law (mvUnit d) volume m) (fun _ _ => True) (vectorBits d (Equiv.refl _)) :=
  Samples.reads_vector (C62_mv_unit d) _ (fun _ _ _ => trivial) fun _ =>
    ⟨fun _ m z k => z k + m k, fun _ m _ => ⟨by fun_prop, C46_mv_unit m⟩, fun _ _ _ _ _ _ => rfl⟩

theorem reads_cmv_unit_exp (d : ℕ) : ReadsLaw (K := K) Sampling.cmvUnitNormalEP (layCV d) outCV
    (fun _ m => cmvUnitSampleE m) (fun _ _ => True) (vectorBits d (Equiv.refl _)) :=
  Samples.reads_vector (C62_cmv_unit_exp d) _ (fun _ _ _ => trivial) fun _ =>
    ⟨fun _ m z k => (z k : ℂ) + Complex.I * (z k : ℂ) + m k, fun _ m _ => ⟨by fun_prop, rfl⟩,
      fun _ _ _ _ _ _ => rfl⟩

theorem reads_complex_normal_exp : ReadsLaw (K := K) Sampling.complexNormalEP layCSC outC
    (fun _ χ => law complexNormal volume (complexNormalToNat χ))
    (fun _ χ => ‖χ.2.2 - χ.1 ^ 2‖ < χ.2.1 - ‖χ.1‖ ^ 2) (vectorBits 2 (Equiv.refl _)) :=
  Samples.reads_vector C62_complex_normal_exp _ (fun _ _ _ => trivial) fun I =>
    ⟨fun _ χ z => let y := ![χ.1.re, χ.1.im] + (I.factor 2 (complexNormalCov χ)).mulVec z
      (y 0 : ℂ) + Complex.I * (y 1 : ℂ), fun _ χ h => ⟨by fun_prop, by
        rw [← C46_complex_normal (factor := I.factor 2) h (I.factor_mul 2 _ (C46_complex_normal_cov h)),
          complexNormalSampleE, randomMultivariateNormal, Measure.map_map (by fun_prop) (by fun_prop)]
        rfl⟩, fun _ _ _ _ _ _ => rfl⟩

theorem reads_complex_normal : ReadsLaw (K := K) Sampling.complexNormalNP layCSC outC
    (fun _ q => law complexNormal volume q) (fun _ q => q ∈ complexNormalDom)
    (vectorBits 2 (Equiv.refl _)) :=
  Spec.ReadsLaw.convert reads_complex_normal_exp C51_complex_normal.toExp
    (fun _ q h => (C31_complex_normal.1 q h).1) fun _ q h => by rw [(C31_complex_normal.1 q h).2]

open scoped ComplexOrder in
theorem reads_cmv_circular_exp (d : ℕ) : ReadsLaw (K := K) Sampling.ccsnEP (layCM d) outCV
    (fun _ χ => law (cmvCircular d) volume (cmvCircularToNat χ)) (fun _ χ => χ.PosDef)
    (vectorBits (d + d) finSumFinEquiv) :=
  Samples.reads_vector (C62_cmv_circular_exp d) _ (fun _ _ _ => trivial) fun I =>
    ⟨fun _ χ z => let y := (0 : Fin d ⊕ Fin d → ℝ) + ((I.factor (d + d)
        ((cmvCircularCov χ).reindex finSumFinEquiv finSumFinEquiv)).submatrix finSumFinEquiv
          finSumFinEquiv).mulVec z
      fun k => (y (Sum.inl k) : ℂ) + Complex.I * (y (Sum.inr k) : ℂ), fun _ χ h => ⟨by fun_prop, by
        rw [← C46_cmv_circular (factor := fun V => (I.factor (d + d)
            (V.reindex finSumFinEquiv finSumFinEquiv)).submatrix finSumFinEquiv finSumFinEquiv) h ?_,
          cmvCircularSampleE, randomMultivariateNormal, Measure.map_map (by fun_prop) (by fun_prop)]
        · rfl
        · have hV := (C46_cmv_circular_cov h).submatrix
            (e := finSumFinEquiv.symm) (Equiv.injective _)
          have e := I.factor_mul (d + d) _ hV
          have e' := congrArg (fun M => Matrix.submatrix M finSumFinEquiv finSumFinEquiv) e
          simp only [← Matrix.submatrix_mul_equiv _ _ finSumFinEquiv finSumFinEquiv finSumFinEquiv,
            Matrix.submatrix_submatrix, Equiv.symm_comp_self, Matrix.submatrix_id_id] at e'
          exact e'⟩, fun ω t j key _ χ => by
      funext k
      have hm : ∀ (M : Matrix (Fin (d + d)) (Fin (d + d)) ℝ) (z : Fin (d + d) → ℝ) (s : Fin d ⊕ Fin d),
          (M.submatrix finSumFinEquiv finSumFinEquiv).mulVec (fun s => z (finSumFinEquiv s)) s =
            M.mulVec z (finSumFinEquiv s) := by
        intro M z s
        simp only [Matrix.mulVec, dotProduct, Matrix.submatrix_apply]
        exact Equiv.sum_comp finSumFinEquiv fun i => M (finSumFinEquiv s) i * z i
      have h1 := hm (I.factor (d + d) ((cmvCircularCov χ).reindex finSumFinEquiv finSumFinEquiv))
        fun i => (I.rng ω).normal key ((d + d) :: t) (i.val :: j)
      simp only [Pi.add_apply]
      rw [h1 (Sum.inl k), h1 (Sum.inr k), finSumFinEquiv_apply_left, finSumFinEquiv_apply_right]
      rfl⟩

theorem reads_cmv_circular (d : ℕ) : ReadsLaw (K := K) Sampling.ccsnNP (layCM d) outCV
    (fun _ q => law (cmvCircular d) volume q) (fun _ q => q ∈ cmvCircularDom d)
    (vectorBits (d + d) finSumFinEquiv) :=
  Spec.ReadsLaw.convert (reads_cmv_circular_exp d) (C51_cmv_circular d).toExp
    (fun _ q h => (C31_cmv_circular.1 q h).1) fun _ q h => by rw [(C31_cmv_circular.1 q h).2]

/-! ### The remaining conversions -/

theorem reads_geometric : ReadsLaw (K := K) Sampling.geometricNP layS outN
    (fun _ q => geometricSampleE (geometric.toExp q)) (fun _ q => 1 ≤ geometric.toExp q) oneBit :=
  Spec.ReadsLaw.convert reads_geometric_exp C51_geometric.toExp (fun _ _ h => h) fun _ _ _ => rfl

theorem reads_complex_unit : ReadsLaw (K := K) Sampling.complexUnitNormalNP layC outC
    (fun _ q => complexUnitSampleE (complexUnit.toExp q)) (fun _ _ => True) oneBit :=
  Spec.ReadsLaw.convert reads_complex_unit_exp C51_complex_unit.toExp (fun _ _ _ => trivial)
    fun _ _ _ => rfl

theorem reads_cmv_unit (d : ℕ) : ReadsLaw (K := K) Sampling.cmvUnitNormalNP (layCV d) outCV
    (fun _ q => cmvUnitSampleE ((cmvUnit d).toExp q)) (fun _ _ => True) (vectorBits d (Equiv.refl _)) :=
  Spec.ReadsLaw.convert (reads_cmv_unit_exp d) (C51_cmv_unit d).toExp (fun _ _ _ => trivial)
    fun _ _ _ => rfl

theorem reads_multinomial_exp (search : List Val → Except Err (List Val)) (d : ℕ) :
    ReadsLaw (K := K) (fun rng => Sampling.via (Methods.multinomialEP.toNat search)
      (Sampling.multinomialNP rng)) (layV (d + 1)) outV
    (fun _ χ => multinomialSampleN (multinomialToNat χ)) (fun _ _ => True) oneBit :=
  Spec.ReadsLaw.convert (domc := fun _ _ => True) (reads_multinomial d)
    (fun rs p q _ => (C51_multinomial_exp d).toNat search rs p q) (fun _ _ _ => trivial) fun _ _ _ => rfl

theorem reads_mv_unit_exp (search : List Val → Except Err (List Val)) (d : ℕ) :
    ReadsLaw (K := K) (fun rng => Sampling.via (Methods.mvUnitNormalEP.toNat search)
      (Sampling.mvUnitNormalNP rng)) (layV d) outV
    (fun _ χ => law (mvUnit d) volume (mvUnitToNat χ)) (fun _ _ => True) (vectorBits d (Equiv.refl _)) :=
  Spec.ReadsLaw.convert (domc := fun _ _ => True) (reads_mv_unit d)
    (fun rs p q _ => (C51_mv_unit_exp d).toNat search rs p q) (fun _ _ _ => trivial) fun _ _ _ => rfl

theorem reads_unit_normal_exp (search : List Val → Except Err (List Val)) :
    ReadsLaw (K := K) (fun rng => Sampling.via (Methods.unitNormalEP.toNat search)
      (Sampling.unitNormalNP rng)) layS outR
    (fun _ χ => law unitNormal volume (unitNormalToNat χ)) (fun _ _ => True) oneBit :=
  Spec.ReadsLaw.convert (domc := fun _ _ => True) reads_unit_normal
    (fun rs p q _ => C51_unit_normal_exp.toNat search rs p q) (fun _ _ _ => trivial) fun _ _ _ => rfl

section

variable [MachEps] {solve : Solver} {search : Cls → List Val → Except Err (List Val)}

theorem reads_beta_exp (hsolve : solve.For search) : ReadsLaw (K := K) (fun rng =>
      Sampling.via (Methods.dirichletEP.toNat (search .betaEP)) (Sampling.betaNP rng)) (layV 2) outR
    (fun _ χ => law beta (volume.restrict (Ioo 0 1)) (solve.beta χ))
    (fun _ χ => (∀ k, χ k < Ring.openMax 0) ∧ solve.beta χ ∈ dirichletDom 2) oneBit :=
  Spec.ReadsLaw.convert reads_beta ((C51_dirichlet_exp 2).toNat _ _ _ hsolve.beta) (fun _ _ h => h.2)
    (fun _ _ _ => rfl) fun _ _ h => h.1

theorem reads_dirichlet_exp (hsolve : solve.For search) (d : ℕ) : ReadsLaw (K := K) (fun rng =>
      Sampling.via (Methods.dirichletEP.toNat (search .dirichletEP)) (Sampling.dirichletNP rng))
    (layV (d + 1)) (outV (d := d))
    (fun _ χ => law (dirichlet d) (volume.restrict (simplex d)) (solve.dirichlet (d + 1) χ))
    (fun _ χ => (∀ k, χ k < Ring.openMax 0) ∧ solve.dirichlet (d + 1) χ ∈ dirichletDom (d + 1)) oneBit :=
  Spec.ReadsLaw.convert (reads_dirichlet d)
    ((C51_dirichlet_exp (d + 1)).toNat _ _ _ (hsolve.dirichlet _)) (fun _ _ h => h.2)
    (fun _ _ _ => rfl) fun _ _ h => h.1

theorem reads_chi_square_exp (hsolve : solve.For search) : ReadsLaw (K := K) (fun rng =>
      Sampling.via (Methods.chiSquareEP.toNat (search .chiSquareEP)) (Sampling.chiSquareNP rng))
    layS outR (fun _ χ => law chiSquare positive (solve.chiSquare χ)) (fun _ χ => -1 < solve.chiSquare χ)
    oneBit :=
  Spec.ReadsLaw.convert reads_chi_square (C51_chi_square_exp.toNat _ _ _ hsolve.chiSquare)
    (fun _ _ h => h) fun _ _ _ => rfl

theorem reads_gamma_exp (hsolve : solve.For search) : ReadsLaw (K := K) (fun rng =>
      Sampling.via (Methods.gammaEP.toNat (search .gammaEP)) (Sampling.gammaNP rng)) laySS outR
    (fun _ χ => law gamma positive (solve.gamma χ))
    (fun _ χ => Ring.openMin 0 < χ.1 ∧ solve.gamma χ ∈ gammaDom) oneBit :=
  Spec.ReadsLaw.convert reads_gamma (C51_gamma_exp.toNat _ _ _ hsolve.gamma) (fun _ _ h => h.2)
    (fun _ _ _ => rfl) fun _ _ h => h.1

end

end Efax
