import Verif.Props.SampleEstimate
import Verif.Props.IdealExists
import Verif.Props.Families.DiscreteSamplers
import Verif.Props.Families.ComplexUnitSamplers

/-!
# C73: what estimates from the wrong samplers look like

The geometric, complex unit normal and multinomial samplers (C47, C48, C49) draw from the wrong distributions.
Estimates from samples of the first two are nevertheless unbiased and converge, so that
`tests/test_sampling.py` accepts them; only their variance is not the Fisher information.  The last is not
tested: its estimates are biased.
-/

namespace Efax

open MeasureTheory ProbabilityTheory Spec Calc Set

theorem geometric_cov {q : ℝ} (hq : q < 0) (v : ℝ) :
    HasCov Measure.count (geometric.pdf q) (fun x => geometric.dot v (geometric.stat x))
      (fun x => geometric.dot v (geometric.stat x)) (v ^ 2 * geometric.toExp q * (geometric.toExp q + 1)) ∧
    HasDerivAt (fun t : ℝ => deriv (fun s : ℝ => geometric.logNormalizer (q + t • v + s • v)) 0)
      (v ^ 2 * geometric.toExp q * (geometric.toExp q + 1)) 0 := by
  have R := geometric_regular.1
  have hE : Real.exp (-q) - 1 ≠ 0 := by
    have := Real.one_lt_exp_iff.2 (neg_pos.2 hq)
    linarith
  have h1 : HasDerivAt (fun t : ℝ => geometric.dot v (geometric.toExp (q + t • v)))
      (v ^ 2 * geometric.toExp q * (geometric.toExp q + 1)) 0 := by
    have h2 : HasDerivAt (fun t : ℝ => Real.exp (-(q + t * v)) - 1) (Real.exp (-q) * -v) 0 := by
      have h3 : HasDerivAt (fun t : ℝ => -(q + t * v)) (-v) 0 :=
        ((((hasDerivAt_id (0 : ℝ)).mul_const v).const_add q).neg).congr_deriv (by ring)
      have := (h3.exp).sub_const 1
      simpa using this
    have h4 := (h2.fun_inv (by simpa using hE)).const_mul v
    refine (h4.congr_deriv ?_).congr_of_eventuallyEq (Filter.Eventually.of_forall fun t => ?_)
    · simp only [geometric, negativeBinomial, expm1, Nat.cast_one, zero_mul, add_zero]
      field_simp
      ring
    · simp [geometric, negativeBinomial, expm1]
  obtain ⟨c, hc, hd⟩ := R.deriv_toExp (show q ∈ Iio 0 from hq) (Submodule.mem_top (x := v))
    (Submodule.mem_top (x := v))
  obtain rfl := hd.unique h1
  refine ⟨hc, h1.congr_of_eventuallyEq ?_⟩
  filter_upwards [R.is_open q hq v Submodule.mem_top] with t ht
  exact R.deriv_eq ht Submodule.mem_top

theorem geometricSample_eq {m : ℝ} (hm : 1 < m) :
    geometricSampleE m = (law geometric Measure.count (geometricToNat (m - 1))).map (· + 1) := by
  refine Measure.ext_of_singleton fun k => ?_
  rw [Measure.map_apply (by fun_prop) (measurableSet_singleton _)]
  cases k with
  | zero =>
    rw [(C48_geometric_negation (by linarith)).1]
    rw [show (fun x => x + 1) ⁻¹' {0} = (∅ : Set ℕ) by ext; simp, measure_empty]
  | succ k =>
    rw [C48_geometric_shift hm]
    congr 1
    ext
    simp

/-- The moments of the samples: the right mean, and the variance `m (m - 1)`. -/
theorem geometricSample_moments {m : ℝ} (hm : 1 < m) (v : ℝ) :
    IsProbabilityMeasure (geometricSampleE m) ∧ MemLp (fun x : ℕ => v * (x : ℝ)) 2 (geometricSampleE m) ∧
      ∫ x, v * (x : ℝ) ∂geometricSampleE m = v * m ∧
      ∫ x, (v * (x : ℝ) - v * m) ^ 2 ∂geometricSampleE m = v ^ 2 * m * (m - 1) := by
  obtain ⟨hq, he⟩ := C31_geometric.2 (m - 1) (show 0 < m - 1 by linarith)
  have R := geometric_regular.1
  obtain ⟨h1, h2, h3, h4⟩ := R.moments hq (Submodule.mem_top (x := v)) (geometric_cov hq v).1
  rw [he] at h3 h4
  set ν := law geometric Measure.count (geometricToNat (m - 1))
  have hf : Measurable fun x : ℕ => x + 1 := by fun_prop
  have e1 : (fun x : ℕ => v * ((x + 1 : ℕ) : ℝ)) = fun x : ℕ => geometric.dot v (geometric.stat x) + v := by
    funext x
    simp only [geometric, negativeBinomial, Nat.cast_add, Nat.cast_one]
    ring
  have h5 : MemLp (fun x : ℕ => v * ((x + 1 : ℕ) : ℝ)) 2 ν := e1 ▸ h2.add (memLp_const v)
  rw [geometricSample_eq hm]
  refine ⟨Measure.isProbabilityMeasure_map hf.aemeasurable,
    (memLp_map_measure_iff (by fun_prop) hf.aemeasurable).2 h5, ?_, ?_⟩
  · rw [integral_map hf.aemeasurable (by fun_prop), e1, integral_add (h2.integrable (by norm_num))
      (integrable_const _), h3]
    simp [geometric, negativeBinomial]
    ring
  · rw [integral_map hf.aemeasurable (by fun_prop)]
    refine Eq.trans (integral_congr_ae (ae_of_all _ fun x => ?_)) (h4.trans (by ring))
    simp only [geometric, negativeBinomial, Nat.cast_add, Nat.cast_one]
    ring

/-- The moments of the samples: the right mean, but the variance along the diagonal. -/
theorem complexUnitSample_moments (m v : ℂ) :
    IsProbabilityMeasure (complexUnitSampleE m) ∧ MemLp (fun x => (v * x).re) 2 (complexUnitSampleE m) ∧
      ∫ x, (v * x).re ∂complexUnitSampleE m = (v * m).re ∧
      ∫ x, ((v * x).re - (v * m).re) ^ 2 ∂complexUnitSampleE m = (v.re - v.im) ^ 2 := by
  have hf : Measurable fun a : ℝ => (a : ℂ) + Complex.I * (a : ℂ) + m := by fun_prop
  have hG : randomNormal = gaussianReal 0 1 := randomNormal_eq_gaussianReal
  have : IsProbabilityMeasure randomNormal := by rw [hG]; infer_instance
  have h0 : MemLp id 2 randomNormal := by rw [hG]; exact memLp_id_gaussianReal 2
  have e : (fun a : ℝ => (v * ((a : ℂ) + Complex.I * (a : ℂ) + m)).re) =
      fun a : ℝ => (v.re - v.im) * id a + (v * m).re := by
    funext a
    simp
    ring
  have h1 : MemLp (fun a : ℝ => (v * ((a : ℂ) + Complex.I * (a : ℂ) + m)).re) 2 randomNormal :=
    e ▸ (h0.const_mul _).add (memLp_const _)
  have hg : Measurable fun x : ℂ => (v * x).re := by fun_prop
  have h2 : ∫ a, id a ∂randomNormal = 0 := by rw [hG]; exact integral_id_gaussianReal
  refine ⟨Measure.isProbabilityMeasure_map hf.aemeasurable,
    (memLp_map_measure_iff hg.aestronglyMeasurable hf.aemeasurable).2 h1, ?_, ?_⟩
  · rw [complexUnitSampleE, integral_map hf.aemeasurable hg.aestronglyMeasurable, e,
      integral_add ((h0.integrable (by norm_num)).const_mul _) (integrable_const _), integral_const_mul, h2]
    simp
  · rw [complexUnitSampleE, integral_map hf.aemeasurable
      ((hg.sub_const _).pow_const 2).aestronglyMeasurable]
    have h3 := randomNormal_sq
    refine Eq.trans (integral_congr_ae (ae_of_all _ fun a => ?_))
      ((integral_const_mul ((v.re - v.im) ^ 2) fun a : ℝ => a ^ 2).trans (by rw [h3, mul_one]))
    simp
    ring

/-- The moments of the samples: those of the distribution without the last category. -/
theorem multinomialSample_moments {d : ℕ} (q v : Fin (d + 1) → ℝ) :
    IsProbabilityMeasure (multinomialSampleN q) ∧
      MemLp (fun x => ∑ i, v i * x i) 2 (multinomialSampleN q) ∧
      ∫ x, ∑ i, v i * x i ∂multinomialSampleN q = ∑ i, v i * softmax q i ∧
      ∫ x, (∑ i, v i * x i - ∑ i, v i * softmax q i) ^ 2 ∂multinomialSampleN q =
        ∑ k, softmax q k * (v k - ∑ i, v i * softmax q i) ^ 2 := by
  have hp : IsProbabilityMeasure (randomCategorical q) := randomCategorical_probability q
  have hf : Measurable fun (k : Fin (d + 1)) (i : Fin (d + 1)) => if i = k then (1 : ℝ) else 0 :=
    measurable_of_finite _
  have hg : Measurable fun x : Fin (d + 1) → ℝ => ∑ i, v i * x i := by fun_prop
  have hi : ∀ f : Fin (d + 1) → ℝ, ∫ k, f k ∂randomCategorical q = ∑ k, softmax q k * f k := fun f => by
    rw [randomCategorical, integral_finset_sum_measure fun i _ => ?_]
    swap
    · have := (Measure.dirac i).smul_finite (c := ENNReal.ofReal (Real.exp (q i) / ∑ j, Real.exp (q j)))
        ENNReal.ofReal_ne_top
      exact .of_finite
    refine Finset.sum_congr rfl fun k _ => ?_
    rw [integral_smul_measure, integral_dirac, ENNReal.toReal_ofReal (by positivity), smul_eq_mul]
    rfl
  have e : ∀ k, ∑ i, v i * (if i = k then (1 : ℝ) else 0) = v k := fun k => by simp
  refine ⟨Measure.isProbabilityMeasure_map hf.aemeasurable, ?_, ?_, ?_⟩
  · rw [multinomialSampleN, memLp_map_measure_iff hg.aestronglyMeasurable hf.aemeasurable]
    exact .of_discrete
  · rw [multinomialSampleN, integral_map hf.aemeasurable hg.aestronglyMeasurable]
    simp only [e, hi]
    exact Finset.sum_congr rfl fun k _ => mul_comm _ _
  · rw [multinomialSampleN, integral_map hf.aemeasurable ((hg.sub_const _).pow_const 2).aestronglyMeasurable]
    simp only [e, hi]

theorem complexUnit_information (q v : ℂ) :
    HasDerivAt (fun t : ℝ => deriv (fun s : ℝ => complexUnit.logNormalizer (q + t • v + s • v)) 0)
      ((v.re ^ 2 + v.im ^ 2) / 2) 0 := by
  have e : ∀ t s : ℝ, complexUnit.logNormalizer (q + t • v + s • v) =
      ((v.re ^ 2 + v.im ^ 2) / 4) * (t + s) ^ 2 + ((q.re * v.re + q.im * v.im) / 2) * (t + s) +
        ((q.re ^ 2 + q.im ^ 2) / 4 + Real.log Real.pi) := fun t s => by
    have h5 : (0.5 : ℂ) = ((0.5 : ℝ) : ℂ) := by norm_num
    simp only [complexUnit, h5, Complex.normSq_mul, Complex.normSq_ofReal]
    simp only [Complex.normSq_apply, Complex.add_re, Complex.add_im, Complex.real_smul, Complex.mul_re,
      Complex.mul_im, Complex.ofReal_re, Complex.ofReal_im]
    ring
  have h1 : ∀ t : ℝ, deriv (fun s : ℝ => complexUnit.logNormalizer (q + t • v + s • v)) 0 =
      (v.re ^ 2 + v.im ^ 2) / 2 * t + (q.re * v.re + q.im * v.im) / 2 := fun t => by
    simp only [e]
    have h2 : HasDerivAt (fun s : ℝ => t + s) 1 0 := (hasDerivAt_id (0 : ℝ)).const_add t
    refine HasDerivAt.deriv (((((h2.fun_pow 2).const_mul _).add (h2.const_mul _)).add_const _).congr_deriv ?_)
    simp
    ring
  simp only [h1]
  exact (((hasDerivAt_id (0 : ℝ)).const_mul _).add_const _).congr_deriv (by simp)

variable [MachEps] {solve : Solver} {search : Cls → List Val → Except Err (List Val)} {Key : Type}
  (hs : solve.For search)

include hs

/-- **C73.** Estimates from geometric samples are unbiased, but their variance is `m (m - 1)` over the number
of samples, not the Fisher information `m (m + 1)` over it. -/
theorem C73_geometric_exp : SampleAverages (K := Key) (library search) (Simple.geometric.kind solve)
      (Simple.geometric.setting solve) (fun rng => Cls.sample search rng .geometricEP) layS
      (fun _ m => m) (fun _ (m : ℝ) => 1 < m) (fun _ m (v : ℝ) => v ^ 2 * m * (m - 1)) ∧
    Informs (library search) (Simple.geometric.kind solve) (Simple.geometric.setting solve)
      (fun _ m => geometricToNat m) (fun _ (m : ℝ) => 1 < m) (fun _ m (v : ℝ) => v ^ 2 * m * (m + 1)) := by
  refine ⟨(C63_geometric_exp.mono fun _ m (h : 1 < m) => h.le).averages hs (.simple .geometric)
    (fun _ _ => ⟨_, rfl, holds_outN _ _⟩) fun _ m v h _ => geometricSample_moments h v, ?_⟩
  intro rs p q v h
  have hk := C51_library hs (.simple .geometric)
  refine ⟨_, fun t r => hk.logNormalizer _ _ _, fun i hi => ?_⟩
  obtain ⟨hm, -⟩ := h i hi
  have hm : 1 < q i := hm
  obtain ⟨hq, he⟩ := C31_geometric.2 (q i) (show 0 < q i by linarith)
  have := (geometric_cov hq (v i)).2
  rwa [he] at this

/-- **C73.** Estimates from complex unit normal samples are unbiased, but their variance depends on the
direction: it is `2 (re v - im v)^2` times the Fisher information, for a direction `v` of length one. -/
theorem C73_complex_unit_exp : SampleAverages (K := Key) (library search) (Simple.complexUnit.kind solve)
      (Simple.complexUnit.setting solve) (fun rng => Cls.sample search rng .complexUnitNormalEP) layC
      (fun _ m => m) (fun _ _ => True) (fun _ _ (v : ℂ) => (v.re - v.im) ^ 2) ∧
    Informs (library search) (Simple.complexUnit.kind solve) (Simple.complexUnit.setting solve)
      (fun _ m => complexUnitToNat m) (fun _ _ => True)
      (fun _ _ (v : ℂ) => (v.re ^ 2 + v.im ^ 2) / 2) := by
  refine ⟨C63_complex_unit_exp.averages hs (.simple .complexUnit)
    (fun _ _ => ⟨_, rfl, rfl⟩) fun _ m v _ _ => complexUnitSample_moments m v, ?_⟩
  intro rs p q v _
  have hk := C51_library hs (.simple .complexUnit)
  refine ⟨_, fun t r => hk.logNormalizer _ _ _, fun i hi => ?_⟩
  exact complexUnit_information (complexUnitToNat (q i)) (v i)

/-- **C73.** Estimates from multinomial samples converge to the wrong probabilities: those of the
distribution conditioned on not drawing the last category, which are larger. -/
theorem C73_multinomial (d : ℕ) : SampleAverages (K := Key) (library search)
      ((Simple.multinomial d).kind solve) ((Simple.multinomial d).setting solve)
      (fun rng => Cls.sample search rng .multinomialNP) (layV (d + 1)) (fun _ q => softmax q) (fun _ _ => True)
      (fun _ q (v : Fin (d + 1) → ℝ) => ∑ k, softmax q k * (v k - ∑ i, v i * softmax q i) ^ 2) ∧
    ∀ (q : Fin (d + 1) → ℝ) i, (multinomial d).toExp q i < softmax q i := by
  refine ⟨(C63_multinomial d).averages hs (.simple (.multinomial d)) (fun _ _ => ⟨_, rfl, rfl⟩)
    fun _ q v _ _ => multinomialSample_moments q v, fun q i => ?_⟩
  have h0 : 0 < ∑ j, Real.exp (q j) := Finset.sum_pos (fun j _ => Real.exp_pos _) Finset.univ_nonempty
  show Real.exp (q i - maxQ q - logScaledA q) < softmax q i
  rw [toExp_multinomial, softmax]
  exact div_lt_div_of_pos_left (Real.exp_pos _) h0 (by linarith)

omit hs in
/-- Non-vacuity: with 1024 × 64 samples the estimate of a geometric mean of two is off by 0.1 or more with
probability below 0.4 %. -/
example (hs : solve.For search) : ∃ (Ω : Type) (_ : MeasurableSpace Ω) (P : Measure Ω)
    (I : IdealRandom (List (ℕ × ℕ)) P) (x : Ω → Val) (m : Ω → Dist Cls) (d : Ω → List ℕ → ℝ),
    (∀ ω, Cls.sample search (I.rng ω) .geometricEP (layS [3] (fun _ => ()) fun _ => 2) [] (some [64, 1024]) =
      .ok (x ω)) ∧
    (∀ ω, Estimates (library search) ((Simple.geometric.kind solve).exp [3] (fun _ => ()) fun _ => (2 : ℝ)) 2
      (.leaf (x ω)) (m ω)) ∧
    (∀ ω, dotCalc ((Simple.geometric.kind solve).nat [3] (fun _ => ()) fun _ => (1 : ℝ)) (m ω) =
      ok (scalars [3] (d ω))) ∧
    P {ω | 0.1 ≤ |d ω [1] - 2|} ≤ ENNReal.ofReal 0.004 := by
  obtain ⟨I⟩ := idealRandom_exists
  obtain ⟨x, m, h1, h2⟩ := (C73_geometric_exp hs).1 _ _ _ I [] [64, 1024] [3] (fun _ => ()) (fun _ => (2 : ℝ))
    (by simp) fun _ _ => (by norm_num : (1 : ℝ) < 2)
  obtain ⟨d, c, h3, h4, h5⟩ := h2 (fun _ => (1 : ℝ)) fun _ _ => trivial
  refine ⟨_, _, _, I, x, m, d, fun ω => (h1 ω).1, fun ω => (h1 ω).2, h3, ?_⟩
  have h := C51_library hs (.simple .geometric)
  have hc : c [1] = 2 := by
    have := ok_scalars_inj (h4.symm.trans (h.dotCalc [3] (fun _ => ()) (fun _ => ()) (fun _ => (1 : ℝ))
      fun _ => (2 : ℝ))) [1] rfl
    exact this.trans (by show (1 : ℝ) * 2 = 2; norm_num)
  have := (h5 [1] rfl).near 0.1 (by norm_num)
  rw [hc] at this
  exact this.trans (ENNReal.ofReal_le_ofReal (by norm_num))

end Efax
