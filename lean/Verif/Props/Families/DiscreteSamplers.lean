import Verif.Props.Families.Samplers
import Verif.Lemmas.Families.Discrete
import Verif.Lemmas.Families.Multinomial
import Verif.Props.Families.Probability
import Mathlib.MeasureTheory.Measure.GiryMonad

/-!
# Samplers of discrete families and of families on the simplex (C46, C47, C48)
-/

namespace Efax

open MeasureTheory Spec Set

theorem law_singleton {N E X : Type} [MeasurableSpace X] [MeasurableSingletonClass X]
    (F : ExpFam N E X) (q : N) (x : X) :
    law F Measure.count q {x} = ENNReal.ofReal (F.pdf q x) := by
  rw [law, withDensity_apply _ (measurableSet_singleton x), Measure.restrict_singleton,
    Measure.count_singleton, one_smul, lintegral_dirac]

/-! ### Bernoulli and Poisson -/

theorem C46_bernoulli_nat (q : ℝ) : bernoulliSampleN q = law bernoulli Measure.count q := by
  have h0 := Real.exp_pos q
  refine Measure.ext_of_singleton fun b => ?_
  rw [law_singleton, bernoulliSampleN, bernoulliSampleE, randomBernoulli, Measure.add_apply,
    Measure.smul_apply, Measure.smul_apply]
  cases b
  · simp only [bernoulli, one_sub_expit_eq, ExpFam.pdf, ExpFam.logPdf, logaddexp, ofBool]
    simp [Real.exp_neg, Real.exp_log (show 0 < Real.exp q + 1 by positivity)]
  · simp only [bernoulli, expit_eq, ExpFam.pdf, ExpFam.logPdf, logaddexp, ofBool]
    simp [Real.exp_sub, Real.exp_log (show 0 < Real.exp q + 1 by positivity)]

theorem C46_bernoulli_exp {p : ℝ} (hp : p ∈ Ioo (0 : ℝ) 1) :
    bernoulliSampleE p = law bernoulli Measure.count (bernoulliToNat p) := by
  rw [← C46_bernoulli_nat, bernoulliSampleN, (C31_bernoulli.2 p hp).2]

theorem randomPoisson_singleton (m : ℝ) (k : ℕ) : randomPoisson m {k} =
    ENNReal.ofReal (Real.exp (-m) * m ^ k / k.factorial) := by
  rw [randomPoisson, Measure.sum_apply _ (measurableSet_singleton k), tsum_eq_single k]
  · simp
  · intro j hj
    simp [hj]

theorem C46_poisson_exp {m : ℝ} (hm : 0 < m) :
    poissonSampleE m = law poisson Measure.count (poissonToNat m) := by
  refine Measure.ext_of_singleton fun k => ?_
  rw [law_singleton, poissonSampleE, randomPoisson_singleton]
  congr 1
  have hk : (0 : ℝ) < k.factorial := by positivity
  simp only [ExpFam.pdf, ExpFam.logPdf, poisson, poissonToNat, gammaln_nat, Real.exp_log hm]
  rw [← sub_eq_add_neg, Real.exp_sub, Real.exp_log hk, Real.exp_sub, mul_comm (Real.log m),
    Real.exp_nat_mul, Real.exp_log hm, Real.exp_neg]
  ring

theorem C46_poisson_nat (q : ℝ) : poissonSampleN q = law poisson Measure.count q := by
  rw [poissonSampleN, C46_poisson_exp (C31_poisson.1 q trivial).1, (C31_poisson.1 q trivial).2]

/-! ### Negative binomial -/

theorem measurable_randomPoisson : Measurable randomPoisson := by
  refine Measure.measurable_of_measurable_coe _ fun s hs => ?_
  simp only [randomPoisson, Measure.sum_apply _ hs, Measure.smul_apply, smul_eq_mul]
  refine Measurable.ennreal_tsum fun k => Measurable.mul_const ?_ _
  refine ENNReal.measurable_ofReal.comp ?_
  fun_prop

/-- The gamma-Poisson mixture. -/
theorem C46_negative_binomial_exp {r : ℕ} (hr : 1 ≤ r) {m : ℝ} (hm : 0 < m) :
    negativeBinomialSampleE r m =
      law (negativeBinomial r) Measure.count (negativeBinomialToNat r m) := by
  have hr' : (0 : ℝ) < r := Nat.cast_pos.2 hr
  have hs : 0 < r / m := div_pos hr' hm
  have hs1 : 0 < 1 + r / m := by positivity
  let q : ℝ × ℝ := (-r / m, r - 1)
  have hq : q ∈ gammaDom := by
    refine ⟨?_, ?_⟩
    · show -(r : ℝ) / m < 0
      rw [neg_div]
      linarith
    · show (-1 : ℝ) < r - 1
      linarith
  refine Measure.ext_of_singleton fun k => ?_
  rw [law_singleton]
  have h1 : negativeBinomialSampleE r m = (gammaSampleN q).bind poissonSampleE := rfl
  have hp : poissonSampleE = randomPoisson := rfl
  rw [h1, hp, Measure.bind_apply (measurableSet_singleton k) measurable_randomPoisson.aemeasurable,
    C46_gamma_nat hq]
  simp only [randomPoisson_singleton]
  have hd := gamma_regular.density q hq
  let q' : ℝ × ℝ := (q.1 - 1, q.2 + k)
  have hq' : q' ∈ gammaDom := by
    refine ⟨?_, ?_⟩
    · show q.1 - 1 < 0
      linarith [hq.1]
    · show (-1 : ℝ) < q.2 + k
      have := hq.2
      have : (0 : ℝ) ≤ k := Nat.cast_nonneg k
      linarith [hq.2]
  have hd' := gamma_regular.density q' hq'
  have hk : (0 : ℝ) < k.factorial := by positivity
  have hm1 : AEMeasurable (fun x => ENNReal.ofReal (gamma.pdf q x)) positive :=
    (integrable_of_integral_eq_one hd.2).1.aemeasurable.ennreal_ofReal
  have hm2 : Measurable fun x : ℝ => ENNReal.ofReal (Real.exp (-x) * x ^ k / k.factorial) :=
    ENNReal.measurable_ofReal.comp (by fun_prop)
  rw [law, lintegral_withDensity_eq_lintegral_mul₀ hm1 hm2.aemeasurable]
  have e : ∀ᵐ x ∂positive, (((fun x => ENNReal.ofReal (gamma.pdf q x)) *
      fun x : ℝ => ENNReal.ofReal (Real.exp (-x) * x ^ k / k.factorial)) x) =
      ENNReal.ofReal (Real.exp (gamma.logNormalizer q' - gamma.logNormalizer q -
        Real.log k.factorial)) * ENNReal.ofReal (gamma.pdf q' x) := by
    refine ae_positive fun x hx => ?_
    rw [Pi.mul_apply, ← ENNReal.ofReal_mul (gamma.pdf_pos q x).le,
      ← ENNReal.ofReal_mul (Real.exp_pos _).le]
    congr 1
    have hxk : x ^ k = Real.exp (k * Real.log x) := by
      rw [Real.exp_nat_mul, Real.exp_log hx]
    rw [ExpFam.pdf, ExpFam.pdf, hxk, ← Real.exp_add, ← Real.exp_add, ← Real.exp_log hk,
      ← Real.exp_sub, ← Real.exp_add, Real.exp_log hk]
    congr 1
    simp only [ExpFam.logPdf, q']
    simp only [gamma]
    ring
  rw [lintegral_congr_ae e, lintegral_const_mul' _ _ ENNReal.ofReal_ne_top,
    ← ofReal_integral_eq_lintegral_ofReal (integrable_of_integral_eq_one hd'.2)
      (ae_of_all _ hd'.1), hd'.2, ENNReal.ofReal_one, mul_one]
  congr 1
  rw [ExpFam.pdf]
  congr 1
  have e1 : -(-r / m - 1) = 1 + r / m := by ring
  have e2 : -(-(r : ℝ) / m) = r / m := by ring
  have e3 : 1 - Real.exp (-Real.log (1 + r / m)) = (r / m) / (1 + r / m) := by
    rw [Real.exp_neg, Real.exp_log hs1]
    field_simp
    ring
  simp only [ExpFam.logPdf, negativeBinomial, negativeBinomialToNat, gamma, q', q, log1p, e1, e2,
    ← sub_eq_add_neg, e3, Real.log_div hs.ne' hs1.ne', ← gammaln_nat]
  rw [show (r : ℝ) - 1 + k + 1 = k + r - 1 + 1 by ring, show (r : ℝ) - 1 + 1 = r by ring,
    show (k : ℝ) + r - 1 - k + 1 = r by ring]
  ring

theorem C46_negative_binomial_nat {r : ℕ} (hr : 1 ≤ r) {q : ℝ} (hq : q < 0) :
    negativeBinomialSampleN r q = law (negativeBinomial r) Measure.count q := by
  have h := (C31_negative_binomial hr).1 q hq
  rw [negativeBinomialSampleN, C46_negative_binomial_exp hr h.1, h.2]

/-! ### Beta and Dirichlet -/

theorem C46_beta {q : Fin 2 → ℝ} (hq : q ∈ dirichletDom 2) :
    betaSampleN q = law beta (volume.restrict (Ioo 0 1)) q := by
  have h : ∀ {p : ℝ → Prop}, (∀ x ∈ Ioo (0 : ℝ) 1, p x) → ∀ᵐ x ∂(volume.restrict (Ioo 0 1)), p x :=
    fun hp => (ae_restrict_iff' measurableSet_Ioo).2 (ae_of_all _ hp)
  refine law_of_form (h := fun x => Real.log x * (1 + q 0 - 1) + Real.log (1 - x) * (1 + q 1 - 1))
    (beta_regular.density q hq) 0 (h fun x hx => ?_) (h fun x hx => ?_)
  · rw [Real.exp_add, Real.rpow_def_of_pos hx.1, Real.rpow_def_of_pos (sub_pos.2 hx.2)]
  · simp [beta, Fin.sum_univ_two, log1p, ← sub_eq_add_neg]
    ring

theorem C46_dirichlet {d : ℕ} {q : Fin (d + 1) → ℝ} (hq : q ∈ dirichletDom (d + 1)) :
    dirichletSampleN q = law (dirichlet d) (volume.restrict (simplex d)) q := by
  have h : ∀ {p : (Fin d → ℝ) → Prop}, (∀ x ∈ simplex d, p x) →
      ∀ᵐ x ∂(volume.restrict (simplex d)), p x :=
    fun hp => (ae_restrict_iff' (measurableSet_simplex d)).2 (ae_of_all _ hp)
  have hm1 : Measurable fun x : Fin d → ℝ =>
      (Fin.snoc (α := fun _ => ℝ) x (1 - ∑ i, x i) : Fin (d + 1) → ℝ) := by
    refine measurable_pi_iff.2 fun i => ?_
    refine Fin.lastCases ?_ (fun j => ?_) i
    · simp only [Fin.snoc_last]
      fun_prop
    · simp only [Fin.snoc_castSucc]
      fun_prop
  have hm2 : Measurable fun (x : Fin (d + 1) → ℝ) (i : Fin d) => x i.castSucc := by fun_prop
  rw [dirichletSampleN, randomDirichlet, Measure.map_map hm2 hm1]
  have e : ((fun (x : Fin (d + 1) → ℝ) (i : Fin d) => x i.castSucc) ∘ fun x : Fin d → ℝ =>
      (Fin.snoc (α := fun _ => ℝ) x (1 - ∑ i, x i) : Fin (d + 1) → ℝ)) = id := by
    funext x i
    simp
  rw [e, Measure.map_id]
  refine law_of_form (h := fun x => ∑ i, Real.log (x i) * (1 + q i.castSucc - 1) +
    Real.log (1 - ∑ i, x i) * (1 + q (Fin.last d) - 1))
    ((dirichlet_regular d).density q hq) 0 (h fun x hx => ?_) (h fun x hx => ?_)
  · rw [Real.exp_add, Real.exp_sum, Real.rpow_def_of_pos (sub_pos.2 hx.2)]
    congr 1
    exact Finset.prod_congr rfl fun i _ => by rw [Real.rpow_def_of_pos (hx.1 i)]
  · simp only [dirichlet, Fin.sum_univ_castSucc, Fin.snoc_castSucc, Fin.snoc_last]
    simp [mul_comm]

/-! ### Multinomial (C47) -/

theorem oneHot_injective {d : ℕ} : Function.Injective (oneHot (d := d)) := by
  intro j k h
  by_contra hn
  wlog hj : j ≠ Fin.last (d + 1) generalizing j k
  · push Not at hj
    exact this h.symm (Ne.symm hn) fun hk => hn (hj.trans hk.symm)
  obtain ⟨i, rfl⟩ := Fin.exists_castSucc_eq.2 hj
  have h1 := congrFun h i
  simp only [oneHot, if_true] at h1
  rw [if_neg hn] at h1
  exact one_ne_zero h1

theorem law_categories {d : ℕ} (q : Fin (d + 1) → ℝ) (k : Fin (d + 2)) :
    law (multinomial d) (categories d) q {oneHot k} =
      ENNReal.ofReal (multinomialProbability q k) := by
  have h1 : categories d {oneHot k} = 1 := by
    rw [categories, Measure.finset_sum_apply, Finset.sum_eq_single k]
    · simp
    · intro j _ hj
      rw [Measure.dirac_apply, indicator_of_notMem]
      exact fun h => hj (oneHot_injective h)
    · simp
  rw [law, withDensity_apply _ (measurableSet_singleton _), Measure.restrict_singleton, h1, one_smul,
    lintegral_dirac, ((C52_multinomial q).2.2 k).1]

theorem sample_categories {d : ℕ} (q : Fin (d + 1) → ℝ) (s : Set (Fin (d + 1) → ℝ))
    (hs : MeasurableSet s) : multinomialSampleN q s =
      ∑ i : Fin (d + 1), ENNReal.ofReal (Real.exp (q i) / ∑ j, Real.exp (q j)) *
        s.indicator 1 (oneHot i.castSucc) := by
  have e : (fun (k i : Fin (d + 1)) => if i = k then (1 : ℝ) else 0) =
      fun k => oneHot k.castSucc := by
    funext k i
    simp [oneHot]
  rw [multinomialSampleN, Measure.map_apply (measurable_of_countable _) hs, randomCategorical,
    Measure.finset_sum_apply]
  refine Finset.sum_congr rfl fun i _ => ?_
  rw [Measure.smul_apply, smul_eq_mul, Measure.dirac_apply, e]
  rfl

/-- Every sample is one of the first categories: the last one (the zero vector) is never drawn,
although it has positive probability. -/
theorem C47_multinomial_negation (d : ℕ) (q : Fin (d + 1) → ℝ) :
    multinomialSampleN q {oneHot (Fin.last (d + 1))} = 0 ∧
    law (multinomial d) (categories d) q {oneHot (Fin.last (d + 1))} =
      ENNReal.ofReal (multinomialProbability q (Fin.last (d + 1))) ∧
    0 < multinomialProbability q (Fin.last (d + 1)) ∧
    multinomialSampleN q ≠ law (multinomial d) (categories d) q := by
  have h1 : multinomialSampleN q {oneHot (Fin.last (d + 1))} = 0 := by
    rw [sample_categories q _ (measurableSet_singleton _)]
    refine Finset.sum_eq_zero fun i _ => ?_
    rw [indicator_of_notMem, mul_zero]
    intro h
    exact (Fin.castSucc_lt_last i).ne (oneHot_injective h)
  have h2 : 0 < multinomialProbability q (Fin.last (d + 1)) := (C52_multinomial q).1 _
  refine ⟨h1, law_categories q _, h2, fun h => ?_⟩
  have h3 := law_categories q (Fin.last (d + 1))
  rw [← h, h1] at h3
  exact (ENNReal.ofReal_pos.2 h2).ne h3

/-- The other categories are drawn with their probabilities, given that the outcome is not the last
one. -/
theorem C47_multinomial_conditional (d : ℕ) (q : Fin (d + 1) → ℝ) (k : Fin (d + 1)) :
    multinomialSampleN q {oneHot k.castSucc} = ENNReal.ofReal
      (multinomialProbability q k.castSucc / (1 - multinomialProbability q (Fin.last (d + 1)))) := by
  have hs : 0 < ∑ i, Real.exp (q i) :=
    Finset.sum_pos (fun i _ => Real.exp_pos _) Finset.univ_nonempty
  rw [sample_categories q _ (measurableSet_singleton _), Finset.sum_eq_single k]
  · rw [indicator_of_mem (mem_singleton _), Pi.one_apply, mul_one]
    congr 1
    have e : ∀ i, Real.exp (q i - maxQ q - logScaledA q) = Real.exp (q i) / (1 + ∑ j, Real.exp (q j)) :=
      fun i => toExp_multinomial q i
    simp only [multinomialProbability, Fin.snoc_castSucc, Fin.snoc_last, e, ← Finset.sum_div]
    have := hs.ne'
    field_simp
    rw [sub_sub_cancel, div_self this]
  · intro j _ hj
    rw [indicator_of_notMem, mul_zero]
    intro h
    exact hj (Fin.castSucc_injective _ (oneHot_injective h))
  · simp

/-! ### Geometric (C48) -/

/-- Zero is never drawn, although it has positive probability. -/
theorem C48_geometric_negation {m : ℝ} (hm : 0 < m) :
    geometricSampleE m {0} = 0 ∧ 0 < law geometric Measure.count (geometricToNat m) {0} ∧
    geometricSampleE m ≠ law geometric Measure.count (geometricToNat m) := by
  have h1 : geometricSampleE m {0} = 0 := by
    rw [geometricSampleE, randomGeometric, Measure.sum_apply _ (measurableSet_singleton 0)]
    simp
  have h2 : 0 < law geometric Measure.count (geometricToNat m) {0} := by
    rw [law_singleton]
    exact ENNReal.ofReal_pos.2 (geometric.pdf_pos _ _)
  exact ⟨h1, h2, fun h => h2.ne (by rw [← h, h1])⟩

/-- For means above one the samples are one too large for the law of mean `m - 1`, so that their mean
is right although their law is wrong. -/
theorem C48_geometric_shift {m : ℝ} (hm : 1 < m) (k : ℕ) :
    geometricSampleE m {k + 1} = law geometric Measure.count (geometricToNat (m - 1)) {k} := by
  have h0 : 0 < m - 1 := by linarith
  have hq : geometricToNat (m - 1) < 0 := (C31_geometric.2 (m - 1) h0).1
  rw [geometricSampleE, randomGeometric, Measure.sum_apply _ (measurableSet_singleton _),
    tsum_eq_single k, law_singleton]
  · have e : Real.exp (geometricToNat (m - 1)) = 1 - 1 / m := by
      have : 1 + 1 / (m - 1) = m / (m - 1) := by field_simp; ring
      simp only [geometricToNat, negativeBinomialToNat, log1p, Nat.cast_one, this]
      rw [Real.exp_neg, Real.exp_log (div_pos (by linarith) h0)]
      field_simp
    have h1 := negativeBinomial_pdf 0 hq k
    rw [geometric, h1, e]
    simp
  · intro j hj
    simp [hj]

/-- For means below one the success probability passed to the primitive exceeds one: its documented
mass at two is negative. -/
theorem C48_geometric_invalid {m : ℝ} (hm : 0 < m) (h1 : m < 1) :
    1 < 1 / m ∧ 1 / m * (1 - 1 / m) ^ 1 < 0 := by
  have h : 1 < 1 / m := by rwa [lt_div_iff₀ hm, one_mul]
  exact ⟨h, by rw [pow_one]; nlinarith⟩

/-- The hypotheses are satisfiable. -/
example : (0.5 : ℝ) ∈ Ioo (0 : ℝ) 1 ∧ (1 : ℝ) < 2.5 ∧ (0 : ℝ) < 0.5 ∧
    (fun _ => 0.5 : Fin 2 → ℝ) ∈ dirichletDom 2 := by
  norm_num [dirichletDom]

end Efax
