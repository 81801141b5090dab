import Verif.Spec.Conjugate
import Verif.Model.Families.Conjugate
import Verif.Props.Families.Inverse
import Verif.Props.Families.MvCarrier
import Verif.Lemmas.Families.Simplex

/-!
# Conjugate priors (C38, C39)
-/

namespace Efax

open MeasureTheory Spec Set

namespace Spec.ConjugateCorrect

variable {N E X N' E' Θ : Type} {F : ExpFam N E X} {nat : Θ → N} {mdom : Set E}
  {prior : ExpFam N' E' Θ} {priorDom : Set N'} {thetas : Set Θ} {cp : E → ℝ → N'} {obs : E → Θ}

/-- The mode follows from the form of the prior. -/
theorem of_conj [AddCommGroup N] [Module ℝ N] [MeasurableSpace X] {μ : Measure X} {dom : Set N}
    {dirs : Submodule ℝ N} (R : LocallyRegular F μ dom dirs) (hnat : ∀ θ ∈ thetas, nat θ ∈ dom)
    (hobs : ∀ p ∈ mdom, obs p ∈ thetas ∧ F.toExp (nat (obs p)) = p)
    (valid : ∀ p ∈ mdom, ∀ n > 0, cp p n ∈ priorDom)
    (conj : ∀ p ∈ mdom, ∀ n > 0, ∃ c, ∀ θ ∈ thetas,
      prior.logPdf (cp p n) θ = n * (F.dot (nat θ) p - F.logNormalizer (nat θ)) + c) :
    ConjugateCorrect F nat mdom prior priorDom thetas cp obs where
  valid := valid
  conj := conj
  mode p hp n hn := by
    obtain ⟨c, hc⟩ := conj p hp n hn
    obtain ⟨ho, he⟩ := hobs p hp
    refine ⟨ho, fun θ hθ => ?_⟩
    rw [hc θ hθ, hc _ ho]
    have := R.support (hnat _ ho) (hnat θ hθ)
    rw [he, R.dot_sub] at this
    have h2 : F.dot (nat θ) p - F.logNormalizer (nat θ) ≤
        F.dot (nat (obs p)) p - F.logNormalizer (nat (obs p)) := by linarith
    nlinarith [mul_le_mul_of_nonneg_left h2 (le_of_lt hn)]

/-- Conjugate priors are proportional to likelihoods. -/
theorem likelihood (h : ConjugateCorrect F nat mdom prior priorDom thetas cp obs) :
    LikelihoodCorrect F nat mdom prior thetas cp := by
  intro data hd p hp hm
  have hl : (0 : ℝ) < data.length := by
    exact_mod_cast List.length_pos_iff.2 hd
  obtain ⟨c, hc⟩ := h.conj p hp data.length hl
  refine ⟨Real.exp ((data.map F.carrier).sum - c), Real.exp_pos _, fun θ hθ => ?_⟩
  have e : (data.map (F.pdf (nat θ))).prod = Real.exp (data.map (F.logPdf (nat θ))).sum := by
    rw [Real.exp_list_sum, List.map_map]
    rfl
  have e2 : (data.map (F.logPdf (nat θ))).sum = (data.map fun x => F.dot (nat θ) (F.stat x)).sum -
      data.length * F.logNormalizer (nat θ) + (data.map F.carrier).sum := by
    clear hm hc hd hl e
    induction data with
    | nil => simp
    | cons x xs ih =>
      simp only [List.map_cons, List.sum_cons, ih, List.length_cons, ExpFam.logPdf]
      push_cast
      ring
  rw [e, e2, ← hm, ExpFam.pdf, hc θ hθ, ← Real.exp_add]
  congr 1
  ring

end Spec.ConjugateCorrect

/-! ### C38 -/

/-- Bernoulli: a beta prior on the probability. -/
theorem C38_bernoulli : ConjugateCorrect bernoulli bernoulliToNat (Ioo 0 1) beta (dirichletDom 2)
    (Ioo 0 1) bernoulliPrior priorObservation := by
  refine .of_conj bernoulli_regular.toLocallyRegular (fun _ _ => trivial)
    (fun p hp => ⟨hp, (C31_bernoulli.2 p hp).2⟩) (fun p hp n hn i => ?_) (fun p hp n hn => ?_)
  · have h1 : 0 < n * p := mul_pos hn hp.1
    have h2 : 0 < n * (1 - p) := mul_pos hn (by linarith [hp.2])
    fin_cases i
    · show -1 < n * p
      linarith
    · show -1 < n * (1 - p)
      linarith
  · refine ⟨-beta.logNormalizer (bernoulliPrior p n), fun θ hθ => ?_⟩
    have h0 := hθ.1
    have h1 : 0 < 1 - θ := by linarith [hθ.2]
    have hA : bernoulli.logNormalizer (bernoulliToNat θ) = -Real.log (1 - θ) := by
      simp only [bernoulli, bernoulliToNat, logaddexp, logit]
      rw [Real.exp_log (div_pos h0 h1), Real.exp_zero, ← Real.log_inv]
      congr 1
      field_simp
      ring
    have hd : beta.dot (bernoulliPrior p n) (beta.stat θ) =
        n * p * Real.log θ + n * (1 - p) * Real.log (1 - θ) := by
      simp [beta, bernoulliPrior, Fin.sum_univ_two, log1p, sub_eq_add_neg]
    rw [ExpFam.logPdf, hA, hd]
    simp only [bernoulli, bernoulliToNat, logit, Real.log_div h0.ne' h1.ne', beta]
    ring

/-- Poisson: a gamma prior on the mean. -/
theorem C38_poisson : ConjugateCorrect poisson poissonToNat (Ioi 0) gamma gammaDom (Ioi 0)
    poissonPrior priorObservation := by
  refine .of_conj poisson_regular.toLocallyRegular (fun _ _ => trivial)
    (fun p hp => ⟨hp, (C31_poisson.2 p hp).2⟩) (fun p hp n hn => ?_) (fun p hp n hn => ?_)
  · have hp : 0 < p := hp
    have : 0 < n * p := mul_pos hn hp
    exact ⟨by show -n < 0; linarith, by show -1 < n * p; linarith⟩
  · refine ⟨-gamma.logNormalizer (poissonPrior p n), fun θ (hθ : 0 < θ) => ?_⟩
    simp only [ExpFam.logPdf, poisson, poissonToNat, Real.exp_log hθ]
    simp only [gamma, poissonPrior]
    ring

/-- Multinomial, with any number of categories: a Dirichlet prior on the probabilities. -/
theorem C38_multinomial (d : ℕ) : ConjugateCorrect (multinomial d) multinomialToNat (simplex (d + 1))
    (dirichlet (d + 1)) (dirichletDom (d + 2)) (simplex (d + 1)) multinomialPrior
    priorObservation := by
  refine .of_conj (multinomial_regular d).toLocallyRegular (fun _ _ => trivial)
    (fun p hp => ⟨hp, ((C31_multinomial d).2 p hp).2⟩) (fun p hp n hn i => ?_) (fun p hp n hn => ?_)
  · have hpos : 0 < multinomialPrior p n i := by
      refine mul_pos hn ?_
      refine Fin.lastCases ?_ (fun j => ?_) i
      · rw [Fin.snoc_last]
        linarith [hp.2]
      · rw [Fin.snoc_castSucc]
        exact hp.1 j
    linarith
  · refine ⟨-(dirichlet (d + 1)).logNormalizer (multinomialPrior p n), fun θ hθ => ?_⟩
    have h0 : 0 < 1 - ∑ j, θ j := by linarith [hθ.2]
    have h1 : ∀ i, Real.exp (multinomialToNat θ i) = θ i / (1 - ∑ j, θ j) := fun i =>
      Real.exp_log (div_pos (hθ.1 i) h0)
    have hA : (multinomial d).logNormalizer (multinomialToNat θ) = -Real.log (1 - ∑ j, θ j) := by
      simp only [multinomial, logNormalizer_multinomial, h1, ← Finset.sum_div]
      rw [← Real.log_inv]
      congr 1
      field_simp
      ring
    rw [ExpFam.logPdf, hA]
    have hd : (dirichlet (d + 1)).dot (multinomialPrior p n) ((dirichlet (d + 1)).stat θ) =
        ∑ i, n * p i * Real.log (θ i) + n * (1 - ∑ i, p i) * Real.log (1 - ∑ i, θ i) := by
      simp only [dirichlet, multinomialPrior]
      rw [Fin.sum_univ_castSucc]
      simp only [Fin.snoc_castSucc, Fin.snoc_last]
    rw [hd]
    simp only [multinomial, multinomialToNat, show (dirichlet (d + 1)).carrier θ = 0 from rfl]
    rw [show ∑ i, Real.log (θ i / (1 - ∑ j, θ j)) * p i =
        ∑ i, p i * Real.log (θ i) - (∑ i, p i) * Real.log (1 - ∑ j, θ j) by
      rw [Finset.sum_mul, ← Finset.sum_sub_distrib]
      refine Finset.sum_congr rfl fun i _ => ?_
      rw [Real.log_div (hθ.1 i).ne' h0.ne']
      ring]
    simp only [mul_assoc, ← Finset.mul_sum]
    ring

/-- Unit normal: a normal prior on the mean. -/
theorem C38_unit_normal : ConjugateCorrect unitNormal unitNormalToNat univ normal normalDom univ
    unitNormalPrior priorObservation := by
  refine .of_conj unitNormal_regular.toLocallyRegular (fun _ _ => trivial)
    (fun p hp => ⟨hp, (C31_unit_normal.2 p hp).2⟩) (fun p hp n hn => ?_) (fun p hp n hn => ?_)
  · show -0.5 * n < 0
    linarith
  · refine ⟨n * (0.5 * Real.log (Real.pi * 2)) - normal.logNormalizer (unitNormalPrior p n),
      fun θ _ => ?_⟩
    simp only [ExpFam.logPdf, unitNormal, unitNormalToNat]
    simp only [normal, unitNormalPrior]
    ring

/-- Multivariate unit normal: an isotropic normal prior on the mean. -/
theorem C38_mv_unit (d : ℕ) : ConjugateCorrect (mvUnit d) mvUnitToNat univ (mvIsotropic d)
    (mvIsotropicDom d) univ mvUnitPrior priorObservation := by
  refine .of_conj (mvUnit_regular d).toLocallyRegular (fun _ _ => trivial)
    (fun p hp => ⟨hp, (C31_mv_unit.2 p hp).2⟩) (fun p hp n hn => ?_) (fun p hp n hn => ?_)
  · show -0.5 * n * 1 < 0
    linarith
  · refine ⟨n * (0.5 * (d * Real.log (Real.pi * 2))) - (mvIsotropic d).logNormalizer
      (mvUnitPrior p n), fun θ _ => ?_⟩
    simp only [ExpFam.logPdf, mvUnit, mvUnitToNat]
    simp only [mvIsotropic, mvUnitPrior, mul_assoc, ← Finset.mul_sum]
    rw [show ∑ i, p i * θ i = ∑ i, θ i * p i from Finset.sum_congr rfl fun i _ => mul_comm _ _]
    ring

/-- Multivariate normal with fixed variance: an isotropic normal prior on the mean. -/
theorem C38_mv_fixed (d : ℕ) {v : ℝ} (hv : 0 < v) : ConjugateCorrect (mvFixed d v) (mvFixedToNat v)
    univ (mvIsotropic d) (mvIsotropicDom d) univ (mvFixedPrior v) priorObservation := by
  refine .of_conj (mvFixed_regular d hv).toLocallyRegular (fun _ _ => trivial)
    (fun p hp => ⟨hp, ((C31_mv_fixed hv).2 p hp).2⟩) (fun p hp n hn => ?_) (fun p hp n hn => ?_)
  · show -0.5 * (n / v) < 0
    have : 0 < n / v := div_pos hn hv
    linarith
  · refine ⟨n * (0.5 * (d * Real.log (Real.pi * 2 * v))) - (mvIsotropic d).logNormalizer
      (mvFixedPrior v p n), fun θ _ => ?_⟩
    simp only [ExpFam.logPdf, mvFixed, mvFixedToNat]
    simp only [mvIsotropic, mvFixedPrior, mul_assoc, ← Finset.mul_sum, div_pow, ← Finset.sum_div]
    rw [show ∑ i, θ i / v * p i = (∑ i, p i * θ i) / v by
      rw [Finset.sum_div]
      exact Finset.sum_congr rfl fun i _ => by ring]
    have := hv.ne'
    field_simp
    ring

/-- In terms of data: the prior is proportional to the likelihood of observations with the given mean
statistics. -/
theorem C38_likelihood :
    LikelihoodCorrect bernoulli bernoulliToNat (Ioo 0 1) beta (Ioo 0 1) bernoulliPrior ∧
    LikelihoodCorrect poisson poissonToNat (Ioi 0) gamma (Ioi 0) poissonPrior ∧
    (∀ d, LikelihoodCorrect (multinomial d) multinomialToNat (simplex (d + 1)) (dirichlet (d + 1))
      (simplex (d + 1)) multinomialPrior) ∧
    LikelihoodCorrect unitNormal unitNormalToNat univ normal univ unitNormalPrior ∧
    (∀ d, LikelihoodCorrect (mvUnit d) mvUnitToNat univ (mvIsotropic d) univ mvUnitPrior) ∧
    ∀ d, ∀ v > 0, LikelihoodCorrect (mvFixed d v) (mvFixedToNat v) univ (mvIsotropic d) univ
      (mvFixedPrior v) :=
  ⟨C38_bernoulli.likelihood, C38_poisson.likelihood, fun d => (C38_multinomial d).likelihood,
    C38_unit_normal.likelihood, fun d => (C38_mv_unit d).likelihood,
    fun d _ hv => (C38_mv_fixed d hv).likelihood⟩

example : (0.3 : ℝ) ∈ Ioo (0 : ℝ) 1 ∧ (2 : ℝ) > 0 ∧ (2.5 : ℝ) ∈ Ioi (0 : ℝ) ∧
    (fun _ => 0.2 : Fin 3 → ℝ) ∈ simplex 3 := by
  norm_num [simplex]

/-- Two heads and one tail are data with mean statistic 2/3. -/
example (q : ℝ) : (([true, true, false] : List Bool).length : ℝ) * bernoulli.dot q (2 / 3) =
    (([true, true, false] : List Bool).map fun x => bernoulli.dot q (bernoulli.stat x)).sum := by
  norm_num [bernoulli, ofBool]
  ring

/-- The exponential family violates the property.  An observation of the prior is called a mean; with
that reading no number of pseudo-observations and no mean give a conjugate prior. -/
theorem C38_exponential_negation {m n : ℝ} (hm : 0 < m) (hn : 0 < n) :
    ¬ ∃ c, ∀ θ > 0, gamma.logPdf (exponentialPrior m n) θ =
      n * (exponential.dot (exponentialToNat θ) m - exponential.logNormalizer (exponentialToNat θ)) +
        c := by
  rintro ⟨c, hc⟩
  have h1 := hc m hm
  have h2 := hc (2 * m) (by positivity)
  simp only [ExpFam.logPdf, gamma, exponentialPrior, exponential, exponentialToNat, neg_div, neg_neg,
    Real.log_div one_ne_zero hm.ne', Real.log_div one_ne_zero (by positivity : (2 * m) ≠ 0),
    Real.log_mul two_ne_zero hm.ne', Real.log_one] at h1 h2
  have e1 : 1 / m * m = 1 := by field_simp
  have e2 : 1 / (2 * m) * m = 1 / 2 := by field_simp
  have e3 : n / m * m = n := by field_simp
  have e4 : n / m * (2 * m) = 2 * n := by field_simp
  rw [neg_mul, neg_mul, e1, e3] at h1
  rw [neg_mul, neg_mul, e2, e4] at h2
  have h3 : n * (2 * Real.log 2 - 3 / 2) = 0 := by linarith
  have h4 := (mul_eq_zero.1 h3).resolve_left hn.ne'
  linarith [Real.log_two_lt_d9]

/-- Nor is it a conjugate prior on the rate, except for the mean 1. -/
theorem C38_exponential_rate {m n : ℝ} (hm : 0 < m) (hn : 0 < n) :
    (∃ c, ∀ θ > 0, gamma.logPdf (exponentialPrior m n) θ =
      n * (exponential.dot (-θ) m - exponential.logNormalizer (-θ)) + c) ↔ m = 1 := by
  constructor
  · rintro ⟨c, hc⟩
    have h1 := hc 1 one_pos
    have h2 := hc 2 two_pos
    simp only [ExpFam.logPdf, gamma, exponentialPrior, exponential, neg_neg, Real.log_one] at h1 h2
    have h3 : n / m = n * m := by
      rw [neg_div] at h1 h2
      linarith
    rw [div_eq_iff hm.ne'] at h3
    have h4 : m ^ 2 = 1 := by
      have : n * (m ^ 2 - 1) = 0 := by linarith
      have := (mul_eq_zero.1 this).resolve_left hn.ne'
      linarith
    nlinarith
  · rintro rfl
    refine ⟨-gamma.logNormalizer (exponentialPrior 1 n), fun θ _ => ?_⟩
    simp only [ExpFam.logPdf, gamma, exponentialPrior, exponential, neg_neg, div_one]
    ring

/-! ### C39 -/

/-- Unit variance: each coordinate has its own number of pseudo-observations; with equal numbers the
density is that of the ordinary prior. -/
theorem C39_mv_unit (d : ℕ) (m : Fin d → ℝ) :
    (∀ n : Fin d → ℝ, (∀ i, 0 < n i) → mvUnitGeneralPrior m n ∈ mvDiagonalDom d ∧
      ∃ c, ∀ θ, (mvDiagonal d).logPdf (mvUnitGeneralPrior m n) θ = ∑ i, n i *
        (unitNormal.dot (unitNormalToNat (θ i)) (m i) -
          unitNormal.logNormalizer (unitNormalToNat (θ i))) + c) ∧
    ∀ n > 0, ∀ θ, (mvDiagonal d).pdf (mvUnitGeneralPrior m fun _ => n) θ =
      (mvIsotropic d).pdf (mvUnitPrior m n) θ := by
  refine ⟨fun n hn => ⟨fun i => ?_, ∑ i, n i * (0.5 * Real.log (Real.pi * 2)) -
    (mvDiagonal d).logNormalizer (mvUnitGeneralPrior m n), fun θ => ?_⟩, fun n hn θ => ?_⟩
  · show -0.5 * n i < 0
    linarith [hn i]
  · simp only [ExpFam.logPdf, unitNormal, unitNormalToNat]
    rw [← add_sub_assoc, ← Finset.sum_add_distrib]
    simp only [mvDiagonal, mvUnitGeneralPrior, ← Finset.sum_add_distrib, add_zero]
    congr 1
    exact Finset.sum_congr rfl fun i _ => by ring
  · rw [ExpFam.pdf, ExpFam.pdf]
    congr 1
    simp only [ExpFam.logPdf, mvDiagonal, mvIsotropic, mvUnitGeneralPrior, mvUnitPrior,
      Finset.sum_add_distrib, Finset.sum_const, Finset.card_univ, Fintype.card_fin, nsmul_eq_mul,
      ← Finset.mul_sum, ← Finset.sum_div, Finset.sum_neg_distrib, mul_one, add_zero]
    rw [show -Real.pi / (-0.5 * n) = Real.pi / -(-0.5 * n) by rw [neg_div, div_neg]]
    have hn' : n ≠ 0 := ne_of_gt hn
    congr 1
    rw [mul_add]
    congr 1
    field_simp
    ring

/-- Fixed variance: the same. -/
theorem C39_mv_fixed (d : ℕ) {v : ℝ} (hv : 0 < v) (m : Fin d → ℝ) :
    (∀ n : Fin d → ℝ, (∀ i, 0 < n i) → mvFixedGeneralPrior v m n ∈ mvDiagonalDom d ∧
      ∃ c, ∀ θ, (mvDiagonal d).logPdf (mvFixedGeneralPrior v m n) θ = ∑ i, n i *
        ((mvFixed 1 v).dot (mvFixedToNat v fun _ => θ i) (fun _ => m i) -
          (mvFixed 1 v).logNormalizer (mvFixedToNat v fun _ => θ i)) + c) ∧
    ∀ n > 0, ∀ θ, (mvDiagonal d).pdf (mvFixedGeneralPrior v m fun _ => n) θ =
      (mvIsotropic d).pdf (mvFixedPrior v m n) θ := by
  have hv' := hv.ne'
  refine ⟨fun n hn => ⟨fun i => ?_, ∑ i, n i * (0.5 * Real.log (Real.pi * 2 * v)) -
    (mvDiagonal d).logNormalizer (mvFixedGeneralPrior v m n), fun θ => ?_⟩, fun n hn θ => ?_⟩
  · show -0.5 * (n i / v) < 0
    have := div_pos (hn i) hv
    linarith
  · simp only [ExpFam.logPdf, mvFixed, mvFixedToNat]
    rw [← add_sub_assoc, ← Finset.sum_add_distrib]
    simp only [mvDiagonal, mvFixedGeneralPrior, ← Finset.sum_add_distrib, add_zero]
    congr 1
    refine Finset.sum_congr rfl fun i _ => ?_
    simp
    field_simp
    ring
  · have hn' : n / v ≠ 0 := (div_pos hn hv).ne'
    rw [ExpFam.pdf, ExpFam.pdf]
    congr 1
    simp only [ExpFam.logPdf, mvDiagonal, mvIsotropic, mvFixedGeneralPrior, mvFixedPrior]
    generalize n / v = k at hn'
    simp only [Finset.sum_add_distrib, Finset.sum_const, Finset.card_univ, Fintype.card_fin,
      nsmul_eq_mul, ← Finset.mul_sum, ← Finset.sum_div, Finset.sum_neg_distrib, mul_one, add_zero]
    rw [show -Real.pi / (-0.5 * k) = Real.pi / -(-0.5 * k) by rw [neg_div, div_neg]]
    congr 1
    rw [mul_add]
    congr 1
    · field_simp
      ring
    · ring

/-- The multinomial violates the property in every dimension: with one count per coordinate, as
documented, the shapes do not broadcast, or (in one dimension) the result is a distribution over
vectors with one more entry. -/
theorem C39_multinomial_negation {p n : List ℝ} (hp : p ≠ []) (hn : n.length = p.length) :
    ¬ ∃ a g, multinomialGeneralPrior p n = some (a, g) ∧ a.length = p.length := by
  rintro ⟨a, g, h, hl⟩
  have h0 : 0 < p.length := List.length_pos_iff.2 hp
  by_cases h1 : n.length = 1
  · obtain ⟨n0, rfl⟩ := List.length_eq_one_iff.1 h1
    obtain ⟨p0, rfl⟩ := List.length_eq_one_iff.1 (hn.symm.trans h1)
    simp [multinomialGeneralPrior, broadcast, rollZero, diffAppend] at h
    rw [← h.1] at hl
    simp at hl
  · simp [multinomialGeneralPrior, broadcast, hn] at h
    rw [hn] at h1
    simp [h1, hp] at h

theorem broadcast_length {f : ℝ → ℝ → ℝ} {a b c : List ℝ} (hb : 2 ≤ b.length)
    (h : broadcast f a b = some c) : c.length = b.length := by
  unfold broadcast at h
  split_ifs at h with h1 h2 h3
  · simp [← Option.some.inj h, h1]
  · simp [← Option.some.inj h]
  · omega

/-- The same with any counts: if the code returns a distribution at all, it is not one over vectors
of probabilities with as many entries as the parameter has. -/
theorem C39_multinomial_length {p n a g : List ℝ} (hp : p ≠ [])
    (h : multinomialGeneralPrior p n = some (a, g)) : a.length = p.length + 1 ∧ g.length = p.length + 1 := by
  have h0 : 0 < p.length := List.length_pos_iff.2 hp
  simp only [multinomialGeneralPrior, Option.bind_eq_bind, Option.bind_eq_some_iff] at h
  obtain ⟨al, hal, be, hbe, ga, hga, h⟩ := h
  have l1 := broadcast_length (by simp; omega) hal
  have l2 := broadcast_length (by simp; omega) hbe
  have hroll : (rollZero al).length = al.length := by cases al <;> simp [rollZero]
  have l3 := broadcast_length (by rw [hroll, l1]; simp; omega) hga
  obtain ⟨rfl, rfl⟩ := Prod.mk.inj (Option.some.inj h)
  simp [l1, l3, hroll]

/-- What it returns for the probability 1/4 and one count of 8: a distribution over pairs of
probabilities. -/
theorem C39_multinomial_pair : multinomialGeneralPrior [1 / 4] [8] = some ([1, 5], [-2, 1]) := by
  norm_num [multinomialGeneralPrior, broadcast, rollZero, diffAppend]

/-- In two or more dimensions it raises. -/
theorem C39_multinomial_raises {p n : List ℝ} (hp : 2 ≤ p.length) (hn : n.length = p.length) :
    multinomialGeneralPrior p n = none := by
  have h1 : p.length ≠ 1 := by omega
  have h2 : p ≠ [] := by
    rintro rfl
    simp at hp
  simp [multinomialGeneralPrior, broadcast, hn, h1, h2]

example : 2 ≤ ([0.2, 0.3] : List ℝ).length ∧ ([5, 5] : List ℝ).length = ([0.2, 0.3] : List ℝ).length :=
  ⟨le_rfl, rfl⟩

end Efax
