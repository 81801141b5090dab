import Verif.Lemmas.CramerRao

/-! # The Chernoff bound for exponential families -/

namespace Efax

open MeasureTheory Spec Filter

/-- Whether a quantity exceeds a threshold has a probability. -/
theorem Spec.HasMean.indicator {Y : Type} [MeasurableSpace Y] {ρ : Measure Y} {g T : Y → ℝ} {c : ℝ}
    (hg : IsDensity ρ g) (hpos : ∀ y, 0 < g y) (hT : HasMean ρ g T c) (b : ℝ) :
    ∃ P, HasMean ρ g ({y | b ≤ T y}.indicator 1) P := by
  refine ⟨_, Integrable.mono' hg.integrable ?_ (Eventually.of_forall fun y => ?_), rfl⟩
  · have h1 : AEMeasurable T ρ := by
      refine (hT.1.aemeasurable.div hg.integrable.aemeasurable).congr (Eventually.of_forall fun y => ?_)
      have := (hpos y).ne'
      simp only [Pi.div_apply]
      field_simp
    have h2 : NullMeasurableSet {y | b ≤ T y} ρ := nullMeasurableSet_le aemeasurable_const h1
    exact ((aestronglyMeasurable_const (b := (1 : ℝ))).indicator₀ h2).mul hg.integrable.aestronglyMeasurable
  · by_cases h : b ≤ T y
    · simp [h, abs_of_pos (hpos y)]
    · simp [h, (hpos y).le]

section

variable {N E X : Type} [AddCommGroup N] [Module ℝ N] [MeasurableSpace X] {F : ExpFam N E X} {μ : Measure X}
  {dom : Set N} {dirs : Submodule ℝ N} {p q : N}

/-- The ratio of likelihoods. -/
theorem Spec.LocallyRegular.likelihood_ratio {ι : Type} [Fintype ι] (R : LocallyRegular F μ dom dirs) (p q : N)
    (y : ι → X) : ∏ j, F.pdf q (y j) = Real.exp (-(∑ j, F.dot (p - q) (F.stat (y j)) -
      Fintype.card ι * (F.logNormalizer p - F.logNormalizer q))) * ∏ j, F.pdf p (y j) := by
  have e : ∀ z : N, ∏ j, F.pdf z (y j) = Real.exp (∑ j, F.logPdf z (y j)) := fun z => (Real.exp_sum _ _).symm
  rw [e, e, ← Real.exp_add]
  have h1 : ∑ j, F.logPdf p (y j) - ∑ j, F.logPdf q (y j) = ∑ j, F.dot (p - q) (F.stat (y j)) -
      Fintype.card ι * (F.logNormalizer p - F.logNormalizer q) := by
    rw [← Finset.sum_sub_distrib]
    have : (Fintype.card ι : ℝ) * (F.logNormalizer p - F.logNormalizer q) =
        ∑ _j : ι, (F.logNormalizer p - F.logNormalizer q) := by
      rw [Finset.sum_const, Finset.card_univ, nsmul_eq_mul]
    rw [this, ← Finset.sum_sub_distrib]
    refine Finset.sum_congr rfl fun j _ => ?_
    rw [R.dot_sub, ExpFam.logPdf, ExpFam.logPdf]
    ring
  congr 1
  linarith

/-- **Chernoff.** -/
theorem Spec.LocallyRegular.chernoff {ι : Type} [Fintype ι] [Nonempty ι] [SigmaFinite μ]
    (R : LocallyRegular F μ dom dirs) (hp : p ∈ dom) (hq : q ∈ dom) :
    ∃ P, HasMean (Measure.pi fun _ : ι => μ) (fun y => ∏ j, F.pdf q (y j))
      ({y | F.dot (p - q) (F.toExp p) ≤ (Fintype.card ι : ℝ)⁻¹ * ∑ j, F.dot (p - q) (F.stat (y j))}.indicator 1) P ∧
      P ≤ Real.exp (-(Fintype.card ι * F.kl p q)) := by
  classical
  have hn : (0 : ℝ) < Fintype.card ι := Nat.cast_pos.2 Fintype.card_pos
  have hT := (HasMean.sum Finset.univ fun j _ => (R.mean_dot hq (R.sub_mem q hq p hp)).at (R.density q hq)
    (j : ι)).const_mul (Fintype.card ι : ℝ)⁻¹
  obtain ⟨P, hP⟩ := HasMean.indicator (R.density q hq).pi (fun y => Finset.prod_pos fun j _ => F.pdf_pos _ _) hT
    (F.dot (p - q) (F.toExp p))
  refine ⟨P, hP, ?_⟩
  rw [← hP.2]
  have hd : IsDensity (Measure.pi fun _ : ι => μ) fun y => ∏ j, F.pdf p (y j) := (R.density p hp).pi
  calc _ ≤ ∫ y, Real.exp (-(Fintype.card ι * F.kl p q)) * ∏ j, F.pdf p (y j) ∂Measure.pi fun _ : ι => μ := by
        refine integral_mono hP.1 (hd.integrable.const_mul _) fun y => ?_
        have h0 : 0 < ∏ j, F.pdf p (y j) := Finset.prod_pos fun j _ => F.pdf_pos _ _
        by_cases h : F.dot (p - q) (F.toExp p) ≤ (Fintype.card ι : ℝ)⁻¹ * ∑ j, F.dot (p - q) (F.stat (y j))
        · rw [Set.indicator_of_mem (by exact h), Pi.one_apply, one_mul]
          dsimp only
          rw [R.likelihood_ratio p q]
          refine mul_le_mul_of_nonneg_right (Real.exp_le_exp.2 ?_) h0.le
          rw [le_inv_mul_iff₀ hn] at h
          rw [ExpFam.kl, ExpFam.klWith]
          nlinarith
        · rw [Set.indicator_of_notMem (by exact h), zero_mul]
          positivity
    _ = _ := by rw [integral_const_mul, hd.2, mul_one]

/-- Parameters beyond `p`, seen from `q`. -/
theorem Spec.LocallyRegular.beyond (R : LocallyRegular F μ dom dirs) (M : Minimal F μ dirs) (hp : p ∈ dom)
    (hq : q ∈ dom) (hne : p ≠ q) {ε : ℝ} (hε : 0 < ε) : ∃ s : ℝ, 0 < s ∧ p + s • (p - q) ∈ dom ∧
      F.dot (p - q) (F.toExp p) < F.dot (p - q) (F.toExp (p + s • (p - q))) ∧
      F.kl (p + s • (p - q)) q + (1 + s) * (F.dot (p - q) (F.toExp (p + s • (p - q))) -
        F.dot (p - q) (F.toExp p)) < F.kl p q + ε := by
  have hv := R.sub_mem q hq p hp
  set v := p - q with hvdef
  obtain ⟨σ, -, hσ⟩ := R.deriv_toExp hp hv hv
  have c1 : ContinuousAt (fun s : ℝ => F.dot v (F.toExp (p + s • v))) 0 := hσ.continuousAt
  have c2 : ContinuousAt (fun s : ℝ => F.logNormalizer (p + s • v)) 0 := (R.gradient p hp v hv).continuousAt
  have c3 : ContinuousAt (fun s : ℝ => ((1 + s) * F.dot v (F.toExp (p + s • v)) + F.logNormalizer q -
      F.logNormalizer (p + s • v)) + (1 + s) * (F.dot v (F.toExp (p + s • v)) - F.dot v (F.toExp p))) 0 := by
    fun_prop
  have e0 : F.kl p q = F.dot v (F.toExp p) + F.logNormalizer q - F.logNormalizer p := rfl
  have h3 : ∀ᶠ s : ℝ in nhds 0, ((1 + s) * F.dot v (F.toExp (p + s • v)) + F.logNormalizer q -
      F.logNormalizer (p + s • v)) + (1 + s) * (F.dot v (F.toExp (p + s • v)) - F.dot v (F.toExp p)) <
      F.kl p q + ε := by
    refine c3.eventually_lt_const ?_
    simp only [zero_smul, add_zero, sub_self, mul_zero, one_mul]
    linarith
  have h4 := (h3.and (R.is_open p hp v hv)).filter_mono (nhdsWithin_le_nhds (s := Set.Ioi 0))
  obtain ⟨s, ⟨h5, h6⟩, hs⟩ := (h4.and self_mem_nhdsWithin).exists
  have hs : 0 < s := hs
  have hds : ∀ w, F.dot (p + s • v - q) w = (1 + s) * F.dot v w := fun w => by
    have : p + s • v - q = v + s • v := by rw [hvdef]; abel
    rw [this, R.dot_add]
    ring
  have hdp : ∀ w, F.dot (p + s • v - p) w = s * F.dot v w := fun w => by
    rw [R.dot_sub, R.dot_add]
    ring
  have hdp' : ∀ w, F.dot (p - (p + s • v)) w = -(s * F.dot v w) := fun w => by
    rw [R.dot_sub, R.dot_add]
    ring
  refine ⟨s, hs, h6, ?_, ?_⟩
  · have hne' : p + s • v ≠ p := fun h => by
      have : s • v = 0 := by simpa using h
      rcases smul_eq_zero.1 this with h | h
      · exact hs.ne' h
      · exact hne (sub_eq_zero.1 h)
    have k1 : 0 < F.kl (p + s • v) p := lt_of_le_of_ne (R.kl_nonneg h6 hp)
      fun h => hne' ((R.kl_eq_zero_iff M h6 hp).1 h.symm)
    have k2 := R.kl_nonneg hp h6
    rw [ExpFam.kl, ExpFam.klWith, hdp] at k1
    rw [ExpFam.kl, ExpFam.klWith, hdp'] at k2
    by_contra hle
    push Not at hle
    nlinarith
  · rw [ExpFam.kl, ExpFam.klWith, hds]
    exact h5

/-- **Cramér.** -/
theorem Spec.LocallyRegular.cramer [SigmaFinite μ] (R : LocallyRegular F μ dom dirs) (M : Minimal F μ dirs)
    (hp : p ∈ dom) (hq : q ∈ dom) (hne : p ≠ q) {ε : ℝ} (hε : 0 < ε) :
    ∃ n₀ : ℕ, ∀ (ι : Type) [Fintype ι] [Nonempty ι], n₀ ≤ Fintype.card ι → ∀ P,
      HasMean (Measure.pi fun _ : ι => μ) (fun y => ∏ j, F.pdf q (y j))
        ({y | F.dot (p - q) (F.toExp p) ≤
          (Fintype.card ι : ℝ)⁻¹ * ∑ j, F.dot (p - q) (F.stat (y j))}.indicator 1) P →
      Real.exp (-(Fintype.card ι * (F.kl p q + ε))) ≤ P := by
  have hv := R.sub_mem q hq p hp
  obtain ⟨s, hs, hd, hlt, hkl⟩ := R.beyond M hp hq hne (half_pos hε)
  have hds : ∀ w, F.dot (p + s • (p - q) - q) w = (1 + s) * F.dot (p - q) w := fun w => by
    have : p + s • (p - q) - q = (p - q) + s • (p - q) := by abel
    rw [this, R.dot_add]
    ring
  set v := p - q with hvdef
  set r := p + s • v with hr
  obtain ⟨σ, ⟨a, b, h1, h2, h3⟩, -⟩ := R.deriv_toExp hd hv hv
  obtain rfl := h1.unique (R.mean_dot hd hv)
  obtain rfl := h2.unique h1
  have h3 : HasMean μ (F.pdf r) (fun x => (F.dot v (F.stat x) - F.dot v (F.toExp r)) ^ 2) σ :=
    h3.congr (fun x => sq _) rfl
  set δ := F.dot v (F.toExp r) - F.dot v (F.toExp p) with hδ
  have hδ0 : 0 < δ := sub_pos.2 hlt
  obtain ⟨n1, hn1⟩ := exists_nat_gt (2 * σ / δ ^ 2)
  obtain ⟨n2, hn2⟩ := exists_nat_gt (2 * Real.log 2 / ε)
  refine ⟨max n1 n2, fun ι _ _ hn P hP => ?_⟩
  set n : ℝ := (Fintype.card ι : ℝ) with hndef
  have hn0 : 0 < n := Nat.cast_pos.2 Fintype.card_pos
  have hn1' : 2 * σ / δ ^ 2 < n := hn1.trans_le (Nat.cast_le.2 ((le_max_left _ _).trans hn))
  have hn2' : 2 * Real.log 2 / ε < n := hn2.trans_le (Nat.cast_le.2 ((le_max_right _ _).trans hn))
  have hvar := average_variance (ι := ι) (R.density r hd) h1 h3
  have hden : IsDensity (Measure.pi fun _ : ι => μ) fun y => ∏ j, F.pdf r (y j) := (R.density r hd).pi
  have hlow : HasMean (Measure.pi fun _ : ι => μ) (fun y => ∏ j, F.pdf r (y j))
      (fun y => Real.exp (-(n * (F.kl p q + ε / 2))) * (1 - (1 / δ ^ 2) *
        (n⁻¹ * (∑ j, F.dot v (F.stat (y j))) - F.dot v (F.toExp r)) ^ 2))
      (Real.exp (-(n * (F.kl p q + ε / 2))) * (1 - 1 / δ ^ 2 * (σ / n))) :=
    ((HasMean.const hden 1).sub (hvar.const_mul (1 / δ ^ 2))).const_mul _
  have hmono : Real.exp (-(n * (F.kl p q + ε / 2))) * (1 - 1 / δ ^ 2 * (σ / n)) ≤ P := by
    rw [← hlow.2, ← hP.2]
    refine integral_mono hlow.1 hP.1 fun y => ?_
    have h0 : 0 < ∏ j, F.pdf r (y j) := Finset.prod_pos fun j _ => F.pdf_pos _ _
    have h0' : 0 < ∏ j, F.pdf q (y j) := Finset.prod_pos fun j _ => F.pdf_pos _ _
    set m := n⁻¹ * ∑ j, F.dot v (F.stat (y j)) with hm
    have hsum : ∑ j, F.dot v (F.stat (y j)) = n * m := by rw [hm, mul_inv_cancel_left₀ hn0.ne']
    have hex := Real.exp_pos (-(n * (F.kl p q + ε / 2)))
    show Real.exp (-(n * (F.kl p q + ε / 2))) * (1 - (1 / δ ^ 2) * (m - F.dot v (F.toExp r)) ^ 2) *
      ∏ j, F.pdf r (y j) ≤ _
    by_cases hc : F.dot v (F.toExp p) ≤ m ∧ m ≤ F.dot v (F.toExp r) + δ
    · rw [Set.indicator_of_mem (by exact hc.1), Pi.one_apply, one_mul]
      dsimp only
      rw [R.likelihood_ratio r q]
      refine mul_le_mul_of_nonneg_right ?_ h0.le
      have : 1 - (1 / δ ^ 2) * (m - F.dot v (F.toExp r)) ^ 2 ≤ 1 := by
        have : 0 ≤ (1 / δ ^ 2) * (m - F.dot v (F.toExp r)) ^ 2 := by positivity
        linarith
      refine (mul_le_of_le_one_right hex.le this).trans (Real.exp_le_exp.2 (neg_le_neg ?_))
      have hs2 : ∑ j, F.dot (r - q) (F.stat (y j)) = (1 + s) * (n * m) := by
        rw [← hsum, Finset.mul_sum]
        exact Finset.sum_congr rfl fun j _ => hds _
      rw [hs2]
      have hk : F.kl r q = (1 + s) * F.dot v (F.toExp r) + F.logNormalizer q - F.logNormalizer r := by
        rw [ExpFam.kl, ExpFam.klWith, hds]
      have h5 : (1 + s) * m - (F.logNormalizer r - F.logNormalizer q) ≤ F.kl p q + ε / 2 := by
        have := mul_le_mul_of_nonneg_left hc.2 (by linarith : 0 ≤ 1 + s)
        linarith
      have := mul_le_mul_of_nonneg_left h5 hn0.le
      linarith
    · refine le_trans ?_ (mul_nonneg (Set.indicator_nonneg (fun _ _ => zero_le_one) _) h0'.le)
      refine mul_nonpos_of_nonpos_of_nonneg (mul_nonpos_of_nonneg_of_nonpos hex.le ?_) h0.le
      have : δ ^ 2 ≤ (m - F.dot v (F.toExp r)) ^ 2 := by
        rw [sq_le_sq, abs_of_pos hδ0]
        by_cases hc1 : F.dot v (F.toExp p) ≤ m
        · have hc2 : F.dot v (F.toExp r) + δ < m := by
            by_contra h
            exact hc ⟨hc1, not_lt.1 h⟩
          exact le_abs.2 (.inl (by linarith))
        · push Not at hc1
          exact le_abs.2 (.inr (by linarith))
      have := (one_le_div (by positivity : 0 < δ ^ 2)).2 this
      rw [one_div_mul_eq_div]
      linarith
  refine le_trans ?_ hmono
  have e1 : Real.exp (-(n * (F.kl p q + ε))) =
      Real.exp (-(n * (F.kl p q + ε / 2))) * Real.exp (-(n * (ε / 2))) := by
    rw [← Real.exp_add]
    congr 1
    ring
  rw [e1]
  refine mul_le_mul_of_nonneg_left ?_ (Real.exp_pos _).le
  have e2 : Real.exp (-(n * (ε / 2))) ≤ 1 / 2 := by
    rw [div_lt_iff₀ hε] at hn2'
    have : Real.exp (-(n * (ε / 2))) ≤ Real.exp (-Real.log 2) := Real.exp_le_exp.2 (by linarith)
    rwa [Real.exp_neg (Real.log 2), Real.exp_log two_pos, ← one_div] at this
  have e3 : 1 / δ ^ 2 * (σ / n) ≤ 1 / 2 := by
    rw [div_lt_iff₀ (by positivity)] at hn1'
    rw [div_mul_div_comm, one_mul, div_le_div_iff₀ (by positivity) two_pos]
    linarith
  linarith

end

end Efax
