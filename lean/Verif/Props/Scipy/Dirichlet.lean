import Verif.Model.Scipy.Dirichlet
import Verif.Props.Textbook
import Verif.Props.TextbookOther
import Verif.Lemmas.Laws
import Verif.Spec.Laws

/-!
# The replacements of SciPy's Dirichlet distributions (C59)
-/

namespace Efax

open MeasureTheory Spec

/-! ### The density of the generalized Dirichlet distribution -/

theorem scipy_beta_eq (a b : ℝ) : Scipy.beta a b = ProbabilityTheory.beta a b := rfl

theorem rollZero_last {k : ℕ} (x : Fin (k + 1) → ℝ) : Scipy.rollZero x (Fin.last k) = 0 := by
  simp [Scipy.rollZero]

theorem rollZero_castSucc {k : ℕ} (x : Fin (k + 1) → ℝ) (i : Fin k) :
    Scipy.rollZero x i.castSucc = x i.succ := by
  have h : i.castSucc.val + 1 ≠ k + 1 := by simp [i.isLt.ne]
  rw [Scipy.rollZero, if_neg h]
  congr 1
  apply Fin.ext
  simp

theorem diffAppend_last {k : ℕ} (x : Fin (k + 1) → ℝ) :
    Scipy.diffAppend x (Fin.last k) = 1 - x (Fin.last k) := by
  rw [Scipy.diffAppend]
  simp only [Fin.snoc_castSucc]
  rw [Fin.succ_last, Fin.snoc_last]

theorem diffAppend_castSucc {k : ℕ} (x : Fin (k + 1) → ℝ) (i : Fin k) :
    Scipy.diffAppend x i.castSucc = x i.succ - x i.castSucc := by
  rw [Scipy.diffAppend]
  simp only [Fin.snoc_castSucc]
  rw [Fin.succ_castSucc, Fin.snoc_castSucc]

/-- The exponents are those for which the second shapes are the given ones. -/
theorem betaArg_gamma {k : ℕ} (a b : Fin k → ℝ) (i : Fin k) :
    betaArg (fun i => a i - 1) (fun i => -Scipy.diffAppend b i - Scipy.rollZero a i) 0 i = b i := by
  cases k with
  | zero => exact i.elim0
  | succ k =>
    induction i using Fin.reverseInduction with
    | last =>
      have h : ∀ j : Fin (k + 1), (Fin.last k ≤ j) ↔ j = Fin.last k := fun j => Fin.last_le_iff
      have h' : ∀ j : Fin (k + 1), ¬ Fin.last k < j := fun j => (Fin.le_last j).not_gt
      rw [betaArg]
      simp [h, h', diffAppend_last, rollZero_last]
    | cast i ih =>
      rw [betaArg] at ih ⊢
      have h1 : ∀ f : Fin (k + 1) → ℝ, (∑ j, if i.castSucc ≤ j then f j else 0) =
          f i.castSucc + ∑ j, if i.succ ≤ j then f j else 0 := fun f => by
        have : ∀ j, (if i.castSucc ≤ j then f j else 0) =
            (if j = i.castSucc then f j else 0) + if i.succ ≤ j then f j else 0 := fun j => by
          have hs : i.succ ≤ j ↔ i.castSucc < j := Fin.castSucc_lt_iff_succ_le.symm
          rcases lt_trichotomy i.castSucc j with h | h | h
          · simp [hs, h, h.le, h.ne']
          · simp [hs, h]
          · simp [hs, h.not_gt, h.not_ge, h.ne]
        simp only [this, Finset.sum_add_distrib, Finset.sum_ite_eq', Finset.mem_univ, if_true]
      have h2 : ∀ f : Fin (k + 1) → ℝ, (∑ j, if i.castSucc < j then f j else 0) =
          f i.succ + ∑ j, if i.succ < j then f j else 0 := fun f => by
        have : ∀ j, (if i.castSucc < j then f j else 0) =
            (if j = i.succ then f j else 0) + if i.succ < j then f j else 0 := fun j => by
          have hs : i.castSucc < j ↔ i.succ ≤ j := Fin.castSucc_lt_iff_succ_le
          rcases lt_trichotomy i.succ j with h | h | h
          · simp [hs, h, h.le, h.ne']
          · simp [hs, h]
          · simp [hs, h.not_gt, h.not_ge, h.ne]
        simp only [this, Finset.sum_add_distrib, Finset.sum_ite_eq', Finset.mem_univ, if_true]
      rw [h1, h2, diffAppend_castSucc, rollZero_castSucc]
      linear_combination ih

/-- `pdf` is the density of the generalized Dirichlet distribution. -/
theorem C59_gen_dirichlet_pdf {k : ℕ} {a b x : Fin k → ℝ} (ha : ∀ i, 0 < a i) (hb : ∀ i, 0 < b i)
    (hx : x ∈ simplex k) : Scipy.genDirichletPdf a b x = Textbook.genDirichlet a b x := by
  have hB : ∀ i, 0 < ProbabilityTheory.beta (a i) (b i) := fun i => ProbabilityTheory.beta_pos (ha i) (hb i)
  have h := stick_product (fun i => a i - 1) (fun i => -Scipy.diffAppend b i - Scipy.rollZero a i) 0
    (fun i => by linarith [ha i]) (fun i => by rw [betaArg_gamma]; exact hb i) hx
  simp only [betaArg_gamma, funext (betaArg_gamma a b), sub_add_cancel] at h
  have hw : Real.exp (logWeight (fun i => a i - 1) (fun i => -Scipy.diffAppend b i - Scipy.rollZero a i) 0 x) =
      ∏ i, x i ^ (a i - 1) * (1 - csum x i) ^ (-Scipy.diffAppend b i - Scipy.rollZero a i) := by
    rw [logWeight, zero_mul, add_zero, Real.exp_sum]
    refine Finset.prod_congr rfl fun i _ => ?_
    have hc : 0 < 1 - csum x i := by linarith [csum_lt hx i]
    rw [Real.exp_add, Real.rpow_def_of_pos (hx.1 i), Real.rpow_def_of_pos hc, mul_comm (a i - 1),
      mul_comm (-_ - _)]
  have hP : ∏ i, ProbabilityTheory.beta (a i) (b i) ≠ 0 := Finset.prod_ne_zero_iff.2 fun i _ => (hB i).ne'
  rw [Scipy.genDirichletPdf]
  simp only [scipy_beta_eq, ← csum_eq]
  rw [Finset.prod_div_distrib, ← hw, h, mul_div_cancel_left₀ _ hP]

/-- The generalized Dirichlet family has the density of its replacement. -/
theorem C59_gen_dirichlet_family {k : ℕ} {q : (Fin k → ℝ) × (Fin k → ℝ)} (hq : q ∈ genDirichletDom k)
    {x : Fin k → ℝ} (hx : x ∈ simplex k) :
    Scipy.genDirichletPdf (genDirichletAlphaBeta q).1 (genDirichletAlphaBeta q).2 x =
      (genDirichlet k).pdf q x := by
  rw [C57_gen_dirichlet k hq hx, C59_gen_dirichlet_pdf _ _ hx]
  · intro i
    rw [genDirichlet_alpha]
    linarith [hq.1 i]
  · intro i
    rw [genDirichlet_beta]
    exact genDirichletDom_beta hq i

/-- The entropy is not available. -/
theorem C59_gen_dirichlet_entropy {k : ℕ} (a b : Fin k → ℝ) :
    Scipy.genDirichletEntropy a b = .error .runtimeError := rfl

/-! ### The Dirichlet distribution -/

/-- `pdf` is the density of the Dirichlet distribution at positive points with the sum one, and raises at
points with another sum or a negative entry. -/
theorem C59_dirichlet_pdf {k : ℕ} [NeZero k] {a x : Fin k → ℝ} (ha : ∀ i, 0 < a i) (hx : ∀ i, 0 < x i) :
    (∑ i, x i = 1 → Scipy.dirichletPdf a x = .ok (Textbook.dirichlet a x)) ∧
      (∑ i, x i ≠ 1 → Scipy.dirichletPdf a x = .error .valueError) := by
  refine ⟨fun h => ?_, fun h => by rw [Scipy.dirichletPdf, if_pos h]⟩
  have hs : 0 < ∑ i, a i := Finset.sum_pos (fun i _ => ha i) Finset.univ_nonempty
  rw [Scipy.dirichletPdf, if_neg (not_not.2 h), if_neg]
  · refine congrArg _ ?_
    rw [Textbook.dirichlet, neg_sub, Real.exp_add, Real.exp_sub, Real.exp_sum, Real.exp_sum,
      Real.exp_log (Real.Gamma_pos_of_pos hs)]
    congr 1
    · congr 1
      exact Finset.prod_congr rfl fun i _ => Real.exp_log (Real.Gamma_pos_of_pos (ha i))
    · exact Finset.prod_congr rfl fun i _ => by rw [Real.rpow_def_of_pos (hx i), mul_comm]
  · rintro (⟨i, hi⟩ | ⟨i, hi⟩)
    · exact absurd (ha i) (not_lt.2 hi)
    · exact absurd (hx i) (not_lt.2 hi.le)

theorem C59_dirichlet_negative {k : ℕ} {a x : Fin k → ℝ} (hx : ∃ i, x i < 0) :
    Scipy.dirichletPdf a x = .error .valueError := by
  rw [Scipy.dirichletPdf]
  split_ifs with h1 h2
  · rfl
  · rfl
  · exact absurd (Or.inr hx) h2

/-- The Dirichlet family, whose observations list all coordinates but the last, has the density of its
replacement, to which all the coordinates are given. -/
theorem C59_dirichlet_family {d : ℕ} {q : Fin (d + 1) → ℝ} (hq : q ∈ dirichletDom (d + 1)) {x : Fin d → ℝ}
    (hx : x ∈ simplex d) :
    Scipy.dirichletPdf (fun i => q i + 1) (Fin.snoc (α := fun _ => ℝ) x (1 - ∑ i, x i)) =
      .ok ((dirichlet d).pdf q x) := by
  rw [C57_dirichlet d hq hx]
  refine (C59_dirichlet_pdf (fun i => by linarith [hq i]) fun i => ?_).1 ?_
  · refine Fin.lastCases ?_ (fun j => ?_) i
    · rw [Fin.snoc_last]
      linarith [hx.2]
    · rw [Fin.snoc_castSucc]
      exact hx.1 j
  · rw [Fin.sum_univ_castSucc]
    simp

example : Scipy.dirichletPdf (fun _ => 1) ![1 / 2, 1 / 4, 1 / 4] = .ok 2 := by
  have h := (C59_dirichlet_pdf (k := 3) (a := fun _ => 1) (x := ![1 / 2, 1 / 4, 1 / 4]) (fun _ => one_pos) ?_).1 ?_
  · rw [h]
    norm_num [Textbook.dirichlet]
  · intro i
    fin_cases i <;> norm_num
  · rw [Fin.sum_univ_three]
    simp
    norm_num

/-! ### Draws from the generalized Dirichlet distribution -/

theorem randomBeta_eq {a b : ℝ} (ha : 0 < a) (hb : 0 < b) : randomBeta a b =
    (volume.restrict (Set.Ioo 0 1)).withDensity fun x => ENNReal.ofReal (Textbook.beta a b x) := by
  have h := lintegral_beta_scaled (show -1 < a - 1 by linarith) (show -1 < b - 1 by linarith) one_pos
  have hB := ProbabilityTheory.beta_pos ha hb
  rw [Real.one_rpow, one_mul, sub_add_cancel, sub_add_cancel] at h
  rw [randomBeta, proportional, h, ← withDensity_smul _ (by fun_prop)]
  congr 1
  funext x
  rw [Pi.smul_apply, smul_eq_mul, ← ENNReal.ofReal_inv_of_pos hB, ← ENNReal.ofReal_mul (inv_nonneg.2 hB.le)]
  congr 1
  rw [Textbook.beta, ProbabilityTheory.beta, inv_div]
  ring

theorem randomBeta_prob {a b : ℝ} (ha : 0 < a) (hb : 0 < b) : IsProbabilityMeasure (randomBeta a b) := by
  have h := lintegral_beta_scaled (show -1 < a - 1 by linarith) (show -1 < b - 1 by linarith) one_pos
  have hB := ProbabilityTheory.beta_pos ha hb
  rw [Real.one_rpow, one_mul, sub_add_cancel, sub_add_cancel] at h
  refine ⟨?_⟩
  rw [randomBeta, proportional, h, Measure.smul_apply, withDensity_apply _ MeasurableSet.univ, Measure.restrict_univ, h,
    smul_eq_mul]
  exact ENNReal.inv_mul_cancel (by simpa using hB) ENNReal.ofReal_ne_top

theorem stickLoop_sum : ∀ {k : ℕ} (w : Fin k → ℝ), (Scipy.stickLoop w).2 = ∑ i, (Scipy.stickLoop w).1 i
  | 0, _ => by simp [Scipy.stickLoop]
  | k + 1, w => by
    rw [Scipy.stickLoop, Fin.sum_univ_castSucc]
    simp only [Fin.snoc_castSucc, Fin.snoc_last]
    rw [← stickLoop_sum]

theorem snoc_measurable {k : ℕ} : Measurable fun p : (Fin k → ℝ) × ℝ =>
    (Fin.snoc (α := fun _ => ℝ) p.1 p.2 : Fin (k + 1) → ℝ) := by
  refine measurable_pi_lambda _ fun i => ?_
  refine Fin.lastCases ?_ (fun j => ?_) i
  · simp only [Fin.snoc_last]
    exact measurable_snd
  · simp only [Fin.snoc_castSucc]
    exact (measurable_pi_apply j).comp measurable_fst

theorem stickLoop_measurable : ∀ {k : ℕ}, Measurable (Scipy.stickLoop (k := k))
  | 0 => by
    have : (Scipy.stickLoop (k := 0)) = fun w => (w, 0) := funext fun w => by rw [Scipy.stickLoop]
    rw [this]
    fun_prop
  | k + 1 => by
    have ih := stickLoop_measurable (k := k)
    have hi : Measurable fun w : Fin (k + 1) → ℝ => Scipy.stickLoop (Fin.init w : Fin k → ℝ) :=
      ih.comp (measurable_pi_lambda _ fun i => measurable_pi_apply _)
    have hl : Measurable fun w : Fin (k + 1) → ℝ =>
        w (Fin.last k) * (1 - (Scipy.stickLoop (Fin.init w : Fin k → ℝ)).2) :=
      (measurable_pi_apply _).mul (measurable_const.sub (measurable_snd.comp hi))
    show Measurable fun w : Fin (k + 1) → ℝ => Scipy.stickLoop w
    simp only [Scipy.stickLoop]
    exact (snoc_measurable.comp ((measurable_fst.comp hi).prodMk hl)).prodMk ((measurable_snd.comp hi).add hl)

/-- Integrating the last of independent coordinates first. -/
theorem lintegral_pi_snoc {k : ℕ} {μ : Fin (k + 1) → Measure ℝ} [∀ i, SigmaFinite (μ i)]
    {f : (Fin (k + 1) → ℝ) → ENNReal} (hf : Measurable f) :
    ∫⁻ x, f x ∂Measure.pi μ = ∫⁻ y, ∫⁻ t, f (Fin.snoc (α := fun _ => ℝ) y t) ∂μ (Fin.last k)
      ∂Measure.pi fun i : Fin k => μ i.castSucc := by
  have hp := (measurePreserving_piFinSuccAbove μ (Fin.last k)).symm
  rw [← hp.lintegral_comp_emb (MeasurableEquiv.measurableEmbedding _),
    lintegral_prod_symm _ (by
      exact (hf.comp (MeasurableEquiv.measurable _)).aemeasurable)]
  simp only [Fin.succAbove_last]
  refine lintegral_congr fun y => lintegral_congr fun t => ?_
  congr 1
  rw [MeasurableEquiv.piFinSuccAbove_symm_apply, Fin.insertNthEquiv]
  simp [Fin.insertNth_last']

theorem genDirichlet_snoc {k : ℕ} (a b : Fin (k + 1) → ℝ) (y : Fin k → ℝ) (t : ℝ) :
    Textbook.genDirichlet a b (Fin.snoc (α := fun _ => ℝ) y t) =
      Textbook.genDirichlet (fun i => a i.castSucc) (fun i => b i.castSucc) y *
        (Textbook.beta (a (Fin.last k)) (b (Fin.last k)) (t / (1 - ∑ i, y i)) / (1 - ∑ i, y i)) := by
  rw [Textbook.genDirichlet, Textbook.genDirichlet, Fin.prod_univ_castSucc]
  simp only [Fin.snoc_castSucc, Fin.snoc_last, sum_Iio_castSucc, sum_Iio_last]

theorem textbook_beta_nonneg {a b x : ℝ} (ha : 0 < a) (hb : 0 < b) (hx : x ∈ Set.Ioo (0 : ℝ) 1) :
    0 ≤ Textbook.beta a b x := by
  have h1 := hx.1
  have h2 : 0 < 1 - x := by linarith [hx.2]
  have g1 := Real.Gamma_pos_of_pos ha
  have g2 := Real.Gamma_pos_of_pos hb
  have g3 := Real.Gamma_pos_of_pos (add_pos ha hb)
  rw [Textbook.beta]
  positivity

theorem genDirichlet_nonneg {k : ℕ} {a b x : Fin k → ℝ} (ha : ∀ i, 0 < a i) (hb : ∀ i, 0 < b i)
    (hx : x ∈ simplex k) : 0 ≤ Textbook.genDirichlet a b x := by
  refine Finset.prod_nonneg fun i _ => ?_
  have hs : ∑ j ∈ Finset.Iio i, x j + x i ≤ ∑ j, x j := by
    rw [← Finset.sum_erase_add _ _ (Finset.mem_univ i)]
    refine add_le_add (Finset.sum_le_sum_of_subset_of_nonneg (fun j hj => ?_) fun j _ _ => (hx.1 j).le) le_rfl
    exact Finset.mem_erase.2 ⟨(Finset.mem_Iio.1 hj).ne, Finset.mem_univ j⟩
  have hr : x i < 1 - ∑ j ∈ Finset.Iio i, x j := by linarith [hx.2]
  have h0 := hx.1 i
  exact div_nonneg (textbook_beta_nonneg (ha i) (hb i) ⟨div_pos h0 (h0.trans hr), (div_lt_one (h0.trans hr)).2 hr⟩)
    (h0.trans hr).le

/-- The last piece of the stick. -/
theorem lintegral_last {a b r : ℝ} (ha : 0 < a) (hb : 0 < b) (hr : 0 < r) {F : ℝ → ENNReal} (hF : Measurable F) :
    ∫⁻ t, F (t * r) ∂randomBeta a b = ∫⁻ s in Set.Ioo 0 r, F s * ENNReal.ofReal (Textbook.beta a b (s / r) / r) := by
  have hm : Measurable fun x => ENNReal.ofReal (Textbook.beta a b x) := by
    unfold Textbook.beta
    fun_prop
  have hG : Measurable fun t => F (t * r) := hF.comp (measurable_mul_const r)
  rw [randomBeta_eq ha hb, lintegral_withDensity_eq_lintegral_mul _ hm hG]
  have himg : (fun x => r * x) '' Set.Ioo (0 : ℝ) 1 = Set.Ioo 0 r := by
    rw [Set.image_mul_left_Ioo hr]
    simp
  rw [← himg, lintegral_image_eq_lintegral_abs_deriv_mul measurableSet_Ioo
    (f := fun x => r * x) (f' := fun _ => r)
    (fun x _ => by simpa using ((hasDerivAt_id x).const_mul r).hasDerivWithinAt)
    (fun x _ y _ h => mul_left_cancel₀ hr.ne' h)]
  refine setLIntegral_congr_fun measurableSet_Ioo fun x hx => ?_
  simp only [Pi.mul_apply, abs_of_pos hr, Function.comp_def]
  rw [mul_div_cancel_left₀ _ hr.ne', mul_comm x r, mul_left_comm, ← ENNReal.ofReal_mul hr.le,
    mul_div_cancel₀ _ hr.ne', mul_comm]

theorem stick_lintegral : ∀ {k : ℕ} {a b : Fin k → ℝ}, (∀ i, 0 < a i) → (∀ i, 0 < b i) →
    ∀ {F : (Fin k → ℝ) → ENNReal}, Measurable F →
    ∫⁻ w, F (Scipy.stickLoop w).1 ∂(Measure.pi fun i => randomBeta (a i) (b i)) =
      ∫⁻ x in simplex k, F x * ENNReal.ofReal (Textbook.genDirichlet a b x)
  | 0, a, b, ha, hb, F, hF => by
    have hs : simplex 0 = Set.univ := by
      ext x
      simp [simplex]
    rw [hs, Measure.restrict_univ, volume_pi]
    have : (fun i : Fin 0 => randomBeta (a i) (b i)) = fun _ => volume := funext fun i => i.elim0
    rw [this]
    refine lintegral_congr fun x => ?_
    simp [Scipy.stickLoop, Textbook.genDirichlet]
  | k + 1, a, b, ha, hb, F, hF => by
    have hp : ∀ i, IsProbabilityMeasure (randomBeta (a i) (b i)) := fun i => randomBeta_prob (ha i) (hb i)
    have hmF : Measurable fun w : Fin (k + 1) → ℝ => F (Scipy.stickLoop w).1 :=
      hF.comp (measurable_fst.comp stickLoop_measurable)
    rw [lintegral_pi_snoc hmF]
    have e : ∀ (y : Fin k → ℝ) (t : ℝ), (Scipy.stickLoop (Fin.snoc (α := fun _ => ℝ) y t : Fin (k + 1) → ℝ)).1 =
        Fin.snoc (α := fun _ => ℝ) (Scipy.stickLoop y).1 (t * (1 - ∑ i, (Scipy.stickLoop y).1 i)) := by
      intro y t
      rw [Scipy.stickLoop, Fin.init_snoc, Fin.snoc_last, stickLoop_sum]
    simp only [e]
    have hG2 : Measurable fun p : (Fin k → ℝ) × ℝ =>
        F (Fin.snoc (α := fun _ => ℝ) p.1 (p.2 * (1 - ∑ i, p.1 i)) : Fin (k + 1) → ℝ) :=
      hF.comp (snoc_measurable.comp (measurable_fst.prodMk (by fun_prop)))
    have hG : Measurable fun x : Fin k → ℝ => ∫⁻ t, F (Fin.snoc (α := fun _ => ℝ) x (t * (1 - ∑ i, x i)))
        ∂randomBeta (a (Fin.last k)) (b (Fin.last k)) := hG2.lintegral_prod_right'
    rw [stick_lintegral (a := fun i => a i.castSucc) (b := fun i => b i.castSucc) (fun i => ha _) (fun i => hb _) hG]
    have hH : Measurable ((simplex (k + 1)).indicator fun x =>
        F x * ENNReal.ofReal (Textbook.genDirichlet a b x)) := by
      refine Measurable.indicator (hF.mul ?_) (measurableSet_simplex _)
      unfold Textbook.genDirichlet Textbook.beta
      fun_prop
    rw [← lintegral_indicator (measurableSet_simplex (k + 1)), lintegral_snoc hH,
      ← lintegral_indicator (measurableSet_simplex k)]
    refine lintegral_congr fun y => ?_
    by_cases hy : y ∈ simplex k
    · have hr : 0 < 1 - ∑ i, y i := by linarith [hy.2]
      have hFy : Measurable fun s => F (Fin.snoc (α := fun _ => ℝ) y s : Fin (k + 1) → ℝ) :=
        hF.comp (snoc_measurable.comp (measurable_const.prodMk measurable_id))
      rw [Set.indicator_of_mem hy, lintegral_last (ha _) (hb _) hr hFy, ← lintegral_mul_const,
        ← lintegral_indicator measurableSet_Ioo]
      · refine lintegral_congr fun t => ?_
        by_cases ht : t ∈ Set.Ioo 0 (1 - ∑ i, y i)
        · rw [Set.indicator_of_mem ht, Set.indicator_of_mem ((snoc_mem_simplex y t).2 ⟨hy, ht⟩),
            genDirichlet_snoc, mul_assoc, mul_comm (ENNReal.ofReal _) (ENNReal.ofReal _),
            ENNReal.ofReal_mul (genDirichlet_nonneg (fun i => ha _) (fun i => hb _) hy)]
        · rw [Set.indicator_of_notMem ht, Set.indicator_of_notMem]
          exact fun h => ht ((snoc_mem_simplex y t).1 h).2
      · refine hFy.mul ?_
        unfold Textbook.beta
        fun_prop
    · rw [Set.indicator_of_notMem hy]
      symm
      rw [← lintegral_zero]
      refine lintegral_congr fun t => Set.indicator_of_notMem ?_ _
      exact fun h => hy ((snoc_mem_simplex y t).1 h).1

/-- `rvs` has the density `pdf` on the simplex. -/
theorem C59_gen_dirichlet_rvs {k : ℕ} {a b : Fin k → ℝ} (ha : ∀ i, 0 < a i) (hb : ∀ i, 0 < b i) :
    Scipy.genDirichletRvs a b =
      (volume.restrict (simplex k)).withDensity fun x => ENNReal.ofReal (Scipy.genDirichletPdf a b x) := by
  ext s hs
  have hm : Measurable fun w : Fin k → ℝ => (Scipy.stickLoop w).1 := measurable_fst.comp stickLoop_measurable
  rw [Scipy.genDirichletRvs, ← lintegral_indicator_one hs, lintegral_map (measurable_one.indicator hs) hm,
    stick_lintegral ha hb (measurable_one.indicator hs), withDensity_apply _ hs, ← lintegral_indicator hs]
  refine setLIntegral_congr_fun (measurableSet_simplex k) fun x hx => ?_
  by_cases h : x ∈ s
  · simp only [Set.indicator_of_mem h, Pi.one_apply, one_mul, C59_gen_dirichlet_pdf ha hb hx]
  · simp only [Set.indicator_of_notMem h, zero_mul]

/-- `rvs` of the parameters of the generalized Dirichlet family has the law of the family. -/
theorem C59_gen_dirichlet_rvs_family {k : ℕ} {q : (Fin k → ℝ) × (Fin k → ℝ)} (hq : q ∈ genDirichletDom k) :
    Scipy.genDirichletRvs (genDirichletAlphaBeta q).1 (genDirichletAlphaBeta q).2 =
      law (genDirichlet k) (volume.restrict (simplex k)) q := by
  rw [C59_gen_dirichlet_rvs, law]
  · refine withDensity_congr_ae ?_
    filter_upwards [ae_restrict_mem (measurableSet_simplex k)] with x hx
    rw [C59_gen_dirichlet_family hq hx]
  · intro i
    rw [genDirichlet_alpha]
    linarith [hq.1 i]
  · intro i
    rw [genDirichlet_beta]
    exact genDirichletDom_beta hq i

/-- The hypotheses are satisfiable. -/
example : Scipy.genDirichletRvs (k := 3) (fun _ => 2) (fun _ => 1) = (volume.restrict (simplex 3)).withDensity
    fun x => ENNReal.ofReal (Scipy.genDirichletPdf (fun _ => 2) (fun _ => 1) x) :=
  C59_gen_dirichlet_rvs (fun _ => two_pos) fun _ => one_pos

end Efax
