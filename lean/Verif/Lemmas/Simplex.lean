import Verif.Spec.Measures
import Mathlib.Probability.Distributions.Beta
import Mathlib.MeasureTheory.Constructions.Pi
import Mathlib.MeasureTheory.Measure.Lebesgue.Basic
import Mathlib.MeasureTheory.Measure.Haar.NormedSpace
import Verif.Model.Special

/-!
# Integrals over the simplex
-/

namespace Efax

open MeasureTheory Set ProbabilityTheory

open Spec

theorem isOpen_simplex (k : ℕ) : IsOpen (simplex k) := by
  refine IsOpen.inter ?_ (isOpen_lt (f := fun x : Fin k → ℝ => ∑ i, x i) (by fun_prop)
    continuous_const)
  have : {x : Fin k → ℝ | ∀ i, 0 < x i} = ⋂ i, {x | 0 < x i} := by ext; simp
  change IsOpen {x : Fin k → ℝ | ∀ i, 0 < x i}
  rw [this]
  exact isOpen_iInter_of_finite fun i => isOpen_lt continuous_const (continuous_apply i)

theorem measurableSet_simplex (k : ℕ) : MeasurableSet (simplex k) := (isOpen_simplex k).measurableSet

/-- The beta integral on an interval of length `r`. -/
theorem lintegral_beta_scaled {a b r : ℝ} (ha : -1 < a) (hb : -1 < b) (hr : 0 < r) :
    ∫⁻ t in Ioo 0 r, ENNReal.ofReal (t ^ a * (r - t) ^ b) =
      ENNReal.ofReal (r ^ (a + b + 1) * beta (a + 1) (b + 1)) := by
  have hB := beta_pos (show 0 < a + 1 by linarith) (show 0 < b + 1 by linarith)
  have h1 := lintegral_betaPDF_eq_one (show 0 < a + 1 by linarith) (show 0 < b + 1 by linarith)
  rw [lintegral_betaPDF] at h1
  have h2 : ∫⁻ x in Ioo (0 : ℝ) 1, ENNReal.ofReal (x ^ a * (1 - x) ^ b) =
      ENNReal.ofReal (beta (a + 1) (b + 1)) := by
    have : ∀ x : ℝ, ENNReal.ofReal (1 / beta (a + 1) (b + 1) * x ^ (a + 1 - 1) *
        (1 - x) ^ (b + 1 - 1)) = ENNReal.ofReal (1 / beta (a + 1) (b + 1)) *
        ENNReal.ofReal (x ^ a * (1 - x) ^ b) := by
      intro x
      rw [← ENNReal.ofReal_mul (by positivity)]
      congr 1
      rw [add_sub_cancel_right, add_sub_cancel_right]
      ring
    simp only [this] at h1
    rw [lintegral_const_mul _ (by fun_prop)] at h1
    have h3 : ENNReal.ofReal (beta (a + 1) (b + 1)) * (ENNReal.ofReal (1 / beta (a + 1) (b + 1)) *
        ∫⁻ x in Ioo (0 : ℝ) 1, ENNReal.ofReal (x ^ a * (1 - x) ^ b)) =
        ENNReal.ofReal (beta (a + 1) (b + 1)) * 1 := by rw [h1]
    rw [← mul_assoc, ← ENNReal.ofReal_mul hB.le, mul_one_div_cancel hB.ne', ENNReal.ofReal_one,
      one_mul, mul_one] at h3
    exact h3
  have h4 : ∫⁻ t in Ioo 0 r, ENNReal.ofReal (t ^ a * (r - t) ^ b) =
      ∫⁻ x in Ioo (0 : ℝ) 1, ENNReal.ofReal r * ENNReal.ofReal ((r * x) ^ a * (r - r * x) ^ b) := by
    have himg : (fun x => r * x) '' Ioo (0 : ℝ) 1 = Ioo 0 r := by
      rw [Set.image_mul_left_Ioo hr]
      simp
    rw [← himg, lintegral_image_eq_lintegral_abs_deriv_mul measurableSet_Ioo
      (f := fun x => r * x) (f' := fun _ => r)
      (fun x _ => by simpa using ((hasDerivAt_id x).const_mul r).hasDerivWithinAt)
      (fun x _ y _ h => mul_left_cancel₀ hr.ne' h)]
    simp only [abs_of_pos hr]
  have h5 : ∀ x ∈ Ioo (0 : ℝ) 1, ENNReal.ofReal r * ENNReal.ofReal ((r * x) ^ a * (r - r * x) ^ b) =
      ENNReal.ofReal (r ^ (a + b + 1)) * ENNReal.ofReal (x ^ a * (1 - x) ^ b) := by
    intro x hx
    rw [← ENNReal.ofReal_mul hr.le, ← ENNReal.ofReal_mul (by positivity)]
    congr 1
    have : r - r * x = r * (1 - x) := by ring
    rw [this, Real.mul_rpow hr.le hx.1.le, Real.mul_rpow hr.le (by linarith [hx.2]),
      Real.rpow_add hr, Real.rpow_add hr, Real.rpow_one]
    ring
  rw [h4, setLIntegral_congr_fun measurableSet_Ioo h5, lintegral_const_mul _ (by fun_prop), h2,
    ← ENNReal.ofReal_mul (by positivity)]

/-- Integrating the last coordinate first. -/
theorem lintegral_snoc {k : ℕ} {f : (Fin (k + 1) → ℝ) → ENNReal} (hf : Measurable f) :
    ∫⁻ x, f x = ∫⁻ y : Fin k → ℝ, ∫⁻ t : ℝ, f (Fin.snoc (α := fun _ => ℝ) y t) := by
  have hp := (volume_preserving_piFinSuccAbove (fun _ : Fin (k + 1) => ℝ) (Fin.last k)).symm
  rw [← hp.lintegral_comp_emb (MeasurableEquiv.measurableEmbedding _), Measure.volume_eq_prod,
    lintegral_prod_symm _ (by
      exact (hf.comp (MeasurableEquiv.measurable _)).aemeasurable)]
  refine lintegral_congr fun y => lintegral_congr fun t => ?_
  congr 1
  rw [MeasurableEquiv.piFinSuccAbove_symm_apply, Fin.insertNthEquiv]
  simp [Fin.insertNth_last']

/-- The partial sums `x_0 + ... + x_i`. -/
noncomputable def csum {k : ℕ} (x : Fin k → ℝ) (i : Fin k) : ℝ := ∑ j, if j ≤ i then x j else 0

/-- The logarithm of the integrand: exponents `p i` of `x i`, `g i` of `1 - (x 0 + ... + x i)`, and
`e` of `1 - (x 0 + ... + x (k - 1))`. -/
noncomputable def logWeight {k : ℕ} (p g : Fin k → ℝ) (e : ℝ) (x : Fin k → ℝ) : ℝ :=
  ∑ i, (p i * Real.log (x i) + g i * Real.log (1 - csum x i)) + e * Real.log (1 - ∑ i, x i)

/-- The second arguments of the beta functions. -/
noncomputable def betaArg {k : ℕ} (p g : Fin k → ℝ) (e : ℝ) (i : Fin k) : ℝ :=
  (∑ j, if i ≤ j then g j else 0) + (∑ j, if i < j then p j + 1 else 0) + e + 1

theorem csum_snoc_castSucc {k : ℕ} (y : Fin k → ℝ) (t : ℝ) (i : Fin k) :
    csum (Fin.snoc (α := fun _ => ℝ) y t) i.castSucc = csum y i := by
  rw [csum, Fin.sum_univ_castSucc, csum]
  have : ¬ Fin.last k ≤ i.castSucc := by simp [Fin.castSucc_lt_last]
  simp [this]

theorem csum_snoc_last {k : ℕ} (y : Fin k → ℝ) (t : ℝ) :
    csum (Fin.snoc (α := fun _ => ℝ) y t) (Fin.last k) = ∑ i, y i + t := by
  rw [csum, Fin.sum_univ_castSucc]
  simp [Fin.le_last]

theorem logWeight_snoc {k : ℕ} (p g : Fin k → ℝ) (a c e : ℝ) (y : Fin k → ℝ) (t : ℝ) :
    logWeight (Fin.snoc (α := fun _ => ℝ) p a) (Fin.snoc (α := fun _ => ℝ) g c) e
      (Fin.snoc (α := fun _ => ℝ) y t) =
      logWeight p g 0 y + (a * Real.log t + (c + e) * Real.log (1 - ∑ i, y i - t)) := by
  rw [logWeight, logWeight, Fin.sum_univ_castSucc, Fin.sum_univ_castSucc]
  simp only [Fin.snoc_castSucc, Fin.snoc_last, csum_snoc_castSucc, csum_snoc_last, sub_sub]
  ring

theorem betaArg_snoc_castSucc {k : ℕ} (p g : Fin k → ℝ) (a c e : ℝ) (i : Fin k) :
    betaArg (Fin.snoc (α := fun _ => ℝ) p a) (Fin.snoc (α := fun _ => ℝ) g c) e i.castSucc =
      betaArg p g (a + (c + e) + 1) i := by
  rw [betaArg, betaArg, Fin.sum_univ_castSucc, Fin.sum_univ_castSucc]
  simp [Fin.le_last, Fin.castSucc_lt_last]
  ring

theorem betaArg_snoc_last {k : ℕ} (p g : Fin k → ℝ) (a c e : ℝ) :
    betaArg (Fin.snoc (α := fun _ => ℝ) p a) (Fin.snoc (α := fun _ => ℝ) g c) e (Fin.last k) =
      c + e + 1 := by
  rw [betaArg, Fin.sum_univ_castSucc, Fin.sum_univ_castSucc]
  have h : ∀ x : Fin k, ¬ Fin.last k < x.castSucc := fun x => (Fin.castSucc_lt_last x).not_gt
  simp [h]

theorem snoc_mem_simplex {k : ℕ} (y : Fin k → ℝ) (t : ℝ) :
    (Fin.snoc (α := fun _ => ℝ) y t : Fin (k + 1) → ℝ) ∈ simplex (k + 1) ↔
      y ∈ simplex k ∧ t ∈ Ioo 0 (1 - ∑ i, y i) := by
  simp only [simplex, mem_setOf_eq, Fin.sum_univ_castSucc, Fin.snoc_castSucc, Fin.snoc_last, mem_Ioo]
  constructor
  · rintro ⟨h, h'⟩
    have h1 : ∀ i, 0 < y i := fun i => by simpa using h i.castSucc
    have h2 : 0 < t := by simpa using h (Fin.last k)
    exact ⟨⟨h1, by linarith⟩, h2, by linarith⟩
  · rintro ⟨⟨h1, _⟩, h2, h3⟩
    refine ⟨fun i => ?_, by linarith⟩
    refine Fin.lastCases ?_ (fun j => ?_) i
    · simpa using h2
    · simpa using h1 j

theorem measurable_logWeight {k : ℕ} (p g : Fin k → ℝ) (e : ℝ) : Measurable (logWeight p g e) := by
  unfold logWeight csum
  have h : ∀ i : Fin k, Measurable fun x : Fin k → ℝ => ∑ j, if j ≤ i then x j else 0 := by
    intro i
    refine Finset.measurable_sum _ fun j _ => ?_
    by_cases hj : j ≤ i
    · simpa [hj] using measurable_pi_apply j
    · simp [hj]
  refine Measurable.add (Finset.measurable_sum _ fun i _ => ?_) ?_
  · exact ((Real.measurable_log.comp (measurable_pi_apply i)).const_mul _).add
      ((Real.measurable_log.comp ((h i).const_sub 1)).const_mul _)
  · exact (Real.measurable_log.comp ((Finset.measurable_sum _ fun i _ =>
      measurable_pi_apply i).const_sub 1)).const_mul _

/-- The generalized Dirichlet integral. -/
theorem lintegral_simplex {k : ℕ} (p g : Fin k → ℝ) (e : ℝ) (hp : ∀ i, -1 < p i)
    (hb : ∀ i, 0 < betaArg p g e i) :
    ∫⁻ x in simplex k, ENNReal.ofReal (Real.exp (logWeight p g e x)) =
      ENNReal.ofReal (∏ i, beta (p i + 1) (betaArg p g e i)) := by
  induction k generalizing e with
  | zero =>
    have hu : simplex 0 = univ := by ext x; simp [simplex]
    rw [hu, Measure.restrict_univ, volume_pi, Measure.pi_of_empty]
    simp [logWeight]
  | succ k ih =>
    obtain ⟨p, a, rfl⟩ : ∃ p' a, p = Fin.snoc (α := fun _ => ℝ) p' a :=
      ⟨Fin.init p, p (Fin.last k), (Fin.snoc_init_self p).symm⟩
    obtain ⟨g, c, rfl⟩ : ∃ g' c, g = Fin.snoc (α := fun _ => ℝ) g' c :=
      ⟨Fin.init g, g (Fin.last k), (Fin.snoc_init_self g).symm⟩
    have ha : -1 < a := by simpa using hp (Fin.last k)
    have hc : -1 < c + e := by
      have := hb (Fin.last k)
      rw [betaArg_snoc_last] at this
      linarith
    have hp' : ∀ i, -1 < p i := fun i => by simpa using hp i.castSucc
    have hb' : ∀ i, 0 < betaArg p g (a + (c + e) + 1) i := fun i => by
      rw [← betaArg_snoc_castSucc]; exact hb i.castSucc
    have hm : Measurable fun x : Fin (k + 1) → ℝ => ENNReal.ofReal (Real.exp
        (logWeight (Fin.snoc (α := fun _ => ℝ) p a) (Fin.snoc (α := fun _ => ℝ) g c) e x)) :=
      (Real.measurable_exp.comp (measurable_logWeight _ _ _)).ennreal_ofReal
    rw [← lintegral_indicator (measurableSet_simplex _),
      lintegral_snoc (hm.indicator (measurableSet_simplex _))]
    have inner : ∀ y : Fin k → ℝ, ∫⁻ t : ℝ, (simplex (k + 1)).indicator (fun x =>
        ENNReal.ofReal (Real.exp (logWeight (Fin.snoc (α := fun _ => ℝ) p a)
          (Fin.snoc (α := fun _ => ℝ) g c) e x))) (Fin.snoc (α := fun _ => ℝ) y t) =
        (simplex k).indicator (fun y => ENNReal.ofReal (beta (a + 1) (c + e + 1)) *
          ENNReal.ofReal (Real.exp (logWeight p g (a + (c + e) + 1) y))) y := by
      intro y
      by_cases hy : y ∈ simplex k
      · have hr : 0 < 1 - ∑ i, y i := by linarith [hy.2]
        rw [indicator_of_mem hy]
        have h1 : ∀ t : ℝ, (simplex (k + 1)).indicator (fun x =>
            ENNReal.ofReal (Real.exp (logWeight (Fin.snoc (α := fun _ => ℝ) p a)
            (Fin.snoc (α := fun _ => ℝ) g c) e x))) (Fin.snoc (α := fun _ => ℝ) y t) =
            (Ioo 0 (1 - ∑ i, y i)).indicator (fun t =>
              ENNReal.ofReal (Real.exp (logWeight p g 0 y)) *
              ENNReal.ofReal (t ^ a * (1 - ∑ i, y i - t) ^ (c + e))) t := by
          intro t
          by_cases ht : t ∈ Ioo 0 (1 - ∑ i, y i)
          · rw [indicator_of_mem ht, indicator_of_mem ((snoc_mem_simplex y t).2 ⟨hy, ht⟩),
              logWeight_snoc, ← ENNReal.ofReal_mul (Real.exp_pos _).le, Real.exp_add,
              Real.exp_add, Real.rpow_def_of_pos ht.1,
              Real.rpow_def_of_pos (by linarith [ht.2] : 0 < 1 - ∑ i, y i - t)]
            congr 3
            · rw [mul_comm]
            · rw [mul_comm]
          · rw [indicator_of_notMem ht, indicator_of_notMem]
            exact fun h => ht ((snoc_mem_simplex y t).1 h).2
        rw [lintegral_congr h1, lintegral_indicator measurableSet_Ioo,
          lintegral_const_mul _ (by fun_prop), lintegral_beta_scaled ha hc hr,
          ← ENNReal.ofReal_mul (Real.exp_pos _).le, ← ENNReal.ofReal_mul (beta_pos (by linarith)
            (by linarith)).le]
        congr 1
        have : logWeight p g (a + (c + e) + 1) y =
            logWeight p g 0 y + Real.log (1 - ∑ i, y i) * (a + (c + e) + 1) := by
          rw [logWeight, logWeight]
          ring
        rw [this, Real.exp_add, Real.rpow_def_of_pos hr]
        ring
      · rw [indicator_of_notMem hy]
        have h1 : ∀ t : ℝ, (simplex (k + 1)).indicator (fun x =>
            ENNReal.ofReal (Real.exp (logWeight (Fin.snoc (α := fun _ => ℝ) p a)
            (Fin.snoc (α := fun _ => ℝ) g c) e x))) (Fin.snoc (α := fun _ => ℝ) y t) = 0 :=
          fun t => indicator_of_notMem (fun h => hy ((snoc_mem_simplex y t).1 h).1) _
        rw [lintegral_congr h1, lintegral_zero]
    have hm' : Measurable fun y : Fin k → ℝ => ENNReal.ofReal (Real.exp
        (logWeight p g (a + (c + e) + 1) y)) :=
      (Real.measurable_exp.comp (measurable_logWeight _ _ _)).ennreal_ofReal
    rw [lintegral_congr inner, lintegral_indicator (measurableSet_simplex _),
      lintegral_const_mul _ hm',
      ih p g _ hp' hb', ← ENNReal.ofReal_mul (beta_pos (by linarith) (by linarith)).le,
      Fin.prod_univ_castSucc]
    simp only [Fin.snoc_castSucc, Fin.snoc_last, betaArg_snoc_castSucc, betaArg_snoc_last]
    rw [mul_comm]

end Efax
