import Verif.Lemmas.NormalMoments
import Mathlib.MeasureTheory.Constructions.BorelSpace.Complex
import Mathlib.MeasureTheory.Measure.Lebesgue.Complex

/-!
# Moments of complex numbers made of real random variables
-/

namespace Efax

open MeasureTheory Spec Complex

variable {ι κ : Type} [Fintype ι] [Fintype κ] {μ : Measure (κ → ℝ)} {m : κ → ℝ} {S : Matrix κ κ ℝ}

theorem integrable_parts {X : Type} [MeasurableSpace X] {μ : Measure X} {f g : X → ℝ} (hf : Integrable f μ)
    (hg : Integrable g μ) : Integrable (fun x => (f x : ℂ) + I * (g x : ℂ)) μ :=
  hf.ofReal.add (hg.ofReal.const_mul I)

theorem integral_parts {X : Type} [MeasurableSpace X] {μ : Measure X} {f g : X → ℝ} (hf : Integrable f μ)
    (hg : Integrable g μ) : ∫ x, ((f x : ℂ) + I * (g x : ℂ)) ∂μ =
      ((∫ x, f x ∂μ : ℝ) : ℂ) + I * ((∫ x, g x ∂μ : ℝ) : ℂ) := by
  have h := integral_add (hf.ofReal (𝕜 := ℂ)) ((hg.ofReal (𝕜 := ℂ)).const_mul I)
  rw [integral_const_mul, integral_ofReal, integral_ofReal] at h
  exact h

theorem integral_parts_add {X : Type} [MeasurableSpace X] {μ : Measure X} {f f' g g' : X → ℝ}
    (hf : Integrable f μ) (hf' : Integrable f' μ) (hg : Integrable g μ) (hg' : Integrable g' μ) :
    ∫ x, (((f x + f' x : ℝ) : ℂ) + I * ((g x - g' x : ℝ) : ℂ)) ∂μ =
      ((∫ x, f x ∂μ + ∫ x, f' x ∂μ : ℝ) : ℂ) + I * ((∫ x, g x ∂μ - ∫ x, g' x ∂μ : ℝ) : ℂ) := by
  have h := integral_parts (hf.add hf') (hg.sub hg')
  rw [integral_add' hf hf', integral_sub' hg hg'] at h
  exact h

theorem integral_parts_sub {X : Type} [MeasurableSpace X] {μ : Measure X} {f f' g g' : X → ℝ}
    (hf : Integrable f μ) (hf' : Integrable f' μ) (hg : Integrable g μ) (hg' : Integrable g' μ) :
    ∫ x, (((f x - f' x : ℝ) : ℂ) + I * ((g x + g' x : ℝ) : ℂ)) ∂μ =
      ((∫ x, f x ∂μ - ∫ x, f' x ∂μ : ℝ) : ℂ) + I * ((∫ x, g x ∂μ + ∫ x, g' x ∂μ : ℝ) : ℂ) := by
  have h := integral_parts (hf.sub hf') (hg.add hg')
  rw [integral_sub' hf hf', integral_add' hg hg'] at h
  exact h

theorem complexMoments_of (M : Moments μ m S) (p q : ι → κ) :
    ComplexMoments (μ.map fun x i => (x (p i) : ℂ) + I * (x (q i) : ℂ))
      (fun i => (m (p i) : ℂ) + I * (m (q i) : ℂ))
      (fun i j => ((S (p i) (p j) + S (q i) (q j) : ℝ) : ℂ) + I * ((S (q i) (p j) - S (p i) (q j) : ℝ) : ℂ))
      fun i j => ((S (p i) (p j) - S (q i) (q j) : ℝ) : ℂ) +
        I * ((S (p i) (q j) + S (q i) (p j) : ℝ) : ℂ) := by
  have hm : Measurable fun (x : κ → ℝ) (i : ι) => (x (p i) : ℂ) + I * (x (q i) : ℂ) := by
    fun_prop
  have hae := hm.aemeasurable (μ := μ)
  have := M.prob
  have eV : ∀ i j (x : κ → ℝ), ((x (p i) : ℂ) + I * (x (q i) : ℂ) - ((m (p i) : ℂ) + I * (m (q i) : ℂ))) *
      starRingEnd ℂ ((x (p j) : ℂ) + I * (x (q j) : ℂ) - ((m (p j) : ℂ) + I * (m (q j) : ℂ))) =
      (((x (p i) - m (p i)) * (x (p j) - m (p j)) + (x (q i) - m (q i)) * (x (q j) - m (q j)) : ℝ) : ℂ) +
      I * (((x (q i) - m (q i)) * (x (p j) - m (p j)) - (x (p i) - m (p i)) * (x (q j) - m (q j)) : ℝ) : ℂ) := by
    intro i j x
    apply Complex.ext <;> simp <;> ring
  have eP : ∀ i j (x : κ → ℝ), ((x (p i) : ℂ) + I * (x (q i) : ℂ) - ((m (p i) : ℂ) + I * (m (q i) : ℂ))) *
      ((x (p j) : ℂ) + I * (x (q j) : ℂ) - ((m (p j) : ℂ) + I * (m (q j) : ℂ))) =
      (((x (p i) - m (p i)) * (x (p j) - m (p j)) - (x (q i) - m (q i)) * (x (q j) - m (q j)) : ℝ) : ℂ) +
      I * (((x (p i) - m (p i)) * (x (q j) - m (q j)) + (x (q i) - m (q i)) * (x (p j) - m (p j)) : ℝ) : ℂ) := by
    intro i j x
    apply Complex.ext <;> simp
  have mi : ∀ i, Measurable fun z : ι → ℂ => z i := measurable_pi_apply
  have mV : ∀ i j (a b : ℂ), Measurable fun z : ι → ℂ => (z i - a) * starRingEnd ℂ (z j - b) := fun i j a b =>
    ((mi i).sub_const a).mul (continuous_conj.measurable.comp ((mi j).sub_const b))
  have mP : ∀ i j (a b : ℂ), Measurable fun z : ι → ℂ => (z i - a) * (z j - b) := fun i j a b =>
    ((mi i).sub_const a).mul ((mi j).sub_const b)
  refine ⟨Measure.isProbabilityMeasure_map hae, fun i => ?_, fun i => ?_, fun i j => ?_, fun i j => ?_,
    fun i j => ?_, fun i j => ?_⟩
  · rw [integrable_map_measure (mi i).aestronglyMeasurable hae]
    exact integrable_parts (M.integrable _) (M.integrable _)
  · rw [integral_map hae (mi i).aestronglyMeasurable]
    rw [integral_parts (M.integrable _) (M.integrable _), M.mean, M.mean]
  · rw [integrable_map_measure (mV _ _ _ _).aestronglyMeasurable hae]
    simp only [Function.comp_def, eV]
    exact integrable_parts ((M.integrable₂ _ _).add (M.integrable₂ _ _))
      ((M.integrable₂ _ _).sub (M.integrable₂ _ _))
  · rw [integral_map hae (mV _ _ _ _).aestronglyMeasurable]
    simp only [eV]
    rw [integral_parts_add (M.integrable₂ _ _) (M.integrable₂ _ _) (M.integrable₂ _ _)
      (M.integrable₂ _ _)]
    simp only [M.cov]
  · rw [integrable_map_measure (mP _ _ _ _).aestronglyMeasurable hae]
    simp only [Function.comp_def, eP]
    exact integrable_parts ((M.integrable₂ _ _).sub (M.integrable₂ _ _))
      ((M.integrable₂ _ _).add (M.integrable₂ _ _))
  · rw [integral_map hae (mP _ _ _ _).aestronglyMeasurable]
    simp only [eP]
    rw [integral_parts_sub (M.integrable₂ _ _) (M.integrable₂ _ _) (M.integrable₂ _ _)
      (M.integrable₂ _ _)]
    simp only [M.cov]

theorem complexMoments₁_of (M : Moments μ m S) (p q : κ) :
    ComplexMoments₁ (μ.map fun x => (x p : ℂ) + I * (x q : ℂ)) ((m p : ℂ) + I * (m q : ℂ)) (S p p + S q q)
      (((S p p - S q q : ℝ) : ℂ) + I * ((S p q + S q p : ℝ) : ℂ)) := by
  have hm : Measurable fun x : κ → ℝ => (x p : ℂ) + I * (x q : ℂ) := by fun_prop
  have hae := hm.aemeasurable (μ := μ)
  have := M.prob
  have eV : ∀ x : κ → ℝ, ‖(x p : ℂ) + I * (x q : ℂ) - ((m p : ℂ) + I * (m q : ℂ))‖ ^ 2 =
      (x p - m p) * (x p - m p) + (x q - m q) * (x q - m q) := by
    intro x
    rw [← normSq_eq_norm_sq, normSq_apply]
    simp
  have eP : ∀ x : κ → ℝ, ((x p : ℂ) + I * (x q : ℂ) - ((m p : ℂ) + I * (m q : ℂ))) ^ 2 =
      (((x p - m p) * (x p - m p) - (x q - m q) * (x q - m q) : ℝ) : ℂ) +
      I * (((x p - m p) * (x q - m q) + (x q - m q) * (x p - m p) : ℝ) : ℂ) := by
    intro x
    rw [pow_two]
    apply Complex.ext <;> simp
  have mV : ∀ a : ℂ, Measurable fun z : ℂ => ‖z - a‖ ^ 2 := fun a => by fun_prop
  have mI : Measurable fun z : ℂ => z := measurable_id
  have mP : ∀ a : ℂ, Measurable fun z : ℂ => (z - a) ^ 2 := fun a => by fun_prop
  refine ⟨Measure.isProbabilityMeasure_map hae, ?_, ?_, ?_, ?_, ?_, ?_⟩
  · rw [integrable_map_measure mI.aestronglyMeasurable hae]
    exact integrable_parts (M.integrable _) (M.integrable _)
  · rw [integral_map hae mI.aestronglyMeasurable]
    rw [integral_parts (M.integrable _) (M.integrable _), M.mean, M.mean]
  · rw [integrable_map_measure (mV _).aestronglyMeasurable hae]
    simp only [Function.comp_def, eV]
    exact (M.integrable₂ _ _).add (M.integrable₂ _ _)
  · rw [integral_map hae (mV _).aestronglyMeasurable]
    simp only [eV]
    rw [integral_add (M.integrable₂ _ _) (M.integrable₂ _ _), M.cov, M.cov]
  · rw [integrable_map_measure (mP _).aestronglyMeasurable hae]
    simp only [Function.comp_def, eP]
    exact integrable_parts ((M.integrable₂ _ _).sub (M.integrable₂ _ _))
      ((M.integrable₂ _ _).add (M.integrable₂ _ _))
  · rw [integral_map hae (mP _).aestronglyMeasurable]
    simp only [eP]
    rw [integral_parts_sub (M.integrable₂ _ _) (M.integrable₂ _ _) (M.integrable₂ _ _)
      (M.integrable₂ _ _)]
    simp only [M.cov]

end Efax
