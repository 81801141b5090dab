import Verif.Spec.SampleEstimate
import Verif.Props.Estimation
import Mathlib.Probability.Moments.Variance

/-! # Averages of independent samples -/

namespace Efax

open MeasureTheory ProbabilityTheory Spec Calc

theorem averages {Ω ι : Type} [MeasurableSpace Ω] {P : Measure Ω} [IsProbabilityMeasure P] {s : Finset ι}
    {X : ι → Ω → ℝ} {d : Ω → ℝ} {c σ : ℝ} (hs : s.Nonempty) (hX : ∀ i ∈ s, MemLp (X i) 2 P)
    (hi : Set.Pairwise (s : Set ι) fun i j => IndepFun (X i) (X j) P) (hc : ∀ i ∈ s, ∫ ω, X i ω ∂P = c)
    (hσ : ∀ i ∈ s, ∫ ω, (X i ω - c) ^ 2 ∂P = σ) (hd : ∀ ω, (s.card : ℝ) * d ω = ∑ i ∈ s, X i ω) :
    Averages P s.card d c σ := by
  have h0 : (s.card : ℝ) ≠ 0 := Nat.cast_ne_zero.2 hs.card_pos.ne'
  have he : d = fun ω => (s.card : ℝ)⁻¹ * (∑ i ∈ s, X i) ω := by
    funext ω
    rw [Finset.sum_apply, ← hd, inv_mul_cancel_left₀ h0]
  have hm : MemLp d 2 P := he ▸ (memLp_finsetSum' s hX).const_mul _
  have hv : ∀ i ∈ s, Var[X i; P] = σ := fun i h => by
    rw [variance_eq_integral (hX i h).aestronglyMeasurable.aemeasurable, hc i h, hσ i h]
  have h1 : ∫ ω, d ω ∂P = c := by
    rw [he, integral_const_mul]
    simp only [Finset.sum_apply]
    rw [integral_finsetSum _ fun i h => (hX i h).integrable (by norm_num), Finset.sum_congr rfl hc,
      Finset.sum_const, nsmul_eq_mul, inv_mul_cancel_left₀ h0]
  have h2 : Var[d; P] = σ / s.card := by
    rw [he, variance_const_mul, IndepFun.variance_sum hX hi, Finset.sum_congr rfl hv, Finset.sum_const,
      nsmul_eq_mul]
    field_simp
  refine ⟨hm, h1, ?_, fun ε hε => ?_⟩
  · rw [← h2, variance_eq_integral hm.aestronglyMeasurable.aemeasurable, h1]
  · have := meas_ge_le_variance_div_sq hm hε
    rwa [h1, h2, div_div] at this

theorem _root_.MeasureTheory.MeasurePreserving.isProbability {Ω X : Type} [MeasurableSpace Ω]
    [MeasurableSpace X] {P : Measure Ω} {ν : Measure X} {x : Ω → X} (h : MeasurePreserving x P ν)
    (hν : IsProbabilityMeasure ν) : IsProbabilityMeasure P := by
  have : IsProbabilityMeasure (P.map x) := by rw [h.map_eq]; exact hν
  exact Measure.isProbabilityMeasure_of_map x

theorem _root_.MeasureTheory.MeasurePreserving.integral_eq {Ω X : Type} [MeasurableSpace Ω]
    [MeasurableSpace X] {P : Measure Ω} {ν : Measure X} {x : Ω → X} (h : MeasurePreserving x P ν)
    {g : X → ℝ} (hg : AEMeasurable g ν) : ∫ ω, g (x ω) ∂P = ∫ y, g y ∂ν := by
  rw [← h.map_eq, integral_map h.aemeasurable (by rw [h.map_eq]; exact hg.aestronglyMeasurable)]

section

variable {N E X : Type} [AddCommGroup N] [Module ℝ N] [MeasurableSpace X] {F : ExpFam N E X}
  {μ : Measure X} {dom : Set N} {dirs : Submodule ℝ N} (R : LocallyRegular F μ dom dirs)

include R

/-- The moments of the statistics of an observation. -/
theorem Spec.LocallyRegular.moments {η v : N} (h : η ∈ dom) (hv : v ∈ dirs) {σ : ℝ}
    (hσ : HasCov μ (F.pdf η) (fun x => F.dot v (F.stat x)) (fun x => F.dot v (F.stat x)) σ) :
    IsProbabilityMeasure (law F μ η) ∧ MemLp (fun x => F.dot v (F.stat x)) 2 (law F μ η) ∧
      ∫ x, F.dot v (F.stat x) ∂law F μ η = F.dot v (F.toExp η) ∧
      ∫ x, (F.dot v (F.stat x) - F.dot v (F.toExp η)) ^ 2 ∂law F μ η = σ := by
  have e := R.mean_dot h hv
  obtain ⟨a, b, ha, hb, hc⟩ := hσ
  obtain rfl := ha.2.symm.trans e.2
  obtain rfl := hb.2.symm.trans e.2
  refine ⟨R.isProbability h, R.memLp2 h hv, ?_, ?_⟩
  · rw [R.integral_law h, e.2]
  · rw [R.integral_law h, ← hc.2]
    simp only [sq]

end

variable {C : Type} {K : Kind C} {S : Setting K}

theorem Spec.Setting.Lawful.moments (h : S.Lawful) {p : K.P} (hp : S.ok p) {q v : K.N} (hq : q ∈ S.dom p)
    (hv : v ∈ S.dirs) {σ : ℝ} : letI := S.ms
    HasCov S.μ ((K.F p).pdf q) (fun x => (K.F p).dot v ((K.F p).stat x))
      (fun x => (K.F p).dot v ((K.F p).stat x)) σ →
    IsProbabilityMeasure (law (K.F p) S.μ q) ∧
      MemLp (fun x => (K.F p).dot v ((K.F p).stat x)) 2 (law (K.F p) S.μ q) ∧
      ∫ x, (K.F p).dot v ((K.F p).stat x) ∂law (K.F p) S.μ q = (K.F p).dot v ((K.F p).toExp q) ∧
      ∫ x, ((K.F p).dot v ((K.F p).stat x) - (K.F p).dot v ((K.F p).toExp q)) ^ 2
        ∂law (K.F p) S.μ q = σ := by
  have h := h.regular p hp
  obtain ⟨G, M, MS, μ, ok, dom, dirs, closed⟩ := S
  exact fun hσ => h.moments hq hv hσ

end Efax
