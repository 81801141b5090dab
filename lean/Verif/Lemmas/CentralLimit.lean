import Verif.Lemmas.CramerRao
import Mathlib.Probability.CentralLimitTheorem
import Mathlib.Probability.Independence.InfinitePi

/-! # The central limit theorem for averages under densities -/

namespace Efax

open MeasureTheory ProbabilityTheory Spec Filter Topology Set

section

variable {X : Type} [MeasurableSpace X] {ν : Measure X} [IsProbabilityMeasure ν] {a : X → ℝ} {m σ : ℝ}

theorem clt_sequence (ha : Measurable a) (h2 : MemLp a 2 ν) (hm : ∫ x, a x ∂ν = m)
    (hσ : ∫ x, (a x - m) ^ 2 ∂ν = σ) (h0 : 0 < σ) (z : ℝ) :
    Tendsto (fun n : ℕ => (Measure.infinitePi fun _ : ℕ => ν)
      {ω | (√n)⁻¹ * (∑ k ∈ Finset.range n, a (ω k) - n * m) ≤ z}) atTop
      (𝓝 (ENNReal.ofReal (∫ x in Iic z, gaussianPDFReal 0 σ.toNNReal x))) := by
  have hp : ∀ k : ℕ, MeasurePreserving (Function.eval k) (Measure.infinitePi fun _ : ℕ => ν) ν := fun k =>
    measurePreserving_eval_infinitePi (fun _ : ℕ => ν) k
  have hi : ∀ g : X → ℝ, Measurable g →
      ∫ ω : ℕ → X, g (ω 0) ∂(Measure.infinitePi fun _ : ℕ => ν) = ∫ x, g x ∂ν := fun g hg => by
    have := integral_map (hp 0).aemeasurable (f := g) hg.aestronglyMeasurable
    rw [(hp 0).map_eq] at this
    exact this.symm
  have hk : ∀ k, Measurable fun ω : ℕ → X => a (ω k) := fun k => ha.comp (measurable_pi_apply k)
  have hm' : ∫ ω : ℕ → X, a (ω 0) ∂(Measure.infinitePi fun _ : ℕ => ν) = m := (hi a ha).trans hm
  have hv : Var[fun ω : ℕ → X => a (ω 0); Measure.infinitePi fun _ : ℕ => ν] = σ := by
    rw [variance_eq_integral (hk 0).aemeasurable, hm', ← hσ]
    exact hi (fun x => (a x - m) ^ 2) ((ha.sub_const m).pow_const 2)
  have hσ' : σ.toNNReal ≠ 0 := by simpa using h0
  have key := tendstoInDistribution_inv_sqrt_mul_sum_sub (P := Measure.infinitePi fun _ : ℕ => ν)
    (X := fun k ω => a (ω k)) (Y := id) (P' := gaussianReal 0 σ.toNNReal)
    (by rw [hv]; exact HasLaw.id) (h2.comp_measurePreserving (hp 0))
    (iIndepFun_infinitePi fun _ => ha) fun k =>
      ⟨(hk k).aemeasurable, (hk 0).aemeasurable, by
        have e : ∀ k, Measure.map (fun ω : ℕ → X => a (ω k)) (Measure.infinitePi fun _ : ℕ => ν) = ν.map a :=
          fun k => by
            have := Measure.map_map (μ := Measure.infinitePi fun _ : ℕ => ν) ha (hp k).measurable
            rw [(hp k).map_eq] at this
            exact this.symm
        rw [e, e]⟩
  have := ProbabilityMeasure.tendsto_measure_of_null_frontier_of_tendsto' key.tendsto (E := Iic z) (by
    have := nullSingletonClass_gaussianReal (μ := 0) hσ'
    simp)
  simp only [ProbabilityMeasure.coe_mk, Measure.map_id] at this
  rw [gaussianReal_apply_eq_integral _ hσ'] at this
  refine this.congr fun n => ?_
  rw [Measure.map_apply (by fun_prop) measurableSet_Iic, hm']
  rfl

theorem clt_finite (ha : Measurable a) (z : ℝ) (ι : Type) [Fintype ι] :
    (Measure.infinitePi fun _ : ℕ => ν)
      {ω | (√(Fintype.card ι))⁻¹ * (∑ k ∈ Finset.range (Fintype.card ι), a (ω k) - Fintype.card ι * m) ≤ z} =
    (Measure.pi fun _ : ι => ν) {y | (√(Fintype.card ι))⁻¹ * (∑ j, a (y j) - Fintype.card ι * m) ≤ z} := by
  let e := Fintype.equivFin ι
  have hinj : Function.Injective fun j : ι => (e j : ℕ) := fun i j h => e.injective (Fin.ext h)
  have h1 := Measure.map_infinitePi_infinitePi_of_inj (P := fun _ : ℕ => ν) hinj
  rw [Measure.infinitePi_eq_pi (ι := ι)] at h1
  rw [← h1, Measure.map_apply (by fun_prop) (measurableSet_le (by fun_prop) measurable_const)]
  congr 1
  ext ω
  simp only [Set.mem_ofPred_eq, Set.mem_preimage]
  rw [← Fin.sum_univ_eq_sum_range (fun k => a (ω k)), ← e.sum_comp]

end

section

variable {X ι : Type} [MeasurableSpace X] [Fintype ι] {μ : Measure X} [SigmaFinite μ] {f : X → ℝ}

/-- The measure with a density, of a set. -/
theorem withDensity_hasMean {Y : Type} [MeasurableSpace Y] {ρ : Measure Y} {g : Y → ℝ} (hg : IsDensity ρ g)
    {A : Set Y} (hA : MeasurableSet A) :
    HasMean ρ g (A.indicator 1) ((ρ.withDensity fun y => ENNReal.ofReal (g y)) A).toReal := by
  have e : (fun y => A.indicator (1 : Y → ℝ) y * g y) = A.indicator g := by
    funext y
    by_cases h : y ∈ A <;> simp [h]
  refine ⟨?_, ?_⟩
  · rw [e]
    exact hg.integrable.indicator hA
  · rw [e, integral_indicator hA, withDensity_apply _ hA,
      integral_eq_lintegral_of_nonneg_ae (Eventually.of_forall hg.1) hg.integrable.aestronglyMeasurable.restrict]

theorem density_probability {Y : Type} [MeasurableSpace Y] {ρ : Measure Y} {g : Y → ℝ} (hg : IsDensity ρ g) :
    IsProbabilityMeasure (ρ.withDensity fun y => ENNReal.ofReal (g y)) := by
  constructor
  rw [withDensity_apply _ MeasurableSet.univ, Measure.restrict_univ,
    ← ofReal_integral_eq_lintegral_ofReal hg.integrable (Eventually.of_forall hg.1), hg.2, ENNReal.ofReal_one]

/-- Independent observations have the product of the densities. -/
theorem pi_density (hf : IsDensity μ f) :
    (Measure.pi fun _ : ι => μ.withDensity fun x => ENNReal.ofReal (f x)) =
      (Measure.pi fun _ : ι => μ).withDensity fun y => ENNReal.ofReal (∏ j, f (y j)) := by
  have h1 := density_probability hf
  have h2 := density_probability (hf.pi (ι := ι))
  refine Measure.pi_eq fun s hs => ?_
  have a := withDensity_hasMean (hf.pi (ι := ι)) (MeasurableSet.univ_pi hs)
  have b := (HasMean.pi (ι := ι) fun k => withDensity_hasMean hf (hs k)).congr (fun y => by
    show (Set.pi univ s).indicator 1 y = _
    by_cases h : y ∈ Set.pi univ s
    · rw [Set.indicator_of_mem h, Finset.prod_eq_one fun k _ => Set.indicator_of_mem (h k trivial) _]
      rfl
    · rw [Set.indicator_of_notMem h]
      obtain ⟨k, hk⟩ : ∃ k, y k ∉ s k := by simpa [Set.mem_pi] using h
      exact (Finset.prod_eq_zero (Finset.mem_univ k) (Set.indicator_of_notMem hk _)).symm) rfl
  have := a.unique b
  rw [← ENNReal.toReal_prod] at this
  exact (ENNReal.toReal_eq_toReal_iff' (measure_ne_top _ _)
    (ENNReal.prod_ne_top fun _ _ => measure_ne_top _ _)).1 this

end

/-- **Central limit theorem** for averages of independent observations with a density. -/
theorem central_limit {X : Type} [MeasurableSpace X] {μ : Measure X} [SigmaFinite μ] {f : X → ℝ}
    (hf : IsDensity μ f) {a : X → ℝ} {m σ : ℝ} (ha : AEMeasurable a μ)
    (h2 : MemLp a 2 (μ.withDensity fun x => ENNReal.ofReal (f x)))
    (hm : ∫ x, a x ∂(μ.withDensity fun x => ENNReal.ofReal (f x)) = m)
    (hσ : ∫ x, (a x - m) ^ 2 ∂(μ.withDensity fun x => ENNReal.ofReal (f x)) = σ) (h0 : 0 < σ) (z : ℝ) :
    ∃ P : ℕ → ℝ, Tendsto P atTop (𝓝 (∫ x in Iic z, gaussianPDFReal 0 σ.toNNReal x)) ∧
      ∀ (ι : Type) [Fintype ι] [Nonempty ι], HasMean (Measure.pi fun _ : ι => μ) (fun y => ∏ j, f (y j))
        ({y | √(Fintype.card ι) * ((Fintype.card ι : ℝ)⁻¹ * ∑ j, a (y j) - m) ≤ z}.indicator 1)
        (P (Fintype.card ι)) := by
  have hP := density_probability hf
  set ν := μ.withDensity fun x => ENNReal.ofReal (f x) with hν
  have e : a =ᵐ[ν] ha.mk a := (withDensity_absolutelyContinuous μ _).ae_eq ha.ae_eq_mk
  have h3 := clt_sequence ha.measurable_mk ((memLp_congr_ae e).1 h2) ((integral_congr_ae e.symm).trans hm)
    ((integral_congr_ae (e.symm.mono fun x hx => by rw [hx])).trans hσ) h0 z
  have h4 := (ENNReal.tendsto_toReal ENNReal.ofReal_ne_top).comp h3
  rw [ENNReal.toReal_ofReal (setIntegral_nonneg measurableSet_Iic fun x _ => gaussianPDFReal_nonneg _ _ _)] at h4
  refine ⟨_, h4, fun ι _ _ => ?_⟩
  have hn : (0 : ℝ) < Fintype.card ι := Nat.cast_pos.2 Fintype.card_pos
  have hA : MeasurableSet {y : ι → X | (√(Fintype.card ι))⁻¹ * (∑ j, ha.mk a (y j) - Fintype.card ι * m) ≤ z} := by
    refine measurableSet_le ((Measurable.sub_const (Finset.measurable_sum _ fun j _ =>
      ha.measurable_mk.comp (measurable_pi_apply j)) _).const_mul _) measurable_const
  have h5 := withDensity_hasMean (hf.pi (ι := ι)) hA
  rw [← pi_density hf, ← clt_finite ha.measurable_mk] at h5
  have e' : ∀ᵐ y ∂(Measure.pi fun _ : ι => μ), ∀ j, a (y j) = ha.mk a (y j) :=
    ae_all_iff.2 fun j => (Measure.quasiMeasurePreserving_eval (fun _ : ι => μ) j).ae ha.ae_eq_mk
  have e2 : ∀ᵐ y ∂(Measure.pi fun _ : ι => μ),
      ({y : ι → X | (√(Fintype.card ι))⁻¹ * (∑ j, ha.mk a (y j) - Fintype.card ι * m) ≤ z}.indicator 1 y : ℝ) *
        ∏ j, f (y j) =
      {y | √(Fintype.card ι) * ((Fintype.card ι : ℝ)⁻¹ * ∑ j, a (y j) - m) ≤ z}.indicator 1 y * ∏ j, f (y j) := by
    filter_upwards [e'] with y hy
    have : (√(Fintype.card ι))⁻¹ * (∑ j, ha.mk a (y j) - Fintype.card ι * m) =
        √(Fintype.card ι) * ((Fintype.card ι : ℝ)⁻¹ * ∑ j, a (y j) - m) := by
      simp only [hy]
      have h6 := Real.sqrt_pos.2 hn
      have h7 := Real.mul_self_sqrt hn.le
      rw [inv_mul_eq_iff_eq_mul₀ h6.ne', ← mul_assoc, h7]
      field_simp
    simp only [Set.indicator_apply, Set.mem_ofPred_eq, this]
  exact ⟨h5.1.congr e2, (integral_congr_ae e2).symm.trans h5.2⟩

end Efax
