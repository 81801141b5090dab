import Verif.Lemmas.ExpFam2
import Mathlib.MeasureTheory.Integral.Pi
import Mathlib.Analysis.Calculus.LHopital
import Mathlib.Algebra.QuadraticDiscriminant
import Mathlib.Analysis.SpecialFunctions.ExpDeriv

/-! # The Cramér-Rao bound for exponential families -/

namespace Efax

open MeasureTheory Spec Filter Topology

section

variable {X ι : Type} [MeasurableSpace X] [Fintype ι] {μ : Measure X} [SigmaFinite μ] {f : X → ℝ}

/-- Products of functions of independent observations. -/
theorem Spec.HasMean.pi {a : ι → X → ℝ} {m : ι → ℝ} (h : ∀ k, HasMean μ f (a k) (m k)) :
    HasMean (Measure.pi fun _ : ι => μ) (fun y => ∏ j, f (y j)) (fun y => ∏ k, a k (y k)) (∏ k, m k) := by
  have e : (fun y : ι → X => (∏ k, a k (y k)) * ∏ j, f (y j)) = fun y => ∏ k, (a k (y k) * f (y k)) := by
    funext y
    rw [Finset.prod_mul_distrib]
  refine ⟨?_, ?_⟩
  · rw [e]
    exact Integrable.fintype_prod_dep (E := fun _ => X) (f := fun k x => a k x * f x) fun k => (h k).1
  · rw [e, integral_fintype_prod_eq_prod (E := fun _ => X) (fun k x => a k x * f x)]
    exact Finset.prod_congr rfl fun k _ => (h k).2

theorem Spec.IsDensity.pi (h : IsDensity μ f) :
    IsDensity (Measure.pi fun _ : ι => μ) fun y => ∏ j, f (y j) := by
  refine ⟨fun y => Finset.prod_nonneg fun j _ => h.1 _, ?_⟩
  rw [integral_fintype_prod_eq_prod (E := fun _ => X) (fun _ x => f x)]
  simp [h.2]

/-- One of the independent observations. -/
theorem Spec.HasMean.at [DecidableEq ι] (hf : IsDensity μ f) {a : X → ℝ} {m : ℝ} (h : HasMean μ f a m) (j : ι) :
    HasMean (Measure.pi fun _ : ι => μ) (fun y => ∏ k, f (y k)) (fun y => a (y j)) m := by
  refine (HasMean.pi (a := fun k => if k = j then a else fun _ => 1) (m := fun k => if k = j then m else 1)
    fun k => ?_).congr (fun y => ?_) ?_
  · split
    · exact h
    · exact HasMean.const hf 1
  · rw [Finset.prod_eq_single j]
    · simp
    · intro k _ hk
      simp [hk]
    · simp
  · simp

/-- Two of the independent observations. -/
theorem Spec.HasMean.at_two [DecidableEq ι] (hf : IsDensity μ f) {a : X → ℝ} {m : ℝ} (h : HasMean μ f a m)
    {j l : ι} (hjl : j ≠ l) :
    HasMean (Measure.pi fun _ : ι => μ) (fun y => ∏ k, f (y k)) (fun y => a (y j) * a (y l)) (m * m) := by
  have e : ∀ (b : ι → ℝ), (∏ k, if k = j ∨ k = l then b k else 1) = b j * b l := by
    intro b
    have : (∏ k, if k = j ∨ k = l then b k else 1) =
        ∏ k, ((if k = j then b k else 1) * if k = l then b k else 1) := by
      refine Finset.prod_congr rfl fun k _ => ?_
      by_cases h1 : k = j <;> by_cases h2 : k = l
      · exact absurd (h1.symm.trans h2) hjl
      all_goals simp [h1, h2]
      all_goals intro; simp_all
    rw [this, Finset.prod_mul_distrib]
    simp
  refine (HasMean.pi (a := fun k x => if k = j ∨ k = l then a x else 1)
    (m := fun k => if k = j ∨ k = l then m else 1) fun k => ?_).congr (fun y => ?_) ?_
  · split
    · exact h
    · exact HasMean.const hf 1
  · exact (e fun k => a (y k)).symm
  · exact (e fun _ => m).symm

/-- The variance of an average. -/
theorem average_variance [Nonempty ι] (hf : IsDensity μ f) {a : X → ℝ} {m σ : ℝ} (h : HasMean μ f a m)
    (hσ : HasMean μ f (fun x => (a x - m) ^ 2) σ) :
    HasMean (Measure.pi fun _ : ι => μ) (fun y => ∏ k, f (y k))
      (fun y => ((Fintype.card ι : ℝ)⁻¹ * (∑ j, a (y j)) - m) ^ 2) (σ / Fintype.card ι) := by
  classical
  have hn : (Fintype.card ι : ℝ) ≠ 0 := Nat.cast_ne_zero.2 Fintype.card_ne_zero
  have h0 : HasMean μ f (fun x => a x - m) 0 := (h.sub (HasMean.const hf m)).congr (fun _ => rfl) (by ring)
  have h1 : HasMean (Measure.pi fun _ : ι => μ) (fun y => ∏ k, f (y k))
      (fun y => ∑ j, ∑ l, (a (y j) - m) * (a (y l) - m)) (∑ j : ι, ∑ l : ι, if l = j then σ else 0) := by
    refine HasMean.sum _ fun j _ => HasMean.sum _ fun l _ => ?_
    split_ifs with hl
    · subst hl
      exact (hσ.at hf l).congr (fun y => by ring) rfl
    · exact (h0.at_two hf (Ne.symm hl)).congr (fun y => rfl) (by ring)
  refine (h1.const_mul ((Fintype.card ι : ℝ)⁻¹ ^ 2)).congr (fun y => ?_) ?_
  · have : ∑ j : ι, ∑ l : ι, (a (y j) - m) * (a (y l) - m) = (∑ j, a (y j) - Fintype.card ι * m) ^ 2 := by
      rw [← Finset.sum_mul_sum, Finset.sum_sub_distrib]
      simp
      ring
    rw [this]
    field_simp
  · simp
    field_simp

end

variable {N E X ι : Type} [AddCommGroup N] [Module ℝ N] [MeasurableSpace X] [Fintype ι]
  {F : ExpFam N E X} {μ : Measure X} {dom : Set N} {dirs : Submodule ℝ N}

/-- Cauchy-Schwarz for the density `g`, applied to an estimate and a ratio of densities. -/
theorem chapman {Y : Type} [MeasurableSpace Y] {ρ : Measure Y} {g g' g'' T : Y → ℝ} {c c' V b : ℝ}
    (hg : IsDensity ρ g) (hg' : IsDensity ρ g') (hg'' : IsDensity ρ g'')
    (hb : ∀ y, g' y ^ 2 = g y * (g'' y * b)) (hpos : ∀ y, 0 < g y)
    (hT : HasMean ρ g T c) (hT' : HasMean ρ g' T c') (hV : HasMean ρ g (fun y => (T y - c) ^ 2) V) :
    (c' - c) ^ 2 ≤ V * (b - 1) := by
  have i1 : Integrable (fun y => (T y - c) ^ 2 * g y) ρ := hV.1
  have i2 : Integrable (fun y => (T y - c) * (g' y - g y)) ρ := by
    refine (((hT'.1.sub hT.1).sub (hg'.integrable.const_mul c)).add (hg.integrable.const_mul c)).congr
      (Eventually.of_forall fun y => ?_)
    simp only [Pi.sub_apply, Pi.add_apply]
    ring
  have e2 : ∫ y, (T y - c) * (g' y - g y) ∂ρ = c' - c := by
    have : (fun y => (T y - c) * (g' y - g y)) =
        fun y => ((T y * g' y - T y * g y) - c * g' y) + c * g y := by funext y; ring
    have j1 : Integrable (fun y => T y * g' y - T y * g y) ρ := hT'.1.sub hT.1
    have j2 : Integrable (fun y => (T y * g' y - T y * g y) - c * g' y) ρ :=
      j1.sub (hg'.integrable.const_mul c)
    rw [this, integral_add j2 (hg.integrable.const_mul c),
      integral_sub j1 (hg'.integrable.const_mul c), integral_sub hT'.1 hT.1, hT.2, hT'.2,
      integral_const_mul, integral_const_mul, hg.2, hg'.2]
    ring
  have i3 : Integrable (fun y => (g' y - g y) ^ 2 / g y) ρ := by
    refine (((hg''.integrable.mul_const b).sub (hg'.integrable.const_mul 2)).add hg.integrable).congr
      (Eventually.of_forall fun y => ?_)
    have := (hpos y).ne'
    simp only [Pi.sub_apply, Pi.add_apply]
    rw [eq_div_iff this]
    linear_combination -(hb y)
  have e3 : ∫ y, (g' y - g y) ^ 2 / g y ∂ρ = b - 1 := by
    have : (fun y => (g' y - g y) ^ 2 / g y) = fun y => (g'' y * b - 2 * g' y) + g y := by
      funext y
      have := (hpos y).ne'
      rw [div_eq_iff this]
      linear_combination (hb y)
    have j : Integrable (fun y => g'' y * b - 2 * g' y) ρ :=
      (hg''.integrable.mul_const b).sub (hg'.integrable.const_mul 2)
    rw [this, integral_add j hg.integrable,
      integral_sub (hg''.integrable.mul_const b) (hg'.integrable.const_mul 2), integral_mul_const,
      integral_const_mul, hg.2, hg'.2, hg''.2]
    ring
  have key : ∀ r : ℝ, 0 ≤ V * (r * r) + (2 * (c' - c)) * r + (b - 1) := fun r => by
    have : V * (r * r) + (2 * (c' - c)) * r + (b - 1) =
        ∫ y, ((T y - c) ^ 2 * g y * (r * r) + (T y - c) * (g' y - g y) * (2 * r) + (g' y - g y) ^ 2 / g y) ∂ρ := by
      have j : Integrable (fun y => (T y - c) ^ 2 * g y * (r * r) + (T y - c) * (g' y - g y) * (2 * r)) ρ :=
        (i1.mul_const _).add (i2.mul_const _)
      rw [integral_add j i3,
        integral_add (i1.mul_const _) (i2.mul_const _), integral_mul_const, integral_mul_const, e2, e3, hV.2]
      ring
    rw [this]
    refine integral_nonneg fun y => ?_
    have hp := hpos y
    have : (T y - c) ^ 2 * g y * (r * r) + (T y - c) * (g' y - g y) * (2 * r) + (g' y - g y) ^ 2 / g y =
        ((T y - c) * g y * r + (g' y - g y)) ^ 2 / g y := by
      field_simp
      ring
    show 0 ≤ (T y - c) ^ 2 * g y * (r * r) + (T y - c) * (g' y - g y) * (2 * r) + (g' y - g y) ^ 2 / g y
    rw [this]
    positivity
  have := discrim_le_zero key
  rw [discrim] at this
  nlinarith

/-- The limit of the bounds. -/
theorem chapman_limit {A m : ℝ → ℝ} {σ n V : ℝ} (hA : ∀ᶠ t in 𝓝 0, HasDerivAt A (m t) t)
    (hm : HasDerivAt m σ 0) (hV : 0 ≤ n * V)
    (hb : ∀ᶠ t in 𝓝 0, (m t - m 0) ^ 2 ≤ V * (Real.exp (n * (A (2 * t) - 2 * A t + A 0)) - 1)) :
    σ ≤ n * V := by
  have h2 : Tendsto (fun t : ℝ => 2 * t) (𝓝 0) (𝓝 0) := by
    have : Tendsto (fun t : ℝ => 2 * t) (𝓝 0) (𝓝 (2 * 0)) := tendsto_id.const_mul 2
    simpa using this
  set h : ℝ → ℝ := fun t => A (2 * t) - 2 * A t + A 0 with hh
  have hd : ∀ᶠ t in 𝓝 0, HasDerivAt h (2 * m (2 * t) - 2 * m t) t := by
    filter_upwards [hA, h2.eventually hA] with t a b
    have e : HasDerivAt (fun s : ℝ => 2 * s) 2 t := by simpa using (hasDerivAt_id t).const_mul 2
    have := ((HasDerivAt.comp t b e).sub (a.const_mul 2)).add_const (A 0)
    refine this.congr_deriv ?_
    ring
  have h0 : h 0 = 0 := by simp only [hh]; ring_nf
  have hc : ContinuousAt h 0 := hd.self_of_nhds.continuousAt
  have hexp : Tendsto (fun t => Real.exp (n * h t)) (𝓝 0) (𝓝 1) := by
    have : Tendsto (fun t => Real.exp (n * h t)) (𝓝 0) (𝓝 (Real.exp (n * h 0))) :=
      ((Real.continuous_exp.continuousAt).tendsto).comp (hc.tendsto.const_mul n)
    simpa [h0] using this
  have hslope : Tendsto (fun t => (m t - m 0) / t) (𝓝[≠] 0) (𝓝 σ) := by
    have := hasDerivAt_iff_tendsto_slope_zero.1 hm
    refine this.congr fun t => ?_
    simp [div_eq_inv_mul]
  have h2ne : Tendsto (fun t : ℝ => 2 * t) (𝓝[≠] 0) (𝓝[≠] 0) :=
    tendsto_nhdsWithin_of_tendsto_nhds_of_eventually_within _ (h2.mono_left nhdsWithin_le_nhds)
      (eventually_nhdsWithin_of_forall fun t ht => mul_ne_zero two_ne_zero ht)
  have hslope2 : Tendsto (fun t => (m (2 * t) - m t) / t) (𝓝[≠] 0) (𝓝 σ) := by
    have := ((hslope.comp h2ne).const_mul 2).sub hslope
    have e : 2 * σ - σ = σ := by ring
    rw [e] at this
    refine this.congr' (eventually_nhdsWithin_of_forall fun t ht => ?_)
    have : t ≠ 0 := ht
    simp only [Function.comp]
    field_simp
    ring
  have lim : Tendsto (fun t => (Real.exp (n * h t) - 1) / t ^ 2) (𝓝[≠] 0) (𝓝 (n * σ)) := by
    refine HasDerivAt.lhopital_zero_nhdsNE (f' := fun t => Real.exp (n * h t) * (n * (2 * m (2 * t) - 2 * m t)))
      (g' := fun t => 2 * t) ?_ ?_ ?_ ?_ ?_ ?_
    · filter_upwards [hd.filter_mono nhdsWithin_le_nhds] with t ht
      exact ((ht.const_mul n).exp).sub_const 1
    · refine Eventually.of_forall fun t => ?_
      simpa using hasDerivAt_pow 2 t
    · exact eventually_nhdsWithin_of_forall fun t ht => mul_ne_zero two_ne_zero ht
    · have := (hexp.sub_const 1).mono_left (nhdsWithin_le_nhds (a := (0 : ℝ)) (s := {0}ᶜ))
      simpa using this
    · have : Tendsto (fun t : ℝ => t ^ 2) (𝓝 0) (𝓝 (0 ^ 2)) := (continuous_pow 2).tendsto 0
      simpa using this.mono_left (nhdsWithin_le_nhds (s := {0}ᶜ))
    · have := ((hexp.mono_left (nhdsWithin_le_nhds (s := {0}ᶜ))).mul (hslope2.const_mul n))
      rw [one_mul] at this
      refine this.congr' (eventually_nhdsWithin_of_forall fun t ht => ?_)
      have : t ≠ 0 := ht
      field_simp
  have fin : σ ^ 2 ≤ V * (n * σ) := by
    refine le_of_tendsto_of_tendsto (hslope.pow 2) (lim.const_mul V) ?_
    filter_upwards [hb.filter_mono nhdsWithin_le_nhds, self_mem_nhdsWithin] with t ht h0
    have h0 : t ≠ 0 := h0
    rw [div_pow, ← mul_div_assoc]
    exact div_le_div_of_nonneg_right ht (sq_nonneg t)
  by_contra hlt
  push Not at hlt
  have : 0 < σ := hV.trans_lt hlt
  nlinarith

/-- **Cramér-Rao.** -/
theorem Spec.LocallyRegular.cramer_rao [SigmaFinite μ] (R : LocallyRegular F μ dom dirs) {η v : N}
    (hη : η ∈ dom) (hv : v ∈ dirs) {σ : ℝ}
    (hσ : HasDerivAt (fun t : ℝ => deriv (fun s : ℝ => F.logNormalizer (η + t • v + s • v)) 0) σ 0)
    {T : (ι → X) → ℝ}
    (hT : ∀ᶠ t : ℝ in 𝓝 0, HasMean (Measure.pi fun _ : ι => μ) (fun y => ∏ j, F.pdf (η + t • v) (y j)) T
      (F.dot v (F.toExp (η + t • v))))
    {V : ℝ} (hV : HasMean (Measure.pi fun _ : ι => μ) (fun y => ∏ j, F.pdf η (y j))
      (fun y => (T y - F.dot v (F.toExp η)) ^ 2) V) : σ ≤ Fintype.card ι * V := by
  have ho := R.is_open η hη v hv
  have h2 : Tendsto (fun t : ℝ => 2 * t) (𝓝 0) (𝓝 0) := by
    have : Tendsto (fun t : ℝ => 2 * t) (𝓝 0) (𝓝 (2 * 0)) := tendsto_id.const_mul 2
    simpa using this
  have hV0 : 0 ≤ V := by
    rw [← hV.2]
    exact integral_nonneg fun y => mul_nonneg (sq_nonneg _) (Finset.prod_nonneg fun j _ => (F.pdf_pos _ _).le)
  refine chapman_limit (A := fun t => F.logNormalizer (η + t • v)) (m := fun t => F.dot v (F.toExp (η + t • v)))
    ?_ ?_ (by positivity) ?_
  · filter_upwards [ho] with t ht
    have := R.gradient _ ht v hv
    have e : HasDerivAt (fun s : ℝ => s - t) 1 t := (hasDerivAt_id t).sub_const t
    have h' : HasDerivAt (fun s : ℝ => F.logNormalizer (η + t • v + s • v)) (F.dot v (F.toExp (η + t • v)))
        (t - t) := by rwa [sub_self]
    have := HasDerivAt.comp (h := fun s : ℝ => s - t) t h' e
    rw [mul_one] at this
    refine this.congr_of_eventuallyEq (Eventually.of_forall fun s => ?_)
    simp only [Function.comp]
    congr 1
    module
  · refine hσ.congr_of_eventuallyEq ?_
    filter_upwards [ho] with t ht
    exact (R.deriv_eq ht hv).symm
  · have hT0 := hT.self_of_nhds
    simp only [zero_smul, add_zero] at hT0
    filter_upwards [hT, ho, h2.eventually ho] with t ht h1 h2
    simp only [zero_smul, add_zero]
    refine chapman (R.density _ hη).pi (R.density _ h1).pi (R.density _ h2).pi (fun y => ?_)
      (fun y => Finset.prod_pos fun j _ => F.pdf_pos _ _) hT0 ht hV
    have e : ∀ x, F.pdf (η + t • v) x ^ 2 = F.pdf η x * (F.pdf (η + (2 * t) • v) x *
        Real.exp (F.logNormalizer (η + (2 * t) • v) - 2 * F.logNormalizer (η + t • v) + F.logNormalizer η)) := by
      intro x
      rw [ExpFam.pdf, ExpFam.pdf, ExpFam.pdf, ← Real.exp_add, ← Real.exp_add, ← Real.exp_nat_mul]
      congr 1
      simp only [ExpFam.logPdf, R.dot_add]
      push_cast
      ring
    rw [Real.exp_nat_mul, ← Finset.card_univ, ← Finset.prod_const, ← Finset.prod_mul_distrib,
      ← Finset.prod_mul_distrib, ← Finset.prod_pow]
    exact Finset.prod_congr rfl fun j _ => e (y j)

/-- Estimates with variances have a covariance. -/
theorem Spec.HasMean.covariance {Y : Type} [MeasurableSpace Y] {ρ : Measure Y} {g T R : Y → ℝ} {c V W : ℝ}
    (hg : IsDensity ρ g) (hpos : ∀ y, 0 < g y) (hT : HasMean ρ g T c) (hR : HasMean ρ g R c)
    (hV : HasMean ρ g (fun y => (T y - c) ^ 2) V) (hW : HasMean ρ g (fun y => (R y - c) ^ 2) W) :
    ∃ κ, HasMean ρ g (fun y => (T y - c) * (R y - c)) κ := by
  have hm : AEStronglyMeasurable (fun y => (T y - c) * (R y - c) * g y) ρ := by
    have h1 : AEMeasurable (fun y => T y * g y - c * g y) ρ :=
      hT.1.aemeasurable.sub (hg.integrable.aemeasurable.const_mul c)
    have h2 : AEMeasurable (fun y => R y * g y - c * g y) ρ :=
      hR.1.aemeasurable.sub (hg.integrable.aemeasurable.const_mul c)
    refine ((h1.mul h2).div hg.integrable.aemeasurable).aestronglyMeasurable.congr
      (Eventually.of_forall fun y => ?_)
    have := (hpos y).ne'
    simp only [Pi.mul_apply, Pi.div_apply]
    field_simp
  refine ⟨_, Integrable.mono' (hV.1.add hW.1) hm (Eventually.of_forall fun y => ?_), rfl⟩
  have hp := hpos y
  rw [Real.norm_eq_abs, abs_mul, abs_of_pos hp]
  simp only [Pi.add_apply]
  rw [← add_mul]
  refine mul_le_mul_of_nonneg_right (abs_le.2 ⟨?_, ?_⟩) hp.le <;>
    nlinarith [sq_nonneg (T y - c + (R y - c)), sq_nonneg (T y - c - (R y - c)), sq_nonneg (T y - c),
      sq_nonneg (R y - c)]

/-- Two estimates with the least variance `V` are equal. -/
theorem least_variance_unique {Y : Type} [MeasurableSpace Y] {ρ : Measure Y} {g T R : Y → ℝ} {c V : ℝ}
    (hg : IsDensity ρ g) (hpos : ∀ y, 0 < g y) (hT : HasMean ρ g T c) (hR : HasMean ρ g R c)
    (hV : HasMean ρ g (fun y => (T y - c) ^ 2) V) (hW : HasMean ρ g (fun y => (R y - c) ^ 2) V)
    (hmin : ∀ U, HasMean ρ g (fun y => ((T y + R y) / 2 - c) ^ 2) U → V ≤ U) : T =ᵐ[ρ] R := by
  obtain ⟨κ, hκ⟩ := HasMean.covariance hg hpos hT hR hV hW
  have hmid : HasMean ρ g (fun y => ((T y + R y) / 2 - c) ^ 2) (1 / 4 * (V + V) + 1 / 2 * κ) :=
    (((hV.add hW).const_mul (1 / 4)).add (hκ.const_mul (1 / 2))).congr (fun y => by ring) rfl
  have hd : HasMean ρ g (fun y => (T y - R y) ^ 2) (V + V + -2 * κ) :=
    ((hV.add hW).add (hκ.const_mul (-2))).congr (fun y => by ring) rfl
  have h1 := hmin _ hmid
  have h0 : 0 ≤ fun y => (T y - R y) ^ 2 * g y := fun y => mul_nonneg (sq_nonneg _) (hpos y).le
  have h2 : ∫ y, (T y - R y) ^ 2 * g y ∂ρ = 0 := by
    refine le_antisymm ?_ (integral_nonneg h0)
    rw [hd.2]
    linarith
  have h3 := (integral_eq_zero_iff_of_nonneg h0 hd.1).1 h2
  filter_upwards [h3] with y hy
  have := (mul_eq_zero.1 hy).resolve_right (hpos y).ne'
  exact sub_eq_zero.1 (pow_eq_zero_iff two_ne_zero |>.1 this)

end Efax
