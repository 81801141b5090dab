import Verif.Lemmas.Families.VmfMean
import Verif.Lemmas.Ring

/-!
# The von Mises-Fisher family (C28-C30, C32-C36, C42, C44, C45, C54, C55)

The reference measure is the surface measure of the unit sphere.  The natural parameters are the
non-zero vectors of the Euclidean space of dimension `n + 1`: at zero the code evaluates `log 0`.
-/

namespace Efax

open MeasureTheory Spec Set

variable {n : ℕ}

example : (EuclideanSpace.single 0 3 : EuclideanSpace ℝ (Fin (n + 1))) ∈
    ({q | q ≠ 0} : Set (EuclideanSpace ℝ (Fin (n + 1)))) := by
  simp

theorem C28_von_mises_fisher (q : EuclideanSpace ℝ (Fin (n + 1))) (h : q ≠ 0) :
    IsDensity (surface n) ((vonMisesFisher (n + 1)).pdf q) :=
  vmf_density h

theorem C29_von_mises_fisher (q : EuclideanSpace ℝ (Fin (n + 1))) (h : q ≠ 0)
    (v : EuclideanSpace ℝ (Fin (n + 1))) :
    HasDerivAt (fun t : ℝ => (vonMisesFisher (n + 1)).logNormalizer (q + t • v))
      ((vonMisesFisher (n + 1)).jvp q v) 0 :=
  vmf_gradient h v

/-- Every coordinate of `to_exp` is the expectation of that coordinate. -/
theorem C30_von_mises_fisher (q : EuclideanSpace ℝ (Fin (n + 1))) (h : q ≠ 0) (i : Fin (n + 1)) :
    HasMean (surface n) ((vonMisesFisher (n + 1)).pdf q) (fun x => x.1 i)
      ((vonMisesFisher (n + 1)).toExp q i) := by
  have := vmf_locallyRegular.mean_dot (η := q) h (v := EuclideanSpace.single i 1) trivial
  refine this.congr (fun x => ?_) ?_
  · rw [vmf_dot, EuclideanSpace.inner_single_left]
    simp [vonMisesFisher]
  · rw [vmf_dot, EuclideanSpace.inner_single_left]
    simp

theorem C33_von_mises_fisher : InjOn (vonMisesFisher (n + 1)).toExp {q | q ≠ 0} :=
  vmf_locallyRegular.toExp_injOn vmf_minimal

/-- The expectation parameters are exactly the vectors strictly inside the unit ball, without its
centre (the expectation parameter of the uniform distribution). -/
theorem C33_von_mises_fisher_range :
    (vonMisesFisher (n + 1)).toExp '' {q | q ≠ 0} = {m | m ≠ 0 ∧ ‖m‖ < 1} := by
  ext m
  constructor
  · rintro ⟨q, hq, rfl⟩
    refine ⟨?_, vmf_mean_lt hq⟩
    rw [← norm_ne_zero_iff, norm_vmf_toExp hq]
    exact (vmfAK_pos (norm_pos_iff.2 hq)).ne'
  · rintro ⟨h0, h1⟩
    have hm : 0 < ‖m‖ := norm_pos_iff.2 h0
    obtain ⟨x, hx, he⟩ := vmfAK_surj (n := n) hm h1
    have hn : ‖(x / ‖m‖) • m‖ = x := by
      rw [norm_smul, Real.norm_of_nonneg (by positivity), div_mul_cancel₀ _ hm.ne']
    have hq : (x / ‖m‖) • m ≠ 0 := norm_ne_zero_iff.1 (by rw [hn]; exact hx.ne')
    refine ⟨_, hq, ?_⟩
    rw [vmf_toExp' hq, hn, he, smul_smul, div_mul_div_cancel₀ hx.ne', div_self hm.ne', one_smul]

theorem C34_von_mises_fisher : KLCorrect (vonMisesFisher (n + 1)) (surface n) {q | q ≠ 0} :=
  vmf_locallyRegular.klCorrect vmf_minimal

theorem C36_von_mises_fisher (q : EuclideanSpace ℝ (Fin (n + 1))) (h : q ≠ 0) :
    HasMean (surface n) ((vonMisesFisher (n + 1)).pdf q) (vonMisesFisher (n + 1)).carrier
      (vonMisesFisherEcm ((vonMisesFisher (n + 1)).toExp q)) :=
  (HasMean.const (vmf_density h) 0).congr (fun _ => rfl) rfl

theorem C35_von_mises_fisher : EntropyCorrect (vonMisesFisher (n + 1)) (surface n) {q | q ≠ 0}
    vonMisesFisherEcm :=
  vmf_locallyRegular.entropyCorrect _ fun q h => C36_von_mises_fisher q h

theorem C42_von_mises_fisher : FisherCorrect (vonMisesFisher (n + 1)) (surface n) {q | q ≠ 0} ⊤ :=
  vmf_locallyRegular.fisherCorrect

theorem C44_von_mises_fisher : EvidenceCorrect (vonMisesFisher (n + 1)) :=
  vmf_locallyRegular.evidenceCorrect

theorem C45_von_mises_fisher : MLECorrect (vonMisesFisher (n + 1)) {q | q ≠ 0} ⊤ :=
  vmf_locallyRegular.mleCorrect

/-- Strict convexity on every convex set of parameters that does not contain zero. -/
theorem C55_von_mises_fisher {D : Set (EuclideanSpace ℝ (Fin (n + 1)))} (hc : Convex ℝ D)
    (h0 : (0 : EuclideanSpace ℝ (Fin (n + 1))) ∉ D) :
    StrictConvexOn ℝ D (vonMisesFisher (n + 1)).logNormalizer :=
  vmf_locallyRegular.strictConvexOn_of vmf_minimal (fun q hq h => h0 (h ▸ hq)) hc

example : Convex ℝ (Metric.ball (EuclideanSpace.single 0 3 : EuclideanSpace ℝ (Fin (n + 1))) 1) ∧
    (0 : EuclideanSpace ℝ (Fin (n + 1))) ∉ Metric.ball (EuclideanSpace.single 0 3) 1 :=
  ⟨convex_ball _ _, by simp⟩

/-! ### C32: conversion by search -/

theorem vmf_search_norm {m : EuclideanSpace ℝ (Fin (n + 1))} (h : m ≠ 0) (s : ℝ) :
    ‖vmfSearchToNatural m s‖ = softplus s := by
  rw [vmfSearchToNatural, norm_smul, Real.norm_of_nonneg
    (div_nonneg (softplus_pos s).le (norm_nonneg _)), div_mul_cancel₀ _ (norm_ne_zero_iff.2 h)]

theorem C32_von_mises_fisher : SearchCorrect (vonMisesFisher (n + 1)).toExp {q | q ≠ 0} {q | q ≠ 0}
    {m | m ≠ 0} vmfSearchToNatural vmfSearchGradient := by
  have hv : ∀ m : EuclideanSpace ℝ (Fin (n + 1)), m ≠ 0 → ∀ s, vmfSearchToNatural m s ≠ 0 :=
    fun m hm s => norm_ne_zero_iff.1 (by rw [vmf_search_norm hm]; exact (softplus_pos s).ne')
  have hr : ∀ m : EuclideanSpace ℝ (Fin (n + 1)), m ≠ 0 → ∀ s, vmfSearchGradient m s = 0 ↔
      (vonMisesFisher (n + 1)).toExp (vmfSearchToNatural m s) = m := by
    intro m hm s
    have h0 : ‖m‖ ≠ 0 := norm_ne_zero_iff.2 hm
    have hs := (softplus_pos s).ne'
    rw [vmf_toExp' (hv m hm s), vmf_search_norm hm, vmfSearchGradient, sub_eq_zero,
      vmfSearchToNatural, smul_smul, div_mul_div_cancel₀ hs]
    constructor
    · intro h
      rw [h, div_self h0, one_smul]
    · intro h
      have h1 : (vmfAK (n + 1 : ℕ) (softplus s) / ‖m‖ - 1) • m = 0 := by rw [sub_smul, h, one_smul, sub_self]
      have := (smul_eq_zero.1 h1).resolve_right hm
      rwa [sub_eq_zero, div_eq_one_iff_eq h0] at this
  refine ⟨hv, hr, fun m hm s h q hq he => ?_, fun m hm q hq he => ?_⟩
  · exact C33_von_mises_fisher hq (hv m hm s) (he.trans ((hr m hm s).1 h).symm)
  · obtain ⟨s, _, hs⟩ := softplus_invSoftplus (norm_pos_iff.2 hq)
    refine ⟨s, ?_⟩
    rw [vmfSearchGradient, hs, ← he, norm_vmf_toExp hq, sub_self]

/-- Every valid expectation parameter other than zero has a root. -/
theorem C32_von_mises_fisher_exists {m : EuclideanSpace ℝ (Fin (n + 1))} (h : m ≠ 0) (h1 : ‖m‖ < 1) :
    ∃ s, vmfSearchGradient m s = 0 := by
  obtain ⟨q, hq, he⟩ := C33_von_mises_fisher_range.symm.subset (show m ∈ _ from ⟨h, h1⟩)
  exact C32_von_mises_fisher.exists_root m h q hq he

/-- The search starts from a concentration that exists. -/
theorem C32_von_mises_fisher_initial {m : EuclideanSpace ℝ (Fin (n + 1))} (h : m ≠ 0) (h1 : ‖m‖ < 1) :
    ∃ s, vmfInitialSearch m = some s ∧
      softplus s = (‖m‖ * (n + 1) - ‖m‖ ^ 3) / (1 - ‖m‖ ^ 2) := by
  have hm : 0 < ‖m‖ := norm_pos_iff.2 h
  have hp : 0 < (‖m‖ * (n + 1) - ‖m‖ ^ 3) / (1 - ‖m‖ ^ 2) := by
    have h2 : ‖m‖ ^ 2 < 1 := by nlinarith
    refine div_pos ?_ (by linarith)
    have hn : (0 : ℝ) ≤ n := Nat.cast_nonneg n
    have : 0 ≤ ‖m‖ * n := by positivity
    nlinarith [mul_pos hm (sub_pos.2 h2)]
  obtain ⟨s, hs, he⟩ := softplus_invSoftplus hp
  refine ⟨s, ?_, he⟩
  rw [vmfInitialSearch, if_neg h1.ne, ← hs]
  push_cast
  rfl

example : (EuclideanSpace.single 0 0.5 : EuclideanSpace ℝ (Fin (n + 1))) ≠ 0 ∧
    ‖(EuclideanSpace.single 0 0.5 : EuclideanSpace ℝ (Fin (n + 1)))‖ < 1 := by
  constructor
  · rw [← norm_ne_zero_iff, EuclideanSpace.norm_single]
    norm_num
  · rw [EuclideanSpace.norm_single]
    norm_num

/-! ### C54: concentration and angle -/

/-- Unless there are two dimensions `to_kappa_angle` raises. -/
theorem C54_dimension {d : ℕ} (q : EuclideanSpace ℝ (Fin d)) :
    (vmfToKappaAngle q).isSome ↔ d = 2 := by
  unfold vmfToKappaAngle
  split <;> simp_all

/-- The natural parameter in polar coordinates, also at zero; the angle is the principal one. -/
theorem C54_kappa_angle (q : EuclideanSpace ℝ (Fin 2)) : ∃ kappa angle,
    vmfToKappaAngle q = some (kappa, angle) ∧ 0 ≤ kappa ∧ -Real.pi < angle ∧ angle ≤ Real.pi ∧
    q 0 = kappa * Real.cos angle ∧ q 1 = kappa * Real.sin angle ∧ (q = 0 → angle = 0) := by
  set z : ℂ := ⟨q 0, q 1⟩ with hz
  have hn : ‖q‖ = ‖z‖ := by
    rw [EuclideanSpace.norm_eq, Fin.sum_univ_two, Complex.norm_eq_sqrt_sq_add_sq]
    simp [hz]
  refine ⟨‖q‖, if vmfKappa q = 0 then 0 else Complex.arg z, by
    rw [vmfToKappaAngle, dif_pos rfl]
    rfl, norm_nonneg _, ?_⟩
  by_cases h0 : vmfKappa q = 0
  · have hq : q = 0 := norm_eq_zero.1 h0
    rw [if_pos h0]
    subst hq
    simp [Real.pi_pos, Real.pi_pos.le]
  · have hq : q ≠ 0 := norm_ne_zero_iff.1 h0
    rw [if_neg h0, hn]
    exact ⟨Complex.neg_pi_lt_arg z, Complex.arg_le_pi z, (Complex.norm_mul_cos_arg z).symm,
      (Complex.norm_mul_sin_arg z).symm, fun h => absurd h hq⟩

/-- The mean of the distribution points in the direction of the natural parameter; its length is
strictly between zero and one. -/
theorem C54_mean_direction (q : EuclideanSpace ℝ (Fin (n + 1))) (h : q ≠ 0) :
    ∃ r : ℝ, 0 < r ∧ r < 1 ∧ (vonMisesFisher (n + 1)).toExp q = r • (‖q‖⁻¹ • q) := by
  have hk := norm_pos_iff.2 h
  refine ⟨vmfAK (n + 1 : ℕ) ‖q‖, vmfAK_pos hk, ?_, ?_⟩
  · rw [← norm_vmf_toExp h]
    exact vmf_mean_lt h
  · rw [vmf_toExp' h, smul_smul, div_eq_mul_inv]

/-- The uniform distribution: `to_exp` maps zero to zero, which is its mean. -/
theorem C54_uniform (i : Fin (n + 1)) :
    (vonMisesFisher (n + 1)).toExp 0 = 0 ∧ ∫ x, x.1 i ∂surface n = 0 := by
  constructor
  · simp [vonMisesFisher]
  · have := sphere_moment_odd (n := n) (EuclideanSpace.single i 1) 0
    simpa [EuclideanSpace.inner_single_left, surface] using this

end Efax
