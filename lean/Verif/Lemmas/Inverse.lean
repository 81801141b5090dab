import Mathlib.Analysis.Convex.Continuous
import Mathlib.Analysis.Normed.Module.FiniteDimension
import Mathlib.LinearAlgebra.Dimension.Free
import Verif.Lemmas.ExpFam2

/-!
# The conversion to natural parameters is continuous

`to_exp` is the gradient of a strictly convex function, so its inverse is continuous, however it is
computed.  The parameters are compared in the coordinates of a basis of the directions.
-/

namespace Efax

open MeasureTheory Spec Filter Topology

variable {N E X : Type} [AddCommGroup N] [Module ℝ N] [MeasurableSpace X]
  {F : ExpFam N E X} {μ : Measure X} {dom : Set N} {dirs : Submodule ℝ N}

/-- Around every point of `dom` there is a box in finitely many directions. -/
def FinitelyOpen (dom : Set N) (dirs : Submodule ℝ N) : Prop :=
  ∀ η ∈ dom, ∀ (n : ℕ) (b : Fin n → N), (∀ k, b k ∈ dirs) →
    ∃ δ > 0, ∀ c : Fin n → ℝ, (∀ k, |c k| ≤ δ) → η + ∑ k, c k • b k ∈ dom

theorem Spec.Regular.finitelyOpen (R : Regular F μ dom dirs) : FinitelyOpen dom dirs := by
  intro η h n b hb
  rcases Nat.eq_zero_or_pos n with rfl | hn
  · exact ⟨1, one_pos, fun c _ => by simpa using h⟩
  have h1 : ∀ᶠ t : ℝ in 𝓝 0, ∀ k, η + t • b k ∈ dom :=
    eventually_all.2 fun k => R.is_open η h _ (hb k)
  obtain ⟨τ, hτ, h2⟩ := Metric.eventually_nhds_iff.1 h1
  have hn' : (0 : ℝ) < n := by exact_mod_cast hn
  refine ⟨τ / (2 * n), by positivity, fun c hc => ?_⟩
  have h3 : η + ∑ k, c k • b k = ∑ k : Fin n, (1 / n : ℝ) • (η + (n * c k) • b k) := by
    simp only [smul_add, Finset.sum_add_distrib, smul_smul, Finset.sum_const, Finset.card_univ,
      Fintype.card_fin]
    congr 1
    · rw [← Nat.cast_smul_eq_nsmul ℝ, smul_smul, mul_one_div_cancel hn'.ne', one_smul]
    · refine Finset.sum_congr rfl fun k _ => ?_
      rw [← mul_assoc, one_div_mul_cancel hn'.ne', one_mul]
  rw [h3]
  refine R.convex.sum_mem (fun _ _ => by positivity) (by simp [hn'.ne']) fun k _ => h2 ?_ k
  rw [Real.dist_eq, sub_zero, abs_mul, abs_of_pos hn']
  calc n * |c k| ≤ n * (τ / (2 * n)) := by gcongr; exact hc k
    _ = τ / 2 := by field_simp
    _ < τ := by linarith

theorem FinitelyOpen.prod {N' : Type} [AddCommGroup N'] [Module ℝ N'] {dom' : Set N'}
    {dirs' : Submodule ℝ N'} (h : FinitelyOpen dom dirs) (h' : FinitelyOpen dom' dirs') :
    FinitelyOpen (dom ×ˢ dom') (dirs.prod dirs') := by
  intro η hη n b hb
  obtain ⟨δ, h1, h2⟩ := h η.1 hη.1 n (fun k => (b k).1) fun k => (hb k).1
  obtain ⟨δ', h1', h2'⟩ := h' η.2 hη.2 n (fun k => (b k).2) fun k => (hb k).2
  refine ⟨min δ δ', lt_min h1 h1', fun c hc => ⟨?_, ?_⟩⟩
  · simpa [Prod.fst_sum] using h2 c fun k => (hc k).trans (min_le_left _ _)
  · simpa [Prod.snd_sum] using h2' c fun k => (hc k).trans (min_le_right _ _)

namespace Spec.LocallyRegular

variable (R : LocallyRegular F μ dom dirs)

include R

theorem dot_zero (w : E) : F.dot 0 w = 0 := by
  have := R.dot_zero_smul 0 0 w
  simpa using this

theorem dot_sum {ι : Type} (s : Finset ι) (c : ι → ℝ) (b : ι → N) (w : E) :
    F.dot (∑ k ∈ s, c k • b k) w = ∑ k ∈ s, c k * F.dot (b k) w := by
  classical
  induction s using Finset.induction_on with
  | empty => simpa using R.dot_zero w
  | insert a s ha ih => rw [Finset.sum_insert ha, Finset.sum_insert ha, R.dot_plus, R.dot_zero_smul, ih]

/-- The gradient is monotone. -/
theorem dot_le {p q : N} (hp : p ∈ dom) (hq : q ∈ dom) :
    F.dot (q - p) (F.toExp p) ≤ F.dot (q - p) (F.toExp q) := by
  have h1 := R.support hp hq
  have h2 := R.support hq hp
  rw [R.dot_sub] at h1 h2 ⊢
  rw [R.dot_sub]
  linarith

/-- In coordinates, the distance from the tangent is bounded from below on small spheres. -/
theorem tangent_gap (M : Minimal F μ dirs) (ho : FinitelyOpen dom dirs) {n : ℕ}
    (b : Module.Basis (Fin n) ℝ dirs) {q : N} (hq : q ∈ dom) {ε : ℝ} (hε : 0 < ε) :
    ∃ r m : ℝ, 0 < r ∧ r ≤ ε ∧ 0 < m ∧ ∀ c : Fin n → ℝ, ‖c‖ = r → q + ∑ k, c k • (b k : N) ∈ dom ∧
      m ≤ F.logNormalizer (q + ∑ k, c k • (b k : N)) - F.logNormalizer q -
        ∑ k, c k * F.dot (b k) (F.toExp q) := by
  obtain ⟨δ, hδ, hbox⟩ := ho q hq n (fun k => (b k : N)) fun k => (b k).2
  let L : (Fin n → ℝ) →ₗ[ℝ] N := Fintype.linearCombination ℝ fun k => (b k : N)
  have hL : ∀ c, L c = ∑ k, c k • (b k : N) := fun c => rfl
  let A : (Fin n → ℝ) →ᵃ[ℝ] N := L.toAffineMap + AffineMap.const ℝ _ q
  have hA : ∀ c, A c = q + ∑ k, c k • (b k : N) := fun c => by
    simp [A, hL, add_comm]
  have hin : ∀ c ∈ Metric.ball (0 : Fin n → ℝ) δ, A c ∈ dom := fun c hc => by
    rw [hA]
    refine hbox c fun k => ?_
    have : ‖c‖ < δ := by simpa using hc
    exact (norm_le_pi_norm c k).trans this.le
  have hcv : ConvexOn ℝ (Metric.ball (0 : Fin n → ℝ) δ) (F.logNormalizer ∘ A) := by
    have h1 : ConvexOn ℝ (A '' Metric.ball (0 : Fin n → ℝ) δ) F.logNormalizer :=
      R.convexOn_of (by rintro _ ⟨c, hc, rfl⟩; exact hin c hc) ((convex_ball _ _).affine_image A)
    exact (h1.comp_affineMap A).subset (Set.subset_preimage_image _ _) (convex_ball _ _)
  have hct : ContinuousOn (fun c : Fin n → ℝ => F.logNormalizer (A c) - F.logNormalizer q -
      ∑ k, c k * F.dot (b k) (F.toExp q)) (Metric.ball (0 : Fin n → ℝ) δ) := by
    refine ((hcv.continuousOn Metric.isOpen_ball).sub continuousOn_const).sub ?_
    fun_prop
  set r := min ε (δ / 2) with hr
  have hr0 : 0 < r := lt_min hε (by linarith)
  have hrδ : r < δ := (min_le_right _ _).trans_lt (by linarith)
  have hsub : Metric.sphere (0 : Fin n → ℝ) r ⊆ Metric.ball 0 δ := fun c hc => by
    simp only [mem_sphere_zero_iff_norm, mem_ball_zero_iff] at hc ⊢
    rw [hc]; exact hrδ
  have hpos : ∀ c ∈ Metric.sphere (0 : Fin n → ℝ) r, 0 < F.logNormalizer (A c) - F.logNormalizer q -
      ∑ k, c k * F.dot (b k) (F.toExp q) := fun c hc => by
    have hne : q ≠ A c := fun h => by
      rw [hA, left_eq_add] at h
      have h2 : ∑ k, c k • b k = 0 := Subtype.ext (by push_cast; exact h)
      have h3 : c = 0 := funext fun k => Fintype.linearIndependent_iff.1 b.linearIndependent c h2 k
      rw [h3, mem_sphere_zero_iff_norm, norm_zero] at hc
      exact hr0.ne hc
    have h := R.support_strict M hq (hin c (hsub hc)) hne
    rw [hA, add_sub_cancel_left, R.dot_sum] at h
    rw [hA]
    linarith
  rcases (Metric.sphere (0 : Fin n → ℝ) r).eq_empty_or_nonempty with he | hne
  · refine ⟨r, 1, hr0, min_le_left _ _, one_pos, fun c hc => ?_⟩
    exact absurd (mem_sphere_zero_iff_norm.2 hc) (he ▸ Set.notMem_empty c)
  · obtain ⟨c₀, h0, hmin⟩ := (isCompact_sphere (0 : Fin n → ℝ) r).exists_isMinOn hne (hct.mono hsub)
    refine ⟨r, _, hr0, min_le_left _ _, hpos c₀ h0, fun c hc => ?_⟩
    have hc' := mem_sphere_zero_iff_norm.2 hc
    have := hmin hc'
    simp only [hA] at this
    exact ⟨hA c ▸ hin c (hsub hc'), by rw [hA]; exact this⟩

/-- If the expectations of `q'` are near those of `q`, then `q'` is near `q`. -/
theorem inverse_continuous (M : Minimal F μ dirs) (ho : FinitelyOpen dom dirs) {n : ℕ}
    (b : Module.Basis (Fin n) ℝ dirs) {q : N} (hq : q ∈ dom) {ε : ℝ} (hε : 0 < ε) :
    ∃ η > 0, ∀ q' ∈ dom, ∀ c : Fin n → ℝ, q' = q + ∑ k, c k • (b k : N) →
      (∀ k, |F.dot (b k) (F.toExp q') - F.dot (b k) (F.toExp q)| ≤ η) → ‖c‖ ≤ ε := by
  obtain ⟨r, m, hr, hrε, hm, h⟩ := R.tangent_gap M ho b hq hε
  refine ⟨m / (2 * r * (n + 1)), by positivity, fun q' hq' c hc hχ => ?_⟩
  by_contra hlt
  push Not at hlt
  have hcr : r < ‖c‖ := hrε.trans_lt hlt
  have hc0 : 0 < ‖c‖ := hr.trans hcr
  -- the point on the sphere in the direction of `q'`
  set s : ℝ := r / ‖c‖ with hs
  have hs0 : 0 < s := by positivity
  have hs1 : s < 1 := (div_lt_one hc0).2 hcr
  obtain ⟨hz, hgap⟩ := h (s • c) (by rw [norm_smul, Real.norm_of_nonneg hs0.le, hs]; field_simp)
  set z := q + ∑ k, (s • c) k • (b k : N) with hzdef
  have hzq : z - q = s • (q' - q) := by
    rw [hzdef, hc, add_sub_cancel_left, add_sub_cancel_left, Finset.smul_sum]
    exact Finset.sum_congr rfl fun k _ => by rw [Pi.smul_apply, smul_eq_mul, mul_smul]
  have hq'z : q' - z = (1 - s) • (q' - q) := by
    rw [sub_smul, one_smul, ← hzq]; abel
  have h1 := R.dot_le hz hq'
  rw [hq'z, R.dot_zero_smul, R.dot_zero_smul] at h1
  have h1' := le_of_mul_le_mul_left h1 (by linarith : 0 < 1 - s)
  have h2 := R.support hz hq
  have h2' : q - z = (-s) • (q' - q) := by rw [neg_smul, ← hzq]; abel
  rw [h2', R.dot_zero_smul] at h2
  have h3 : ∑ k, (s • c) k * F.dot (b k) (F.toExp q) = s * F.dot (q' - q) (F.toExp q) := by
    rw [hc, add_sub_cancel_left, R.dot_sum, Finset.mul_sum]
    exact Finset.sum_congr rfl fun k _ => by rw [Pi.smul_apply, smul_eq_mul, mul_assoc]
  rw [h3] at hgap
  have h4 : F.dot (q' - q) (F.toExp q') - F.dot (q' - q) (F.toExp q) ≤
      ‖c‖ * (n * (m / (2 * r * (n + 1)))) := by
    rw [hc, add_sub_cancel_left, R.dot_sum, R.dot_sum, ← Finset.sum_sub_distrib, ← hc]
    calc ∑ k, (c k * F.dot (b k) (F.toExp q') - c k * F.dot (b k) (F.toExp q))
        ≤ ∑ _k : Fin n, ‖c‖ * (m / (2 * r * (n + 1))) := Finset.sum_le_sum fun k _ => by
          rw [← mul_sub]
          refine (le_abs_self _).trans ?_
          rw [abs_mul]
          exact mul_le_mul (norm_le_pi_norm c k) (hχ k) (abs_nonneg _) hc0.le
      _ = ‖c‖ * (n * (m / (2 * r * (n + 1)))) := by
          rw [Finset.sum_const, Finset.card_univ, Fintype.card_fin, nsmul_eq_mul]; ring
  have h5 : m ≤ s * (F.dot (q' - q) (F.toExp q') - F.dot (q' - q) (F.toExp q)) := by
    have := mul_le_mul_of_nonneg_left h1' hs0.le
    linarith
  have h6 : s * (‖c‖ * (n * (m / (2 * r * (n + 1))))) < m := by
    have e : s * (‖c‖ * (n * (m / (2 * r * (n + 1))))) = m * (n / (2 * (n + 1))) := by
      rw [hs]; field_simp
    rw [e]
    have : (n : ℝ) / (2 * (n + 1)) < 1 := by
      rw [div_lt_one (by positivity)]; linarith [(Nat.cast_nonneg n : (0 : ℝ) ≤ n)]
    nlinarith
  linarith [mul_le_mul_of_nonneg_left h4 hs0.le]

/-- The divergence from `q` vanishes to first order. -/
theorem kl_le (M : Minimal F μ dirs) (ho : FinitelyOpen dom dirs) {n : ℕ}
    (b : Module.Basis (Fin n) ℝ dirs) {q : N} (hq : q ∈ dom) {ε : ℝ} (hε : 0 < ε) :
    ∃ η > 0, ∀ q' ∈ dom, (∀ k, |F.dot (b k) (F.toExp q') - F.dot (b k) (F.toExp q)| ≤ η) →
      F.kl q' q ≤ ε * ∑ k, |F.dot (b k) (F.toExp q') - F.dot (b k) (F.toExp q)| := by
  obtain ⟨η, hη, h⟩ := R.inverse_continuous M ho b hq hε
  refine ⟨η, hη, fun q' hq' hχ => ?_⟩
  have hd := R.sub_mem q hq q' hq'
  set c := b.repr ⟨q' - q, hd⟩ with hc
  have e : q' - q = ∑ k, c k • (b k : N) := by
    have := congrArg Subtype.val (b.sum_repr ⟨q' - q, hd⟩)
    push_cast at this
    exact this.symm
  have hn := h q' hq' c (by rw [← e]; abel) hχ
  have h1 := R.support hq hq'
  have h2 : F.kl q' q = F.dot (q' - q) (F.toExp q') + F.logNormalizer q - F.logNormalizer q' := rfl
  have h3 : F.kl q' q ≤ F.dot (q' - q) (F.toExp q') - F.dot (q' - q) (F.toExp q) := by linarith
  refine h3.trans ?_
  rw [e, R.dot_sum, R.dot_sum, ← Finset.sum_sub_distrib, Finset.mul_sum]
  refine Finset.sum_le_sum fun k _ => ?_
  rw [← mul_sub]
  refine (le_abs_self _).trans ?_
  rw [abs_mul]
  gcongr
  exact (norm_le_pi_norm (c : Fin n → ℝ) k).trans hn

/-- Along a curve of natural parameters whose expectations are differentiable, the divergence from the
start has the derivative zero. -/
theorem deriv_kl_curve (M : Minimal F μ dirs) (ho : FinitelyOpen dom dirs) (hf : dirs.FG)
    {q : ℝ → N} {t₀ : ℝ} (h0 : q t₀ ∈ dom) (hq : ∀ᶠ t in 𝓝 t₀, q t ∈ dom)
    (hd : ∀ v ∈ dirs, DifferentiableAt ℝ (fun t => F.dot v (F.toExp (q t))) t₀) :
    HasDerivAt (fun t => F.kl (q t) (q t₀)) 0 t₀ := by
  haveI : Module.Finite ℝ dirs := Module.Finite.iff_fg.2 hf
  let b := Module.finBasis ℝ dirs
  rw [hasDerivAt_iff_isLittleO, Asymptotics.isLittleO_iff]
  intro ε hε
  -- the expectations are locally Lipschitz
  have hO : (fun t => ∑ k, |F.dot (b k) (F.toExp (q t)) - F.dot (b k) (F.toExp (q t₀))|) =O[𝓝 t₀]
      fun t => t - t₀ := by
    refine Asymptotics.IsBigO.fun_sum fun k _ => ?_
    exact ((hd _ (b k).2).hasDerivAt.isBigO_sub).abs_left
  obtain ⟨C, hC0, hC⟩ := hO.exists_pos
  obtain ⟨η, hη, h⟩ := R.kl_le M ho b h0 (ε := ε / C) (by positivity)
  have hsmall : ∀ᶠ t in 𝓝 t₀, ∀ k, |F.dot (b k) (F.toExp (q t)) - F.dot (b k) (F.toExp (q t₀))| ≤ η := by
    refine eventually_all.2 fun k => ?_
    have hc := (hd _ (b k).2).continuousAt
    filter_upwards [Metric.tendsto_nhds.1 hc η hη] with t ht
    rw [Real.dist_eq] at ht
    exact ht.le
  filter_upwards [hq, hsmall, hC.bound] with t h1 h2 h3
  have h4 := h (q t) h1 h2
  have h5 := R.kl_nonneg h1 h0
  rw [R.kl_self, smul_zero, sub_zero, sub_zero, Real.norm_of_nonneg h5]
  have h6 : 0 ≤ ∑ k, |F.dot (b k) (F.toExp (q t)) - F.dot (b k) (F.toExp (q t₀))| :=
    Finset.sum_nonneg fun _ _ => abs_nonneg _
  rw [Real.norm_of_nonneg h6] at h3
  calc F.kl (q t) (q t₀) ≤ ε / C * (C * ‖t - t₀‖) := h4.trans (by gcongr)
    _ = ε * ‖t - t₀‖ := by field_simp

end Spec.LocallyRegular

/-- Convergence of the expectation parameters implies convergence of the natural parameters. -/
theorem Spec.LocallyRegular.tendsto (h1 : LocallyRegular F μ dom dirs) (h2 : Minimal F μ dirs)
    (h3 : FinitelyOpen dom dirs) (h4 : dirs.FG) {ι : Type} {l : Filter ι} {a : ι → N} {q : N}
    (hq : q ∈ dom) (ha : ∀ j, a j ∈ dom)
    (hd : ∀ v ∈ dirs, Tendsto (fun j => F.dot v (F.toExp (a j))) l (𝓝 (F.dot v (F.toExp q))))
    (f : N →ₗ[ℝ] ℝ) : Tendsto (fun j => f (a j)) l (𝓝 (f q)) := by
  haveI : Module.Finite ℝ dirs := Module.Finite.iff_fg.2 h4
  let b := Module.finBasis ℝ dirs
  set B := ∑ k, |f (b k)| with hB
  have hB0 : 0 ≤ B := Finset.sum_nonneg fun _ _ => abs_nonneg _
  refine Metric.tendsto_nhds.2 fun ε hε => ?_
  obtain ⟨η, hη, hc⟩ := h1.inverse_continuous h2 h3 b hq (ε := ε / (2 * (B + 1))) (by positivity)
  have hs : ∀ᶠ j in l, ∀ k, |F.dot (b k) (F.toExp (a j)) -
      F.dot (b k) (F.toExp q)| ≤ η := eventually_all.2 fun k => by
    filter_upwards [Metric.tendsto_nhds.1 (hd _ (b k).2) η hη] with j hj
    rw [Real.dist_eq] at hj
    exact hj.le
  filter_upwards [hs] with j hj
  have hdir := h1.sub_mem q hq (a j) (ha j)
  set c := b.repr ⟨a j - q, hdir⟩ with hcdef
  have e : a j - q = ∑ k, c k • (b k : N) := by
    have := congrArg Subtype.val (b.sum_repr ⟨a j - q, hdir⟩)
    push_cast at this
    exact this.symm
  have hn := hc (a j) (ha j) c (by rw [← e]; abel) hj
  rw [Real.dist_eq, ← map_sub, e, map_sum]
  calc |∑ k, f (c k • (b k : N))| ≤ ∑ k, |f (c k • (b k : N))| := Finset.abs_sum_le_sum_abs _ _
    _ ≤ ∑ k, ε / (2 * (B + 1)) * |f (b k)| := Finset.sum_le_sum fun k _ => by
        rw [map_smul, smul_eq_mul, abs_mul]
        gcongr
        exact (norm_le_pi_norm (c : Fin _ → ℝ) k).trans hn
    _ = ε * (B / (2 * (B + 1))) := by rw [← Finset.mul_sum, ← hB]; ring
    _ < ε := by
        have : B / (2 * (B + 1)) < 1 := by rw [div_lt_one (by positivity)]; linarith
        nlinarith

end Efax
