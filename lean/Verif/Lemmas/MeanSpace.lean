import Verif.Lemmas.Gradients
import Mathlib.Analysis.Calculus.LocalExtr.Basic

/-!
# The set of expectation parameters is open

All expectations near those of a distribution are the expectations of a distribution near it.
-/

namespace Efax

open MeasureTheory Spec Filter Topology

variable {N E X : Type} [AddCommGroup N] [Module ℝ N] [MeasurableSpace X]
  {F : ExpFam N E X} {μ : Measure X} {dom : Set N} {dirs : Submodule ℝ N}

namespace Spec.LocallyRegular

variable (R : LocallyRegular F μ dom dirs)

include R

/-- `log_normalizer` is continuous in the coordinates of finitely many directions. -/
theorem continuousOn_box (ho : FinitelyOpen dom dirs) {n : ℕ} (b : Fin n → N) (hb : ∀ k, b k ∈ dirs) {q : N}
    (hq : q ∈ dom) : ∃ δ > 0, (∀ c ∈ Metric.ball (0 : Fin n → ℝ) δ, q + ∑ k, c k • b k ∈ dom) ∧
      ContinuousOn (fun c : Fin n → ℝ => F.logNormalizer (q + ∑ k, c k • b k)) (Metric.ball 0 δ) := by
  obtain ⟨δ, hδ, hbox⟩ := ho q hq n b hb
  let L : (Fin n → ℝ) →ₗ[ℝ] N := Fintype.linearCombination ℝ b
  have hL : ∀ c, L c = ∑ k, c k • b k := fun c => rfl
  let A : (Fin n → ℝ) →ᵃ[ℝ] N := L.toAffineMap + AffineMap.const ℝ _ q
  have hA : ∀ c, A c = q + ∑ k, c k • b k := fun c => by
    simp [A, hL, add_comm]
  have hin : ∀ c ∈ Metric.ball (0 : Fin n → ℝ) δ, A c ∈ dom := fun c hc => by
    rw [hA]
    refine hbox c fun k => ?_
    have : ‖c‖ < δ := by simpa using hc
    exact (norm_le_pi_norm c k).trans this.le
  have hcv : ConvexOn ℝ (Metric.ball (0 : Fin n → ℝ) δ) (F.logNormalizer ∘ A) := by
    have h1 : ConvexOn ℝ (A '' Metric.ball (0 : Fin n → ℝ) δ) F.logNormalizer :=
      R.convexOn_of (by rintro _ ⟨c, hc, rfl⟩; exact hin c hc) ((convex_ball _ _).affine_image A)
    exact (h1.comp_affineMap A).subset (Set.subset_preimage_image _ _) (convex_ball _ _)
  refine ⟨δ, hδ, fun c hc => hA c ▸ hin c hc, ?_⟩
  refine (hcv.continuousOn Metric.isOpen_ball).congr fun c _ => ?_
  simp only [Function.comp, hA]

/-- Numbers near the expectations of `q` are the expectations of some `q'` near `q`. -/
theorem mean_space_open (M : Minimal F μ dirs) (ho : FinitelyOpen dom dirs) {n : ℕ}
    (b : Module.Basis (Fin n) ℝ dirs) {q : N} (hq : q ∈ dom) {ε : ℝ} (hε : 0 < ε) :
    ∃ η > 0, ∀ m : Fin n → ℝ, (∀ k, |m k - F.dot (b k) (F.toExp q)| ≤ η) →
      ∃ c : Fin n → ℝ, ‖c‖ < ε ∧ q + ∑ k, c k • (b k : N) ∈ dom ∧
        ∀ k, F.dot (b k) (F.toExp (q + ∑ k, c k • (b k : N))) = m k := by
  obtain ⟨δ, hδ, hin, hct⟩ := R.continuousOn_box ho (fun k => (b k : N)) (fun k => (b k).2) hq
  obtain ⟨r, g, hr, hrε, hg, h⟩ := R.tangent_gap M ho b hq (ε := min (ε / 2) (δ / 2))
    (lt_min (by linarith) (by linarith))
  have hrδ : r < δ := hrε.trans_lt ((min_le_right _ _).trans_lt (by linarith))
  have hrε' : r < ε := hrε.trans_lt ((min_le_left _ _).trans_lt (by linarith))
  refine ⟨g / (2 * r * (n + 1)), by positivity, fun m hm => ?_⟩
  set G : (Fin n → ℝ) → ℝ := fun c => F.logNormalizer (q + ∑ k, c k • (b k : N)) - ∑ k, c k * m k with hG
  have hsub : Metric.closedBall (0 : Fin n → ℝ) r ⊆ Metric.ball 0 δ := Metric.closedBall_subset_ball hrδ
  have hGc : ContinuousOn G (Metric.closedBall 0 r) := by
    refine (hct.mono hsub).sub ?_
    fun_prop
  obtain ⟨c, hc, hmin⟩ := (isCompact_closedBall (0 : Fin n → ℝ) r).exists_isMinOn
    ⟨0, Metric.mem_closedBall_self hr.le⟩ hGc
  have h0 : G 0 = F.logNormalizer q := by simp [hG]
  -- the minimum is not on the sphere
  have hcr : ‖c‖ < r := by
    have hle : ‖c‖ ≤ r := by simpa using hc
    refine lt_of_le_of_ne hle fun heq => ?_
    have h1 := (h c heq).2
    have h2 : G c ≤ G 0 := hmin (Metric.mem_closedBall_self hr.le)
    rw [h0] at h2
    simp only [hG] at h2
    have h3 : ∑ k, c k * m k - ∑ k, c k * F.dot (b k) (F.toExp q) ≤ r * (n * (g / (2 * r * (n + 1)))) := by
      rw [← Finset.sum_sub_distrib]
      calc ∑ k, (c k * m k - c k * F.dot (b k) (F.toExp q))
          ≤ ∑ _k : Fin n, r * (g / (2 * r * (n + 1))) := Finset.sum_le_sum fun k _ => by
            rw [← mul_sub]
            refine (le_abs_self _).trans ?_
            rw [abs_mul]
            exact mul_le_mul ((norm_le_pi_norm c k).trans heq.le) (hm k) (abs_nonneg _) hr.le
        _ = r * (n * (g / (2 * r * (n + 1)))) := by
            rw [Finset.sum_const, Finset.card_univ, Fintype.card_fin, nsmul_eq_mul]; ring
    have h4 : r * (n * (g / (2 * r * (n + 1)))) < g := by
      have e : r * (n * (g / (2 * r * (n + 1)))) = g * (n / (2 * (n + 1))) := by field_simp
      rw [e]
      have : (n : ℝ) / (2 * (n + 1)) < 1 := by
        rw [div_lt_one (by positivity)]; linarith [(Nat.cast_nonneg n : (0 : ℝ) ≤ n)]
      nlinarith
    linarith
  have hd := hin c (hsub hc)
  refine ⟨c, hcr.trans hrε', hd, fun k => ?_⟩
  have hder := R.gradient _ hd _ (b k).2
  have hline : ∀ t : ℝ, q + ∑ j, c j • (b j : N) + t • (b k : N) =
      q + ∑ j, (c + t • (Pi.single k (1 : ℝ) : Fin n → ℝ)) j • (b j : N) := fun t => by
    simp only [Pi.add_apply, Pi.smul_apply, smul_eq_mul, add_smul, Finset.sum_add_distrib, Pi.single_apply,
      mul_ite, mul_one, mul_zero, ite_smul, zero_smul, Finset.sum_ite_eq', Finset.mem_univ, if_true, add_assoc]
  have hlin : ∀ t : ℝ, ∑ j, (c + t • (Pi.single k (1 : ℝ) : Fin n → ℝ)) j * m j = ∑ j, c j * m j + t * m k := fun t => by
    simp only [Pi.add_apply, Pi.smul_apply, smul_eq_mul, add_mul, Finset.sum_add_distrib, Pi.single_apply,
      mul_ite, mul_one, mul_zero, ite_mul, zero_mul, Finset.sum_ite_eq', Finset.mem_univ, if_true]
  have hcurve : HasDerivAt (fun t : ℝ => G (c + t • (Pi.single k (1 : ℝ) : Fin n → ℝ)))
      (F.dot (b k) (F.toExp (q + ∑ k, c k • (b k : N))) - m k) 0 := by
    have h1 : HasDerivAt (fun t : ℝ => ∑ j, c j * m j + t * m k) (m k) 0 := by
      simpa using ((hasDerivAt_id (0 : ℝ)).mul_const (m k)).const_add (∑ j, c j * m j)
    refine (hder.sub h1).congr_of_eventuallyEq (Eventually.of_forall fun t => ?_)
    simp only [hG, Pi.sub_apply, hline, hlin]
  have hloc : IsLocalMin (fun t : ℝ => G (c + t • (Pi.single k (1 : ℝ) : Fin n → ℝ))) 0 := by
    have hcont : Tendsto (fun t : ℝ => c + t • (Pi.single k (1 : ℝ) : Fin n → ℝ)) (𝓝 0) (𝓝 c) := by
      have : Continuous fun t : ℝ => c + t • (Pi.single k (1 : ℝ) : Fin n → ℝ) := by fun_prop
      simpa using this.tendsto 0
    have hnear : ∀ᶠ t in 𝓝 (0 : ℝ), c + t • (Pi.single k (1 : ℝ) : Fin n → ℝ) ∈ Metric.closedBall 0 r :=
      hcont.eventually (Filter.mem_of_superset (Metric.isOpen_ball.mem_nhds (by simpa using hcr))
        Metric.ball_subset_closedBall)
    filter_upwards [hnear] with t ht
    simpa using hmin ht
  exact sub_eq_zero.1 (hloc.hasDerivAt_eq_zero hcurve)

end Spec.LocallyRegular

/-- The same without coordinates: `g` is the pairing with the new expectations, in all directions. -/
theorem Spec.LocallyRegular.mean_space (h1 : LocallyRegular F μ dom dirs) (h2 : Minimal F μ dirs)
    (h3 : FinitelyOpen dom dirs) (h4 : dirs.FG) {q : N} (hq : q ∈ dom) (f : N →ₗ[ℝ] ℝ) {ε : ℝ} (hε : 0 < ε) :
    ∃ (n : ℕ) (b : Fin n → N) (η : ℝ), (∀ k, b k ∈ dirs) ∧ 0 < η ∧ ∀ g : N → ℝ,
      (∀ c : Fin n → ℝ, g (∑ k, c k • b k) = ∑ k, c k * g (b k)) →
      (∀ k, |g (b k) - F.dot (b k) (F.toExp q)| ≤ η) →
      ∃ a ∈ dom, |f a - f q| < ε ∧ ∀ w ∈ dirs, F.dot w (F.toExp a) = g w := by
  haveI : Module.Finite ℝ dirs := Module.Finite.iff_fg.2 h4
  let b := Module.finBasis ℝ dirs
  set B := ∑ k, |f (b k)| with hB
  have hB0 : 0 ≤ B := Finset.sum_nonneg fun _ _ => abs_nonneg _
  obtain ⟨η, hη, h⟩ := h1.mean_space_open h2 h3 b hq (ε := ε / (B + 1)) (by positivity)
  refine ⟨_, fun k => (b k : N), η, fun k => (b k).2, hη, fun g hg hn => ?_⟩
  obtain ⟨c, hc, ha, hd⟩ := h (fun k => g (b k)) hn
  refine ⟨_, ha, ?_, fun w hw => ?_⟩
  · rw [map_add, add_sub_cancel_left, map_sum]
    calc |∑ k, f (c k • (b k : N))| ≤ ∑ k, |f (c k • (b k : N))| := Finset.abs_sum_le_sum_abs _ _
      _ ≤ ∑ k, ‖c‖ * |f (b k)| := Finset.sum_le_sum fun k _ => by
          rw [map_smul, smul_eq_mul, abs_mul]
          gcongr
          exact norm_le_pi_norm c k
      _ = ‖c‖ * B := by rw [← Finset.mul_sum, ← hB]
      _ ≤ ε / (B + 1) * B := by gcongr
      _ < ε := by
          rw [div_mul_eq_mul_div, div_lt_iff₀ (by positivity)]
          nlinarith
  · have e : w = ∑ k, b.repr ⟨w, hw⟩ k • (b k : N) := by
      have := congrArg Subtype.val (b.sum_repr ⟨w, hw⟩)
      push_cast at this
      exact this.symm
    rw [e, h1.dot_sum, hg]
    exact Finset.sum_congr rfl fun k _ => by rw [hd k]

/-- The same for the kinds of distributions; `m` are the average statistics of data. -/
theorem Spec.Setting.Lawful.mean_space {C : Type} {K : Kind C} {S : Setting K} (h : S.Lawful) (ho : S.Open)
    {p : K.P} (hp : S.ok p) {q : K.N} (hq : q ∈ S.dom p) {ε : ℝ} (hε : 0 < ε) : letI := S.grp
    letI := S.mod
    ∀ f : K.N →ₗ[ℝ] ℝ, ∃ (n : ℕ) (b : Fin n → K.N) (η : ℝ), (∀ k, b k ∈ S.dirs) ∧ 0 < η ∧
      ∀ (ι : Type) (s : Finset ι) (x : ι → K.X),
      (∀ k, |(s.card : ℝ)⁻¹ * ∑ j ∈ s, (K.F p).dot (b k) ((K.F p).stat (x j)) -
        (K.F p).dot (b k) ((K.F p).toExp q)| ≤ η) →
      ∃ a ∈ S.dom p, |f a - f q| < ε ∧ ∀ w ∈ S.dirs, (K.F p).dot w ((K.F p).toExp a) =
        (s.card : ℝ)⁻¹ * ∑ j ∈ s, (K.F p).dot w ((K.F p).stat (x j)) := by
  have h1 := h.regular p hp
  have h2 := h.minimal p hp
  have h3 := ho.isOpen p hp
  have h4 := ho.fg
  obtain ⟨G, M, MS, μ, ok, dom, dirs, closed⟩ := S
  intro f
  obtain ⟨n, b, η, hb, hη, h⟩ := h1.mean_space h2 h3 h4 hq f hε
  refine ⟨n, b, η, hb, hη, fun ι s x hx => h _ (fun c => ?_) hx⟩
  simp only [h1.dot_sum]
  rw [Finset.sum_comm, Finset.mul_sum]
  refine Finset.sum_congr rfl fun k _ => ?_
  rw [← Finset.mul_sum]
  ring

end Efax
