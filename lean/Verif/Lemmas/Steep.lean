import Verif.Lemmas.MeanSpace

/-!
# Steep families: the set of expectation parameters is convex

If `log_normalizer` is unbounded near the boundary of the domain, every average of the expectation parameters of two
distributions is that of a distribution: the one from which the weighted divergences are least.
-/

namespace Efax

open MeasureTheory Spec Filter Topology

variable {N E X : Type} [NormedAddCommGroup N] [NormedSpace ℝ N] [FiniteDimensional ℝ N] [MeasurableSpace X]
  {F : ExpFam N E X} {μ : Measure X} {dom : Set N}

/-- The parameters in bounded sets with bounded `log_normalizer` are in compact subsets of the domain. -/
def Steep (F : ExpFam N E X) (dom : Set N) : Prop :=
  ∀ M C : ℝ, ∃ B, IsCompact B ∧ B ⊆ dom ∧ ∀ q ∈ dom, ‖q‖ ≤ M → F.logNormalizer q ≤ C → q ∈ B

namespace Spec.LocallyRegular

variable (R : LocallyRegular F μ dom ⊤)

include R

/-- The distance from a tangent grows in all directions. -/
theorem growth (M : Minimal F μ ⊤) (ho : FinitelyOpen dom ⊤) {a : N} (ha : a ∈ dom) (ℓ : N →ₗ[ℝ] ℝ) :
    ∃ η > 0, ∃ C, ∀ q ∈ dom, η * |ℓ q| - C ≤ F.logNormalizer q - F.dot q (F.toExp a) := by
  obtain ⟨n, b, η, -, hη, h⟩ := R.mean_space M ho (Module.Finite.fg_top) ha 0 one_pos
  set B := ∑ k, |ℓ (b k)| with hB
  have hB0 : 0 ≤ B := Finset.sum_nonneg fun _ _ => abs_nonneg _
  have hk : ∀ k, |ℓ (b k)| ≤ B := fun k => Finset.single_le_sum (f := fun k => |ℓ (b k)|) (fun _ _ => abs_nonneg _) (Finset.mem_univ k)
  set ε := η / (B + 1) with hε
  have hε0 : 0 < ε := by positivity
  have side : ∀ σ : ℝ, |σ| = 1 → ∃ C, ∀ q ∈ dom, ε * (σ * ℓ q) - C ≤ F.logNormalizer q - F.dot q (F.toExp a) := by
    intro σ hσ
    obtain ⟨a', ha', -, he⟩ := h (fun w => F.dot w (F.toExp a) + ε * σ * ℓ w) (fun c => by
        simp only [R.dot_sum, map_sum, map_smul, smul_eq_mul, Finset.mul_sum, ← Finset.sum_add_distrib]
        exact Finset.sum_congr rfl fun k _ => by ring) fun k => by
      rw [add_sub_cancel_left, abs_mul, abs_mul, hσ, mul_one, abs_of_pos hε0, hε, div_mul_eq_mul_div,
        div_le_iff₀ (by positivity)]
      have := hk k
      nlinarith
    refine ⟨F.dot a' (F.toExp a') - F.logNormalizer a', fun q hq => ?_⟩
    have h1 := R.support ha' hq
    rw [R.dot_sub, he q trivial] at h1
    linarith
  obtain ⟨C1, h1⟩ := side 1 (by norm_num)
  obtain ⟨C2, h2⟩ := side (-1) (by norm_num)
  refine ⟨ε, hε0, max C1 C2, fun q hq => ?_⟩
  have k1 := h1 q hq
  have k2 := h2 q hq
  have := le_max_left C1 C2
  have := le_max_right C1 C2
  rcases abs_cases (ℓ q) with ⟨e, -⟩ | ⟨e, -⟩ <;> rw [e] <;> linarith

/-- Averages of expectation parameters are expectation parameters. -/
theorem pools (M : Minimal F μ ⊤) (hopen : IsOpen dom) (hcv : Convex ℝ dom) (ho : FinitelyOpen dom ⊤)
    (hst : Steep F dom) {a b : N} (ha : a ∈ dom) (hb : b ∈ dom) {t : ℝ} (h0 : 0 ≤ t) (h1 : t ≤ 1) :
    ∃ r ∈ dom, ∀ v, F.dot v (F.toExp r) = (1 - t) * F.dot v (F.toExp a) + t * F.dot v (F.toExp b) := by
  rcases h1.eq_or_lt with rfl | h1
  · exact ⟨b, hb, fun v => by ring⟩
  have hs : 0 < 1 - t := by linarith
  let L : N →ₗ[ℝ] ℝ :=
    { toFun := fun v => (1 - t) * F.dot v (F.toExp a) + t * F.dot v (F.toExp b)
      map_add' := fun x y => by simp only [R.dot_plus]; ring
      map_smul' := fun c x => by simp only [R.dot_zero_smul, RingHom.id_apply, smul_eq_mul]; ring }
  have hL : ∀ v, L v = (1 - t) * F.dot v (F.toExp a) + t * F.dot v (F.toExp b) := fun v => rfl
  have hLc : Continuous L := L.continuous_of_finiteDimensional
  let G : N → ℝ := fun q => F.logNormalizer q - L q
  let β := Module.finBasis ℝ N
  have hg := fun k => R.growth M ho ha (β.coord k)
  choose η hη C hC using hg
  set Cb := F.logNormalizer b - F.dot b (F.toExp b) with hCb
  set W : Fin (Module.finrank ℝ N) → ℝ := fun k => (G a - t * Cb + (1 - t) * C k) / ((1 - t) * η k) with hW
  have hco : ∀ q ∈ dom, G q ≤ G a → ∀ k, |β.coord k q| ≤ W k := fun q hq hle k => by
    have k1 := hC k q hq
    have k2 := R.support hb hq
    rw [R.dot_sub] at k2
    have k3 : G q = (1 - t) * (F.logNormalizer q - F.dot q (F.toExp a)) + t * (F.logNormalizer q - F.dot q (F.toExp b)) := by
      simp only [G, hL]; ring
    have k4 := mul_le_mul_of_nonneg_left k1 hs.le
    have k5 : t * Cb ≤ t * (F.logNormalizer q - F.dot q (F.toExp b)) := mul_le_mul_of_nonneg_left (by rw [hCb]; linarith) h0
    rw [hW, le_div_iff₀ (mul_pos hs (hη k))]
    nlinarith
  have hnorm : ∀ q ∈ dom, G q ≤ G a → ‖q‖ ≤ ∑ k, W k * ‖β k‖ := fun q hq hle => by
    calc ‖q‖ = ‖∑ k, β.coord k q • β k‖ := by rw [← β.sum_repr q]; simp
      _ ≤ ∑ k, ‖β.coord k q • β k‖ := norm_sum_le _ _
      _ ≤ ∑ k, W k * ‖β k‖ := Finset.sum_le_sum fun k _ => by
          rw [norm_smul]
          exact mul_le_mul_of_nonneg_right (hco q hq hle k) (norm_nonneg _)
  set Q := ∑ k, W k * ‖β k‖ with hQ
  obtain ⟨B, hB, hBd, hin⟩ := hst Q (G a + ‖LinearMap.toContinuousLinearMap L‖ * Q)
  have hmem : ∀ q ∈ dom, G q ≤ G a → q ∈ B := fun q hq hle => by
    have hn := hnorm q hq hle
    refine hin q hq hn ?_
    have k1 : L q ≤ ‖LinearMap.toContinuousLinearMap L‖ * ‖q‖ :=
      (le_abs_self _).trans ((LinearMap.toContinuousLinearMap L).le_opNorm q)
    have k2 : ‖LinearMap.toContinuousLinearMap L‖ * ‖q‖ ≤ ‖LinearMap.toContinuousLinearMap L‖ * Q := by gcongr
    have k3 : F.logNormalizer q = G q + L q := by simp only [G]; ring
    linarith
  have hcont : ContinuousOn G dom := ((R.convexOn_of subset_rfl hcv).continuousOn hopen).sub hLc.continuousOn
  obtain ⟨r, hrB, hmin⟩ := hB.exists_isMinOn ⟨a, hmem a ha le_rfl⟩ (hcont.mono hBd)
  have hrd := hBd hrB
  have hglob : ∀ q ∈ dom, G r ≤ G q := fun q hq => by
    rcases le_total (G q) (G a) with h | h
    · exact hmin (hmem q hq h)
    · exact (hmin (hmem a ha le_rfl)).trans h
  refine ⟨r, hrd, fun v => ?_⟩
  have hder : HasDerivAt (fun s : ℝ => G (r + s • v)) (F.dot v (F.toExp r) - L v) 0 := by
    have k1 : HasDerivAt (fun s : ℝ => L (r + s • v)) (L v) 0 := by
      have : HasDerivAt (fun s : ℝ => L r + s * L v) (L v) 0 := by
        simpa using ((hasDerivAt_id (0 : ℝ)).mul_const (L v)).const_add (L r)
      refine this.congr_of_eventuallyEq (Eventually.of_forall fun s => ?_)
      simp
    exact (R.gradient r hrd v trivial).sub k1
  have hloc : IsLocalMin (fun s : ℝ => G (r + s • v)) 0 := by
    filter_upwards [R.is_open r hrd v trivial] with s hs
    simpa using hglob _ hs
  exact sub_eq_zero.1 (hloc.hasDerivAt_eq_zero hder)

end Spec.LocallyRegular

end Efax
