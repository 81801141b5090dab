import Verif.Lemmas.Steep
import Verif.Lemmas.Digamma
import Verif.Lemmas.Families.Simplex

/-!
# The Dirichlet, beta and generalized Dirichlet families are steep
-/

namespace Efax

open MeasureTheory Spec Set

/-- `gammaln` is `-log` up to a constant near 0. -/
theorem gammaln_near (K : ℝ) : ∃ c, 0 ≤ c ∧ ∀ x, 0 < x → x ≤ K → |gammaln x + Real.log x| ≤ c := by
  have hc : ContinuousOn gammaln (Icc 1 (K + 1)) := fun x hx =>
    (hasDerivAt_gammaln (by linarith [hx.1])).continuousAt.continuousWithinAt
  obtain ⟨c, h⟩ := isCompact_Icc.exists_bound_of_continuousOn hc
  refine ⟨max c 0, le_max_right _ _, fun x h0 h1 => le_max_of_le_left ?_⟩
  have := h (x + 1) ⟨by linarith, by linarith⟩
  rwa [Real.norm_eq_abs, gammaln_add_one h0, add_comm] at this

theorem dirichlet_steep_bound {n : ℕ} (M C : ℝ) : ∃ δ > 0, ∀ q ∈ dirichletDom (n + 2), ‖q‖ ≤ M →
    dirichletLogNormalizer q ≤ C → ∀ j, δ ≤ q j + 1 := by
  set K := max (M + 1) 1 with hK
  have hK1 : 1 ≤ K := le_max_right _ _
  obtain ⟨c, hc0, hc⟩ := gammaln_near ((n + 2 : ℕ) * K)
  refine ⟨Real.exp (-(C + (n + 3) * c + (n + 2) * Real.log K)), Real.exp_pos _, fun q hq hM hA j => ?_⟩
  have hlogK : 0 ≤ Real.log K := Real.log_nonneg hK1
  have hpos : ∀ i, 0 < q i + 1 := fun i => by linarith [hq i]
  have hle : ∀ i, q i + 1 ≤ K := fun i => by
    have := (le_abs_self _).trans ((norm_le_pi_norm q i).trans hM)
    exact le_trans (by linarith) (le_max_left _ _)
  have hs : ∑ i, q i + (n + 2 : ℕ) = ∑ i, (q i + 1) := by simp [Finset.sum_add_distrib]
  have hs0 : 0 < ∑ i, (q i + 1) := Finset.sum_pos (fun i _ => hpos i) Finset.univ_nonempty
  have hsK : ∑ i, (q i + 1) ≤ (n + 2 : ℕ) * K := by
    calc ∑ i, (q i + 1) ≤ ∑ _i : Fin (n + 2), K := Finset.sum_le_sum fun i _ => hle i
      _ = _ := by simp
  have hi : ∀ i, q i + 1 ≤ (n + 2 : ℕ) * K := fun i =>
    (Finset.single_le_sum (f := fun i => q i + 1) (fun i _ => (hpos i).le) (Finset.mem_univ i)).trans hsK
  obtain ⟨i, hij⟩ : ∃ i, i ≠ j := exists_ne j
  -- the sum of the logarithms
  have h1 : (Real.log K - Real.log (q i + 1)) + (Real.log K - Real.log (q j + 1)) ≤
      ∑ l, (Real.log K - Real.log (q l + 1)) := by
    rw [← Finset.sum_pair (f := fun l => Real.log K - Real.log (q l + 1)) hij]
    exact Finset.sum_le_sum_of_subset_of_nonneg (Finset.subset_univ _) fun l _ _ =>
      sub_nonneg.2 (Real.log_le_log (hpos l) (hle l))
  have h2 : ∑ l, (Real.log K - Real.log (q l + 1)) = (n + 2) * Real.log K - ∑ l, Real.log (q l + 1) := by
    simp [Finset.sum_sub_distrib]
  have h3 : ∑ l, -Real.log (q l + 1) - (n + 2) * c ≤ ∑ l, gammaln (q l + 1) := by
    have : ∑ l, (-Real.log (q l + 1) - c) ≤ ∑ l, gammaln (q l + 1) := Finset.sum_le_sum fun l _ => by
      have := (abs_le.1 (hc _ (hpos l) (hi l))).1
      linarith
    simpa [Finset.sum_sub_distrib] using this
  have h4 := (abs_le.1 (hc _ hs0 hsK)).2
  have h5 : Real.log (q i + 1) ≤ Real.log (∑ i, (q i + 1)) := Real.log_le_log (hpos i)
    (Finset.single_le_sum (f := fun i => q i + 1) (fun i _ => (hpos i).le) (Finset.mem_univ i))
  rw [dirichletLogNormalizer, hs] at hA
  rw [Finset.sum_neg_distrib] at h3
  rw [← Real.le_log_iff_exp_le (hpos j)]
  linarith

/-- Bounded and bounded away from the boundary. -/
theorem compact_dirichlet {n : ℕ} (M δ : ℝ) (hδ : 0 < δ) :
    IsCompact (Metric.closedBall (0 : Fin n → ℝ) M ∩ {q | ∀ j, δ ≤ q j + 1}) ∧
      Metric.closedBall (0 : Fin n → ℝ) M ∩ {q | ∀ j, δ ≤ q j + 1} ⊆ dirichletDom n := by
  refine ⟨(isCompact_closedBall _ _).inter_right ?_, fun q hq j => ?_⟩
  · simp only [ofPred_forall]
    exact isClosed_iInter fun j => isClosed_le continuous_const (by fun_prop)
  · have : δ ≤ q j + 1 := hq.2 j
    linarith

theorem dirichlet_steep (d : ℕ) : Steep (dirichlet (d + 1)) (dirichletDom (d + 1 + 1)) := fun M C => by
  obtain ⟨δ, hδ, h⟩ := dirichlet_steep_bound (n := d) M C
  obtain ⟨h1, h2⟩ := compact_dirichlet (n := d + 1 + 1) M δ hδ
  exact ⟨_, h1, h2, fun q hq hM hA => ⟨by simpa using hM, h q hq hM hA⟩⟩

theorem beta_steep : Steep beta (dirichletDom 2) := fun M C => by
  obtain ⟨δ, hδ, h⟩ := dirichlet_steep_bound (n := 0) M C
  obtain ⟨h1, h2⟩ := compact_dirichlet (n := 2) M δ hδ
  exact ⟨_, h1, h2, fun q hq hM hA => ⟨by simpa using hM, h q hq hM hA⟩⟩

/-- `betaln` is bounded below on bounded sets, and large near the boundary. -/
theorem betaln_near (K : ℝ) (hK : 1 ≤ K) : ∃ c, 0 ≤ c ∧ ∀ a b, 0 < a → a ≤ K → 0 < b → b ≤ K →
    -c - Real.log a ≤ betaln a b ∧ -c - Real.log b ≤ betaln a b ∧ -c ≤ betaln a b := by
  obtain ⟨c, hc0, hc⟩ := gammaln_near (2 * K)
  have hlogK : 0 ≤ Real.log K := Real.log_nonneg hK
  refine ⟨3 * c + Real.log K, by positivity, fun a b ha ha' hb hb' => ?_⟩
  have h1 := (abs_le.1 (hc a ha (by linarith))).1
  have h2 := (abs_le.1 (hc b hb (by linarith))).1
  have h3 := (abs_le.1 (hc (a + b) (by linarith) (by linarith))).2
  have h4 := Real.log_le_log ha (by linarith : a ≤ a + b)
  have h5 := Real.log_le_log hb (by linarith : b ≤ a + b)
  have h6 := Real.log_le_log ha ha'
  rw [betaln]
  exact ⟨by linarith, by linarith, by linarith⟩

theorem genDirichlet_steep (k : ℕ) : Steep (genDirichlet k) (genDirichletDom k) := fun M C => by
  let al : (Fin k → ℝ) × (Fin k → ℝ) → Fin k → ℝ := fun q => (genDirichletAlphaBeta q).1
  let be : (Fin k → ℝ) × (Fin k → ℝ) → Fin k → ℝ := fun q => (genDirichletAlphaBeta q).2
  have cal : ∀ i, Continuous fun q => al q i := fun i => by
    simp only [al, genDirichletAlphaBeta]
    fun_prop
  have cbe : ∀ i, Continuous fun q => be q i := fun i => by
    simp only [be, genDirichletAlphaBeta]
    fun_prop
  have hdom : ∀ q, q ∈ genDirichletDom k ↔ (∀ i, 0 < al q i) ∧ ∀ i, 0 < be q i := fun q => by
    refine and_congr (forall_congr' fun i => ?_) (forall_congr' fun i => ?_)
    · show -1 < q.1 i ↔ 0 < q.1 i + 1
      constructor <;> intro h <;> linarith
    · show _ ↔ 0 < (genDirichletAlphaBeta q).2 i
      rw [genDirichlet_beta]
      simp [betaArg]
  have hbd : ∀ f : (Fin k → ℝ) × (Fin k → ℝ) → ℝ, Continuous f → ∃ c, ∀ q, ‖q‖ ≤ M → f q ≤ c := fun f hf => by
    obtain ⟨c, hc⟩ := (isCompact_closedBall (0 : (Fin k → ℝ) × (Fin k → ℝ)) M).exists_bound_of_continuousOn hf.continuousOn
    exact ⟨c, fun q hq => (le_abs_self _).trans (hc q (by simpa using hq))⟩
  choose ca hca using fun i => hbd _ (cal i)
  choose cb hcb using fun i => hbd _ (cbe i)
  set K := 1 + ∑ i, |ca i| + ∑ i, |cb i| with hKd
  have s1 : 0 ≤ ∑ i, |ca i| := Finset.sum_nonneg fun _ _ => abs_nonneg _
  have s2 : 0 ≤ ∑ i, |cb i| := Finset.sum_nonneg fun _ _ => abs_nonneg _
  have ka : ∀ i, ca i ≤ K := fun i => by
    have := Finset.single_le_sum (f := fun i => |ca i|) (fun _ _ => abs_nonneg _) (Finset.mem_univ i)
    linarith [le_abs_self (ca i)]
  have kb : ∀ i, cb i ≤ K := fun i => by
    have := Finset.single_le_sum (f := fun i => |cb i|) (fun _ _ => abs_nonneg _) (Finset.mem_univ i)
    linarith [le_abs_self (cb i)]
  obtain ⟨c, hc0, hc⟩ := betaln_near K (by linarith)
  set δ := Real.exp (-(C + (k + 1) * c)) with hδ
  refine ⟨Metric.closedBall 0 M ∩ {q | (∀ i, δ ≤ al q i) ∧ ∀ i, δ ≤ be q i},
    (isCompact_closedBall _ _).inter_right ?_, fun q hq => (hdom q).2
      ⟨fun i => (Real.exp_pos _).trans_le (hq.2.1 i), fun i => (Real.exp_pos _).trans_le (hq.2.2 i)⟩,
    fun q hq hM hA => ⟨by simpa using hM, ?_⟩⟩
  · simp only [ofPred_and, ofPred_forall]
    exact (isClosed_iInter fun i => isClosed_le continuous_const (cal i)).inter
      (isClosed_iInter fun i => isClosed_le continuous_const (cbe i))
  obtain ⟨q1, q2⟩ := (hdom q).1 hq
  have hb := fun i => hc (al q i) (be q i) (q1 i) ((hca i q hM).trans (ka i)) (q2 i) ((hcb i q hM).trans (kb i))
  have hA' : ∑ i, betaln (al q i) (be q i) ≤ C := hA
  have hone : ∀ i, betaln (al q i) (be q i) ≤ C + k * c := fun i => by
    have h1 : betaln (al q i) (be q i) + c ≤ ∑ i, (betaln (al q i) (be q i) + c) :=
      Finset.single_le_sum (f := fun i => betaln (al q i) (be q i) + c) (fun i _ => by linarith [(hb i).2.2])
        (Finset.mem_univ i)
    have h2 : ∑ i, (betaln (al q i) (be q i) + c) = ∑ i, betaln (al q i) (be q i) + k * c := by
      simp [Finset.sum_add_distrib]
    linarith
  refine ⟨fun i => ?_, fun i => ?_⟩
  · rw [hδ, ← Real.le_log_iff_exp_le (q1 i)]
    linarith [hone i, (hb i).1]
  · rw [hδ, ← Real.le_log_iff_exp_le (q2 i)]
    linarith [hone i, (hb i).2.1]

end Efax
