import Verif.Lemmas.ExpFam

/-!
# Generic theory of exponential families: divergences, entropy, likelihood
-/

namespace Efax

open MeasureTheory ProbabilityTheory Spec Filter Topology

variable {N E X : Type} [AddCommGroup N] [Module ℝ N] [MeasurableSpace X]

/-- The integrand of the proof that divergences are non-negative. -/
private theorem gap_nonneg (F : ExpFam N E X) (p q : N) (x : X) :
    0 ≤ (Real.log (F.pdf p x) - Real.log (F.pdf q x)) * F.pdf p x - (F.pdf p x - F.pdf q x) := by
  have hp := F.pdf_pos p x
  have hq := F.pdf_pos q x
  have h := Real.log_le_sub_one_of_pos (div_pos hq hp)
  rw [Real.log_div hq.ne' hp.ne'] at h
  have h2 := mul_le_mul_of_nonneg_right h hp.le
  rw [sub_mul (F.pdf q x / F.pdf p x), div_mul_cancel₀ _ hp.ne'] at h2
  nlinarith

private theorem gap_zero (F : ExpFam N E X) (p q : N) (x : X)
    (h0 : (Real.log (F.pdf p x) - Real.log (F.pdf q x)) * F.pdf p x -
      (F.pdf p x - F.pdf q x) = 0) : F.pdf p x = F.pdf q x := by
  have hp := F.pdf_pos p x
  have hq := F.pdf_pos q x
  by_contra hne
  have hr : F.pdf q x / F.pdf p x ≠ 1 := by
    rw [Ne, div_eq_one_iff_eq hp.ne']
    exact fun h => hne h.symm
  have h := Real.log_lt_sub_one_of_pos (div_pos hq hp) hr
  rw [Real.log_div hq.ne' hp.ne'] at h
  have h2 := mul_lt_mul_of_pos_right h hp
  rw [sub_mul (F.pdf q x / F.pdf p x), div_mul_cancel₀ _ hp.ne'] at h2
  nlinarith

namespace Spec.LocallyRegular

variable {F : ExpFam N E X} {μ : Measure X} {dom : Set N} {dirs : Submodule ℝ N}
  (R : LocallyRegular F μ dom dirs)

include R

theorem isKL {p q : N} (hp : p ∈ dom) (hq : q ∈ dom) :
    IsKL μ (F.pdf p) (F.pdf q) (F.kl p q) := by
  refine ((R.mean_dot hp (R.sub_mem q hq p hp)).add (HasMean.const (R.density p hp)
    (F.logNormalizer q - F.logNormalizer p))).congr (fun x => ?_) ?_
  · rw [F.log_pdf, F.log_pdf, ExpFam.logPdf, ExpFam.logPdf, R.dot_sub]
    ring
  · rw [ExpFam.kl, ExpFam.klWith]
    ring

private theorem gap_integral {p q : N} (hp : p ∈ dom) (hq : q ∈ dom) :
    Integrable (fun x => (Real.log (F.pdf p x) - Real.log (F.pdf q x)) * F.pdf p x -
      (F.pdf p x - F.pdf q x)) μ ∧
    ∫ x, (Real.log (F.pdf p x) - Real.log (F.pdf q x)) * F.pdf p x -
      (F.pdf p x - F.pdf q x) ∂μ = F.kl p q := by
  have hk := R.isKL hp hq
  have hs : Integrable (fun x => F.pdf p x - F.pdf q x) μ :=
    (R.integrable hp).sub (R.integrable hq)
  refine ⟨hk.1.sub hs, ?_⟩
  have h1 : ∫ x, (F.pdf p x - F.pdf q x) ∂μ = 0 := by
    rw [integral_sub (R.integrable hp) (R.integrable hq), (R.density p hp).2, (R.density q hq).2,
      sub_self]
  have h2 := hk.2
  have h3 := integral_sub hk.1 hs
  rw [h1, h2, sub_zero] at h3
  exact h3

theorem kl_nonneg {p q : N} (hp : p ∈ dom) (hq : q ∈ dom) : 0 ≤ F.kl p q := by
  rw [← (gap_integral R hp hq).2]
  exact integral_nonneg fun x => gap_nonneg F p q x

theorem kl_zero_ae {p q : N} (hp : p ∈ dom) (hq : q ∈ dom) (h : F.kl p q = 0) :
    F.pdf p =ᵐ[μ] F.pdf q := by
  have hg := gap_integral R hp hq
  rw [h] at hg
  have := (integral_eq_zero_iff_of_nonneg (fun x => gap_nonneg F p q x) hg.1).1 hg.2
  filter_upwards [this] with x hx
  exact gap_zero F p q x hx

theorem kl_self (p : N) : F.kl p p = 0 := by
  have h0 : F.dot (p - p) (F.toExp p) = 0 := by rw [R.dot_sub, sub_self]
  rw [ExpFam.kl, ExpFam.klWith, h0]
  ring

theorem eq_of_ae (M : Minimal F μ dirs) {p q : N} (hp : p ∈ dom) (hq : q ∈ dom)
    (h : F.pdf p =ᵐ[μ] F.pdf q) : p = q := by
  have := M (p - q) (R.sub_mem q hq p hp) (F.logNormalizer p - F.logNormalizer q) (by
    filter_upwards [h] with x hx
    have := congrArg Real.log hx
    rw [F.log_pdf, F.log_pdf, ExpFam.logPdf, ExpFam.logPdf] at this
    rw [R.dot_sub]
    linarith)
  exact sub_eq_zero.1 this

theorem kl_eq_zero_iff (M : Minimal F μ dirs) {p q : N} (hp : p ∈ dom) (hq : q ∈ dom) :
    F.kl p q = 0 ↔ p = q := by
  constructor
  · exact fun h => R.eq_of_ae M hp hq (R.kl_zero_ae hp hq h)
  · rintro rfl
    exact R.kl_self p

theorem meanCorrect : MeanCorrect F μ dom dirs := fun _ h _ hv => R.mean_dot h hv

theorem klCorrect (M : Minimal F μ dirs) : KLCorrect F μ dom := fun _ hp _ hq =>
  ⟨R.isKL hp hq, R.kl_nonneg hp hq, R.kl_eq_zero_iff M hp hq⟩

/-- Parameters with the same expectations in all directions are equal. -/
theorem toExp_inj_dirs (M : Minimal F μ dirs) {p q : N} (hp : p ∈ dom) (hq : q ∈ dom)
    (h : ∀ v ∈ dirs, F.dot v (F.toExp p) = F.dot v (F.toExp q)) : p = q := by
  have h1 := R.kl_nonneg hp hq
  have h2 := R.kl_nonneg hq hp
  have h3 : F.kl p q + F.kl q p = 0 := by
    have hv := h (p - q) (R.sub_mem q hq p hp)
    rw [ExpFam.kl, ExpFam.kl, ExpFam.klWith, ExpFam.klWith, hv, R.dot_sub, R.dot_sub]
    ring
  exact (R.kl_eq_zero_iff M hp hq).1 (by linarith)

theorem toExp_injOn (M : Minimal F μ dirs) : Set.InjOn F.toExp dom :=
  fun _ hp _ hq h => R.toExp_inj_dirs M hp hq fun _ _ => by rw [h]

theorem support {p q : N} (hp : p ∈ dom) (hq : q ∈ dom) :
    F.logNormalizer p + F.dot (q - p) (F.toExp p) ≤ F.logNormalizer q := by
  have := R.kl_nonneg hp hq
  rw [ExpFam.kl, ExpFam.klWith, R.dot_sub] at this
  rw [R.dot_sub]
  linarith

theorem convexOn_of {D : Set N} (hD : D ⊆ dom) (hc : Convex ℝ D) :
    ConvexOn ℝ D F.logNormalizer := by
  refine ⟨hc, fun p hp q hq a b ha hb hab => ?_⟩
  have hz := hD (hc hp hq ha hb hab)
  have hp := hD hp
  have hq := hD hq
  have h1 := R.support hz hp
  have h2 := R.support hz hq
  rw [R.dot_sub, R.dot_plus, R.dot_zero_smul, R.dot_zero_smul] at h1 h2
  simp only [smul_eq_mul]
  have h3 := mul_le_mul_of_nonneg_left h1 ha
  have h4 := mul_le_mul_of_nonneg_left h2 hb
  have hb' : b = 1 - a := by linarith
  subst hb'
  nlinarith

theorem support_strict (M : Minimal F μ dirs) {p q : N} (hp : p ∈ dom) (hq : q ∈ dom)
    (hne : p ≠ q) : F.logNormalizer p + F.dot (q - p) (F.toExp p) < F.logNormalizer q := by
  have h1 := R.kl_nonneg hp hq
  have h2 : 0 < F.kl p q :=
    lt_of_le_of_ne h1 fun h => hne ((R.kl_eq_zero_iff M hp hq).1 h.symm)
  rw [ExpFam.kl, ExpFam.klWith, R.dot_sub] at h2
  rw [R.dot_sub]
  linarith

theorem strictConvexOn_of (M : Minimal F μ dirs) {D : Set N} (hD : D ⊆ dom) (hc : Convex ℝ D) :
    StrictConvexOn ℝ D F.logNormalizer := by
  refine ⟨hc, fun p hp q hq hne a b ha hb hab => ?_⟩
  have hz := hD (hc hp hq ha.le hb.le hab)
  have hp := hD hp
  have hq := hD hq
  have h2 := R.support hz hq
  have hzp : a • p + b • q ≠ p := by
    intro h
    apply hne
    have ha' : a = 1 - b := by linarith
    rw [ha', sub_smul, one_smul] at h
    have h5 : b • (q - p) = 0 := by
      rw [smul_sub]
      have : p - b • p + b • q = p := h
      have h6 : b • q - b • p = (p - b • p + b • q) - p := by abel
      rw [h6, this, sub_self]
    rcases smul_eq_zero.1 h5 with h7 | h7
    · exact absurd h7 hb.ne'
    · exact (sub_eq_zero.1 h7).symm
  have h1 := R.support_strict M hz hp hzp
  rw [R.dot_sub, R.dot_plus, R.dot_zero_smul, R.dot_zero_smul] at h1 h2
  simp only [smul_eq_mul]
  have h3 := mul_lt_mul_of_pos_left h1 ha
  have h4 := mul_le_mul_of_nonneg_left h2 hb.le
  have hb' : b = 1 - a := by linarith
  subst hb'
  nlinarith

theorem mleCorrect : MLECorrect F dom dirs := by
  intro data q hq hd q' hq'
  have h := hd (q - q') (R.sub_mem q' hq' q hq)
  have hk := R.kl_nonneg hq hq'
  have key : (data.map (F.logPdf q)).sum - (data.map (F.logPdf q')).sum =
      (data.map fun x => F.dot (q - q') (F.stat x)).sum +
        data.length * (F.logNormalizer q' - F.logNormalizer q) := by
    clear hd h
    induction data with
    | nil => simp
    | cons x xs ih =>
      simp only [List.map_cons, List.sum_cons, List.length_cons, Nat.cast_add, Nat.cast_one]
      have : F.logPdf q x - F.logPdf q' x = F.dot (q - q') (F.stat x) +
          (F.logNormalizer q' - F.logNormalizer q) := by
        rw [R.dot_sub, ExpFam.logPdf, ExpFam.logPdf]
        ring
      linarith
  rw [← h] at key
  rw [ExpFam.kl, ExpFam.klWith] at hk
  have hn : (0 : ℝ) ≤ data.length := Nat.cast_nonneg _
  nlinarith [mul_nonneg hn hk]

theorem entropyCorrect (ecm : E → ℝ)
    (hc : ∀ p ∈ dom, HasMean μ (F.pdf p) F.carrier (ecm (F.toExp p))) :
    EntropyCorrect F μ dom ecm := by
  have hce : ∀ p ∈ dom, ∀ q ∈ dom,
      IsCrossEntropy μ (F.pdf p) (F.pdf q) (F.crossEntropy ecm (F.toExp p) q) := by
    intro p hp q hq
    refine (((HasMean.const (R.density p hp) (F.logNormalizer q)).sub
      (R.mean_dot hp (R.mem_dirs q hq))).sub (hc p hp)).congr (fun x => ?_) ?_
    · rw [F.log_pdf, ExpFam.logPdf]
      ring
    · rw [ExpFam.crossEntropy]
      ring
  have hsub : ∀ p q, F.crossEntropy ecm (F.toExp p) q - F.entropyN ecm p = F.kl p q := by
    intro p q
    rw [ExpFam.entropyN, ExpFam.crossEntropy, ExpFam.crossEntropy, ExpFam.kl, ExpFam.klWith,
      R.dot_sub]
    ring
  refine fun p hp => ⟨hce p hp p hp, fun q hq => ⟨hce p hp q hq, hsub p q, ?_⟩⟩
  have := hsub p q
  linarith [R.kl_nonneg hp hq]

theorem evidenceCorrect : EvidenceCorrect F := by
  constructor
  · intro p q
    refine ⟨Real.exp (F.logNormalizer p + F.logNormalizer q - F.logNormalizer (p + q)),
      Real.exp_pos _, fun x => ?_⟩
    rw [ExpFam.pdf, ExpFam.pdf, ExpFam.pdf, ← Real.exp_add, ← Real.exp_add, ← Real.exp_add,
      ExpFam.logPdf, ExpFam.logPdf, ExpFam.logPdf, R.dot_plus]
    congr 1
    ring
  · intro p a
    refine ⟨a * F.logNormalizer p - F.logNormalizer (a • p), fun x => ?_⟩
    rw [ExpFam.logPdf, ExpFam.logPdf, R.dot_zero_smul]
    ring

theorem deriv_eq {η v : N} (h : η ∈ dom) (hv : v ∈ dirs) :
    deriv (fun s : ℝ => F.logNormalizer (η + s • v)) 0 = F.dot v (F.toExp η) :=
  (R.gradient η h v hv).deriv

theorem fisherCorrect : FisherCorrect F μ dom dirs := by
  have hd : ∀ η ∈ dom, ∀ u ∈ dirs, ∀ v ∈ dirs, ∀ c,
      HasDerivAt (fun t : ℝ => F.dot u (F.toExp (η + t • v))) c 0 →
      HasDerivAt (fun t : ℝ => deriv (fun s : ℝ => F.logNormalizer (η + t • v + s • u)) 0) c 0 := by
    intro η h u hu v hv c hc
    refine hc.congr_of_eventuallyEq ?_
    filter_upwards [R.is_open η h v hv] with t ht
    exact R.deriv_eq ht hu
  intro η h u hu v hv
  obtain ⟨c, hc, hcd⟩ := R.deriv_toExp h hu hv
  obtain ⟨c', hc', hcd'⟩ := R.deriv_toExp h hv hu
  have hcc : c' = c := by
    obtain ⟨a, b, ha, hb, hab⟩ := hc
    obtain ⟨b', a', hb', ha', hba⟩ := hc'
    obtain rfl := ha.unique ha'
    obtain rfl := hb.unique hb'
    exact hba.unique (hab.congr (fun x => by ring) rfl)
  refine ⟨c, hc, hd η h u hu v hv c hcd, hd η h v hv u hu c (hcc ▸ hcd'), ?_⟩
  rintro rfl
  obtain ⟨a, b, ha, hb, hab⟩ := hc
  obtain rfl := ha.unique hb
  rw [← hab.2]
  exact integral_nonneg fun x => mul_nonneg (mul_self_nonneg _) (F.pdf_pos η x).le

end Spec.LocallyRegular

namespace Spec.Regular

variable {N E X : Type} [AddCommGroup N] [Module ℝ N] [MeasurableSpace X]
  {F : ExpFam N E X} {μ : Measure X} {dom : Set N} {dirs : Submodule ℝ N}

theorem convexOn (R : Regular F μ dom dirs) : ConvexOn ℝ dom F.logNormalizer :=
  R.convexOn_of subset_rfl R.convex

theorem strictConvexOn (R : Regular F μ dom dirs) (M : Minimal F μ dirs) :
    StrictConvexOn ℝ dom F.logNormalizer :=
  R.strictConvexOn_of M subset_rfl R.convex

end Spec.Regular

end Efax
