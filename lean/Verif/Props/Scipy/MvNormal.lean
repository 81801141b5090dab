import Verif.Props.Scipy.Normal

/-!
# The replacement of several complex normal variables (C58)
-/

namespace Efax

open MeasureTheory Spec Matrix

open scoped ComplexOrder

variable {d : ℕ}

theorem scipy_complexMvNormalCov (V P : Matrix (Fin d) (Fin d) ℂ) :
    Scipy.complexMvNormalCov V P = Textbook.complexMvCov V P := by
  ext (i | i) (j | j) <;> simp [Scipy.complexMvNormalCov, Textbook.complexMvCov] <;> ring

theorem scipy_complexMvNormalInit {V P : Matrix (Fin d) (Fin d) ℂ} :
    Scipy.complexMvNormalInit V P = .ok () ↔ V.PosSemidef ∧ P.IsSymm := by
  rw [Scipy.complexMvNormalInit]
  split_ifs with h
  · exact ⟨fun _ => h, fun _ => rfl⟩
  · exact ⟨fun h' => by simp at h', fun h' => absurd h' h⟩

/-- The variance of a combination of the components. -/
theorem complexMvCov_form (V P : Matrix (Fin d) (Fin d) ℂ) (z : Fin d → ℂ) :
    Textbook.mvParts z ⬝ᵥ Textbook.complexMvCov V P *ᵥ Textbook.mvParts z =
      ((star z ⬝ᵥ V *ᵥ z).re + (star z ⬝ᵥ P *ᵥ star z).re) / 2 := by
  simp only [Textbook.mvParts, Textbook.complexMvCov, dotProduct, mulVec, Fintype.sum_sum_type, Complex.re_sum,
    Finset.mul_sum, ← Finset.sum_add_distrib, Finset.sum_div, fromBlocks_apply₁₁, fromBlocks_apply₁₂,
    fromBlocks_apply₂₁, fromBlocks_apply₂₂, of_apply, Sum.elim_inl, Sum.elim_inr]
  refine Finset.sum_congr rfl fun i _ => Finset.sum_congr rfl fun j _ => ?_
  simp
  ring

/-- Everything that belongs to a covariance of the real and the imaginary parts is accepted. -/
theorem C58_cmv_accepts {V P : Matrix (Fin d) (Fin d) ℂ} (h : (Textbook.complexMvCov V P).PosSemidef) :
    Scipy.complexMvNormalInit V P = .ok () := by
  rw [scipy_complexMvNormalInit]
  have hs : ∀ i j, Textbook.complexMvCov V P j i = Textbook.complexMvCov V P i j := fun i j => by
    have := h.1.apply i j
    rwa [star_trivial] at this
  have h1 := fun i j : Fin d => hs (.inl i) (.inl j)
  have h2 := fun i j : Fin d => hs (.inr i) (.inr j)
  have h3 := fun i j : Fin d => hs (.inl i) (.inr j)
  simp only [Textbook.complexMvCov, fromBlocks_apply₁₁, fromBlocks_apply₁₂, fromBlocks_apply₂₁,
    fromBlocks_apply₂₂, of_apply, Complex.add_re, Complex.add_im, Complex.sub_re, Complex.sub_im] at h1 h2 h3
  have hP : P.IsSymm := by
    ext i j
    apply Complex.ext
    · have := h1 i j
      have := h2 i j
      simp only [transpose_apply]
      linarith
    · have := h3 i j
      have := h3 j i
      simp only [transpose_apply]
      linarith
  have hV : V.IsHermitian := by
    ext i j
    rw [conjTranspose_apply]
    apply Complex.ext
    · have := h1 i j
      have := h2 i j
      simp
      linarith
    · have := h3 i j
      have := h3 j i
      simp
      linarith
  refine ⟨posSemidef_iff_dotProduct_mulVec.2 ⟨hV, fun z => ?_⟩, hP⟩
  have f1 := (posSemidef_iff_dotProduct_mulVec.1 h).2 (Textbook.mvParts z)
  have f2 := (posSemidef_iff_dotProduct_mulVec.1 h).2 (Textbook.mvParts (Complex.I • z))
  rw [star_trivial, complexMvCov_form] at f1 f2
  have e1 : star (Complex.I • z) ⬝ᵥ V *ᵥ (Complex.I • z) = star z ⬝ᵥ V *ᵥ z := by
    rw [star_smul, mulVec_smul, smul_dotProduct, dotProduct_smul, smul_smul]
    simp
  have e2 : star (Complex.I • z) ⬝ᵥ P *ᵥ star (Complex.I • z) = -(star z ⬝ᵥ P *ᵥ star z) := by
    rw [star_smul, mulVec_smul, smul_dotProduct, dotProduct_smul, smul_smul]
    simp
  rw [e1, e2, Complex.neg_re] at f2
  refine Complex.nonneg_iff.2 ⟨by linarith, ?_⟩
  have := hV.im_star_dotProduct_mulVec_self z
  exact this.symm

/-- The converse fails: the code accepts pseudo-variances that no random vector has. -/
theorem C58_cmv_accepts_violated (hd : 0 < d) : ∃ V P : Matrix (Fin d) (Fin d) ℂ,
    Scipy.complexMvNormalInit V P = .ok () ∧ ¬ (Textbook.complexMvCov V P).PosSemidef := by
  refine ⟨1, (2 : ℂ) • 1, scipy_complexMvNormalInit.2 ⟨PosSemidef.one, ?_⟩, fun h => ?_⟩
  · rw [IsSymm, transpose_smul, transpose_one]
  · have := h.diag_nonneg (i := .inr ⟨0, hd⟩)
    simp [Textbook.complexMvCov] at this
    norm_num at this

/-- `pdf` is the density of the complex normal distribution with the given mean, variance and
pseudo-variance. -/
theorem C58_cmv_pdf {V P : Matrix (Fin d) (Fin d) ℂ} (h : (Textbook.complexMvCov V P).PosDef)
    (m z : Fin d → ℂ) : Scipy.complexMvNormalPdf m V P z = .ok (Textbook.complexMvNormal m V P z) := by
  have hi := C58_cmv_accepts h.posSemidef
  simp only [Scipy.complexMvNormalPdf, hi, Bind.bind, Except.bind]
  rw [scipy_complexMvNormalCov, C58_mvn_pdf h]
  rfl

theorem crossEntropy_mvParts {f : (Fin d ⊕ Fin d → ℝ) → ℝ} {h : ℝ} (hf : IsCrossEntropy volume f f h) :
    IsCrossEntropy volume (fun z => f (Textbook.mvParts z)) (fun z => f (Textbook.mvParts z)) h := by
  have hm : MeasurePreserving (unstack d) volume volume := ⟨(unstack d).measurable, unstack_volume d⟩
  have hm := hm.symm (unstack d)
  have e : ∀ z, (unstack d).symm z = Textbook.mvParts z := fun z => unstack_symm z
  refine ⟨?_, ?_⟩
  · have := (hm.integrable_comp_emb (unstack d).symm.measurableEmbedding).2 hf.1
    simpa only [Function.comp_def, e] using this
  · have := hm.integral_comp (unstack d).symm.measurableEmbedding fun x => -Real.log (f x) * f x
    simp only [e] at this
    exact this.trans hf.2

/-- `entropy` is the differential entropy. -/
theorem C58_cmv_entropy {V P : Matrix (Fin d) (Fin d) ℂ} (h : (Textbook.complexMvCov V P).PosDef)
    (m : Fin d → ℂ) : ∃ e, Scipy.complexMvNormalEntropy V P = .ok e ∧
      IsCrossEntropy volume (Textbook.complexMvNormal m V P) (Textbook.complexMvNormal m V P) e := by
  have hi := C58_cmv_accepts h.posSemidef
  obtain ⟨e, h1, h2⟩ := C58_mvn_entropy h (Textbook.mvParts m)
  refine ⟨e, ?_, crossEntropy_mvParts h2⟩
  simp only [Scipy.complexMvNormalEntropy, hi, Bind.bind, Except.bind]
  rw [scipy_complexMvNormalCov, h1]

theorem complexMvCov_posDef {V : Matrix (Fin d) (Fin d) ℂ} (h : V.PosDef) :
    (Textbook.complexMvCov V 0).PosDef := by
  rw [complexMvCov_realify]
  exact (realify_posDef h).smul (by norm_num)

/-- The circularly symmetric family has the density of its replacement, and its entropy. -/
theorem C58_cmv_circular_family {q : Matrix (Fin d) (Fin d) ℂ} (hq : q ∈ cmvCircularDom d) :
    (∀ z, Scipy.complexMvNormalPdf 0 ((cmvCircular d).toExp q) 0 z = .ok ((cmvCircular d).pdf q z)) ∧
      Scipy.complexMvNormalEntropy ((cmvCircular d).toExp q) 0 =
        .ok ((cmvCircular d).entropyN cmvCircularEcm q) := by
  have h := complexMvCov_posDef (C31_cmv_circular.1 q hq).1
  refine ⟨fun z => by rw [C58_cmv_pdf h, C57_cmv_circular d hq], ?_⟩
  obtain ⟨e, h1, h2⟩ := C58_cmv_entropy h 0
  have h3 := (C35_cmv_circular d q hq).1
  rw [funext (C57_cmv_circular d hq)] at h3
  rw [h1, isCrossEntropy_unique h2 h3]

/-- Unit variance. -/
theorem C58_cmv_unit_family (q : Fin d → ℂ) :
    (∀ z, Scipy.complexMvNormalPdf ((cmvUnit d).toExp q) 1 0 z = .ok ((cmvUnit d).pdf q z)) ∧
      Scipy.complexMvNormalEntropy (1 : Matrix (Fin d) (Fin d) ℂ) 0 = .ok ((cmvUnit d).entropyN cmvUnitEcm q) := by
  have h := complexMvCov_posDef (PosDef.one (n := Fin d) (R := ℂ))
  refine ⟨fun z => by rw [C58_cmv_pdf h, C57_cmv_unit], ?_⟩
  obtain ⟨e, h1, h2⟩ := C58_cmv_entropy h ((cmvUnit d).toExp q)
  have h3 := (C35_cmv_unit d q trivial).1
  rw [funext (C57_cmv_unit d q)] at h3
  rw [h1, isCrossEntropy_unique h2 h3]

variable {factor : Matrix (Fin d ⊕ Fin d) (Fin d ⊕ Fin d) ℝ → Matrix (Fin d ⊕ Fin d) (Fin d ⊕ Fin d) ℝ}
  {V P : Matrix (Fin d) (Fin d) ℂ}

/-- `rvs` has the given mean, variance and pseudo-variance. -/
theorem C58_cmv_rvs (hf : factor (Scipy.complexMvNormalCov V P) * (factor (Scipy.complexMvNormalCov V P))ᵀ =
    Scipy.complexMvNormalCov V P) (m : Fin d → ℂ) :
    ComplexMoments (Scipy.complexMvNormalRvs factor m V P) m V P := by
  have h := complexMoments_of (randomMultivariateNormal_moments hf (Scipy.complexMvNormalMean m))
    (Sum.inl (α := Fin d)) Sum.inr
  have e1 : (fun i => (Scipy.complexMvNormalMean m (Sum.inl i) : ℂ) +
      Complex.I * (Scipy.complexMvNormalMean m (Sum.inr i) : ℂ)) = m := by
    funext i
    rw [mul_comm]
    exact Complex.re_add_im _
  rw [e1] at h
  refine ⟨h.prob, h.integrable, h.mean, h.integrableV, fun i j => (h.variance i j).trans ?_, h.integrableP,
    fun i j => (h.pseudoVariance i j).trans ?_⟩
  · apply Complex.ext <;> simp [Scipy.complexMvNormalCov] <;> ring
  · apply Complex.ext <;> simp [Scipy.complexMvNormalCov] <;> ring

/-- `rvs` has the density `pdf`. -/
theorem C58_cmv_rvs_law (h : (Textbook.complexMvCov V P).PosDef)
    (hf : factor (Scipy.complexMvNormalCov V P) * (factor (Scipy.complexMvNormalCov V P))ᵀ =
      Scipy.complexMvNormalCov V P) (m : Fin d → ℂ) : Scipy.complexMvNormalRvs factor m V P =
      volume.withDensity fun z => ENNReal.ofReal (Textbook.complexMvNormal m V P z) := by
  have hd := h.det_pos
  have e : (fun (z : Fin d ⊕ Fin d → ℝ) i => (z (Sum.inl i) : ℂ) + Complex.I * (z (Sum.inr i) : ℂ)) =
      unstack d := by
    funext z i
    rw [unstack_apply]
  rw [Scipy.complexMvNormalRvs, randomMultivariateNormal_density (by rwa [scipy_complexMvNormalCov]) hf, e,
    scipy_complexMvNormalCov]
  ext s hs
  rw [MeasurableEquiv.map_apply, withDensity_apply _ hs, withDensity_apply _ ((unstack d).measurable hs)]
  have hm : MeasurePreserving (unstack d) volume volume := ⟨(unstack d).measurable, unstack_volume d⟩
  rw [← hm.setLIntegral_comp_preimage_emb (unstack d).measurableEmbedding]
  refine lintegral_congr fun x => ?_
  rw [Textbook.complexMvNormal]
  congr 2
  exact ((unstack_symm _).symm.trans ((unstack d).symm_apply_apply x)).symm

/-- A suitable factor exists whenever there is a random vector. -/
example : ∃ L, L * Lᵀ = Scipy.complexMvNormalCov (1 : Matrix (Fin 2) (Fin 2) ℂ) 0 :=
  exists_factor (by rw [scipy_complexMvNormalCov]; exact (complexMvCov_posDef PosDef.one).posSemidef)

example : (Textbook.complexMvCov (1 : Matrix (Fin 2) (Fin 2) ℂ) 0).PosDef := complexMvCov_posDef PosDef.one

end Efax
