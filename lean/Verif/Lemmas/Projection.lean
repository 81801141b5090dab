import Verif.Lemmas.ExpFam2

/-! # Densities with the moments of a density of the family -/

namespace Efax

open MeasureTheory Spec

section

variable {X : Type} [MeasurableSpace X] {μ : Measure X} {g f : X → ℝ} {k : ℝ}

theorem divergence_gap {a b : ℝ} (ha : 0 ≤ a) (hb : 0 < b) :
    0 ≤ (Real.log a - Real.log b) * a - (a - b) ∧ ((Real.log a - Real.log b) * a - (a - b) = 0 → a = b) := by
  rcases ha.eq_or_lt with rfl | ha
  · simp [hb.le, hb.ne']
  · have e : (Real.log a - Real.log b) * a - (a - b) = a * (b / a - 1 - Real.log (b / a)) := by
      rw [Real.log_div hb.ne' ha.ne']
      field_simp
      ring
    rw [e]
    have h := Real.log_le_sub_one_of_pos (div_pos hb ha)
    refine ⟨mul_nonneg ha.le (by linarith), fun h0 => ?_⟩
    by_contra hne
    have hr : b / a ≠ 1 := fun h => hne ((div_eq_one_iff_eq ha.ne').1 h).symm
    have := Real.log_lt_sub_one_of_pos (div_pos hb ha) hr
    rcases mul_eq_zero.1 h0 with h | h
    · exact ha.ne' h
    · linarith

theorem Spec.IsKL.gap (hg : IsDensity μ g) (hf : IsDensity μ f) (h : IsKL μ g f k) :
    Integrable (fun x => (Real.log (g x) - Real.log (f x)) * g x - (g x - f x)) μ ∧
    ∫ x, (Real.log (g x) - Real.log (f x)) * g x - (g x - f x) ∂μ = k := by
  have hs : Integrable (fun x => g x - f x) μ := hg.integrable.sub hf.integrable
  refine ⟨h.1.sub hs, ?_⟩
  have h1 : ∫ x, (g x - f x) ∂μ = 0 := by
    rw [integral_sub hg.integrable hf.integrable, hg.2, hf.2, sub_self]
  have h3 := integral_sub h.1 hs
  rw [h1, h.2, sub_zero] at h3
  exact h3

theorem Spec.IsKL.nonneg (hg : IsDensity μ g) (hf : IsDensity μ f) (h0 : ∀ x, 0 < f x)
    (h : IsKL μ g f k) : 0 ≤ k := by
  rw [← (h.gap hg hf).2]
  exact integral_nonneg fun x => (divergence_gap (hg.1 x) (h0 x)).1

theorem Spec.IsKL.eq_zero (hg : IsDensity μ g) (hf : IsDensity μ f) (h0 : ∀ x, 0 < f x)
    (h : IsKL μ g f k) : k = 0 ↔ g =ᵐ[μ] f := by
  constructor
  · rintro rfl
    have hq := h.gap hg hf
    have := (integral_eq_zero_iff_of_nonneg (fun x => (divergence_gap (hg.1 x) (h0 x)).1) hq.1).1 hq.2
    filter_upwards [this] with x hx
    exact (divergence_gap (hg.1 x) (h0 x)).2 hx
  · intro he
    rw [← h.2]
    refine integral_eq_zero_of_ae ?_
    filter_upwards [he] with x hx
    simp [hx]

end

namespace Spec.LocallyRegular

variable {N E X : Type} [AddCommGroup N] [Module ℝ N] [MeasurableSpace X] {F : ExpFam N E X}
  {μ : Measure X} {dom : Set N} {dirs : Submodule ℝ N} (R : LocallyRegular F μ dom dirs)

include R

theorem pythagoras {g : X → ℝ} {k : ℝ} {a b : N} (hg : IsDensity μ g)
    (h : HasMean μ g (fun x => F.dot (a - b) (F.stat x)) (F.dot (a - b) (F.toExp a)))
    (hk : IsKL μ g (F.pdf a) k) : IsKL μ g (F.pdf b) (k + F.kl a b) := by
  refine ((hk.add h).add (HasMean.const hg (F.logNormalizer b - F.logNormalizer a))).congr (fun x => ?_) ?_
  · simp only [F.log_pdf, ExpFam.logPdf, R.dot_sub]
    ring
  · rw [ExpFam.kl, ExpFam.klWith]
    ring

omit R in
theorem surprise {g : X → ℝ} {m : ℝ} {a : N} {χ : ℝ} (hg : IsDensity μ g)
    (h : HasMean μ g (fun x => F.dot a (F.stat x)) χ) (hc : HasMean μ g F.carrier m) :
    IsCrossEntropy μ g (F.pdf a) (-χ + F.logNormalizer a - m) := by
  refine (((h.const_mul (-1)).add (HasMean.const hg (F.logNormalizer a))).sub hc).congr (fun x => ?_) (by ring)
  simp only [F.log_pdf, ExpFam.logPdf]
  ring

theorem conjugate (a b : N) :
    F.dot b (F.toExp a) - F.logNormalizer b = F.dot a (F.toExp a) - F.logNormalizer a - F.kl a b := by
  simp only [ExpFam.kl, ExpFam.klWith, R.dot_sub]
  ring

end Spec.LocallyRegular

end Efax
