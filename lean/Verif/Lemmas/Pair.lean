import Verif.Lemmas.ExpFam2
import Verif.Spec.Kind
import Mathlib.MeasureTheory.Integral.Prod

/-!
# Pairs of independent observations

The product of two regular families is regular, so that everything that holds for all regular families
holds for joint distributions.
-/

namespace Efax

open MeasureTheory Spec Filter Topology

variable {N N' E E' X X' : Type}

theorem prodFam_pdf (F : ExpFam N E X) (G : ExpFam N' E' X') (q : N × N') (x : X × X') :
    (prodFam F G).pdf q x = F.pdf q.1 x.1 * G.pdf q.2 x.2 := by
  simp only [ExpFam.pdf, ← Real.exp_add, ExpFam.logPdf, prodFam]
  congr 1
  ring

variable [AddCommGroup N] [Module ℝ N] [MeasurableSpace X] [AddCommGroup N'] [Module ℝ N']
  [MeasurableSpace X'] {F : ExpFam N E X} {G : ExpFam N' E' X'} {μ : Measure X} {ν : Measure X'}
  {dom : Set N} {dom' : Set N'} {dirs : Submodule ℝ N} {dirs' : Submodule ℝ N'}

theorem Spec.HasMean.fst [SigmaFinite μ] [SigmaFinite ν] {f g : X → ℝ} {f' : X' → ℝ} {a : ℝ}
    (h : HasMean μ f g a) (h' : IsDensity ν f') :
    HasMean (μ.prod ν) (fun x => f x.1 * f' x.2) (fun x => g x.1) a := by
  have e : (fun x : X × X' => g x.1 * (f x.1 * f' x.2)) = fun x => (g x.1 * f x.1) * f' x.2 := by
    funext x; ring
  rw [HasMean, e]
  refine ⟨h.1.mul_prod h'.integrable, ?_⟩
  rw [integral_prod_mul (fun x => g x * f x) f', h.2, h'.2, mul_one]

theorem Spec.HasMean.snd [SigmaFinite μ] [SigmaFinite ν] {f : X → ℝ} {f' g : X' → ℝ} {a : ℝ}
    (h : IsDensity μ f) (h' : HasMean ν f' g a) :
    HasMean (μ.prod ν) (fun x => f x.1 * f' x.2) (fun x => g x.2) a := by
  have e : (fun x : X × X' => g x.2 * (f x.1 * f' x.2)) = fun x => f x.1 * (g x.2 * f' x.2) := by
    funext x; ring
  rw [HasMean, e]
  refine ⟨h.integrable.mul_prod h'.1, ?_⟩
  rw [integral_prod_mul f (fun x => g x * f' x), h.2, h'.2, one_mul]

theorem Spec.LocallyRegular.prod [SigmaFinite μ] [SigmaFinite ν] (R : LocallyRegular F μ dom dirs)
    (R' : LocallyRegular G ν dom' dirs') :
    LocallyRegular (prodFam F G) (μ.prod ν) (dom ×ˢ dom') (dirs.prod dirs') where
  dot_add η v t w := by
    simp only [prodFam, Prod.fst_add, Prod.snd_add, Prod.smul_fst, Prod.smul_snd, R.dot_add, R'.dot_add]
    ring
  is_open η h v hv := by
    filter_upwards [R.is_open _ h.1 _ hv.1, R'.is_open _ h.2 _ hv.2] with t h1 h2 using ⟨h1, h2⟩
  mem_dirs η h := ⟨R.mem_dirs _ h.1, R'.mem_dirs _ h.2⟩
  density η h := by
    refine ⟨fun x => ((prodFam F G).pdf_pos η x).le, ?_⟩
    simp only [prodFam_pdf]
    rw [integral_prod_mul (F.pdf η.1) (G.pdf η.2), (R.density _ h.1).2, (R'.density _ h.2).2, mul_one]
  gradient η h v hv := (R.gradient _ h.1 _ hv.1).add (R'.gradient _ h.2 _ hv.2)

theorem Spec.LocallyRegular.ne_zero (R : LocallyRegular F μ dom dirs) {q : N} (h : q ∈ dom) : μ ≠ 0 := by
  rintro rfl
  have := (R.density q h).2
  simp at this

/-- Statistics of a pair that are constant are constant in each component. -/
theorem Spec.Minimal.prod [SFinite ν] [SFinite μ] (hμ : μ ≠ 0) (hν : ν ≠ 0)
    (M : Minimal F μ dirs) (M' : Minimal G ν dirs') :
    Minimal (prodFam F G) (μ.prod ν) (dirs.prod dirs') := by
  rintro ⟨v, w⟩ ⟨hv, hw⟩ c h
  have : (ae μ).NeBot := ae_neBot.2 hμ
  have : (ae ν).NeBot := ae_neBot.2 hν
  have h1 := Measure.ae_ae_of_ae_prod h
  have h2 : ∀ᵐ y ∂ν, ∀ᵐ x ∂μ, (prodFam F G).dot (v, w) ((prodFam F G).stat (x, y)) = c := by
    have h3 := (Measure.measurePreserving_swap (μ := ν) (ν := μ)).quasiMeasurePreserving.ae h
    exact Measure.ae_ae_of_ae_prod h3
  obtain ⟨y, hy⟩ := h2.exists
  obtain ⟨x, hx⟩ := h1.exists
  refine Prod.ext (M v hv (c - G.dot w (G.stat y)) ?_) (M' w hw (c - F.dot v (F.stat x)) ?_)
  · filter_upwards [hy] with x hx
    rw [← hx]
    exact (add_sub_cancel_right _ _).symm
  · filter_upwards [hx] with y hy
    rw [← hy]
    exact (add_sub_cancel_left _ _).symm

/-- The family with one observation is regular. -/
theorem unitFam_regular : LocallyRegular unitFam (Measure.dirac ()) Set.univ ⊤ where
  dot_add _ _ _ _ := by simp [unitFam]
  is_open _ _ _ _ := by simp
  mem_dirs _ _ := trivial
  density _ _ := ⟨fun x => (unitFam.pdf_pos _ x).le, by simp [ExpFam.pdf, ExpFam.logPdf, unitFam]⟩
  gradient _ _ _ _ := by simpa [unitFam] using hasDerivAt_const (0 : ℝ) (0 : ℝ)

theorem unitFam_minimal : Minimal unitFam (Measure.dirac ()) ⊤ := fun _ _ _ _ => rfl

end Efax
