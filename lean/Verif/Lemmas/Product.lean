import Verif.Lemmas.Families
import Mathlib.MeasureTheory.Integral.Pi
import Mathlib.MeasureTheory.Measure.Haar.OfBasis

/-!
# Products and restrictions of regular families
-/

namespace Efax

open MeasureTheory Spec Filter Topology

/-- Independent copies of a family. -/
noncomputable def ExpFam.pow {N E X : Type} (F : ExpFam N E X) (d : ℕ) :
    ExpFam (Fin d → N) (Fin d → E) (Fin d → X) where
  dot q p := ∑ i, F.dot (q i) (p i)
  logNormalizer q := ∑ i, F.logNormalizer (q i)
  toExp q i := F.toExp (q i)
  stat x i := F.stat (x i)
  carrier x := ∑ i, F.carrier (x i)

theorem ExpFam.pow_pdf {N E X : Type} (F : ExpFam N E X) (d : ℕ) (q : Fin d → N) (x : Fin d → X) :
    (F.pow d).pdf q x = ∏ i, F.pdf (q i) (x i) := by
  simp only [ExpFam.pdf, ← Real.exp_sum]
  congr 1
  simp only [ExpFam.logPdf, ExpFam.pow, Finset.sum_add_distrib, Finset.sum_sub_distrib]

variable {N E X : Type} [AddCommGroup N] [Module ℝ N] [MeasurableSpace X]

theorem Spec.Regular.pow {F : ExpFam N E X} {μ : Measure X} [SigmaFinite μ] {dom : Set N}
    (R : Regular F μ dom ⊤) (d : ℕ) :
    Regular (F.pow d) (Measure.pi fun _ => μ) {q | ∀ i, q i ∈ dom} ⊤ where
  dot_add η v t w := by
    simp only [ExpFam.pow, Pi.add_apply, Pi.smul_apply, R.dot_add, Finset.sum_add_distrib,
      Finset.mul_sum]
  convex := by
    intro x hx y hy a b ha hb hab i
    exact R.convex (hx i) (hy i) ha hb hab
  is_open η h v _ := by
    refine (eventually_all (p := fun i (t : ℝ) => η i + t • v i ∈ dom)).2 ?_
    exact fun i => R.is_open (η i) (h i) (v i) trivial
  mem_dirs _ _ := trivial
  density η h := by
    refine ⟨fun x => ((F.pow d).pdf_pos η x).le, ?_⟩
    simp only [ExpFam.pow_pdf]
    rw [integral_fintype_prod_eq_prod (f := fun i x => F.pdf (η i) x)]
    exact Finset.prod_eq_one fun i _ => (R.density (η i) (h i)).2
  gradient η h v _ :=
    HasDerivAt.fun_sum (u := Finset.univ) fun i _ => R.gradient (η i) (h i) (v i) trivial

/-- A family whose parameters are an affine image in the parameters of a regular family, and whose
observations correspond to those of the regular family. -/
theorem Spec.Regular.transport {N' E' X' : Type} [AddCommGroup N'] [Module ℝ N']
    [MeasurableSpace X'] {μ' : Measure X'}
    {F : ExpFam N E X} {μ : Measure X} {dom : Set N} {dirs : Submodule ℝ N}
    (R : Regular F μ dom dirs) {F' : ExpFam N' E' X'} {dom' : Set N'} {dirs' : Submodule ℝ N'}
    (φ : X' → X) (hφ : MeasurePreserving φ μ' μ) (hφ' : MeasurableEmbedding φ)
    (a : N' → N) (L : N' →ₗ[ℝ] N) (ha : ∀ q (t : ℝ) v, a (q + t • v) = a q + t • L v)
    (hdot : ∀ η v (t : ℝ) w, F'.dot (η + t • v) w = F'.dot η w + t * F'.dot v w)
    (hdom : ∀ q, q ∈ dom' ↔ q ∈ dirs' ∧ a q ∈ dom) (hL : ∀ v ∈ dirs', L v ∈ dirs)
    (hpdf : ∀ q ∈ dom', ∀ x, F'.pdf q x = F.pdf (a q) (φ x))
    (c : ℝ) (hA : ∀ q ∈ dom', F'.logNormalizer q = F.logNormalizer (a q) + c)
    (hexp : ∀ q ∈ dom', ∀ v ∈ dirs', F'.dot v (F'.toExp q) = F.dot (L v) (F.toExp (a q))) :
    Regular F' μ' dom' dirs' where
  dot_add := hdot
  convex := by
    intro x hx y hy s t hs ht hst
    rw [hdom] at hx hy ⊢
    refine ⟨dirs'.add_mem (dirs'.smul_mem _ hx.1) (dirs'.smul_mem _ hy.1), ?_⟩
    have e : s • x + t • y = x + t • (y - x) := by
      rw [← eq_sub_iff_add_eq] at hst
      subst hst
      module
    have e2 : a y = a x + L (y - x) := by
      have := ha x 1 (y - x)
      rwa [one_smul, one_smul, add_sub_cancel] at this
    rw [e, ha]
    have := R.convex hx.2 hy.2 hs ht hst
    rw [e2] at this
    convert this using 1
    rw [← eq_sub_iff_add_eq] at hst
    subst hst
    module
  is_open η h v hv := by
    have h' := (hdom η).1 h
    filter_upwards [R.is_open (a η) h'.2 (L v) (hL v hv)] with t ht
    rw [hdom, ha]
    exact ⟨dirs'.add_mem h'.1 (dirs'.smul_mem _ hv), ht⟩
  mem_dirs q h := ((hdom q).1 h).1
  density q h := by
    have hd := R.density _ ((hdom q).1 h).2
    rw [funext (hpdf q h)]
    refine ⟨fun x => hd.1 _, ?_⟩
    rw [hφ.integral_comp hφ' (F.pdf (a q))]
    exact hd.2
  gradient q h v hv := by
    have h' := (hdom q).1 h
    rw [hexp q h v hv]
    refine ((R.gradient (a q) h'.2 (L v) (hL v hv)).add_const c).congr_of_eventuallyEq ?_
    filter_upwards [R.is_open (a q) h'.2 (L v) (hL v hv)] with t ht
    rw [hA, ha]
    rw [hdom, ha]
    exact ⟨dirs'.add_mem h'.1 (dirs'.smul_mem _ hv), ht⟩

/-- Minimality of a transported family. -/
theorem Spec.Minimal.transport {N' E' X' : Type} [AddCommGroup N'] [Module ℝ N']
    [MeasurableSpace X'] {μ' : Measure X'} {F : ExpFam N E X} {μ : Measure X} {dirs : Submodule ℝ N}
    (M : Minimal F μ dirs) {F' : ExpFam N' E' X'} {dirs' : Submodule ℝ N'}
    (φ : X' → X) (hφ : MeasurePreserving φ μ' μ) (hφ' : MeasurableEmbedding φ) (L : N' →ₗ[ℝ] N)
    (hL : ∀ v ∈ dirs', L v ∈ dirs) (hi : Function.Injective L)
    (hdot : ∀ v x, F'.dot v (F'.stat x) = F.dot (L v) (F.stat (φ x))) : Minimal F' μ' dirs' := by
  intro v hv c h
  have := M (L v) (hL v hv) c (by
    rw [← hφ.map_eq, hφ'.ae_map_iff]
    filter_upwards [h] with x hx
    rw [← hdot, hx])
  exact hi (by rw [this, map_zero])

/-- A family whose parameters are an affine image in the parameters of a regular family. -/
theorem Spec.Regular.pullback {N' E' : Type} [AddCommGroup N'] [Module ℝ N']
    {F : ExpFam N E X} {μ : Measure X} {dom : Set N} {dirs : Submodule ℝ N}
    (R : Regular F μ dom dirs) {F' : ExpFam N' E' X} {dom' : Set N'} {dirs' : Submodule ℝ N'}
    (a : N' → N) (L : N' →ₗ[ℝ] N) (ha : ∀ q (t : ℝ) v, a (q + t • v) = a q + t • L v)
    (hdot : ∀ η v (t : ℝ) w, F'.dot (η + t • v) w = F'.dot η w + t * F'.dot v w)
    (hdom : ∀ q, q ∈ dom' ↔ q ∈ dirs' ∧ a q ∈ dom) (hL : ∀ v ∈ dirs', L v ∈ dirs)
    (hpdf : ∀ q ∈ dom', ∀ x, F'.pdf q x = F.pdf (a q) x)
    (c : ℝ) (hA : ∀ q ∈ dom', F'.logNormalizer q = F.logNormalizer (a q) + c)
    (hexp : ∀ q ∈ dom', ∀ v ∈ dirs', F'.dot v (F'.toExp q) = F.dot (L v) (F.toExp (a q))) :
    Regular F' μ dom' dirs' :=
  R.transport id (.id μ) .id a L ha hdot hdom hL hpdf c hA hexp

end Efax
