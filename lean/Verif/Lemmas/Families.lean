import Verif.Lemmas.ExpFam2
import Verif.Model.Special
import Mathlib.Analysis.Calculus.Deriv.Prod
import Mathlib.Analysis.SpecialFunctions.Log.Deriv
import Mathlib.MeasureTheory.Integral.DominatedConvergence
import Mathlib.MeasureTheory.Measure.OpenPos
import Mathlib.MeasureTheory.Integral.Bochner.Set

/-!
# Building regular families
-/

namespace Efax

open MeasureTheory Spec Filter Topology

/-- A family on a normed space of parameters with an open domain is regular in all directions. -/
theorem Spec.Regular.of_fderiv {N E X : Type} [NormedAddCommGroup N] [NormedSpace ℝ N]
    [MeasurableSpace X] {F : ExpFam N E X} {μ : Measure X} {dom : Set N}
    (hdot : ∀ w, IsLinearMap ℝ fun v => F.dot v w) (hopen : IsOpen dom) (hconv : Convex ℝ dom)
    (hdens : ∀ η ∈ dom, IsDensity μ (F.pdf η))
    (hgrad : ∀ η ∈ dom, ∃ L : N →L[ℝ] ℝ, HasFDerivAt F.logNormalizer L η ∧
      ∀ v, L v = F.dot v (F.toExp η)) : Regular F μ dom ⊤ where
  dot_add η v t w := by rw [(hdot w).map_add, (hdot w).map_smul, smul_eq_mul]
  convex := hconv
  is_open η h v _ := by
    have hc : ContinuousAt (fun t : ℝ => η + t • v) 0 := by fun_prop
    refine hc.eventually_mem ?_
    simpa using hopen.mem_nhds h
  mem_dirs _ _ := Submodule.mem_top
  density := hdens
  gradient η h v _ := by
    obtain ⟨L, hL, hv⟩ := hgrad η h
    have h1 : HasDerivAt (fun t : ℝ => η + t • v) v 0 := by
      simpa using ((hasDerivAt_id (0 : ℝ)).smul_const v).const_add η
    have hL' : HasFDerivAt F.logNormalizer L (η + (0 : ℝ) • v) := by simpa using hL
    have := hL'.comp_hasDerivAt (0 : ℝ) h1
    rw [hv] at this
    exact this

/-- One-parameter families. -/
theorem Spec.Regular.scalar {X : Type} [MeasurableSpace X] {F : ExpFam ℝ ℝ X} {μ : Measure X}
    {dom : Set ℝ} (hdot : ∀ v w, F.dot v w = v * w) (hopen : IsOpen dom) (hconv : Convex ℝ dom)
    (hdens : ∀ η ∈ dom, IsDensity μ (F.pdf η))
    (hgrad : ∀ η ∈ dom, HasDerivAt F.logNormalizer (F.toExp η) η) : Regular F μ dom ⊤ :=
  .of_fderiv (fun w => ⟨fun a b => by simp only [hdot, add_mul], fun c a => by
    simp only [hdot, smul_eq_mul, mul_assoc]⟩) hopen hconv hdens fun η h =>
    ⟨_, (hgrad η h).hasFDerivAt, fun v => by simp [hdot]⟩

theorem Spec.Regular.mean_scalar {X : Type} [MeasurableSpace X] {F : ExpFam ℝ ℝ X}
    {μ : Measure X} {dom : Set ℝ} (R : Regular F μ dom ⊤) (hdot : ∀ v w, F.dot v w = v * w)
    {η : ℝ} (h : η ∈ dom) : HasMean μ (F.pdf η) F.stat (F.toExp η) :=
  (R.mean_dot h (v := 1) Submodule.mem_top).congr (fun x => by rw [hdot, one_mul])
    (by rw [hdot, one_mul])

/-- A density with respect to counting. -/
theorem Spec.IsDensity.of_hasSum {f : ℕ → ℝ} (h0 : ∀ n, 0 ≤ f n) (h : HasSum f 1) :
    IsDensity Measure.count f := by
  refine ⟨h0, ?_⟩
  rw [integral_countable' (integrable_count_iff.2 h.summable.norm)]
  simp [Measure.real, h.tsum_eq]

theorem Spec.HasMean.of_hasSum {f g : ℕ → ℝ} {m : ℝ} (h : HasSum (fun n => g n * f n) m) :
    HasMean Measure.count f g m := by
  have hi : Integrable (fun n => g n * f n) Measure.count := integrable_count_iff.2 h.summable.norm
  refine ⟨hi, ?_⟩
  rw [integral_countable' hi]
  simp [Measure.real, h.tsum_eq]

theorem Spec.IsDensity.of_sum {X : Type} [Fintype X] [MeasurableSpace X]
    [MeasurableSingletonClass X] {f : X → ℝ} (h0 : ∀ n, 0 ≤ f n) (h : ∑ x, f x = 1) :
    IsDensity Measure.count f := by
  refine ⟨h0, ?_⟩
  rw [integral_fintype (Integrable.of_finite)]
  simpa [Measure.real] using h

theorem ae_count {X : Type} [MeasurableSpace X] [MeasurableSingletonClass X] {p : X → Prop}
    (h : ∀ᵐ x ∂(Measure.count : Measure X), p x) (x : X) : p x := by
  by_contra hx
  have h1 : (Measure.count : Measure X) {x} = 0 :=
    measure_mono_null (by intro y hy; rw [Set.mem_singleton_iff.1 hy]; exact hx) (ae_iff.1 h)
  rw [Measure.count_singleton] at h1
  exact one_ne_zero h1

/-- A relation between continuous functions that holds almost everywhere on an open set holds
everywhere on it. -/
theorem ae_open {X : Type} [TopologicalSpace X] [MeasurableSpace X] [OpensMeasurableSpace X]
    {μ : Measure X} [μ.IsOpenPosMeasure] {U : Set X} (hU : IsOpen U) {f : X → ℝ} {c : ℝ}
    (hf : ContinuousOn f U) (h : ∀ᵐ x ∂μ.restrict U, f x = c) : ∀ x ∈ U, f x = c :=
  Measure.eqOn_open_of_ae_eq (f := f) (g := fun _ => c) h hU hf continuousOn_const

end Efax
