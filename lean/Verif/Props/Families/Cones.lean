import Verif.Spec.Measures
import Mathlib.Analysis.Matrix.PosDef
import Mathlib.Analysis.Complex.Basic
import Mathlib.Data.Real.StarOrdered

/-!
# Natural domains that are cones (C44)

Evidence can be added and weighted without leaving these domains.  The domain of the remaining
families is not a cone: `C44_gamma_not_cone` and `C44_dirichlet_not_cone`.
-/

namespace Efax

open Spec Set

/-- Closed under addition and under multiplication with positive numbers. -/
def Spec.IsCone {N : Type} [Add N] [SMul ℝ N] (dom : Set N) : Prop :=
  (∀ p ∈ dom, ∀ q ∈ dom, p + q ∈ dom) ∧ ∀ p ∈ dom, ∀ a : ℝ, 0 < a → a • p ∈ dom

/-- Bernoulli, Poisson, multinomial, unit normals, normals with fixed variance. -/
theorem C44_cone_univ {N : Type} [Add N] [SMul ℝ N] : IsCone (univ : Set N) :=
  ⟨fun _ _ _ _ => trivial, fun _ _ _ _ => trivial⟩

/-- Geometric, negative binomial, logarithmic, exponential, Rayleigh, Weibull. -/
theorem C44_cone_negative : IsCone (Iio (0 : ℝ)) :=
  ⟨fun p hp q hq => show p + q < 0 from add_neg hp hq, fun _ hp _ ha => mul_neg_of_pos_of_neg ha hp⟩

theorem C44_cone_normal : IsCone normalDom :=
  ⟨fun p hp q hq => show p.2 + q.2 < 0 from add_neg hp hq,
    fun p hp a ha => show a * p.2 < 0 from mul_neg_of_pos_of_neg ha hp⟩

theorem C44_cone_mv_isotropic (d : ℕ) : IsCone (mvIsotropicDom d) :=
  ⟨fun p hp q hq => show p.2 + q.2 < 0 from add_neg hp hq,
    fun p hp a ha => show a * p.2 < 0 from mul_neg_of_pos_of_neg ha hp⟩

theorem C44_cone_mv_diagonal (d : ℕ) : IsCone (mvDiagonalDom d) :=
  ⟨fun _ hp _ hq i => add_neg (hp i) (hq i), fun _ hp _ ha i => mul_neg_of_pos_of_neg ha (hp i)⟩

theorem C44_cone_mv_normal (d : ℕ) : IsCone (mvNormalDom d) := by
  refine ⟨fun p hp q hq => ?_, fun p hp a ha => ?_⟩
  · have : (-p.2 + -q.2).PosDef := Matrix.PosDef.add hp hq
    rwa [← neg_add] at this
  · have : (a • -p.2).PosDef := Matrix.PosDef.smul hp ha
    rwa [smul_neg] at this

theorem C44_cone_complex_normal : IsCone complexNormalDom := by
  refine ⟨fun p hp q hq => ?_, fun p hp a ha => ?_⟩
  · have hp : ‖p.2.2‖ < -p.2.1 := hp
    have hq : ‖q.2.2‖ < -q.2.1 := hq
    have := norm_add_le p.2.2 q.2.2
    change ‖p.2.2 + q.2.2‖ < -(p.2.1 + q.2.1)
    linarith
  · have hp : ‖p.2.2‖ < -p.2.1 := hp
    change ‖a • p.2.2‖ < -(a * p.2.1)
    rw [norm_smul, Real.norm_of_nonneg ha.le]
    nlinarith

open scoped ComplexOrder in
theorem C44_cone_cmv_circular (d : ℕ) : IsCone (cmvCircularDom d) := by
  refine ⟨fun p hp q hq => ?_, fun p hp a ha => ?_⟩
  · have : (-p + -q).PosDef := Matrix.PosDef.add hp hq
    rwa [← neg_add] at this
  · have : (a • -p).PosDef := Matrix.PosDef.smul hp ha
    rwa [smul_neg] at this

example : (-3 : ℝ) ∈ Iio (0 : ℝ) := by norm_num

example : ((1 + 2 * Complex.I, -3, Complex.I) : ℂ × ℝ × ℂ) ∈ complexNormalDom := by
  simp [complexNormalDom]

example : ((fun _ => 1, -1) : (Fin 2 → ℝ) × Matrix (Fin 2) (Fin 2) ℝ) ∈ mvNormalDom 2 := by
  simpa [mvNormalDom] using Matrix.PosDef.one

/-- The natural domain of the gamma family is not a cone. -/
theorem C44_gamma_not_cone : ¬ IsCone gammaDom := fun h => by
  have := (h.1 (-1, -0.9) (by norm_num [gammaDom]) (-1, -0.9) (by norm_num [gammaDom])).2
  norm_num at this

/-- Nor is that of the Dirichlet and beta families. -/
theorem C44_dirichlet_not_cone (n : ℕ) : ¬ IsCone (dirichletDom (n + 1)) := fun h => by
  have := h.1 (fun _ => -0.9) (fun _ => by norm_num) (fun _ => -0.9) (fun _ => by norm_num) 0
  norm_num at this

end Efax
