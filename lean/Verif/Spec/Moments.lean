import Mathlib.MeasureTheory.Function.L1Space.Integrable
import Mathlib.MeasureTheory.Integral.Bochner.Basic
import Mathlib.Data.Matrix.Mul
import Mathlib.Analysis.Complex.Trigonometric
import Mathlib.Analysis.Complex.Basic

/-!
# Specification: means and covariances of random vectors
-/

namespace Efax.Spec

open MeasureTheory

variable {ι : Type}

/-- A law on vectors of real numbers with the given mean and covariance. -/
structure Moments (μ : Measure (ι → ℝ)) (m : ι → ℝ) (S : Matrix ι ι ℝ) : Prop where
  prob : IsProbabilityMeasure μ
  integrable : ∀ i, Integrable (fun x => x i) μ
  mean : ∀ i, ∫ x, x i ∂μ = m i
  integrable₂ : ∀ i j, Integrable (fun x => (x i - m i) * (x j - m j)) μ
  cov : ∀ i j, ∫ x, (x i - m i) * (x j - m j) ∂μ = S i j

/-- A law on vectors of complex numbers with the given mean, variance `E (z - m)(z - m)ᴴ` and
pseudo-variance `E (z - m)(z - m)ᵀ`. -/
structure ComplexMoments (μ : Measure (ι → ℂ)) (m : ι → ℂ) (V P : Matrix ι ι ℂ) : Prop where
  prob : IsProbabilityMeasure μ
  integrable : ∀ i, Integrable (fun z => z i) μ
  mean : ∀ i, ∫ z, z i ∂μ = m i
  integrableV : ∀ i j, Integrable (fun z => (z i - m i) * starRingEnd ℂ (z j - m j)) μ
  variance : ∀ i j, ∫ z, (z i - m i) * starRingEnd ℂ (z j - m j) ∂μ = V i j
  integrableP : ∀ i j, Integrable (fun z => (z i - m i) * (z j - m j)) μ
  pseudoVariance : ∀ i j, ∫ z, (z i - m i) * (z j - m j) ∂μ = P i j

/-- A law on the complex numbers with the given mean, variance `E |z - m|²` and pseudo-variance
`E (z - m)²`. -/
structure ComplexMoments₁ (μ : Measure ℂ) (m : ℂ) (v : ℝ) (p : ℂ) : Prop where
  prob : IsProbabilityMeasure μ
  integrable : Integrable (fun z => z) μ
  mean : ∫ z, z ∂μ = m
  integrableV : Integrable (fun z => ‖z - m‖ ^ 2) μ
  variance : ∫ z, ‖z - m‖ ^ 2 ∂μ = v
  integrableP : Integrable (fun z => (z - m) ^ 2) μ
  pseudoVariance : ∫ z, (z - m) ^ 2 ∂μ = p

/-- The variance of the component in the direction `φ` of a vector in the plane with the covariance `S`. -/
noncomputable def directional (S : Matrix (Fin 2) (Fin 2) ℝ) (φ : ℝ) : ℝ :=
  dotProduct ![Real.cos φ, Real.sin φ] (Matrix.mulVec S ![Real.cos φ, Real.sin φ])

end Efax.Spec
