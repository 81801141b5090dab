import Mathlib.MeasureTheory.Integral.Bochner.Basic
import Mathlib.Analysis.SpecialFunctions.Log.Basic
import Mathlib.Analysis.Calculus.Deriv.Basic
import Mathlib.Analysis.Convex.Function
import Verif.Model.ExpFam

/-!
# Specification: densities, expectations, divergences
-/

namespace Efax.Spec

open MeasureTheory

/-- Conversions between two domains that undo each other. -/
def Inverses {N E : Type} (toExp : N → E) (toNat : E → N) (dom : Set N) (mdom : Set E) :
    Prop :=
  (∀ η ∈ dom, toExp η ∈ mdom ∧ toNat (toExp η) = η) ∧
  ∀ χ ∈ mdom, toNat χ ∈ dom ∧ toExp (toNat χ) = χ

/-- Conversion of the expectation parameters `χ ∈ mdom` by search.

* every search vector gives valid natural parameters;
* the search gradient vanishes exactly at the search vectors whose natural parameters have the
  expectation parameters `χ`;
* a root is the right answer: no other valid natural parameters have these expectations;
* a root exists whenever some natural parameters in `reach` have the expectations `χ`. -/
structure SearchCorrect {S N E G : Type} [Zero G] (toExp : N → E) (dom reach : Set N) (mdom : Set E)
    (searchToNatural : E → S → N) (gradient : E → S → G) : Prop where
  valid : ∀ χ ∈ mdom, ∀ s, searchToNatural χ s ∈ dom
  root : ∀ χ ∈ mdom, ∀ s, gradient χ s = 0 ↔ toExp (searchToNatural χ s) = χ
  unique : ∀ χ ∈ mdom, ∀ s, gradient χ s = 0 → ∀ q ∈ dom, toExp q = χ → q = searchToNatural χ s
  exists_root : ∀ χ ∈ mdom, ∀ q ∈ reach, toExp q = χ → ∃ s, gradient χ s = 0

section

variable {X : Type} [MeasurableSpace X]

/-- `f` is a probability density with respect to the reference measure `μ`. -/
def IsDensity (μ : Measure X) (f : X → ℝ) : Prop := (∀ x, 0 ≤ f x) ∧ ∫ x, f x ∂μ = 1

/-- Under the density `f`, the quantity `g` has expectation `m` (in particular it has one). -/
def HasMean (μ : Measure X) (f g : X → ℝ) (m : ℝ) : Prop :=
  Integrable (fun x => g x * f x) μ ∧ ∫ x, g x * f x ∂μ = m

/-- The Kullback-Leibler divergence of the density `f` from the density `g` is `k`. -/
def IsKL (μ : Measure X) (f g : X → ℝ) (k : ℝ) : Prop :=
  HasMean μ f (fun x => Real.log (f x) - Real.log (g x)) k

/-- The cross entropy of `g` under `f` is `h`. -/
def IsCrossEntropy (μ : Measure X) (f g : X → ℝ) (h : ℝ) : Prop :=
  HasMean μ f (fun x => -Real.log (g x)) h

/-- Under the density `f` the covariance of `g` and `h` is `c`. -/
def HasCov (μ : Measure X) (f g h : X → ℝ) (c : ℝ) : Prop :=
  ∃ mg mh, HasMean μ f g mg ∧ HasMean μ f h mh ∧
    HasMean μ f (fun x => (g x - mg) * (h x - mh)) c

end

/-- A family with parameters `η ∈ dom`; `dirs` are the directions in which the parameters can vary
(all directions, or for instance the symmetric matrices).

* the pairing is linear in the natural parameter;
* the domain is open in these directions;
* the code's density is a density (C28);
* the directional derivatives of `log_normalizer` are the pairings with `to_exp` (C29). -/
structure LocallyRegular {N E X : Type} [AddCommGroup N] [Module ℝ N] [MeasurableSpace X]
    (F : ExpFam N E X) (μ : Measure X) (dom : Set N) (dirs : Submodule ℝ N) : Prop where
  dot_add : ∀ η v (t : ℝ) w, F.dot (η + t • v) w = F.dot η w + t * F.dot v w
  is_open : ∀ η ∈ dom, ∀ v ∈ dirs, ∀ᶠ t : ℝ in nhds 0, η + t • v ∈ dom
  mem_dirs : ∀ η ∈ dom, η ∈ dirs
  density : ∀ η ∈ dom, IsDensity μ (F.pdf η)
  gradient : ∀ η ∈ dom, ∀ v ∈ dirs,
    HasDerivAt (fun t : ℝ => F.logNormalizer (η + t • v)) (F.dot v (F.toExp η)) 0

/-- The domain is convex, too. -/
structure Regular {N E X : Type} [AddCommGroup N] [Module ℝ N] [MeasurableSpace X]
    (F : ExpFam N E X) (μ : Measure X) (dom : Set N) (dirs : Submodule ℝ N) : Prop
    extends LocallyRegular F μ dom dirs where
  convex : Convex ℝ dom

section

variable {N E X : Type} [AddCommGroup N] [Module ℝ N] [MeasurableSpace X]
  (F : ExpFam N E X) (μ : Measure X) (dom : Set N) (dirs : Submodule ℝ N)

/-- The pairing of the statistics with a non-zero direction is not constant: different parameters
give different distributions. -/
def Minimal : Prop :=
  ∀ v ∈ dirs, ∀ c : ℝ, (∀ᵐ x ∂μ, F.dot v (F.stat x) = c) → v = 0

/-- The expectation parameters are the expectations of the statistics, in all directions. -/
def MeanCorrect : Prop :=
  ∀ η ∈ dom, ∀ v ∈ dirs,
    HasMean μ (F.pdf η) (fun x => F.dot v (F.stat x)) (F.dot v (F.toExp η))

/-- `kl_divergence` is the Kullback-Leibler divergence, and it separates distributions. -/
def KLCorrect : Prop :=
  ∀ p ∈ dom, ∀ q ∈ dom,
    IsKL μ (F.pdf p) (F.pdf q) (F.kl p q) ∧ 0 ≤ F.kl p q ∧ (F.kl p q = 0 ↔ p = q)

/-- The second derivatives of `log_normalizer` are the covariances of the statistics: the entry of
the Hessian in the directions `u`, `v` exists, is the covariance, is symmetric, and the diagonal
entries are non-negative. -/
def FisherCorrect : Prop :=
  ∀ η ∈ dom, ∀ u ∈ dirs, ∀ v ∈ dirs, ∃ c,
    HasCov μ (F.pdf η) (fun x => F.dot u (F.stat x)) (fun x => F.dot v (F.stat x)) c ∧
    HasDerivAt (fun t : ℝ => deriv (fun s : ℝ => F.logNormalizer (η + t • v + s • u)) 0) c 0 ∧
    HasDerivAt (fun t : ℝ => deriv (fun s : ℝ => F.logNormalizer (η + t • u + s • v)) 0) c 0 ∧
    (u = v → 0 ≤ c)

/-- A parameter whose expectations are the means of the statistics of the data maximises the
likelihood of the data. -/
def MLECorrect : Prop :=
  ∀ (data : List X), ∀ q ∈ dom,
    (∀ v ∈ dirs, data.length * F.dot v (F.toExp q) = (data.map fun x => F.dot v (F.stat x)).sum) →
    ∀ q' ∈ dom, (data.map (F.logPdf q')).sum ≤ (data.map (F.logPdf q)).sum

/-- `cross_entropy` and `entropy` of the natural class are the information-theoretic ones. -/
def EntropyCorrect (ecm : E → ℝ) : Prop :=
  ∀ p ∈ dom, IsCrossEntropy μ (F.pdf p) (F.pdf p) (F.entropyN ecm p) ∧ ∀ q ∈ dom,
    IsCrossEntropy μ (F.pdf p) (F.pdf q) (F.crossEntropy ecm (F.toExp p) q) ∧
    F.crossEntropy ecm (F.toExp p) q - F.entropyN ecm p = F.kl p q ∧
    F.entropyN ecm p ≤ F.crossEntropy ecm (F.toExp p) q

/-- Adding natural parameters multiplies densities, up to a factor that does not depend on the
observation and one copy of the carrier; multiples of a parameter are powers. -/
def EvidenceCorrect : Prop :=
  (∀ p q, ∃ c > 0, ∀ x, F.pdf (p + q) x * Real.exp (F.carrier x) = c * (F.pdf p x * F.pdf q x)) ∧
  ∀ p (a : ℝ), ∃ c, ∀ x, F.logPdf (a • p) x - F.carrier x = a * (F.logPdf p x - F.carrier x) + c

end

end Efax.Spec
