import Verif.Spec.Ideal
import Verif.Spec.Estimate
import Verif.Spec.Setting

/-!
# Specification: maximum likelihood estimation from samples
-/

namespace Efax.Spec

open MeasureTheory Calc

/-- `d` estimates `c` as the average of `n` independent quantities of variance `σ` does: without bias, with
variance `σ / n`, and far from `c` with a probability that vanishes as `n` grows. -/
structure Averages {Ω : Type} [MeasurableSpace Ω] (P : Measure Ω) (n : ℕ) (d : Ω → ℝ) (c σ : ℝ) : Prop where
  memLp : MemLp d 2 P
  mean : ∫ ω, d ω ∂P = c
  variance : ∫ ω, (d ω - c) ^ 2 ∂P = σ / n
  near : ∀ ε, 0 < ε → P {ω | ε ≤ |d ω - c|} ≤ ENNReal.ofReal (σ / (n * ε ^ 2))

/-- The probabilities of the categories that are drawn. -/
noncomputable def softmax {k : ℕ} (q : Fin k → ℝ) (i : Fin k) : ℝ := Real.exp (q i) / ∑ j, Real.exp (q j)

variable [MachEps] {K : Type}

/-- What `tests/test_sampling.py` 104-126 checks with 65536 samples.  A batch of distributions of the kind `D`
is sampled, and the statistics of the samples are averaged as in `Estimates`.  Every component of the
result (its dot product with a direction `v`) averages the corresponding component of the expectation
parameters `exp` of the batch, with the variance `σ`. -/
def SampleAverages (L : Library Cls) (D : Kind Cls) (S : Setting D) {N : Type}
    (sample : Random K → Sampler K) (lay : Layout D.P N) (exp : D.P → N → D.E) (dom : D.P → N → Prop)
    (σ : D.P → N → D.N → ℝ) : Prop :=
  ∀ (Ω : Type) (_ : MeasurableSpace Ω) (P : Measure Ω) (I : IdealRandom K P) (key : K)
    (ss rs : List ℕ) (p : List ℕ → D.P) (q : List ℕ → N), (∀ n ∈ ss, 0 < n) →
    (∀ i, inB rs i = true → dom (p i) (q i)) →
    let e := D.exp rs p fun i => exp (p i) (q i)
    ∃ (x : Ω → Val) (m : Ω → Dist Cls),
      (∀ ω, sample (I.rng ω) (lay rs p q) key (some ss) = .ok (x ω) ∧
        Estimates L e ss.length (.leaf (x ω)) (m ω)) ∧
      ∀ v : List ℕ → D.N, (∀ i, inB rs i = true → v i ∈ S.dirs) →
        ∃ (d : Ω → List ℕ → ℝ) (c : List ℕ → ℝ),
          (∀ ω, dotCalc (D.nat rs p v) (m ω) = ok (scalars rs (d ω))) ∧
          dotCalc (D.nat rs p v) e = ok (scalars rs c) ∧
          ∀ i, inB rs i = true → Averages P ss.prod (fun ω => d ω i) (c i) (σ (p i) (q i) (v i))

/-- `σ v` is the Fisher information of the distribution with natural parameters `nat`, in the direction `v`:
the second derivative of `log_normalizer`. -/
def Informs (L : Library Cls) (D : Kind Cls) (S : Setting D) {N : Type} (nat : D.P → N → D.N)
    (dom : D.P → N → Prop) (σ : D.P → N → D.N → ℝ) : Prop :=
  ∀ (rs : List ℕ) (p : List ℕ → D.P) (q : List ℕ → N) (v : List ℕ → D.N),
    (∀ i, inB rs i = true → dom (p i) (q i) ∧ v i ∈ S.dirs) → ∃ l : ℝ → ℝ → List ℕ → ℝ,
      (∀ t r : ℝ, (D.nat rs p fun i => S.line (S.line (nat (p i) (q i)) (v i) t) (v i) r).logNormalizer
        L = ok (scalars rs (l t r))) ∧
      ∀ i, inB rs i = true → HasDerivAt (fun t => deriv (fun r => l t r i) 0) (σ (p i) (q i) (v i)) 0

/-- Estimates from samples are unbiased, their variance is the Fisher information over the number of samples,
and they converge to the expectation parameters. -/
def SampleEstimates (L : Library Cls) (D : Kind Cls) (S : Setting D) {N : Type}
    (sample : Random K → Sampler K) (lay : Layout D.P N) (nat : D.P → N → D.N) (exp : D.P → N → D.E)
    (dom : D.P → N → Prop) : Prop :=
  ∃ σ, SampleAverages L D S sample lay exp dom σ ∧ Informs L D S nat dom σ

end Efax.Spec
