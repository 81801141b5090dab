import Verif.Props.Families.Carrier

/-!
# Discrete families: densities, gradients, divergences (C28, C29, C33-C35, C42, C44, C45, C55)

Every theorem is an instance of a specification in `Verif.Spec.ExpFam`.
-/

namespace Efax

open MeasureTheory Spec Set

/-! ### Bernoulli -/

theorem C28_bernoulli : ∀ q ∈ univ, IsDensity Measure.count (bernoulli.pdf q) :=
  bernoulli_regular.density

theorem C29_bernoulli : ∀ q ∈ univ, ∀ v, HasDerivAt (fun t : ℝ => bernoulli.logNormalizer (q + t •
    v)) (bernoulli.jvp q v) 0 :=
  fun q h v => bernoulli_regular.gradient q h v trivial

theorem C33_bernoulli : InjOn bernoulli.toExp univ :=
  bernoulli_regular.toExp_injOn bernoulli_minimal

theorem C34_bernoulli : KLCorrect bernoulli Measure.count univ :=
  bernoulli_regular.klCorrect bernoulli_minimal

theorem C35_bernoulli : EntropyCorrect bernoulli Measure.count univ bernoulliEcm :=
  bernoulli_regular.entropyCorrect _ (fun q _ => C36_bernoulli q)

theorem C42_bernoulli : FisherCorrect bernoulli Measure.count univ ⊤ :=
  bernoulli_regular.fisherCorrect

theorem C44_bernoulli : EvidenceCorrect bernoulli :=
  bernoulli_regular.evidenceCorrect

theorem C45_bernoulli : MLECorrect bernoulli univ ⊤ :=
  bernoulli_regular.mleCorrect

theorem C55_bernoulli : StrictConvexOn ℝ univ bernoulli.logNormalizer :=
  bernoulli_regular.strictConvexOn bernoulli_minimal

/-! ### Poisson -/

theorem C28_poisson : ∀ q ∈ univ, IsDensity Measure.count (poisson.pdf q) :=
  poisson_regular.density

theorem C29_poisson : ∀ q ∈ univ, ∀ v, HasDerivAt (fun t : ℝ => poisson.logNormalizer (q + t • v))
    (poisson.jvp q v) 0 :=
  fun q h v => poisson_regular.gradient q h v trivial

theorem C33_poisson : InjOn poisson.toExp univ :=
  poisson_regular.toExp_injOn poisson_minimal

theorem C34_poisson : KLCorrect poisson Measure.count univ :=
  poisson_regular.klCorrect poisson_minimal

theorem C42_poisson : FisherCorrect poisson Measure.count univ ⊤ :=
  poisson_regular.fisherCorrect

theorem C44_poisson : EvidenceCorrect poisson :=
  poisson_regular.evidenceCorrect

theorem C45_poisson : MLECorrect poisson univ ⊤ :=
  poisson_regular.mleCorrect

theorem C55_poisson : StrictConvexOn ℝ univ poisson.logNormalizer :=
  poisson_regular.strictConvexOn poisson_minimal

/-! ### Negative binomial -/

theorem C28_negative_binomial {r : ℕ} (hr : 1 ≤ r) : ∀ q ∈ Iio 0, IsDensity Measure.count
    ((negativeBinomial r).pdf q) :=
  (negativeBinomial_regular hr).density

theorem C29_negative_binomial {r : ℕ} (hr : 1 ≤ r) : ∀ q ∈ Iio 0, ∀ v, HasDerivAt (fun t : ℝ =>
    (negativeBinomial r).logNormalizer (q + t • v)) ((negativeBinomial r).jvp q v) 0 :=
  fun q h v => (negativeBinomial_regular hr).gradient q h v trivial

theorem C33_negative_binomial {r : ℕ} (hr : 1 ≤ r) : InjOn (negativeBinomial r).toExp (Iio 0) :=
  (negativeBinomial_regular hr).toExp_injOn (negativeBinomial_minimal r)

theorem C34_negative_binomial {r : ℕ} (hr : 1 ≤ r) : KLCorrect (negativeBinomial r) Measure.count
    (Iio 0) :=
  (negativeBinomial_regular hr).klCorrect (negativeBinomial_minimal r)

theorem C42_negative_binomial {r : ℕ} (hr : 1 ≤ r) : FisherCorrect (negativeBinomial r)
    Measure.count (Iio 0) ⊤ :=
  (negativeBinomial_regular hr).fisherCorrect

theorem C44_negative_binomial {r : ℕ} (hr : 1 ≤ r) : EvidenceCorrect (negativeBinomial r) :=
  (negativeBinomial_regular hr).evidenceCorrect

theorem C45_negative_binomial {r : ℕ} (hr : 1 ≤ r) : MLECorrect (negativeBinomial r) (Iio 0) ⊤ :=
  (negativeBinomial_regular hr).mleCorrect

theorem C55_negative_binomial {r : ℕ} (hr : 1 ≤ r) : StrictConvexOn ℝ (Iio 0) (negativeBinomial
    r).logNormalizer :=
  (negativeBinomial_regular hr).strictConvexOn (negativeBinomial_minimal r)

/-! ### Geometric -/

theorem C28_geometric : ∀ q ∈ Iio 0, IsDensity Measure.count (geometric.pdf q) :=
  geometric_regular.density

theorem C29_geometric : ∀ q ∈ Iio 0, ∀ v, HasDerivAt (fun t : ℝ => geometric.logNormalizer (q + t
    • v)) (geometric.jvp q v) 0 :=
  fun q h v => geometric_regular.gradient q h v trivial

theorem C33_geometric : InjOn geometric.toExp (Iio 0) :=
  geometric_regular.toExp_injOn geometric_minimal

theorem C34_geometric : KLCorrect geometric Measure.count (Iio 0) :=
  geometric_regular.klCorrect geometric_minimal

theorem C35_geometric : EntropyCorrect geometric Measure.count (Iio 0) geometricEcm :=
  geometric_regular.entropyCorrect _ (fun _ h => C36_geometric h)

theorem C42_geometric : FisherCorrect geometric Measure.count (Iio 0) ⊤ :=
  geometric_regular.fisherCorrect

theorem C44_geometric : EvidenceCorrect geometric :=
  geometric_regular.evidenceCorrect

theorem C45_geometric : MLECorrect geometric (Iio 0) ⊤ :=
  geometric_regular.mleCorrect

theorem C55_geometric : StrictConvexOn ℝ (Iio 0) geometric.logNormalizer :=
  geometric_regular.strictConvexOn geometric_minimal

/-! ### Logarithmic -/

theorem C28_logarithmic : ∀ q ∈ Iio 0, IsDensity Measure.count (logarithmic.pdf q) :=
  logarithmic_regular.density

theorem C29_logarithmic : ∀ q ∈ Iio 0, ∀ v, HasDerivAt (fun t : ℝ => logarithmic.logNormalizer (q
    + t • v)) (logarithmic.jvp q v) 0 :=
  fun q h v => logarithmic_regular.gradient q h v trivial

theorem C33_logarithmic : InjOn logarithmic.toExp (Iio 0) :=
  logarithmic_regular.toExp_injOn logarithmic_minimal

theorem C34_logarithmic : KLCorrect logarithmic Measure.count (Iio 0) :=
  logarithmic_regular.klCorrect logarithmic_minimal

theorem C42_logarithmic : FisherCorrect logarithmic Measure.count (Iio 0) ⊤ :=
  logarithmic_regular.fisherCorrect

theorem C44_logarithmic : EvidenceCorrect logarithmic :=
  logarithmic_regular.evidenceCorrect

theorem C45_logarithmic : MLECorrect logarithmic (Iio 0) ⊤ :=
  logarithmic_regular.mleCorrect

theorem C55_logarithmic : StrictConvexOn ℝ (Iio 0) logarithmic.logNormalizer :=
  logarithmic_regular.strictConvexOn logarithmic_minimal

/-! ### Multinomial -/

theorem C28_multinomial (d : ℕ) : ∀ q ∈ univ, IsDensity (categories d) ((multinomial d).pdf q) :=
  (multinomial_regular d).density

theorem C29_multinomial (d : ℕ) : ∀ q ∈ univ, ∀ v, HasDerivAt (fun t : ℝ => (multinomial
    d).logNormalizer (q + t • v)) ((multinomial d).jvp q v) 0 :=
  fun q h v => (multinomial_regular d).gradient q h v trivial

theorem C33_multinomial (d : ℕ) : InjOn (multinomial d).toExp univ :=
  (multinomial_regular d).toExp_injOn (multinomial_minimal d)

theorem C34_multinomial (d : ℕ) : KLCorrect (multinomial d) (categories d) univ :=
  (multinomial_regular d).klCorrect (multinomial_minimal d)

theorem C35_multinomial (d : ℕ) : EntropyCorrect (multinomial d) (categories d) univ
    multinomialEcm :=
  (multinomial_regular d).entropyCorrect _ (fun q _ => C36_multinomial q)

theorem C42_multinomial (d : ℕ) : FisherCorrect (multinomial d) (categories d) univ ⊤ :=
  (multinomial_regular d).fisherCorrect

theorem C44_multinomial (d : ℕ) : EvidenceCorrect (multinomial d) :=
  (multinomial_regular d).evidenceCorrect

theorem C45_multinomial (d : ℕ) : MLECorrect (multinomial d) univ ⊤ :=
  (multinomial_regular d).mleCorrect

theorem C55_multinomial (d : ℕ) : StrictConvexOn ℝ univ (multinomial d).logNormalizer :=
  (multinomial_regular d).strictConvexOn (multinomial_minimal d)

/-! ## Further statements -/

example : (-1 : ℝ) ∈ Iio (0 : ℝ) ∧ 1 ≤ 3 := by norm_num

/-! ### C30: expectations of the statistics -/

theorem C30_bernoulli (q : ℝ) :
    HasMean Measure.count (bernoulli.pdf q) ofBool (bernoulli.toExp q) :=
  bernoulli_regular.mean_scalar (fun _ _ => rfl) trivial

theorem C30_poisson (q : ℝ) :
    HasMean Measure.count (poisson.pdf q) (fun x => (x : ℝ)) (poisson.toExp q) :=
  poisson_regular.mean_scalar (fun _ _ => rfl) trivial

theorem C30_negative_binomial {r : ℕ} (hr : 1 ≤ r) {q : ℝ} (hq : q < 0) :
    HasMean Measure.count ((negativeBinomial r).pdf q) (fun x => (x : ℝ))
      ((negativeBinomial r).toExp q) :=
  (negativeBinomial_regular hr).mean_scalar (fun _ _ => rfl) hq

theorem C30_geometric {q : ℝ} (hq : q < 0) :
    HasMean Measure.count (geometric.pdf q) (fun x => (x : ℝ)) (geometric.toExp q) :=
  (negativeBinomial_regular le_rfl).mean_scalar (fun _ _ => rfl) hq

theorem C30_logarithmic {q : ℝ} (hq : q < 0) :
    HasMean Measure.count (logarithmic.pdf q) (fun x => (x : ℝ) + 1) (logarithmic.toExp q) :=
  logarithmic_regular.mean_scalar (fun _ _ => rfl) hq

theorem C30_multinomial {d : ℕ} (q : Fin (d + 1) → ℝ) (i : Fin (d + 1)) :
    HasMean (categories d) ((multinomial d).pdf q) (fun x => x i) ((multinomial d).toExp q i) := by
  refine ((multinomial_regular d).mean_dot (v := Pi.single i 1) trivial trivial).congr
    (fun x => ?_) ?_
  · simp [multinomial, Pi.single_apply]
  · simp [multinomial, Pi.single_apply]

end Efax
