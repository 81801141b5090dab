import Verif.Props.Families.Carrier

/-!
# Positive families: densities, gradients, divergences (C28, C29, C33-C35, C42, C44, C45, C55)

Every theorem is an instance of a specification in `Verif.Spec.ExpFam`.
-/

namespace Efax

open MeasureTheory Spec Set

/-! ### Exponential -/

theorem C28_exponential : ∀ q ∈ Iio 0, IsDensity positive (exponential.pdf q) :=
  exponential_regular.density

theorem C29_exponential : ∀ q ∈ Iio 0, ∀ v, HasDerivAt (fun t : ℝ => exponential.logNormalizer (q
    + t • v)) (exponential.jvp q v) 0 :=
  fun q h v => exponential_regular.gradient q h v trivial

theorem C33_exponential : InjOn exponential.toExp (Iio 0) :=
  exponential_regular.toExp_injOn exponential_minimal

theorem C34_exponential : KLCorrect exponential positive (Iio 0) :=
  exponential_regular.klCorrect exponential_minimal

theorem C35_exponential : EntropyCorrect exponential positive (Iio 0) exponentialEcm :=
  exponential_regular.entropyCorrect _ (fun _ h => C36_exponential h)

theorem C42_exponential : FisherCorrect exponential positive (Iio 0) ⊤ :=
  exponential_regular.fisherCorrect

theorem C44_exponential : EvidenceCorrect exponential :=
  exponential_regular.evidenceCorrect

theorem C45_exponential : MLECorrect exponential (Iio 0) ⊤ :=
  exponential_regular.mleCorrect

theorem C55_exponential : StrictConvexOn ℝ (Iio 0) exponential.logNormalizer :=
  exponential_regular.strictConvexOn exponential_minimal

/-! ### Gamma -/

theorem C28_gamma : ∀ q ∈ gammaDom, IsDensity positive (gamma.pdf q) :=
  gamma_regular.density

theorem C29_gamma : ∀ q ∈ gammaDom, ∀ v, HasDerivAt (fun t : ℝ => gamma.logNormalizer (q + t • v))
    (gamma.jvp q v) 0 :=
  fun q h v => gamma_regular.gradient q h v trivial

theorem C33_gamma : InjOn gamma.toExp gammaDom :=
  gamma_regular.toExp_injOn gamma_minimal

theorem C34_gamma : KLCorrect gamma positive gammaDom :=
  gamma_regular.klCorrect gamma_minimal

theorem C35_gamma : EntropyCorrect gamma positive gammaDom gammaEcm :=
  gamma_regular.entropyCorrect _ (fun _ h => C36_gamma h)

theorem C42_gamma : FisherCorrect gamma positive gammaDom ⊤ :=
  gamma_regular.fisherCorrect

theorem C44_gamma : EvidenceCorrect gamma :=
  gamma_regular.evidenceCorrect

theorem C45_gamma : MLECorrect gamma gammaDom ⊤ :=
  gamma_regular.mleCorrect

theorem C55_gamma : StrictConvexOn ℝ gammaDom gamma.logNormalizer :=
  gamma_regular.strictConvexOn gamma_minimal

/-! ### Chi square -/

theorem C28_chi_square : ∀ q ∈ Ioi (-1), IsDensity positive (chiSquare.pdf q) :=
  chiSquare_regular.density

theorem C29_chi_square : ∀ q ∈ Ioi (-1), ∀ v, HasDerivAt (fun t : ℝ => chiSquare.logNormalizer (q
    + t • v)) (chiSquare.jvp q v) 0 :=
  fun q h v => chiSquare_regular.gradient q h v trivial

theorem C33_chi_square : InjOn chiSquare.toExp (Ioi (-1)) :=
  chiSquare_regular.toExp_injOn chiSquare_minimal

theorem C34_chi_square : KLCorrect chiSquare positive (Ioi (-1)) :=
  chiSquare_regular.klCorrect chiSquare_minimal

theorem C35_chi_square (toNat : ℝ → ℝ)
        (hn : ∀ q, -1 < q → toNat (chiSquare.toExp q) = q) : EntropyCorrect chiSquare positive
    (Ioi (-1)) (chiSquareEcm toNat) :=
  chiSquare_regular.entropyCorrect _ (fun q h => C36_chi_square h toNat (hn q h))

theorem C42_chi_square : FisherCorrect chiSquare positive (Ioi (-1)) ⊤ :=
  chiSquare_regular.fisherCorrect

theorem C44_chi_square : EvidenceCorrect chiSquare :=
  chiSquare_regular.evidenceCorrect

theorem C45_chi_square : MLECorrect chiSquare (Ioi (-1)) ⊤ :=
  chiSquare_regular.mleCorrect

theorem C55_chi_square : StrictConvexOn ℝ (Ioi (-1)) chiSquare.logNormalizer :=
  chiSquare_regular.strictConvexOn chiSquare_minimal

/-! ### Chi -/

theorem C28_chi : ∀ q ∈ Ioi (-1), IsDensity positive (chi.pdf q) :=
  chi_regular.density

theorem C29_chi : ∀ q ∈ Ioi (-1), ∀ v, HasDerivAt (fun t : ℝ => chi.logNormalizer (q + t • v))
    (chi.jvp q v) 0 :=
  fun q h v => chi_regular.gradient q h v trivial

theorem C33_chi : InjOn chi.toExp (Ioi (-1)) :=
  chi_regular.toExp_injOn chi_minimal

theorem C34_chi : KLCorrect chi positive (Ioi (-1)) :=
  chi_regular.klCorrect chi_minimal

theorem C35_chi (toNat : ℝ → ℝ) (hn : ∀ q, -1 < q → toNat (chi.toExp q) = q) : EntropyCorrect chi
    positive (Ioi (-1)) (chiEcm toNat) :=
  chi_regular.entropyCorrect _ (fun q h => C36_chi h toNat (hn q h))

theorem C42_chi : FisherCorrect chi positive (Ioi (-1)) ⊤ :=
  chi_regular.fisherCorrect

theorem C44_chi : EvidenceCorrect chi :=
  chi_regular.evidenceCorrect

theorem C45_chi : MLECorrect chi (Ioi (-1)) ⊤ :=
  chi_regular.mleCorrect

theorem C55_chi : StrictConvexOn ℝ (Ioi (-1)) chi.logNormalizer :=
  chi_regular.strictConvexOn chi_minimal

/-! ### Rayleigh -/

theorem C28_rayleigh : ∀ q ∈ Iio 0, IsDensity positive (rayleigh.pdf q) :=
  rayleigh_regular.density

theorem C29_rayleigh : ∀ q ∈ Iio 0, ∀ v, HasDerivAt (fun t : ℝ => rayleigh.logNormalizer (q + t •
    v)) (rayleigh.jvp q v) 0 :=
  fun q h v => rayleigh_regular.gradient q h v trivial

theorem C33_rayleigh : InjOn rayleigh.toExp (Iio 0) :=
  rayleigh_regular.toExp_injOn rayleigh_minimal

theorem C34_rayleigh : KLCorrect rayleigh positive (Iio 0) :=
  rayleigh_regular.klCorrect rayleigh_minimal

theorem C35_rayleigh : EntropyCorrect rayleigh positive (Iio 0) rayleighEcm :=
  rayleigh_regular.entropyCorrect _ (fun _ h => C36_rayleigh h)

theorem C42_rayleigh : FisherCorrect rayleigh positive (Iio 0) ⊤ :=
  rayleigh_regular.fisherCorrect

theorem C44_rayleigh : EvidenceCorrect rayleigh :=
  rayleigh_regular.evidenceCorrect

theorem C45_rayleigh : MLECorrect rayleigh (Iio 0) ⊤ :=
  rayleigh_regular.mleCorrect

theorem C55_rayleigh : StrictConvexOn ℝ (Iio 0) rayleigh.logNormalizer :=
  rayleigh_regular.strictConvexOn rayleigh_minimal

/-! ### Weibull -/

theorem C28_weibull {k : ℝ} (hk : 0 < k) : ∀ q ∈ Iio 0, IsDensity positive ((weibull k).pdf q) :=
  (weibull_regular hk).density

theorem C29_weibull {k : ℝ} (hk : 0 < k) : ∀ q ∈ Iio 0, ∀ v, HasDerivAt (fun t : ℝ => (weibull
    k).logNormalizer (q + t • v)) ((weibull k).jvp q v) 0 :=
  fun q h v => (weibull_regular hk).gradient q h v trivial

theorem C33_weibull {k : ℝ} (hk : 0 < k) : InjOn (weibull k).toExp (Iio 0) :=
  (weibull_regular hk).toExp_injOn (weibull_minimal hk)

theorem C34_weibull {k : ℝ} (hk : 0 < k) : KLCorrect (weibull k) positive (Iio 0) :=
  (weibull_regular hk).klCorrect (weibull_minimal hk)

theorem C35_weibull {k : ℝ} (hk : 0 < k) : EntropyCorrect (weibull k) positive (Iio 0) (weibullEcm
    k) :=
  (weibull_regular hk).entropyCorrect _ (fun _ h => C36_weibull hk h)

theorem C42_weibull {k : ℝ} (hk : 0 < k) : FisherCorrect (weibull k) positive (Iio 0) ⊤ :=
  (weibull_regular hk).fisherCorrect

theorem C44_weibull {k : ℝ} (hk : 0 < k) : EvidenceCorrect (weibull k) :=
  (weibull_regular hk).evidenceCorrect

theorem C45_weibull {k : ℝ} (hk : 0 < k) : MLECorrect (weibull k) (Iio 0) ⊤ :=
  (weibull_regular hk).mleCorrect

theorem C55_weibull {k : ℝ} (hk : 0 < k) : StrictConvexOn ℝ (Iio 0) (weibull k).logNormalizer :=
  (weibull_regular hk).strictConvexOn (weibull_minimal hk)

/-! ## Further statements -/

example : (-2 : ℝ) ∈ Iio (0 : ℝ) ∧ (3 : ℝ) ∈ Ioi (-1 : ℝ) ∧ ((-2, 3) : ℝ × ℝ) ∈ gammaDom ∧
    (0 : ℝ) < 1.5 := by norm_num [gammaDom]

/-! ### C30: expectations of the statistics -/

theorem C30_exponential {q : ℝ} (h : q < 0) :
    HasMean positive (exponential.pdf q) (fun x => x) (exponential.toExp q) :=
  exponential_regular.mean_scalar (fun _ _ => rfl) h

theorem C30_gamma {q : ℝ × ℝ} (h : q ∈ gammaDom) :
    HasMean positive (gamma.pdf q) (fun x => x) (gamma.toExp q).1 ∧
    HasMean positive (gamma.pdf q) Real.log (gamma.toExp q).2 :=
  ⟨gamma_mean h, gamma_mean_log h⟩

theorem C30_chi_square {q : ℝ} (h : -1 < q) :
    HasMean positive (chiSquare.pdf q) Real.log (chiSquare.toExp q) :=
  chiSquare_regular.mean_scalar (fun _ _ => rfl) h

theorem C30_chi {q : ℝ} (h : -1 < q) :
    HasMean positive (chi.pdf q) (fun x => Real.log (x ^ 2)) (chi.toExp q) :=
  chi_regular.mean_scalar (fun _ _ => rfl) h

theorem C30_rayleigh {q : ℝ} (h : q < 0) :
    HasMean positive (rayleigh.pdf q) (fun x => x ^ 2) (rayleigh.toExp q) :=
  rayleigh_regular.mean_scalar (fun _ _ => rfl) h

theorem C30_weibull {k : ℝ} (hk : 0 < k) {q : ℝ} (h : q < 0) :
    HasMean positive ((weibull k).pdf q) (fun x => x ^ k) ((weibull k).toExp q) :=
  (weibull_regular hk).mean_scalar (fun _ _ => rfl) h

end Efax
