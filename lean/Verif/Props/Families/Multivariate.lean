import Verif.Props.Families.Carrier
import Verif.Props.Families.MvCarrier

/-!
# Multivariate families: densities, gradients, divergences (C28, C29, C33-C35, C42, C44, C45, C55)

Every theorem is an instance of a specification in `Verif.Spec.ExpFam`.
-/

namespace Efax

open MeasureTheory Spec Set

/-! ### Mv unit -/

theorem C28_mv_unit (d : ℕ) : ∀ q ∈ univ, IsDensity volume ((mvUnit d).pdf q) :=
  (mvUnit_regular d).density

theorem C29_mv_unit (d : ℕ) : ∀ q ∈ univ, ∀ v, HasDerivAt (fun t : ℝ => (mvUnit d).logNormalizer
    (q + t • v)) ((mvUnit d).jvp q v) 0 :=
  fun q h v => (mvUnit_regular d).gradient q h v trivial

theorem C33_mv_unit (d : ℕ) : InjOn (mvUnit d).toExp univ :=
  (mvUnit_regular d).toExp_injOn (mvUnit_minimal d)

theorem C34_mv_unit (d : ℕ) : KLCorrect (mvUnit d) volume univ :=
  (mvUnit_regular d).klCorrect (mvUnit_minimal d)

theorem C35_mv_unit (d : ℕ) : EntropyCorrect (mvUnit d) volume univ mvUnitEcm :=
  (mvUnit_regular d).entropyCorrect _ (fun q _ => C36_mv_unit q)

theorem C42_mv_unit (d : ℕ) : FisherCorrect (mvUnit d) volume univ ⊤ :=
  (mvUnit_regular d).fisherCorrect

theorem C44_mv_unit (d : ℕ) : EvidenceCorrect (mvUnit d) :=
  (mvUnit_regular d).evidenceCorrect

theorem C45_mv_unit (d : ℕ) : MLECorrect (mvUnit d) univ ⊤ :=
  (mvUnit_regular d).mleCorrect

theorem C55_mv_unit (d : ℕ) : StrictConvexOn ℝ univ (mvUnit d).logNormalizer :=
  (mvUnit_regular d).strictConvexOn (mvUnit_minimal d)

/-! ### Mv fixed -/

theorem C28_mv_fixed (d : ℕ) {s : ℝ} (hs : 0 < s) : ∀ q ∈ univ, IsDensity volume ((mvFixed d
    s).pdf q) :=
  (mvFixed_regular d hs).density

theorem C29_mv_fixed (d : ℕ) {s : ℝ} (hs : 0 < s) : ∀ q ∈ univ, ∀ v, HasDerivAt (fun t : ℝ =>
    (mvFixed d s).logNormalizer (q + t • v)) ((mvFixed d s).jvp q v) 0 :=
  fun q h v => (mvFixed_regular d hs).gradient q h v trivial

theorem C33_mv_fixed (d : ℕ) {s : ℝ} (hs : 0 < s) : InjOn (mvFixed d s).toExp univ :=
  (mvFixed_regular d hs).toExp_injOn (mvFixed_minimal d s)

theorem C34_mv_fixed (d : ℕ) {s : ℝ} (hs : 0 < s) : KLCorrect (mvFixed d s) volume univ :=
  (mvFixed_regular d hs).klCorrect (mvFixed_minimal d s)

theorem C35_mv_fixed (d : ℕ) {s : ℝ} (hs : 0 < s) : EntropyCorrect (mvFixed d s) volume univ
    (mvFixedEcm s) :=
  (mvFixed_regular d hs).entropyCorrect _ (fun q _ => C36_mv_fixed hs q)

theorem C42_mv_fixed (d : ℕ) {s : ℝ} (hs : 0 < s) : FisherCorrect (mvFixed d s) volume univ ⊤ :=
  (mvFixed_regular d hs).fisherCorrect

theorem C44_mv_fixed (d : ℕ) {s : ℝ} (hs : 0 < s) : EvidenceCorrect (mvFixed d s) :=
  (mvFixed_regular d hs).evidenceCorrect

theorem C45_mv_fixed (d : ℕ) {s : ℝ} (hs : 0 < s) : MLECorrect (mvFixed d s) univ ⊤ :=
  (mvFixed_regular d hs).mleCorrect

theorem C55_mv_fixed (d : ℕ) {s : ℝ} (hs : 0 < s) : StrictConvexOn ℝ univ (mvFixed d
    s).logNormalizer :=
  (mvFixed_regular d hs).strictConvexOn (mvFixed_minimal d s)

/-! ### Mv diagonal -/

theorem C28_mv_diagonal (d : ℕ) : ∀ q ∈ mvDiagonalDom d, IsDensity volume ((mvDiagonal d).pdf q) :=
  (mvDiagonal_regular d).density

theorem C29_mv_diagonal (d : ℕ) : ∀ q ∈ mvDiagonalDom d, ∀ v, HasDerivAt (fun t : ℝ => (mvDiagonal
    d).logNormalizer (q + t • v)) ((mvDiagonal d).jvp q v) 0 :=
  fun q h v => (mvDiagonal_regular d).gradient q h v trivial

theorem C33_mv_diagonal (d : ℕ) : InjOn (mvDiagonal d).toExp (mvDiagonalDom d) :=
  (mvDiagonal_regular d).toExp_injOn (mvDiagonal_minimal d)

theorem C34_mv_diagonal (d : ℕ) : KLCorrect (mvDiagonal d) volume (mvDiagonalDom d) :=
  (mvDiagonal_regular d).klCorrect (mvDiagonal_minimal d)

theorem C35_mv_diagonal (d : ℕ) : EntropyCorrect (mvDiagonal d) volume (mvDiagonalDom d)
    mvDiagonalEcm :=
  (mvDiagonal_regular d).entropyCorrect _ (fun _ h => C36_mv_diagonal h)

theorem C42_mv_diagonal (d : ℕ) : FisherCorrect (mvDiagonal d) volume (mvDiagonalDom d) ⊤ :=
  (mvDiagonal_regular d).fisherCorrect

theorem C44_mv_diagonal (d : ℕ) : EvidenceCorrect (mvDiagonal d) :=
  (mvDiagonal_regular d).evidenceCorrect

theorem C45_mv_diagonal (d : ℕ) : MLECorrect (mvDiagonal d) (mvDiagonalDom d) ⊤ :=
  (mvDiagonal_regular d).mleCorrect

theorem C55_mv_diagonal (d : ℕ) : StrictConvexOn ℝ (mvDiagonalDom d) (mvDiagonal d).logNormalizer :=
  (mvDiagonal_regular d).strictConvexOn (mvDiagonal_minimal d)

/-! ### Mv isotropic -/

theorem C28_mv_isotropic (d : ℕ) : ∀ q ∈ mvIsotropicDom (d + 1), IsDensity volume ((mvIsotropic (d
    + 1)).pdf q) :=
  (mvIsotropic_regular d).density

theorem C29_mv_isotropic (d : ℕ) : ∀ q ∈ mvIsotropicDom (d + 1), ∀ v, HasDerivAt (fun t : ℝ =>
    (mvIsotropic (d + 1)).logNormalizer (q + t • v)) ((mvIsotropic (d + 1)).jvp q v) 0 :=
  fun q h v => (mvIsotropic_regular d).gradient q h v trivial

theorem C33_mv_isotropic (d : ℕ) : InjOn (mvIsotropic (d + 1)).toExp (mvIsotropicDom (d + 1)) :=
  (mvIsotropic_regular d).toExp_injOn (mvIsotropic_minimal d)

theorem C34_mv_isotropic (d : ℕ) : KLCorrect (mvIsotropic (d + 1)) volume (mvIsotropicDom (d + 1)) :=
  (mvIsotropic_regular d).klCorrect (mvIsotropic_minimal d)

theorem C35_mv_isotropic (d : ℕ) : EntropyCorrect (mvIsotropic (d + 1)) volume (mvIsotropicDom (d
    + 1)) mvIsotropicEcm :=
  (mvIsotropic_regular d).entropyCorrect _ (fun _ h => C36_mv_isotropic h)

theorem C42_mv_isotropic (d : ℕ) : FisherCorrect (mvIsotropic (d + 1)) volume (mvIsotropicDom (d +
    1)) ⊤ :=
  (mvIsotropic_regular d).fisherCorrect

theorem C44_mv_isotropic (d : ℕ) : EvidenceCorrect (mvIsotropic (d + 1)) :=
  (mvIsotropic_regular d).evidenceCorrect

theorem C45_mv_isotropic (d : ℕ) : MLECorrect (mvIsotropic (d + 1)) (mvIsotropicDom (d + 1)) ⊤ :=
  (mvIsotropic_regular d).mleCorrect

theorem C55_mv_isotropic (d : ℕ) : StrictConvexOn ℝ (mvIsotropicDom (d + 1)) (mvIsotropic (d +
    1)).logNormalizer :=
  (mvIsotropic_regular d).strictConvexOn (mvIsotropic_minimal d)

/-! ### Mv normal -/

theorem C28_mv_normal (d : ℕ) : ∀ q ∈ mvNormalDom d, IsDensity volume ((mvNormal d).pdf q) :=
  (mvNormal_regular d).density

theorem C29_mv_normal (d : ℕ) : ∀ q ∈ mvNormalDom d, ∀ v ∈ symmetricDirs d, HasDerivAt (fun t : ℝ
    => (mvNormal d).logNormalizer (q + t • v)) ((mvNormal d).jvp q v) 0 :=
  fun q h v hv => (mvNormal_regular d).gradient q h v hv

theorem C33_mv_normal (d : ℕ) : InjOn (mvNormal d).toExp (mvNormalDom d) :=
  (mvNormal_regular d).toExp_injOn (mvNormal_minimal d)

theorem C34_mv_normal (d : ℕ) : KLCorrect (mvNormal d) volume (mvNormalDom d) :=
  (mvNormal_regular d).klCorrect (mvNormal_minimal d)

theorem C35_mv_normal (d : ℕ) : EntropyCorrect (mvNormal d) volume (mvNormalDom d) mvNormalEcm :=
  (mvNormal_regular d).entropyCorrect _ (fun _ h => C36_mv_normal h)

theorem C42_mv_normal (d : ℕ) : FisherCorrect (mvNormal d) volume (mvNormalDom d) (symmetricDirs
    d) :=
  (mvNormal_regular d).fisherCorrect

theorem C44_mv_normal (d : ℕ) : EvidenceCorrect (mvNormal d) :=
  (mvNormal_regular d).evidenceCorrect

theorem C45_mv_normal (d : ℕ) : MLECorrect (mvNormal d) (mvNormalDom d) (symmetricDirs d) :=
  (mvNormal_regular d).mleCorrect

theorem C55_mv_normal (d : ℕ) : StrictConvexOn ℝ (mvNormalDom d) (mvNormal d).logNormalizer :=
  (mvNormal_regular d).strictConvexOn (mvNormal_minimal d)

/-! ## Further statements -/

end Efax
