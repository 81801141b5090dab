import Verif.Props.Families.Carrier
import Verif.Props.Families.ComplexCarrier

/-!
# ComplexNormal families: densities, gradients, divergences (C28, C29, C33-C35, C42, C44, C45, C55)

Every theorem is an instance of a specification in `Verif.Spec.ExpFam`.
-/

namespace Efax

open MeasureTheory Spec Set

/-! ### Complex unit -/

theorem C28_complex_unit : ∀ q ∈ univ, IsDensity volume (complexUnit.pdf q) :=
  complexUnit_regular.density

theorem C29_complex_unit : ∀ q ∈ univ, ∀ v, HasDerivAt (fun t : ℝ => complexUnit.logNormalizer (q
    + t • v)) (complexUnit.jvp q v) 0 :=
  fun q h v => complexUnit_regular.gradient q h v trivial

theorem C33_complex_unit : InjOn complexUnit.toExp univ :=
  complexUnit_regular.toExp_injOn complexUnit_minimal

theorem C34_complex_unit : KLCorrect complexUnit volume univ :=
  complexUnit_regular.klCorrect complexUnit_minimal

theorem C35_complex_unit : EntropyCorrect complexUnit volume univ complexUnitEcm :=
  complexUnit_regular.entropyCorrect _ (fun q _ => C36_complex_unit q)

theorem C42_complex_unit : FisherCorrect complexUnit volume univ ⊤ :=
  complexUnit_regular.fisherCorrect

theorem C44_complex_unit : EvidenceCorrect complexUnit :=
  complexUnit_regular.evidenceCorrect

theorem C45_complex_unit : MLECorrect complexUnit univ ⊤ :=
  complexUnit_regular.mleCorrect

theorem C55_complex_unit : StrictConvexOn ℝ univ complexUnit.logNormalizer :=
  complexUnit_regular.strictConvexOn complexUnit_minimal

/-! ### Complex normal -/

theorem C28_complex_normal : ∀ q ∈ complexNormalDom, IsDensity volume (complexNormal.pdf q) :=
  complexNormal_regular.density

theorem C29_complex_normal : ∀ q ∈ complexNormalDom, ∀ v, HasDerivAt (fun t : ℝ =>
    complexNormal.logNormalizer (q + t • v)) (complexNormal.jvp q v) 0 :=
  fun q h v => complexNormal_regular.gradient q h v trivial

theorem C33_complex_normal : InjOn complexNormal.toExp complexNormalDom :=
  complexNormal_regular.toExp_injOn complexNormal_minimal

theorem C34_complex_normal : KLCorrect complexNormal volume complexNormalDom :=
  complexNormal_regular.klCorrect complexNormal_minimal

theorem C35_complex_normal : EntropyCorrect complexNormal volume complexNormalDom complexNormalEcm :=
  complexNormal_regular.entropyCorrect _ (fun _ h => C36_complex_normal h)

theorem C42_complex_normal : FisherCorrect complexNormal volume complexNormalDom ⊤ :=
  complexNormal_regular.fisherCorrect

theorem C44_complex_normal : EvidenceCorrect complexNormal :=
  complexNormal_regular.evidenceCorrect

theorem C45_complex_normal : MLECorrect complexNormal complexNormalDom ⊤ :=
  complexNormal_regular.mleCorrect

theorem C55_complex_normal : StrictConvexOn ℝ complexNormalDom complexNormal.logNormalizer :=
  complexNormal_regular.strictConvexOn complexNormal_minimal

/-! ### Cmv unit -/

theorem C28_cmv_unit (d : ℕ) : ∀ q ∈ univ, IsDensity volume ((cmvUnit d).pdf q) :=
  (cmvUnit_regular d).density

theorem C29_cmv_unit (d : ℕ) : ∀ q ∈ univ, ∀ v, HasDerivAt (fun t : ℝ => (cmvUnit d).logNormalizer
    (q + t • v)) ((cmvUnit d).jvp q v) 0 :=
  fun q h v => (cmvUnit_regular d).gradient q h v trivial

theorem C33_cmv_unit (d : ℕ) : InjOn (cmvUnit d).toExp univ :=
  (cmvUnit_regular d).toExp_injOn (cmvUnit_minimal d)

theorem C34_cmv_unit (d : ℕ) : KLCorrect (cmvUnit d) volume univ :=
  (cmvUnit_regular d).klCorrect (cmvUnit_minimal d)

theorem C35_cmv_unit (d : ℕ) : EntropyCorrect (cmvUnit d) volume univ cmvUnitEcm :=
  (cmvUnit_regular d).entropyCorrect _ (fun q _ => C36_cmv_unit q)

theorem C42_cmv_unit (d : ℕ) : FisherCorrect (cmvUnit d) volume univ ⊤ :=
  (cmvUnit_regular d).fisherCorrect

theorem C44_cmv_unit (d : ℕ) : EvidenceCorrect (cmvUnit d) :=
  (cmvUnit_regular d).evidenceCorrect

theorem C45_cmv_unit (d : ℕ) : MLECorrect (cmvUnit d) univ ⊤ :=
  (cmvUnit_regular d).mleCorrect

theorem C55_cmv_unit (d : ℕ) : StrictConvexOn ℝ univ (cmvUnit d).logNormalizer :=
  (cmvUnit_regular d).strictConvexOn (cmvUnit_minimal d)

/-! ### Cmv circular -/

theorem C28_cmv_circular (d : ℕ) : ∀ q ∈ cmvCircularDom d, IsDensity volume ((cmvCircular d).pdf
    q) :=
  (cmvCircular_regular d).density

theorem C29_cmv_circular (d : ℕ) : ∀ q ∈ cmvCircularDom d, ∀ v ∈ hermitianDirs d, HasDerivAt (fun
    t : ℝ => (cmvCircular d).logNormalizer (q + t • v)) ((cmvCircular d).jvp q v) 0 :=
  fun q h v hv => (cmvCircular_regular d).gradient q h v hv

theorem C33_cmv_circular (d : ℕ) : InjOn (cmvCircular d).toExp (cmvCircularDom d) :=
  (cmvCircular_regular d).toExp_injOn (cmvCircular_minimal d)

theorem C34_cmv_circular (d : ℕ) : KLCorrect (cmvCircular d) volume (cmvCircularDom d) :=
  (cmvCircular_regular d).klCorrect (cmvCircular_minimal d)

theorem C35_cmv_circular (d : ℕ) : EntropyCorrect (cmvCircular d) volume (cmvCircularDom d)
    cmvCircularEcm :=
  (cmvCircular_regular d).entropyCorrect _ (fun _ h => C36_cmv_circular h)

theorem C42_cmv_circular (d : ℕ) : FisherCorrect (cmvCircular d) volume (cmvCircularDom d)
    (hermitianDirs d) :=
  (cmvCircular_regular d).fisherCorrect

theorem C44_cmv_circular (d : ℕ) : EvidenceCorrect (cmvCircular d) :=
  (cmvCircular_regular d).evidenceCorrect

theorem C45_cmv_circular (d : ℕ) : MLECorrect (cmvCircular d) (cmvCircularDom d) (hermitianDirs d) :=
  (cmvCircular_regular d).mleCorrect

theorem C55_cmv_circular (d : ℕ) : StrictConvexOn ℝ (cmvCircularDom d) (cmvCircular
    d).logNormalizer :=
  (cmvCircular_regular d).strictConvexOn (cmvCircular_minimal d)

/-! ## Further statements -/

end Efax
