import Verif.Props.Families.Carrier

/-!
# Normal families: densities, gradients, divergences (C28, C29, C33-C35, C42, C44, C45, C55)

Every theorem is an instance of a specification in `Verif.Spec.ExpFam`.
-/

namespace Efax

open MeasureTheory Spec Set

/-! ### Normal -/

theorem C28_normal : ∀ q ∈ normalDom, IsDensity volume (normal.pdf q) :=
  normal_regular.density

theorem C29_normal : ∀ q ∈ normalDom, ∀ v, HasDerivAt (fun t : ℝ => normal.logNormalizer (q + t •
    v)) (normal.jvp q v) 0 :=
  fun q h v => normal_regular.gradient q h v trivial

theorem C33_normal : InjOn normal.toExp normalDom :=
  normal_regular.toExp_injOn normal_minimal

theorem C34_normal : KLCorrect normal volume normalDom :=
  normal_regular.klCorrect normal_minimal

theorem C35_normal : EntropyCorrect normal volume normalDom normalEcm :=
  normal_regular.entropyCorrect _ (fun _ h => C36_normal h)

theorem C42_normal : FisherCorrect normal volume normalDom ⊤ :=
  normal_regular.fisherCorrect

theorem C44_normal : EvidenceCorrect normal :=
  normal_regular.evidenceCorrect

theorem C45_normal : MLECorrect normal normalDom ⊤ :=
  normal_regular.mleCorrect

theorem C55_normal : StrictConvexOn ℝ normalDom normal.logNormalizer :=
  normal_regular.strictConvexOn normal_minimal

/-! ### Unit normal -/

theorem C28_unit_normal : ∀ q ∈ univ, IsDensity volume (unitNormal.pdf q) :=
  unitNormal_regular.density

theorem C29_unit_normal : ∀ q ∈ univ, ∀ v, HasDerivAt (fun t : ℝ => unitNormal.logNormalizer (q +
    t • v)) (unitNormal.jvp q v) 0 :=
  fun q h v => unitNormal_regular.gradient q h v trivial

theorem C33_unit_normal : InjOn unitNormal.toExp univ :=
  unitNormal_regular.toExp_injOn unitNormal_minimal

theorem C34_unit_normal : KLCorrect unitNormal volume univ :=
  unitNormal_regular.klCorrect unitNormal_minimal

theorem C35_unit_normal : EntropyCorrect unitNormal volume univ unitNormalEcm :=
  unitNormal_regular.entropyCorrect _ (fun q _ => C36_unit_normal q)

theorem C42_unit_normal : FisherCorrect unitNormal volume univ ⊤ :=
  unitNormal_regular.fisherCorrect

theorem C44_unit_normal : EvidenceCorrect unitNormal :=
  unitNormal_regular.evidenceCorrect

theorem C45_unit_normal : MLECorrect unitNormal univ ⊤ :=
  unitNormal_regular.mleCorrect

theorem C55_unit_normal : StrictConvexOn ℝ univ unitNormal.logNormalizer :=
  unitNormal_regular.strictConvexOn unitNormal_minimal

/-! ## Further statements -/

example : ((5, -2) : ℝ × ℝ) ∈ normalDom := by norm_num [normalDom]

/-! ### C30: expectations of the statistics -/

theorem C30_normal {q : ℝ × ℝ} (h : q ∈ normalDom) :
    HasMean volume (normal.pdf q) (fun x => x) (normal.toExp q).1 ∧
    HasMean volume (normal.pdf q) (fun x => x ^ 2) (normal.toExp q).2 :=
  ⟨normal_mean h, normal_mean_sq h⟩

theorem C30_unit_normal (q : ℝ) :
    HasMean volume (unitNormal.pdf q) (fun x => x) (unitNormal.toExp q) :=
  unitNormal_regular.mean_scalar (fun _ _ => rfl) trivial

end Efax
