import Verif.Props.Families.Inverse
import Verif.Props.Families.Search
import Verif.Lemmas.ExpFam2

/-!
# The expectation and the natural parametrization give the same divergences and entropies (C34, C35)
-/

namespace Efax

open Spec Set MeasureTheory

variable {N E X : Type} [AddCommGroup N]

/-- **C34.** `kl_divergence` called on expectation parameters and on natural parameters agree, in both
directions of the conversion. -/
theorem C34_parametrizations_agree (F : ExpFam N E X) {toNat : E → N} {dom : Set N} {mdom : Set E}
    (h : Inverses F.toExp toNat dom mdom) :
    (∀ p ∈ dom, ∀ q, F.klE toNat (F.toExp p) q = F.kl p q) ∧
    ∀ χ ∈ mdom, ∀ q, F.klE toNat χ q = F.kl (toNat χ) q := by
  refine ⟨fun p hp q => ?_, fun χ hχ q => ?_⟩
  · rw [ExpFam.klE, (h.1 p hp).2, ExpFam.kl]
  · rw [ExpFam.klE, ExpFam.kl, (h.2 χ hχ).2]

/-- **C35.** `entropy` called on expectation parameters and on natural parameters agree. -/
theorem C35_parametrizations_agree (F : ExpFam N E X) (ecm : E → ℝ) {toNat : E → N} {dom : Set N}
    {mdom : Set E} (h : Inverses F.toExp toNat dom mdom) :
    (∀ p ∈ dom, F.entropyE ecm toNat (F.toExp p) = F.entropyN ecm p) ∧
    ∀ χ ∈ mdom, F.entropyE ecm toNat χ = F.entropyN ecm (toNat χ) := by
  refine ⟨fun p hp => ?_, fun χ hχ => ?_⟩
  · rw [ExpFam.entropyE, (h.1 p hp).2, ExpFam.entropyN]
  · rw [ExpFam.entropyE, ExpFam.entropyN, (h.2 χ hχ).2]

/-- A conversion by search with an exact root finder is an inverse, on the expectation parameters of
the distributions that the search reaches. -/
theorem C32_inverses {S G : Type} [Zero G] {toExp : N → E} {dom reach : Set N} {mdom : Set E}
    {stn : E → S → N} {grad : E → S → G} (h : SearchCorrect toExp dom reach mdom stn grad)
    (hr : reach ⊆ dom) (hm : ∀ q ∈ reach, toExp q ∈ mdom) (solve : E → S)
    (hs : ∀ χ, (∃ s, grad χ s = 0) → grad χ (solve χ) = 0) :
    Inverses toExp (fun χ => stn χ (solve χ)) reach (toExp '' reach) := by
  have key : ∀ q ∈ reach, stn (toExp q) (solve (toExp q)) = q := fun q hq =>
    (h.unique _ (hm q hq) _ (hs _ (h.exists_root _ (hm q hq) q hq rfl)) q (hr hq) rfl).symm
  refine ⟨fun q hq => ⟨⟨q, hq, rfl⟩, key q hq⟩, ?_⟩
  rintro _ ⟨q, hq, rfl⟩
  refine ⟨?_, ?_⟩
  · show stn (toExp q) (solve (toExp q)) ∈ reach
    rw [key q hq]; exact hq
  · show toExp (stn (toExp q) (solve (toExp q))) = _
    rw [key q hq]

/-- Non-vacuity: exponential, and gamma with an exact root finder. -/
example : (∀ p ∈ Iio (0 : ℝ), ∀ q,
    exponential.klE exponentialToNat (exponential.toExp p) q = exponential.kl p q) ∧
    exponential.entropyE exponentialEcm exponentialToNat 2 =
      exponential.entropyN exponentialEcm (-1 / 2) :=
  ⟨(C34_parametrizations_agree exponential C31_exponential).1,
    (C35_parametrizations_agree exponential exponentialEcm C31_exponential).2 2
      (by simp)⟩

example : ∃ solve : ℝ × ℝ → ℝ, Inverses gamma.toExp (fun χ => gammaSearchToNatural χ (solve χ))
    gammaDom (gamma.toExp '' gammaDom) := by
  classical
  refine ⟨fun χ => if h : ∃ s, gammaSearchGradient χ s = 0 then h.choose else 0,
    C32_inverses C32_gamma le_rfl (fun q hq => ?_) _ fun χ h => ?_⟩
  · exact ((C32_gamma_domain _).1.1 ⟨q, hq, rfl⟩).1
  · rw [dif_pos h]; exact h.choose_spec

end Efax
