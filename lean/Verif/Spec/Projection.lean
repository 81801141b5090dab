import Verif.Spec.Setting

/-!
# Specification: densities with the same moments
-/

namespace Efax.Spec

open MeasureTheory Calc

variable [MachEps]

/-- `carrier_measure` of the object `d` computes `c`, at all arrays of observations. -/
def CarrierIs (L : Library Cls) (K : Kind Cls) (rs : List ℕ) (d : Dist Cls) (c : List ℕ → K.X → ℝ) : Prop :=
  ∀ x t, K.obs rs x t → d.carrier L t = .ok (scalars rs fun i => c i (x i))

/-- For every entry of the batch, all sufficient statistics of the objects with the fixed parameters `p` have
under the density `g` the mean that they have under the density `f`. -/
def SameMeans {K : Kind Cls} (S : Setting K) (L : Library Cls) (rs : List ℕ) (p : List ℕ → K.P)
    (f g : List ℕ → K.X → ℝ) : Prop := letI := S.ms
  ∀ q v s, (∀ i, inB rs i = true → v i ∈ S.dirs) → StatisticIs L K rs (K.nat rs p q) (K.nat rs p v) s →
    ∀ i, inB rs i = true → ∀ m, HasMean S.μ (f i) (s i) m → HasMean S.μ (g i) (s i) m

end Efax.Spec
