import Verif.Spec.ExpFam
import Mathlib.MeasureTheory.Measure.WithDensity

/-!
# Specification: the law of a distribution
-/

namespace Efax.Spec

open MeasureTheory

/-- The law whose density with respect to the reference measure `μ` is the code's `pdf`. -/
noncomputable def law {N E X : Type} [MeasurableSpace X] (F : ExpFam N E X) (μ : Measure X) (q : N) :
    Measure X :=
  μ.withDensity fun x => ENNReal.ofReal (F.pdf q x)

end Efax.Spec
