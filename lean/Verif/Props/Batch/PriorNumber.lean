import Verif.Model.Methods.Table
import Verif.Model.Structure
import Verif.Props.Batch.Prior

/-! # C64: the generalized prior of the unit variance normal distribution for one number of observations -/

namespace Efax

open Calc Spec Val ClassTable

/-- **C64, violated for one number.** With a number `n` in place of one number for each coordinate,
`MultivariateUnitNormalEP.generalized_conjugate_prior_distribution` returns a precision without an axis for the
coordinates; the log-normalizer and the expectation parameters still are those of the prior with `n` for each
coordinate. -/
theorem C64_mv_unit_number (d : ℕ) (rs : List ℕ) (χ : List ℕ → Fin d → ℝ) (n : ℝ) :
    ∃ a b, Methods.mvUnitGeneralPrior (layV d rs (fun _ => ()) χ) (.real (scalars [] fun _ => n)) =
        .ok [.real a, .real b] ∧ a.rshape = d :: rs ∧ b.rshape = [] ∧
      Methods.diagonalNormalNP.logNormalizer [.real a, .real b] = Methods.diagonalNormalNP.logNormalizer
        (layVV d rs (fun _ => ()) fun i => mvUnitGeneralPrior (χ i) fun _ => n) ∧
      Methods.diagonalNormalNP.toExp [.real a, .real b] = Methods.diagonalNormalNP.toExp
        (layVV d rs (fun _ => ()) fun i => mvUnitGeneralPrior (χ i) fun _ => n) := by
  have e (c : ℝ) : ok (scalars [] fun _ => c) = const c := rfl
  refine ⟨vectors rs fun i k => n * χ i k, scalars [] fun _ => -0.5 * n, ?_, rfl, rfl, ?_, ?_⟩
  · simp only [Methods.mvUnitGeneralPrior, layV, toR_real, e]
    calc_simp
    rfl
  · simp only [Methods.diagonalNormalNP, layVV, toR_real, e]
    calc_simp
    rfl
  · simp only [Methods.diagonalNormalNP, layVV, toR_real, e]
    calc_simp
    rfl

variable [MachEps]

/-- **C64, violated for one number.** A prior for one distribution cannot be flattened. -/
theorem C64_mv_unit_number_flatten (d : ℕ) (a : Arr ℝ) (ha : a.rshape = [d]) (b : Arr ℝ)
    (hb : b.rshape = []) :
    ∃ e, flatten (Dist.mk Cls.diagonalNormalNP [.real a, .real b] .nil) false = .error e := by
  refine ⟨.valueError, ?_⟩
  have h : a.append b = .error .valueError := by
    rw [Arr.append, ha, hb]
  have hf : Cls.fields .diagonalNormalNP = [⟨"mean_times_precision", .vector Ring.realField, false⟩,
      ⟨"negative_half_precision", .vector Ring.negativeSupport, false⟩] := rfl
  have h1 : Cls.adjust .diagonalNormalNP "mean_times_precision" [] = .ok (.vector Ring.realField) := rfl
  have h2 (v : Val) : Cls.adjust .diagonalNormalNP "negative_half_precision" [("mean_times_precision", v)] =
      .ok (.vector Ring.negativeSupport) := rfl
  simp [flatten, Dist.walk, Subs.walk, makeFlat, parametersFlat, nodeParams, ClassTable.fields, hf,
    Dist.cls, Dist.vals, Dist.subs, Dict.ofList, Dict.set, makeFlatFields, ClassTable.adjust, h1, h2, Bind.bind,
    Except.bind, reduceAppend, keep, pure, Except.pure, Support.flattened, Ring.flattened, Ring.realField,
    Ring.negativeSupport, Ring.mkReal, h]

/-- Non-vacuity: the mean (1, 2) and three observations. -/
example : ∃ v, Methods.mvUnitGeneralPrior (layV 2 [] (fun _ => ()) fun _ => ![1, 2])
      (.real (scalars [] fun _ => 3)) = .ok v ∧
    ∃ e, flatten (Dist.mk Cls.diagonalNormalNP v .nil) false = .error e := by
  obtain ⟨a, b, h, ha, hb, -⟩ := C64_mv_unit_number 2 [] (fun _ => ![1, 2]) 3
  exact ⟨_, h, C64_mv_unit_number_flatten 2 a ha b hb⟩

end Efax
