import Verif.Model.Families.Positive
import Verif.Model.Families.Discrete
import Verif.Model.Families.Simplex
import Mathlib.Analysis.SpecialFunctions.Sqrt

/-!
# Conversion from expectation to natural parameters by search

The search vectors of one distribution (no batch axes).  `ExpToNat.search_to_natural`
(mixins/exp_to_nat/exp_to_nat.py 69-80) unflattens the search vector into the natural class with the
plane map of each declared support; for the classes below that is one application of
`Ring.realUnflat` per entry.  `gammaSearchToNatural` and `gammaSearchGradient` are in
`Model.Families.Positive`, `genDirichletSearchToNatural` in `Model.Families.Simplex`.
-/

namespace Efax

/-- `ChiSquareEP.search_to_natural` (the default; `k_over_two_minus_one` has
`RealField(minimum=-1.0)`, chi_square.py 32-33). `ChiEP.to_nat` goes through the chi-square conversion
(chi.py 86-97). -/
noncomputable def chiSquareSearchToNatural [MachEps] (s : ℝ) : ℝ :=
  Ring.realUnflat (some (Ring.openMin (-1))) none s

/-- `search_to_natural` of `DirichletEP` and `BetaEP` (the default; `alpha_minus_one` has
`RealField(minimum=-1.0)`, dirichlet_common.py 28-29). -/
noncomputable def dirichletSearchToNatural [MachEps] {n : ℕ} (s : Fin n → ℝ) (i : Fin n) : ℝ :=
  Ring.realUnflat (some (Ring.openMin (-1))) none (s i)

/-- `LogarithmicEP.search_to_natural` (the default; `log_probability` has `negative_support`,
logarithmic.py 29). -/
noncomputable def logarithmicSearchToNatural [MachEps] (s : ℝ) : ℝ :=
  Ring.realUnflat none (some (Ring.openMax 0)) s

/-- `ExpToNat.search_gradient` (mixins/exp_to_nat/exp_to_nat.py 82-96) for a class whose raw
flattening lists the entries of its parameters: the difference of the expectation parameters. -/
def searchGradient {S N E : Type} [Sub E] (searchToNatural : S → N) (toExp : N → E) (χ : E) (s : S) :
    E :=
  toExp (searchToNatural s) - χ

/-- `ExpToNat.search_gradient` for `LogarithmicEP`, whose `to_exp` may return `jnp.inf`. -/
noncomputable def logarithmicSearchGradient [MachEps] (χ : ℝ) (s : ℝ) : EReal :=
  logarithmicToExp (logarithmicSearchToNatural s) - χ

/-- `initial_shape` in `GammaEP.initial_search_parameters` (gamma.py 136-141). -/
noncomputable def gammaInitialShape (χ : ℝ × ℝ) : ℝ :=
  let d := Real.log χ.1 - χ.2
  (3 - d + Real.sqrt ((d - 3) ^ 2 + 24 * d)) / (12 * d)

/-- `GammaEP.initial_search_parameters` (gamma.py 135-142); `none` is a non-finite float. -/
noncomputable def gammaInitialSearch (χ : ℝ × ℝ) : Option ℝ := invSoftplus? (gammaInitialShape χ)

end Efax
