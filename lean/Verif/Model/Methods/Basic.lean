import Verif.Model.Calc

/-!
# The methods of simple distributions on arrays

The methods of a class as functions of the list of the values of its parameters, in the order of
declaration (`Cls.fields`).  The parameters and the results are whole arrays with batch axes.
`Verif/Model/Families` contains the same formulas for one distribution, without batch axes.
-/

namespace Efax

/-- The methods of a natural parametrization class (natural_parametrization.py 47-83, and the property
`shape`, parametrization.py 40-44): `shape` (last axis first), `log_normalizer()`, the parameters of
`to_exp()`, `carrier_measure(x)`, and the parameters of `sufficient_statistics(x, **fixed)`. -/
structure NatMethods where
  shape : List Val → Except Err (List ℕ)
  logNormalizer : List Val → Calc ℝ
  toExp : List Val → Except Err (List Val)
  carrier : List Val → Val → Calc ℝ
  stat : Val → Dict String Val → Except Err (List Val)

/-- The methods of an expectation parametrization class (expectation_parametrization.py 25-35,
mixins/has_entropy.py 32-36): `shape`, the parameters of `to_nat()`, and `expected_carrier_measure()`
(`TypeError` for classes without it).  `toNat` receives as its first argument the result of
`ExpToNat.to_nat`, which the classes with a closed form do not use. -/
structure ExpMethods where
  shape : List Val → Except Err (List ℕ)
  toNat : (List Val → Except Err (List Val)) → List Val → Except Err (List Val)
  ecm : (List Val → Except Err (List Val)) → List Val → Calc ℝ

/-- The arguments of a constructor call, evaluated in order. -/
def vals (l : List (Except Err Val)) : Except Err (List Val) := l.mapM id

end Efax
