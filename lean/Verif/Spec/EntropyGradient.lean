import Verif.Spec.Setting

/-!
# Specification: distributions whose expected carrier measure is computed without a search
-/

namespace Efax.Spec

variable [MachEps]

/-- Like `LibrarySetting`, without the chi and chi-square distributions: `expected_carrier_measure()` of their
expectation parameters converts to natural parameters, by a search. -/
inductive DirectSetting (solve : Solver) : (K : Kind Cls) → Setting K → Prop
  | simple (s : Simple) (h : s ≠ .chi) (h' : s ≠ .chiSquare) :
      DirectSetting solve (s.kind solve) (s.setting solve)
  | joint {l : List (String × Σ K : Kind Cls, Setting K)} (h0 : l ≠ []) (hn : (l.map Prod.fst).Nodup)
      (hS : ∀ s ∈ l, DirectSetting solve s.2.1 s.2.2) :
      DirectSetting solve (.joint .jointN .jointE (.ofList (partsOf l))) (.joint _ _ (.ofList l))

end Efax.Spec
