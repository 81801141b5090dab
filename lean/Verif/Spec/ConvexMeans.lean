import Verif.Spec.Setting

/-!
# Distributions whose expectation parameters form a convex set
-/

namespace Efax.Spec

variable [MachEps]

/-- Like `LibrarySetting`, without the von Mises-Fisher distributions, whose uniform distribution is missing. -/
inductive ConvexSetting (solve : Solver) : (K : Kind Cls) → Setting K → Prop
  | simple (s : Simple) (h : ∀ d, s ≠ .vonMisesFisher d) : ConvexSetting solve (s.kind solve) (s.setting solve)
  | joint {l : List (String × Σ K : Kind Cls, Setting K)} (h0 : l ≠ []) (hn : (l.map Prod.fst).Nodup)
      (hS : ∀ s ∈ l, ConvexSetting solve s.2.1 s.2.2) :
      ConvexSetting solve (.joint .jointN .jointE (.ofList (partsOf l))) (.joint _ _ (.ofList l))

theorem ConvexSetting.toLibrary {solve : Solver} {K : Kind Cls} {S : Setting K} (h : ConvexSetting solve K S) :
    LibrarySetting solve K S := by
  induction h with
  | simple s => exact .simple s
  | joint h0 hn _ ih => exact .joint h0 hn ih

end Efax.Spec
