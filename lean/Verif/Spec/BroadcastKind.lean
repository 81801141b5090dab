import Verif.Spec.Kinds

/-! # The kinds of distributions that can be evaluated at observations of any shape -/

namespace Efax.Spec

variable [MachEps]

/-- The kinds of distributions without negative binomial and Weibull distributions, on their own or as a
part of a joint distribution. -/
inductive LooseKind (solve : Solver) : Kind Cls → Prop
  | simple {s : Simple} : s ≠ .negativeBinomial → s ≠ .weibull → LooseKind solve (s.kind solve)
  | joint {l : List (String × Kind Cls)} : l ≠ [] → (l.map Prod.fst).Nodup →
      (∀ nk ∈ l, LooseKind solve nk.2) → LooseKind solve (.joint .jointN .jointE (.ofList l))

/-- The kinds of distributions with one. -/
inductive StrictKind (solve : Solver) : Kind Cls → Prop
  | simple {s : Simple} : s = .negativeBinomial ∨ s = .weibull → StrictKind solve (s.kind solve)
  | joint {l : List (String × Kind Cls)} {nk : String × Kind Cls} : (l.map Prod.fst).Nodup →
      (∀ nk ∈ l, LibraryKind solve nk.2) → nk ∈ l → StrictKind solve nk.2 →
      StrictKind solve (.joint .jointN .jointE (.ofList l))

end Efax.Spec
