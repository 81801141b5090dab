import Verif.Spec.EntropyGradient
import Verif.Model.Methods.Tree

/-!
# Distributions whose expectation parameters have plain flat coordinates
-/

namespace Efax.Spec

variable [MachEps]

/-- Like `DirectSetting`, without the von Mises-Fisher distributions: the support of their expectation parameters
is a disk.  If `flat`, without the circularly symmetric complex normal distributions too: their flat arrays
hold imaginary parts of the diagonal. -/
inductive PlainSetting (solve : Solver) (flat : Prop) : (K : Kind Cls) → Setting K → Prop
  | simple (s : Simple) (h : s ≠ .chi) (h' : s ≠ .chiSquare) (h'' : ∀ d, s ≠ .vonMisesFisher d)
      (h''' : flat → ∀ d, s ≠ .cmvCircular d) :
      PlainSetting solve flat (s.kind solve) (s.setting solve)
  | joint {l : List (String × Σ K : Kind Cls, Setting K)} (h0 : l ≠ []) (hn : (l.map Prod.fst).Nodup)
      (hS : ∀ s ∈ l, PlainSetting solve flat s.2.1 s.2.2) :
      PlainSetting solve flat (.joint .jointN .jointE (.ofList (partsOf l))) (.joint _ _ (.ofList l))

/-- `to_nat()` of `d` returns valid natural parameters, and `to_exp()` of these returns `d`. -/
def Recovers (L : Library Cls) {K : Kind Cls} (S : Setting K) (rs : List ℕ) (p : List ℕ → K.P) (d : Dist Cls) :
    Prop :=
  ∃ q, S.Inside rs p q ∧ d.toNat L.toNat = .ok (K.nat rs p q) ∧ (K.nat rs p q).toExp L.toExp = .ok d

end Efax.Spec
