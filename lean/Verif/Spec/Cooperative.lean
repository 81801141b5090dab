import Verif.Spec.Oracle
import Verif.Spec.Objects
import Verif.Model.Tests.Parameters

/-!
# Specification: random streams that avoid the limits of the conversions
-/

namespace Efax.Spec

open Tests

variable [MachEps]

/-- The parameters that a random stream leads to can be converted in both directions: natural parameters of
logarithmic distributions lie between the cut-offs of `to_exp`, the expectation parameters of the classes
that search lie inside the bounds of their supports, and the searches find the natural parameters. -/
def Cooperative (solve : Solver) (info : TestInfo) (g : Rng) (rs : List ℕ) : Prop :=
  ∀ (s s' : g.State) (p : List ℕ → (settingOf solve info).1.P) (q : List ℕ → (settingOf solve info).1.N),
    info.natParameters g rs s = .ok ((settingOf solve info).1.nat rs p q, s') →
    (settingOf solve info).2.Inside rs p q →
    EachLeaf RegularVals ((settingOf solve info).1.nat rs p q) ∧
    EachLeaf SearchableVals ((settingOf solve info).1.exp rs p
      fun i => ((settingOf solve info).1.F (p i)).toExp (q i)) ∧
    Found (settingOf solve info).1 rs p q

/-- The natural parameters of logarithmic distributions that a random stream leads to lie between
the cut-offs. -/
def Between (solve : Solver) (info : TestInfo) (g : Rng) (rs : List ℕ) : Prop :=
  ∀ (s s' : g.State) (p : List ℕ → (settingOf solve info).1.P) (q : List ℕ → (settingOf solve info).1.N),
    info.natParameters g rs s = .ok ((settingOf solve info).1.nat rs p q, s') →
    (settingOf solve info).2.Inside rs p q →
    EachLeaf RegularVals ((settingOf solve info).1.nat rs p q)

/-- What random numbers satisfy with probability one: the primitive generators do not return the least
element of their ranges, and random negative definite complex matrices have no zeros. -/
structure Strict (g : Rng) : Prop where
  exponential_pos : ∀ rs s i, inB rs i = true → 0 < (g.exponential rs s).1.get i
  uniform_pos : ∀ rs s i, inB rs i = true → 0 < (g.uniform rs s).1.get i
  hermitian : ∀ d rs s s' a,
    (Support.symmetric Ring.complexField false true true).generate g rs d s = .ok (.complex a, s') →
      ∀ i, inB (d :: d :: rs) i = true → a.get i ≠ 0

/-- The descriptions of families whose entropy efax computes. -/
def EntropyKnown : SimpleInfo → Prop
  | .poisson | .negativeBinomial | .logarithmic => False
  | _ => True

/-- What is drawn from a distribution of `scipy.stats` can be drawn. -/
def DrawsInRange (info : TestInfo) {g : Rng} (draw : Oracle → g.State → Tree Val × g.State) : Prop :=
  ∀ o s, Drawn [] info (draw o s).1

end Efax.Spec
