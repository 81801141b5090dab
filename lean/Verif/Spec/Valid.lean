import Verif.Spec.Setting
import Verif.Spec.Flat
import Verif.Spec.Generate
import Mathlib.LinearAlgebra.Matrix.PosDef

/-!
# Specification: objects that are batches of probability distributions
-/

namespace Efax.Spec

open ClassTable

open scoped ComplexOrder

variable [MachEps]

/-- The object is a batch of shape `rs` of distributions of the kind `K`: it stores the natural
parameters of a distribution for each entry, and they lie in the natural domain. -/
def ValidOf (K : Kind Cls) (S : Setting K) (rs : List ℕ) (d : Dist Cls) : Prop :=
  ∃ p q, d = K.nat rs p q ∧ S.Inside rs p q

/-- The object is a batch of distributions, simple or joint. -/
def Valid (solve : Solver) (rs : List ℕ) (d : Dist Cls) : Prop :=
  ∃ K S, LibrarySetting solve K S ∧ ValidOf K S rs d

/-- The object is a batch of shape `rs` of distributions of the kind `K`, given by expectation
parameters: those of natural parameters in the natural domain. -/
def ValidExpOf (K : Kind Cls) (S : Setting K) (rs : List ℕ) (d : Dist Cls) : Prop :=
  ∃ p q, d = K.exp rs p (fun i => (K.F (p i)).toExp (q i)) ∧ S.Inside rs p q

/-- The object is a batch of distributions, simple or joint, given by expectation parameters. -/
def ValidExp (solve : Solver) (rs : List ℕ) (d : Dist Cls) : Prop :=
  ∃ K S, LibrarySetting solve K S ∧ ValidExpOf K S rs d

/-- What the natural parameters of three families satisfy and the declarations of the parameters do not
ensure: the vector of the von Mises-Fisher distributions is not zero, and the matrices of the
multivariate normal distributions are negative definite. -/
def Definite (rs : List ℕ) : Cls → List Val → Prop
  | .vonMisesFisherNP, [.real a] => ∀ i, inB rs i = true → ∃ k < a.rshape.headD 0, a.get (k :: i) ≠ 0
  | .mvNormalNP, [_, .real a] => ∀ i, inB rs i = true →
      (-(Matrix.of fun (r c : Fin (a.rshape.headD 0)) => a.get (c.1 :: r.1 :: i))).PosDef
  | .ccsnNP, [.complex a] => ∀ i, inB rs i = true →
      (-(Matrix.of fun (r c : Fin (a.rshape.headD 0)) => a.get (c.1 :: r.1 :: i))).PosDef
  | _, _ => True

mutual
/-- `Definite` for all sub-distributions. -/
def AllDefinite (rs : List ℕ) : Dist Cls → Prop
  | .mk c vals subs => Definite rs c vals ∧ AllDefinites rs subs
/-- `AllDefinite` for all parts. -/
def AllDefinites (rs : List ℕ) : Subs Cls → Prop
  | .nil => True
  | .cons _ d r => AllDefinite rs d ∧ AllDefinites rs r
end

/-- No parameter of the class is fixed. -/
def NoFixed (c : Cls) : Prop := ∀ f ∈ Cls.fields c, f.fixed = false

/-- The families for which nothing is missing. -/
def NeedsNothing (c : Cls) : Prop := c ≠ .vonMisesFisherNP ∧ c ≠ .mvNormalNP ∧ c ≠ .ccsnNP

/-- What random numbers satisfy with probability one: vectors of normal variables are not zero, and
matrices of normal variables, or of two of them for the real and the imaginary part, are not singular. -/
structure Generic (g : Rng) : Prop where
  vector : ∀ d rs s i, 0 < d → inB rs i = true → ∃ k < d, (g.normal (d :: rs) s).1.get (k :: i) ≠ 0
  matrix : ∀ d rs s i, inB rs i = true →
    (Matrix.of fun r c : Fin d => (g.normal (d :: d :: rs) s).1.get (c.1 :: r.1 :: i)).det ≠ 0
  complex : ∀ d rs s i, inB rs i = true →
    (Matrix.of fun r c : Fin d => ((g.normal (d :: d :: rs) s).1.get (c.1 :: r.1 :: i) : ℂ) +
      (g.normal (d :: d :: rs) (g.normal (d :: d :: rs) s).2).1.get (c.1 :: r.1 :: i) * Complex.I).det ≠ 0

end Efax.Spec
