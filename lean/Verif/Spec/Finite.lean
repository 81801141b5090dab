import Verif.Model.Checked.Families
import Verif.Spec.Setting

/-!
# Specification: the results are finite
-/

namespace Efax.Spec

open MeasureTheory Checked

/-- Independent observations of two families: the methods of the parts, and the sums of their numbers
(`JointDistributionN`, `JointDistributionE`: transform/joint.py 82-95, 107-123). -/
noncomputable def prodChecked {N N' E E' X X' : Type} (C : CheckedFam N E X) (D : CheckedFam N' E' X') :
    CheckedFam (N × N') (E × E') (X × X') where
  logNormalizer q := do return (← C.logNormalizer q.1) + (← D.logNormalizer q.2)
  toExp q := do return (← C.toExp q.1, ← D.toExp q.2)
  stat x := do return (← C.stat x.1, ← D.stat x.2)
  carrier x := do return (← C.carrier x.1) + (← D.carrier x.2)
  toNat χ := do return (← C.toNat χ.1, ← D.toNat χ.2)
  ecm χ := do return (← C.ecm χ.1) + (← D.ecm χ.2)

/-- No parts. -/
noncomputable def unitChecked : CheckedFam Unit Unit Unit where
  logNormalizer _ := some 0
  toExp _ := some ()
  stat _ := some ()
  carrier _ := some 0
  toNat _ := some ()
  ecm _ := some 0

/-- The methods of a kind of distributions with checked arithmetic, for all fixed parameters. -/
abbrev CheckedKind {C : Type} (K : Kind C) := K.P → CheckedFam K.N K.E K.X

variable [MachEps]

/-- The simple distributions with checked arithmetic. -/
noncomputable def Simple.checked (solve : Solver) : (s : Simple) → CheckedKind (s.kind solve)
  | bernoulli => fun (_ : Unit) => Checked.bernoulli
  | beta => fun (_ : Unit) => Checked.beta solve.beta
  | chi => fun (_ : Unit) => Checked.chi solve.chi
  | chiSquare => fun (_ : Unit) => Checked.chiSquare solve.chiSquare
  | cmvCircular d => fun (_ : Unit) => Checked.cmvCircular d
  | cmvUnit d => fun (_ : Unit) => Checked.cmvUnit d
  | complexNormal => fun (_ : Unit) => Checked.complexNormal
  | complexUnit => fun (_ : Unit) => Checked.complexUnit
  | dirichlet d => fun (_ : Unit) => Checked.dirichlet d (solve.dirichlet (d + 1))
  | exponential => fun (_ : Unit) => Checked.exponential
  | gamma => fun (_ : Unit) => Checked.gamma solve.gamma
  | genDirichlet d => fun (_ : Unit) => Checked.genDirichlet d (solve.genDirichlet d)
  | geometric => fun (_ : Unit) => Checked.geometric
  | logarithmic => fun (_ : Unit) => Checked.logarithmic solve.logarithmic
  | multinomial d => fun (_ : Unit) => Checked.multinomial d
  | mvNormal d => fun (_ : Unit) => Checked.mvNormal d
  | mvDiagonal d => fun (_ : Unit) => Checked.mvDiagonal d
  | mvFixed d => fun (v : ℝ) => Checked.mvFixed d v
  | mvIsotropic d => fun (_ : Unit) => Checked.mvIsotropic d
  | mvUnit d => fun (_ : Unit) => Checked.mvUnit d
  | negativeBinomial => fun (r : ℕ) => Checked.negativeBinomial r
  | normal => fun (_ : Unit) => Checked.normal
  | unitNormal => fun (_ : Unit) => Checked.unitNormal
  | poisson => fun (_ : Unit) => Checked.poisson
  | rayleigh => fun (_ : Unit) => Checked.rayleigh
  | vonMisesFisher d => fun (_ : Unit) => Checked.vonMisesFisher d (solve.vonMisesFisher d)
  | weibull => fun (k : ℝ) => Checked.weibull k

/-- A named part of a joint distribution. -/
abbrev CheckedPart := String × Σ K : Kind Cls, Setting K × CheckedKind K

/-- The names, kinds and settings of parts. -/
def checkedSettings (l : List CheckedPart) : List (String × Σ K : Kind Cls, Setting K) :=
  l.map fun s => (s.1, ⟨s.2.1, s.2.2.1⟩)

/-- The methods of these parts. -/
noncomputable def checkedOf : (l : List CheckedPart) → (R : (Parts.ofList (partsOf (checkedSettings l))).P) →
    CheckedFam (Parts.ofList (partsOf (checkedSettings l))).N (Parts.ofList (partsOf (checkedSettings l))).E
      (Parts.ofList (partsOf (checkedSettings l))).X
  | [], _ => unitChecked
  | s :: l, (p : s.2.1.P × (Parts.ofList (partsOf (checkedSettings l))).P) =>
    prodChecked (s.2.2.2 p.1) (checkedOf l p.2)

/-- The kinds of distributions, simple and joint, with their settings and their methods with checked
arithmetic. -/
inductive LibraryChecked (solve : Solver) : (K : Kind Cls) → Setting K → CheckedKind K → Prop
  | simple (s : Simple) : LibraryChecked solve (s.kind solve) (s.setting solve) (s.checked solve)
  | joint {l : List CheckedPart} (h0 : l ≠ []) (hn : (l.map Prod.fst).Nodup)
      (h : ∀ s ∈ l, LibraryChecked solve s.2.1 s.2.2.1 s.2.2.2) :
      LibraryChecked solve (.joint .jointN .jointE (.ofList (partsOf (checkedSettings l))))
        (.joint _ _ (.ofList (checkedSettings l))) (checkedOf l)

/-- No operation leaves its domain, and the results are those of the family:

* for all valid parameters: in `log_normalizer()`, in `to_exp()` where it is claimed, in `to_nat()` of
  their expectation parameters, and in `expected_carrier_measure()` of these if `to_nat()` returns
  valid parameters;
* for almost every observation: in `sufficient_statistics` and `carrier_measure`. -/
structure FiniteFor {K : Kind Cls} (S : Setting K) (C : CheckedKind K) : Prop where
  logNormalizer p q : S.ok p → q ∈ S.dom p →
    (C p).logNormalizer q = some ((K.F p).logNormalizer q)
  toExp p q : S.ok p → q ∈ S.dom p → K.dom p q → (C p).toExp q = some ((K.F p).toExp q)
  toNat p q : S.ok p → q ∈ S.dom p →
    (C p).toNat ((K.F p).toExp q) = some (K.toNat p ((K.F p).toExp q))
  ecm p q : K.ent → S.ok p → q ∈ S.dom p → K.toNat p ((K.F p).toExp q) ∈ S.dom p →
    (C p).ecm ((K.F p).toExp q) = some (K.ecm p ((K.F p).toExp q))
  obs p : S.ok p → letI := S.ms
    ∀ᵐ x ∂S.μ, (C p).stat x = some ((K.F p).stat x) ∧ (C p).carrier x = some ((K.F p).carrier x)

/-- The families whose log-normalizer takes the logarithm of a quantity that is positive for the valid
parameters only. -/
def Simple.Guarded : Simple → Prop
  | exponential | rayleigh | weibull | negativeBinomial | geometric | logarithmic | normal
  | mvDiagonal _ | mvIsotropic _ | complexNormal | vonMisesFisher _ => True
  | _ => False

end Efax.Spec
