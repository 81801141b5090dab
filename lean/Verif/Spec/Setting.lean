import Verif.Spec.Kinds
import Verif.Spec.Measures
import Verif.Spec.ExpFam
import Mathlib.MeasureTheory.Measure.Prod
import Mathlib.MeasureTheory.Measure.Count
import Mathlib.MeasureTheory.Measure.Lebesgue.Complex

/-!
# Specification: reference measures and natural domains of all distributions, simple and joint
-/

namespace Efax.Spec

open MeasureTheory

/-- The space of observations of a kind of distributions with its reference measure `μ`, the fixed
parameters `ok` for which it is defined, and the domain `dom` of the natural parameters, which vary in
the directions `dirs`; `closed` if `to_nat()` does not search. -/
structure Setting {C : Type} (K : Kind C) where
  grp : AddCommGroup K.N
  mod : Module ℝ K.N
  ms : MeasurableSpace K.X
  μ : Measure K.X
  ok : K.P → Prop
  dom : K.P → Set K.N
  dirs : Submodule ℝ K.N
  closed : Prop

/-- `Setting` for the parts of a joint distribution. -/
structure Settings {C : Type} (R : Parts C) where
  grp : AddCommGroup R.N
  mod : Module ℝ R.N
  ms : MeasurableSpace R.X
  μ : Measure R.X
  ok : R.P → Prop
  dom : R.P → Set R.N
  dirs : Submodule ℝ R.N
  closed : Prop

/-- No parts: one observation. -/
noncomputable def Settings.nil {C : Type} : Settings (.nil : Parts C) where
  grp := inferInstanceAs (AddCommGroup Unit)
  mod := inferInstanceAs (Module ℝ Unit)
  ms := inferInstanceAs (MeasurableSpace Unit)
  μ := @Measure.dirac Unit _ ()
  ok _ := True
  dom _ := Set.univ
  dirs := ⊤
  closed := True

/-- A part and further parts: pairs of observations, with the product measure. -/
noncomputable def Settings.cons {C : Type} (n : String) {K : Kind C} {R : Parts C} (S : Setting K)
    (T : Settings R) : Settings (.cons n K R) where
  grp := @Prod.instAddCommGroup _ _ S.grp T.grp
  mod := @Prod.instModule _ _ _ _ (_) (_) S.mod T.mod
  ms := @Prod.instMeasurableSpace _ _ S.ms T.ms
  μ := @Measure.prod _ _ S.ms T.ms S.μ T.μ
  ok p := S.ok p.1 ∧ T.ok p.2
  dom p := S.dom p.1 ×ˢ T.dom p.2
  dirs := @Submodule.prod _ _ _ (_) S.mod S.dirs _ (_) T.mod T.dirs
  closed := S.closed ∧ T.closed

/-- The joint distribution of parts. -/
def Setting.joint {C : Type} (c c' : C) {R : Parts C} (T : Settings R) : Setting (.joint c c' R) where
  grp := T.grp
  mod := T.mod
  ms := T.ms
  μ := T.μ
  ok := T.ok
  dom := T.dom
  dirs := T.dirs
  closed := T.closed

set_option linter.overlappingInstances false in
/-- A simple distribution. -/
def Setting.simple {C P N E X : Type} [Sub N] [G : AddCommGroup N] [M : Module ℝ N]
    [S : MeasurableSpace X] {c c' : C}
    {nat : Layout P N} {exp : Layout P E} {obs : List ℕ → (List ℕ → X) → Val → Prop}
    {F : P → ExpFam N E X} {toNat : P → E → N} {ecm : P → E → ℝ} {ent : Prop} {d : P → N → Prop}
    {e : P → E → Prop} (μ : Measure X) (dom : Set N) (dirs : Submodule ℝ N := ⊤)
    (ok : P → Prop := fun _ => True) (closed : Prop := True) :
    Setting (Kind.simple c c' nat exp obs F toNat ecm ent d e) where
  grp := G
  mod := M
  ms := S
  μ := μ
  ok := ok
  dom _ := dom
  dirs := dirs
  closed := closed

variable [MachEps]

open Set in
/-- The reference measures and the natural domains of the simple distributions.  Some families need a
positive dimension, the others positive fixed parameters. -/
noncomputable def Simple.setting (solve : Solver) : (s : Simple) → Setting (s.kind solve)
  | bernoulli => .simple Measure.count univ
  | beta => .simple (volume.restrict (Ioo 0 1)) (dirichletDom 2) ⊤ (fun _ => True) False
  | chi => .simple positive (Ioi (-1)) ⊤ (fun _ => True) False
  | chiSquare => .simple positive (Ioi (-1)) ⊤ (fun _ => True) False
  | cmvCircular d => .simple volume (cmvCircularDom d) (hermitianDirs d)
  | cmvUnit _ => .simple volume univ
  | complexNormal => .simple volume complexNormalDom
  | complexUnit => .simple volume univ
  | dirichlet d => .simple (volume.restrict (simplex d)) (dirichletDom (d + 1)) ⊤ (fun _ => 0 < d) False
  | exponential => .simple positive (Iio 0)
  | gamma => .simple positive gammaDom ⊤ (fun _ => True) False
  | genDirichlet d => .simple (volume.restrict (simplex d)) (genDirichletDom d) ⊤ (fun _ => True)
      False
  | geometric => .simple Measure.count (Iio 0)
  | logarithmic => .simple Measure.count (Iio 0) ⊤ (fun _ => True) False
  | multinomial d => .simple (categories d) univ
  | mvNormal d => .simple volume (mvNormalDom d) (symmetricDirs d)
  | mvDiagonal d => .simple volume (mvDiagonalDom d)
  | mvFixed _ => .simple volume univ ⊤ fun v => 0 < v
  | mvIsotropic d => .simple volume (mvIsotropicDom d) ⊤ fun _ => 0 < d
  | mvUnit _ => .simple volume univ
  | negativeBinomial => .simple Measure.count (Iio 0) ⊤ fun r => 1 ≤ r
  | normal => .simple volume normalDom
  | unitNormal => .simple volume univ
  | poisson => .simple Measure.count univ
  | rayleigh => .simple positive (Iio 0)
  | vonMisesFisher d => .simple volume.toSphere {q | q ≠ 0} ⊤ (fun _ => 0 < d) False
  | weibull => .simple positive (Iio 0) ⊤ fun k => 0 < k

/-- The names and kinds of parts with settings. -/
def partsOf {C : Type} (l : List (String × Σ K : Kind C, Setting K)) : List (String × Kind C) :=
  l.map fun s => (s.1, s.2.1)

/-- The setting of these parts. -/
noncomputable def Settings.ofList {C : Type} : (l : List (String × Σ K : Kind C, Setting K)) →
    Settings (Parts.ofList (partsOf l))
  | [] => .nil
  | s :: l => .cons s.1 s.2.2 (ofList l)

/-- The setting of a kind of distributions: that of the class for simple distributions, the product for
joint distributions. -/
inductive LibrarySetting (solve : Solver) : (K : Kind Cls) → Setting K → Prop
  | simple (s : Simple) : LibrarySetting solve (s.kind solve) (s.setting solve)
  | joint {l : List (String × Σ K : Kind Cls, Setting K)} (h0 : l ≠ []) (hn : (l.map Prod.fst).Nodup)
      (hS : ∀ s ∈ l, LibrarySetting solve s.2.1 s.2.2) :
      LibrarySetting solve (.joint .jointN .jointE (.ofList (partsOf l))) (.joint _ _ (.ofList l))

section

variable {C : Type} {K : Kind C}

/-- All entries of the batch are valid. -/
def Setting.Inside (S : Setting K) (rs : List ℕ) (p : List ℕ → K.P) (q : List ℕ → K.N) : Prop :=
  ∀ i, inB rs i = true → S.ok (p i) ∧ q i ∈ S.dom (p i)

/-- `to_nat()` finds the natural parameters `q` of every entry from its expectation parameters. -/
def Found (K : Kind C) (rs : List ℕ) (p : List ℕ → K.P) (q : List ℕ → K.N) : Prop :=
  ∀ i, inB rs i = true → K.toNat (p i) ((K.F (p i)).toExp (q i)) = q i

/-- The parameters `q + t v`. -/
def Setting.line (S : Setting K) (q v : K.N) (t : ℝ) : K.N :=
  letI := S.grp
  letI := S.mod
  q + t • v

/-- `pdf(t)` of the object `d` computes the densities `f`, at all arrays of observations. -/
def PdfIs (L : Library Cls) (K : Kind Cls) (rs : List ℕ) (d : Dist Cls) (f : List ℕ → K.X → ℝ) : Prop :=
  ∀ x t, K.obs rs x t → d.pdf L t = .ok (scalars rs fun i => f i (x i))

/-- `parameter_dot_product(v, estimator.sufficient_statistics(t))` with the estimator of the object `d`
computes `s`, at all arrays of observations. -/
def StatisticIs (L : Library Cls) (K : Kind Cls) (rs : List ℕ) (d v : Dist Cls)
    (s : List ℕ → K.X → ℝ) : Prop :=
  ∀ x t, K.obs rs x t → ∃ est w, createEstimatorFromNatural d = .ok est ∧
    est.sufficientStatistics L.stat t = .ok w ∧ dotCalc v w = .ok (scalars rs fun i => s i (x i))

end

end Efax.Spec
