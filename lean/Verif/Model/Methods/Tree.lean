import Verif.Model.Methods.Basic
import Verif.Model.Estimator
import Verif.Model.Tools
import Verif.Model.Joint

/-!
# Methods of whole distributions, simple or joint
(`natural_parametrization.py`, `expectation_parametrization.py`, `mixins/has_entropy.py`,
`transform/joint.py`)
-/

namespace Efax

open ClassTable Calc

/-- The methods of the simple classes: of the natural classes, of the expectation classes, whether an
expectation class is a subclass of `HasEntropyEP`, and `ExpToNat.to_nat` for the classes that use it. -/
structure Library (C : Type) where
  nat : C → Option NatMethods
  exp : C → Option ExpMethods
  hasEntropy : C → Bool
  search : C → List Val → Except Err (List Val)

variable {C : Type} [ClassTable C]

namespace Library

/-- `log_normalizer()` of a simple distribution; other classes have no such method (`AttributeError`,
here `TypeError`). -/
noncomputable def logNormalizer (L : Library C) (c : C) (v : List Val) : Calc ℝ :=
  match L.nat c with
  | some m => m.logNormalizer v
  | none => fail .typeError

/-- The parameters of `to_exp()` of a simple distribution. -/
def toExp (L : Library C) (c : C) (v : List Val) : Except Err (List Val) :=
  match L.nat c with
  | some m => m.toExp v
  | none => .error .typeError

/-- `carrier_measure(x)` of a simple distribution. -/
noncomputable def carrier (L : Library C) (c : C) (v : List Val) (x : Val) : Calc ℝ :=
  match L.nat c with
  | some m => m.carrier v x
  | none => fail .typeError

/-- The parameters of `to_nat()` of a simple distribution. -/
def toNat (L : Library C) (c : C) (v : List Val) : Except Err (List Val) :=
  match L.exp c with
  | some m => m.toNat (L.search c) v
  | none => .error .typeError

/-- `expected_carrier_measure()` of a simple distribution. -/
noncomputable def ecm (L : Library C) (c : C) (v : List Val) : Calc ℝ :=
  match L.exp c with
  | some m => m.ecm (L.search c) v
  | none => fail .typeError

/-- The property `shape` of a simple distribution. -/
def shape (L : Library C) (c : C) (v : List Val) : Except Err (List ℕ) :=
  match L.nat c, L.exp c with
  | some m, _ => m.shape v
  | none, some m => m.shape v
  | none, none => .error .typeError

/-- `c.sufficient_statistics(x, **fixed)`. -/
def stat (L : Library C) : StatFn C := fun c x fixed =>
  match L.nat c, expCls c with
  | some m, some c' => do .ok (.mk c' (← m.stat x fixed) .nil)
  | _, _ => .error .typeError

end Library

mutual
/-- `p.shape` (transform/joint.py 62-67 for joint distributions: the shape of the first part;
`ValueError` without parts). -/
def Dist.shape (L : Library C) : Dist C → Except Err (List ℕ)
  | .mk c vals subs => if isJoint c then Subs.shape L subs else L.shape c vals
/-- The shape of the first sub-distribution. -/
def Subs.shape (L : Library C) : Subs C → Except Err (List ℕ)
  | .nil => .error .valueError
  | .cons _ d _ => Dist.shape L d
end

/-- `reduce(jnp.add, values)`; `TypeError` for no values. -/
noncomputable def reduceCalc : List (Calc ℝ) → Calc ℝ
  | [] => fail .typeError
  | a :: as => as.foldl (· + ·) a

mutual
/-- `p.log_normalizer()` (transform/joint.py 109-112 for joint distributions). -/
noncomputable def Dist.logNormalizer (L : Library C) : Dist C → Calc ℝ
  | .mk c vals subs =>
    match expCls c with
    | none => fail .typeError
    | some _ =>
      if isJoint c then reduceCalc (Subs.logNormalizers L subs) else L.logNormalizer c vals
/-- The generator `x.log_normalizer() for x in self._sub_distributions.values()`. -/
noncomputable def Subs.logNormalizers (L : Library C) : Subs C → List (Calc ℝ)
  | .nil => []
  | .cons _ d r => Dist.logNormalizer L d :: Subs.logNormalizers L r
end

mutual
/-- `p.carrier_measure(x)` (transform/joint.py 119-124 for joint distributions).  `join_mappings`
pairs every part with the observation of the same name; a part without observation (`value['x']`) or an
observation without part (`value['sub']`, found after the parts) is a `KeyError`.  An observation of the
wrong kind (a dictionary for a simple distribution or the converse) is a `TypeError` here. -/
noncomputable def Dist.carrier (L : Library C) : Dist C → Tree Val → Calc ℝ
  | .mk c vals subs, x =>
    match expCls c with
    | none => fail .typeError
    | some _ =>
      match isJoint c, x with
      | true, .node f => reduceCalc (Subs.carriers L subs f ++
          (f.keys.filter fun n => n ∉ subs.names).map fun _ => fail .keyError)
      | false, .leaf v => L.carrier c vals v
      | _, _ => fail .typeError
/-- The generator `value['sub'].carrier_measure(value['x'])` over the parts. -/
noncomputable def Subs.carriers (L : Library C) : Subs C → Forest Val → List (Calc ℝ)
  | .nil, _ => []
  | .cons n d r, f =>
    (match f.get? n with
      | some t => Dist.carrier L d t
      | none => fail .keyError) :: Subs.carriers L r f
end

mutual
/-- `p.expected_carrier_measure()` (transform/joint.py 90-96 for joint distributions).  The parts of a
joint distribution must be instances of `HasEntropyEP` (`AssertionError`, 93); `JointDistributionE` is
a subclass of it (72).  A simple distribution without the method raises `AttributeError`, here
`TypeError`. -/
noncomputable def Dist.ecm (L : Library C) : Dist C → Calc ℝ
  | .mk c vals subs =>
    match natCls c with
    | none => fail .typeError
    | some _ =>
      if isJoint c then reduceCalc (Subs.ecms L subs)
      else if L.hasEntropy c then L.ecm c vals else fail .typeError
/-- The generator `f(value) for value in self._sub_distributions.values()`. -/
noncomputable def Subs.ecms (L : Library C) : Subs C → List (Calc ℝ)
  | .nil => []
  | .cons _ d r =>
    (if isJoint d.cls || L.hasEntropy d.cls then Dist.ecm L d else fail .assertionError)
      :: Subs.ecms L r
end

/-- `parameter_dot_product(x, y)` as an array expression. -/
noncomputable def dotCalc (x y : Dist C) : Calc ℝ := paramDot x y

/-- `jnp.subtract` of the values of a parameter.  Only real and complex parameters are subtracted. -/
noncomputable def valSub : List Val → Except Err Val
  | [.real a, .real b] => Val.ofR (ok a - ok b)
  | [a, b] => Val.ofC (a.toCalcC - b.toCalcC)
  | _ => .error .typeError

/-- `NaturalParametrization.log_pdf(x)` (natural_parametrization.py 99-109). -/
noncomputable def Dist.logPdf (L : Library C) (p : Dist C) (x : Tree Val) : Calc ℝ := do
  let estimator ← createEstimatorFromNatural p
  let tx ← estimator.sufficientStatistics L.stat x
  dotCalc p tx - p.logNormalizer L + p.carrier L x

/-- `NaturalParametrization.pdf(x)` (natural_parametrization.py 89-97). -/
noncomputable def Dist.pdf (L : Library C) (p : Dist C) (x : Tree Val) : Calc ℝ :=
  Calc.exp (p.logPdf L x)

/-- `ExpectationParametrization.kl_divergence(q, self_nat=n)` (expectation_parametrization.py 35-52). -/
noncomputable def Dist.klE (L : Library C) (p q : Dist C) (selfNat : Option (Dist C) := none) :
    Calc ℝ := do
  let n ← match selfNat with
    | some n => .ok n
    | none => p.toNat L.toNat
  let difference ← paramMap valSub n [q]
  dotCalc difference p + q.logNormalizer L - n.logNormalizer L

/-- `NaturalParametrization.kl_divergence(q)` (natural_parametrization.py 171-173). -/
noncomputable def Dist.klN (L : Library C) (p q : Dist C) : Calc ℝ := do
  (← p.toExp L.toExp).klE L q (some p)

/-- `HasEntropyEP.cross_entropy(q)` (mixins/has_entropy.py 36-46); a class without it raises
`AttributeError`, here `TypeError`. -/
noncomputable def Dist.crossEntropy (L : Library C) (p q : Dist C) : Calc ℝ :=
  -dotCalc q p + q.logNormalizer L - p.ecm L

/-- `HasEntropyEP.entropy()` (mixins/has_entropy.py 48-56). -/
noncomputable def Dist.entropyE (L : Library C) (p : Dist C) : Calc ℝ := do
  p.crossEntropy L (← p.toNat L.toNat)

/-- `HasEntropyNP.entropy()` (mixins/has_entropy.py 65-70). -/
noncomputable def Dist.entropyN (L : Library C) (p : Dist C) : Calc ℝ := do
  (← p.toExp L.toExp).crossEntropy L p

end Efax
