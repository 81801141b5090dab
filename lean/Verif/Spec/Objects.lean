import Verif.Spec.Leaves

/-!
# Specification: conditions on batches of distributions, as conditions on the objects
-/

namespace Efax.Spec

open ClassTable Calc

/-- The number of entries along the last axis of the first parameter: the dimension of a multivariate
distribution. -/
def firstDim : List Val → ℕ
  | v :: _ => v.rshape.headD 0
  | [] => 0

/-- The entries of an array of real numbers, integers or Booleans. -/
noncomputable def Val.number (v : Val) (i : List ℕ) : ℝ := (v.toC.get i).re

/-- Both of this type and shape and, if `fixed`, equal. -/
def AlikeVal (fixed : Bool) : Val → Val → Prop
  | .real a, .real b => a.rshape = b.rshape ∧ (fixed = true → a = b)
  | .complex a, .complex b => a.rshape = b.rshape ∧ (fixed = true → a = b)
  | .int a, .int b => a.rshape = b.rshape ∧ (fixed = true → a = b)
  | .bool a, .bool b => a.rshape = b.rshape ∧ (fixed = true → a = b)
  | _, _ => False

mutual
/-- The two objects have the same parts, the classes of corresponding parts are related by `rel`,
their parameters have the same types and shapes and their fixed parameters are equal. -/
def Alike [MachEps] (rel : Cls → Cls → Prop) : Dist Cls → Dist Cls → Prop
  | .mk c vals subs, .mk c' vals' subs' => rel c c' ∧
      List.Forall₂ (fun fv w => AlikeVal fv.1.fixed fv.2 w) ((fields c').zip vals) vals' ∧
      Alikes rel subs subs'
/-- `Alike` for corresponding parts. -/
def Alikes [MachEps] (rel : Cls → Cls → Prop) : Subs Cls → Subs Cls → Prop
  | .nil, .nil => True
  | .cons n d r, .cons n' d' r' => n = n' ∧ Alike rel d d' ∧ Alikes rel r r'
  | _, _ => False
end

/-- `to_exp()` of the logarithmic family is claimed where the code does not switch to a limit
(logarithmic.py 37-43). -/
def RegularVals : Cls → List Val → Prop
  | .logarithmicNP, [.real a] => ∀ i, inB a.rshape i = true →
      logProbabilityFloor ≤ a.get i ∧ a.get i ≤ logProbabilityCeiling
  | _, _ => True

/-- `to_nat()` of the classes that search is claimed for parameters inside the (stored, slightly
narrowed) bounds of their supports. -/
def SearchableVals [MachEps] : Cls → List Val → Prop
  | .logarithmicEP, [.real a] => ∀ i, inB a.rshape i = true → Ring.openMin 1 < a.get i
  | .gammaEP, [.real a, _] => ∀ i, inB a.rshape i = true → Ring.openMin 0 < a.get i
  | .betaEP, [.real a] | .dirichletEP, [.real a] => ∀ i, inB a.rshape i = true → a.get i < Ring.openMax 0
  | .genDirichletEP, [.real a, .real b] => (∀ i, inB a.rshape i = true → a.get i < Ring.openMax 0) ∧
      ∀ i, inB b.rshape i = true → b.get i < Ring.openMax 0
  | .vonMisesFisherEP, [.real a] => ∀ i, inB a.rshape.tail i = true →
      0 < (∑ k ∈ Finset.range (a.rshape.headD 0), a.get (k :: i) ^ 2) ∧
      (∑ k ∈ Finset.range (a.rshape.headD 0), a.get (k :: i) ^ 2) < 1
  | _, _ => True

/-- All simple distributions that the object consists of satisfy a condition. -/
def EachLeaf [MachEps] (P : Cls → List Val → Prop) (d : Dist Cls) : Prop :=
  ∀ l ∈ leaves d, match l with | .mk c vals _ => P c vals

/-- The simple classes with `expected_carrier_measure`. -/
def HasEcm : Cls → Prop
  | .logarithmicEP | .logarithmicNP | .negativeBinomialEP | .negativeBinomialNP | .poissonEP
  | .poissonNP => False
  | _ => True

/-- An observation for a distribution of this class: the values are in the range of the
distribution where the density needs it, and the shape is that of the batch and of one observation.
Observations may be stored as real numbers, integers or Booleans. -/
def ObservedVal (rs : List ℕ) : Cls → List Val → Val → Prop
  | .bernoulliNP, _, x => (∀ a, x ≠ .complex a) ∧ x.rshape = rs ∧ ∀ i, inB rs i = true →
      Val.number x i = 0 ∨ Val.number x i = 1
  | .geometricNP, _, x | .negativeBinomialNP, _, x | .poissonNP, _, x =>
      (∀ a, x ≠ .complex a) ∧ x.rshape = rs ∧ ∀ i, inB rs i = true → ∃ n : ℕ, Val.number x i = n
  | .logarithmicNP, _, x =>
      (∀ a, x ≠ .complex a) ∧ x.rshape = rs ∧ ∀ i, inB rs i = true → ∃ n : ℕ, Val.number x i = n + 1
  | .betaNP, _, x | .chiNP, _, x | .chiSquareNP, _, x | .exponentialNP, _, x | .gammaNP, _, x
  | .normalNP, _, x | .unitNormalNP, _, x | .rayleighNP, _, x | .weibullNP, _, x =>
      (∀ a, x ≠ .complex a) ∧ x.rshape = rs
  | .complexNormalNP, _, x | .complexUnitNormalNP, _, x => x.rshape = rs
  | .ccsnNP, v, x | .cmvUnitNormalNP, v, x => x.rshape = firstDim v :: rs
  | .dirichletNP, v, x => (∀ a, x ≠ .complex a) ∧ x.rshape = (firstDim v - 1) :: rs
  | .vonMisesFisherNP, v, x => (∀ a, x ≠ .complex a) ∧ x.rshape = firstDim v :: rs ∧
      0 < firstDim v ∧ ∀ i, inB rs i = true → ∑ k ∈ Finset.range (firstDim v), Val.number x (k :: i) ^ 2 = 1
  | _, v, x => (∀ a, x ≠ .complex a) ∧ x.rshape = firstDim v :: rs

mutual
/-- A (nested) observation of shape `rs` for this distribution: a dictionary with one item for each
part of a joint distribution. -/
def Observed (rs : List ℕ) : Dist Cls → Tree Val → Prop
  | .mk c vals subs, t => match Cls.isJoint c, t with
    | true, .node f => f.keys.Nodup ∧ (∀ n ∈ f.keys, n ∈ subs.names) ∧ ObservedParts rs subs f
    | false, .leaf v => ObservedVal rs c vals v
    | _, _ => False
/-- There is an observation for each part. -/
def ObservedParts (rs : List ℕ) : Subs Cls → Forest Val → Prop
  | .nil, _ => True
  | .cons n d r, f => (∃ t, (n, t) ∈ f.toList ∧ Observed rs d t) ∧ ObservedParts rs r f
end

end Efax.Spec
