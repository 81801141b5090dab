import Verif.Spec.Kinds
import Verif.Spec.Fits

/-!
# Specification: indexing, and which objects are batches
-/

namespace Efax.Spec

open Calc

/-- The entry `x[key]` of the result of a calculation. -/
def atIndex (key : List ℕ) : Calc ℝ → Calc ℝ
  | .ok a => a.index key
  | .error e => .error e

mutual
/-- All arrays of a nested observation, indexed. -/
def treeIndex (key : List ℕ) : Tree Val → Except Err (Tree Val)
  | .leaf v => Tree.leaf <$> v.index key
  | .node f => Tree.node <$> forestIndex key f
/-- All arrays of a dictionary, indexed. -/
def forestIndex (key : List ℕ) : Forest Val → Except Err (Forest Val)
  | .nil => .ok .nil
  | .cons k t r => do
    let t' ← treeIndex key t
    let r' ← forestIndex key r
    .ok (.cons k t' r')
end

/-- What the values of a class must satisfy beyond type and shape: a beta distribution has two
parameters, multinomial and Dirichlet distributions have at least one, and the numbers of failures are
not negative.  `d` is the dimension. -/
def Sensible (d : ℕ) : Cls → List Val → Prop
  | .betaNP, _ | .betaEP, _ => d = 2
  | .multinomialNP, _ | .multinomialEP, _ | .dirichletNP, _ | .dirichletEP, _ => 0 < d
  | .negativeBinomialNP, [_, .int a] | .negativeBinomialEP, [_, .int a] =>
      ∀ i, inB a.rshape i = true → 0 ≤ a.get i
  | _, _ => True

mutual
/-- A batch of shape `rs` (last axis first): every parameter of every node, fixed or not, has the type
and the shape that its support declares, for one dimension per node.  `cls` says which classes are
allowed. -/
def IsBatch [MachEps] (cls : Cls → Prop) (rs : List ℕ) : Dist Cls → Prop
  | .mk c vals subs => cls c ∧ (∃ d, Sensible d c vals ∧
      List.Forall₂ (fun f v => Lies f.support false d rs v) (ClassTable.fields c) vals) ∧
      IsBatches cls rs subs
/-- `IsBatch` for all sub-distributions. -/
def IsBatches [MachEps] (cls : Cls → Prop) (rs : List ℕ) : Subs Cls → Prop
  | .nil => True
  | .cons _ d r => IsBatch cls rs d ∧ IsBatches cls rs r
end

end Efax.Spec
