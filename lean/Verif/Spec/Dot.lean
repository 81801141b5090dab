import Verif.Spec.Tree

/-!
# Specification of the dot product of natural and expectation parameters
-/

namespace Efax.Spec

open ClassTable

variable {C : Type} [ClassTable C]

/-- An entry of an array of any dtype, as a complex number. -/
noncomputable def entry : Val → List ℕ → ℂ
  | .real a, i => (a.get i : ℝ)
  | .complex a, i => a.get i
  | .bool a, i => if a.get i then 1 else 0
  | .int a, i => (a.get i : ℤ)

/-- The sum of `g` over all indices of a box. -/
noncomputable def boxSum : List ℕ → (List ℕ → ℂ) → ℂ
  | [], g => g []
  | n :: rs, g => ∑ k ∈ Finset.range n, boxSum rs fun i => g (k :: i)

/-- The real part of the sum of the products over the last `n` axes, at the position `j` of the
remaining axes. -/
noncomputable def valDot (n : ℕ) (x y : Val) (j : List ℕ) : ℝ :=
  (boxSum (x.rshape.take n) fun i => entry x (i ++ j) * entry y (i ++ j)).re

/-- The parameters of one node that are not fixed. -/
def freeFields (c : C) (vals : List Val) : List (Field × Val) :=
  ((fields c).zip vals).filter fun fv => !fv.1.fixed

mutual
/-- The parameters of all nodes that are not fixed. -/
def allFree : Dist C → List (Field × Val)
  | .mk c v s => freeFields c v ++ allFrees s
/-- `allFree` for all sub-distributions. -/
def allFrees : Subs C → List (Field × Val)
  | .nil => []
  | .cons _ d r => allFree d ++ allFrees r
end

mutual
/-- The sum of `valDot` over the variable parameters of all nodes. -/
noncomputable def treeDot : Dist C → Dist C → List ℕ → ℝ
  | .mk c v s, .mk c' v' s', j =>
    (List.zipWith (fun a b => valDot a.1.support.axes a.2 b.2 j) (freeFields c v)
      (freeFields c' v')).sum + subsDot s s' j
/-- `treeDot` over all sub-distributions. -/
noncomputable def subsDot : Subs C → Subs C → List ℕ → ℝ
  | .cons _ d r, .cons _ d' r', j => treeDot d d' j + subsDot r r' j
  | _, _, _ => 0
end

/-- Two parameters that can be multiplied: same number of axes, same shape, consisting of the batch
shape and that number of axes. -/
def FieldMatch (batch : List ℕ) (a b : Field × Val) : Prop :=
  b.1.support.axes = a.1.support.axes ∧ a.2.rshape = b.2.rshape ∧
    ∃ s, s.length = a.1.support.axes ∧ a.2.rshape = s ++ batch

mutual
/-- Two distributions with matching structure and the same batch shape. -/
def DotMatch (batch : List ℕ) : Dist C → Dist C → Prop
  | .mk c v s, .mk c' v' s' =>
    List.Forall₂ (FieldMatch batch) (freeFields c v) (freeFields c' v') ∧ DotMatches batch s s'
/-- `DotMatch` for all sub-distributions. -/
def DotMatches (batch : List ℕ) : Subs C → Subs C → Prop
  | .nil, .nil => True
  | .cons n d r, .cons n' d' r' => n = n' ∧ DotMatch batch d d' ∧ DotMatches batch r r'
  | _, _ => False
end

/-- `x₃ = a x₁ + b x₂` for all variable parameters (nothing is said about the fixed ones). -/
def LinComb (a b : ℝ) (x₁ x₂ x₃ : Dist C) : Prop :=
  SameTree x₁ x₂ ∧ SameTree x₁ x₃ ∧ ∀ k f v₁ v₂ v₃, f.fixed = false → ParamAt x₁ k f v₁ →
    ParamAt x₂ k f v₂ → ParamAt x₃ k f v₃ → v₁.rshape = v₂.rshape ∧ v₁.rshape = v₃.rshape ∧
      ∀ i, inB v₁.rshape i = true → entry v₃ i = a * entry v₁ i + b * entry v₂ i

end Efax.Spec
