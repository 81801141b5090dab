import Verif.Model.Generate
import Verif.Spec.Flat
import Mathlib.Algebra.BigOperators.Ring.Finset
import Mathlib.Algebra.Star.BigOperators

/-!
# Specification: random parameters

The ranges of the primitive generators, and the values that belong to a support.
-/

namespace Efax.Spec

open ClassTable

/-- The primitive generators return arrays of the requested shape with entries in their ranges:
exponential variables are not negative, uniform variables are in [0, 1), binomial variables with one
trial are 0 or 1. -/
structure InRange (g : Rng) : Prop where
  exponential_shape : ∀ rs s, (g.exponential rs s).1.rshape = rs
  exponential_nonneg : ∀ rs s i, inB rs i = true → 0 ≤ (g.exponential rs s).1.get i
  uniform_shape : ∀ rs s, (g.uniform rs s).1.rshape = rs
  uniform_nonneg : ∀ rs s i, inB rs i = true → 0 ≤ (g.uniform rs s).1.get i
  uniform_lt : ∀ rs s i, inB rs i = true → (g.uniform rs s).1.get i < 1
  normal_shape : ∀ rs s, (g.normal rs s).1.rshape = rs
  binomial_shape : ∀ rs s, (g.binomial rs s).1.rshape = rs
  binomial_mem : ∀ rs s i, inB rs i = true →
    (g.binomial rs s).1.get i = 0 ∨ (g.binomial rs s).1.get i = 1

/-- Two consecutive normal draws are never both zero (they are with probability zero). -/
def NeverZero (g : Rng) : Prop := ∀ rs s i, inB rs i = true →
  (g.normal rs s).1.get i ≠ 0 ∨ (g.normal rs (g.normal rs s).2).1.get i ≠ 0

/-- The array has shape `(*batch, *sup)`, and its entries are of the ring's type and within its
bounds, which are those stored in the ring, with an open bound already moved inwards. -/
def BoundedBy (r : Ring) (sup batch : List ℕ) (v : Val) : Prop :=
  v.rshape = sup ++ batch ∧
  match r, v with
  | .real mn mx _, .real a => ∀ i, inB (sup ++ batch) i = true →
      (∀ m ∈ mn, m ≤ a.get i) ∧ ∀ M ∈ mx, a.get i ≤ M
  | .complex mn mx, .complex a => ∀ i j, inB sup i = true → inB batch j = true →
      boundVal mn j ≤ ‖a.get (i ++ j)‖ ∧ ∀ M ∈ mx, ‖a.get (i ++ j)‖ < boundVal mn j + boundVal M j
  | .boolean, .bool _ => True
  | .integral mn mx, .int a => ∀ i, inB (sup ++ batch) i = true →
      (∀ m ∈ mn, m ≤ a.get i) ∧ ∀ M ∈ mx, a.get i ≤ M
  | _, _ => False

/-- The (real part of the) quadratic form `x* a x` of the matrix `a` at the batch index `j`; for a
real matrix, `x` stands for the vector of the real parts. -/
noncomputable def quadratic (d : ℕ) (v : Val) (j : List ℕ) (x : ℕ → ℂ) : ℝ :=
  match v with
  | .real a => ∑ i ∈ Finset.range d, ∑ k ∈ Finset.range d,
      (x i).re * a.get (k :: i :: j) * (x k).re
  | .complex a => (∑ i ∈ Finset.range d, ∑ k ∈ Finset.range d,
      star (x i) * a.get (k :: i :: j) * x k).re
  | _ => 0

/-- The values that belong to a support with `d` dimensions. -/
def InSupport (t : Support) (d : ℕ) (batch : List ℕ) (v : Val) : Prop :=
  match t with
  | .scalar r => BoundedBy r [] batch v
  | .vector r => BoundedBy r [d] batch v
  | .simplex _ => BoundedBy (.real (some 0) none 1) [d - 1] batch v ∧ ∀ a, v = .real a →
      ∀ j, inB batch j = true → ∑ k ∈ Finset.range (d - 1), a.get (k :: j) ≤ 1
  | .square r => BoundedBy r [d, d] batch v
  | .symmetric r psd nsd herm => BoundedBy r [d, d] batch v ∧ IsSymm herm d batch v ∧
      ∀ j, inB batch j = true → ∀ x, (psd = true → 0 ≤ quadratic d v j x) ∧
        (nsd = true → quadratic d v j x ≤ 0)
  | .circular radius => BoundedBy (.real none none 1) [d] batch v ∧ ∀ a, v = .real a →
      ∀ j, inB batch j = true → ∑ k ∈ Finset.range d, a.get (k :: j) ^ 2 ≤ radius ^ 2

variable {C : Type} [ClassTable C]

mutual
/-- Every parameter, fixed or not, of every sub-distribution is related by `R` (which also receives
the dimension of the sub-distribution) to the support declared for it given the values of the
preceding parameters (`adjust_support`). -/
def EachValue (R : ℕ → Support → Val → Prop) : Dist C → Prop
  | .mk c vals subs => (∃ d, dimensions c vals = .ok d ∧
      EachField (R d) c ((fields c).zip vals) []) ∧ EachValues R subs
/-- `EachValue` for all sub-distributions. -/
def EachValues (R : ℕ → Support → Val → Prop) : Subs C → Prop
  | .nil => True
  | .cons _ d rest => EachValue R d ∧ EachValues R rest
end

/-- The rings for which `generate` produces elements of the ring: the bounds are in order, the
generation scale is not negative, and integers are bounded by at most a lower bound that is not
negative. -/
def RingGenerates (r : Ring) (batch : List ℕ) : Prop :=
  match r with
  | .real mn mx scale => 0 ≤ scale ∧ ∀ m ∈ mn, ∀ M ∈ mx, m ≤ M
  | .complex mn mx => IsBound mn batch ∧ (∀ M ∈ mx, IsBound M batch) ∧
      ∀ j, inB batch j = true → 0 ≤ boundVal mn j ∧ ∀ M ∈ mx, 0 < boundVal M j
  | .boolean => True
  | .integral mn mx => (∀ m ∈ mn, 0 ≤ m) ∧ mx = none

/-- The supports for which `generate` produces elements of the support.  The entries of random
symmetric matrices are not bounded. -/
def Generates (t : Support) (batch : List ℕ) : Prop :=
  match t with
  | .scalar r | .vector r => RingGenerates r batch
  | .symmetric r psd nsd herm => ¬(psd = true ∧ nsd = true) ∧
      match r with
      | .real none none scale => 0 ≤ scale
      | .complex mn none => mn = Arr.full [] 0 ∧ (psd || nsd → herm = true)
      | _ => False
  | _ => False

end Efax.Spec
