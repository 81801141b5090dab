import Verif.Model.Mapping
import Verif.Spec.Tree

/-!
# Specification: observations clamped to the domains of the parts of a distribution
-/

namespace Efax.Spec

open ClassTable

variable {C : Type} [ClassTable C]

mutual
/-- `y` is nested as the observation `x`, and each of its arrays is that of `x`, clamped to the domain of
the simple part of the distribution to which it belongs. -/
def Clamped (e : ℝ) (d : Dist C) : Tree Val → Tree Val → Prop
  | .leaf v, y => isJoint d.cls = false ∧ ∃ s v', domainSupport d.cls = some s ∧ s.clamp e v = .ok v' ∧
      y = .leaf v'
  | .node f, y => isJoint d.cls = true ∧ ∃ g, y = .node g ∧ ClampedAll e d.subs f g
/-- The same for the items of a dictionary: each belongs to the part of the same name. -/
def ClampedAll (e : ℝ) (s : Subs C) : Forest Val → Forest Val → Prop
  | .nil, g => g = .nil
  | .cons k t r, g => ∃ d t' r', (k, d) ∈ s.toList ∧ g = .cons k t' r' ∧ Clamped e d t t' ∧ ClampedAll e s r r'
end

mutual
/-- An observation nested as the distribution: an array for each simple distribution, a dictionary with
the names of the parts, in any order, for each joint one. -/
def Observes {A : Type} (d : Dist C) : Tree A → Prop
  | .leaf _ => isJoint d.cls = false
  | .node f => isJoint d.cls = true ∧ (∀ n, n ∈ f.keys ↔ n ∈ d.subs.names) ∧ ObservesAll d.subs f
/-- All items of a dictionary belong to parts of the same name. -/
def ObservesAll {A : Type} (s : Subs C) : Forest A → Prop
  | .nil => True
  | .cons k t r => (∃ d, (k, d) ∈ s.toList ∧ Observes d t) ∧ ObservesAll s r
end

end Efax.Spec
