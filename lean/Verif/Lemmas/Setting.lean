import Verif.Lemmas.Pair
import Verif.Spec.Setting

/-! # Regular kinds of distributions -/

namespace Efax

open MeasureTheory Spec ClassTable

variable {C : Type}

/-- The family of every kind is regular and minimal on its domain, with expected carrier measure `ecm`
where `toNat` finds the parameters, and inverse `toNat` if it does not search. -/
structure Spec.Setting.Lawful {K : Kind C} (S : Setting K) : Prop where
  sub : ∀ a b : K.N, a - b = S.grp.sub a b
  sigma : @SigmaFinite _ S.ms S.μ
  nonempty : ∀ p, S.ok p → (S.dom p).Nonempty
  regular : ∀ p, S.ok p → @LocallyRegular _ _ _ S.grp S.mod S.ms (K.F p) S.μ (S.dom p) S.dirs
  minimal : ∀ p, S.ok p → @Minimal _ _ _ S.grp S.mod S.ms (K.F p) S.μ S.dirs
  ecm : K.ent → ∀ p, S.ok p → ∀ q ∈ S.dom p, K.toNat p ((K.F p).toExp q) = q →
    @HasMean _ S.ms S.μ ((K.F p).pdf q) (K.F p).carrier (K.ecm p ((K.F p).toExp q))
  inv : S.closed → ∀ p, S.ok p → ∀ q ∈ S.dom p, K.toNat p ((K.F p).toExp q) = q

/-- `Lawful` for parts. -/
structure Spec.Settings.Lawful {R : Parts C} (S : Settings R) : Prop where
  sub : ∀ a b : R.N, a - b = S.grp.sub a b
  sigma : @SigmaFinite _ S.ms S.μ
  nonempty : ∀ p, S.ok p → (S.dom p).Nonempty
  regular : ∀ p, S.ok p → @LocallyRegular _ _ _ S.grp S.mod S.ms (R.F p) S.μ (S.dom p) S.dirs
  minimal : ∀ p, S.ok p → @Minimal _ _ _ S.grp S.mod S.ms (R.F p) S.μ S.dirs
  ecm : R.ent → ∀ p, S.ok p → ∀ q ∈ S.dom p, R.toNat p ((R.F p).toExp q) = q →
    @HasMean _ S.ms S.μ ((R.F p).pdf q) (R.F p).carrier (R.ecm p ((R.F p).toExp q))
  inv : S.closed → ∀ p, S.ok p → ∀ q ∈ S.dom p, R.toNat p ((R.F p).toExp q) = q

theorem Spec.Settings.Lawful.nil : (Settings.nil : Settings (.nil : Parts C)).Lawful where
  sub _ _ := rfl
  sigma := inferInstanceAs (SigmaFinite (Measure.dirac ()))
  nonempty _ _ := ⟨(), trivial⟩
  regular _ _ := unitFam_regular
  minimal _ _ := unitFam_minimal
  ecm _ _ _ q _ _ := HasMean.const (unitFam_regular.density q trivial) 0
  inv _ _ _ _ _ := rfl

theorem Spec.Settings.Lawful.cons {n : String} {K : Kind C} {R : Parts C} {S : Setting K}
    {T : Settings R} (hS : S.Lawful) (hT : T.Lawful) : (Settings.cons n S T).Lawful := by
  obtain ⟨G, M, MS, μ, ok, dom, dirs, closed⟩ := S
  obtain ⟨G', M', MS', μ', ok', dom', dirs', closed'⟩ := T
  have s1 : SigmaFinite μ := hS.sigma
  have s2 : SigmaFinite μ' := hT.sigma
  exact {
    sub := fun a b => Prod.ext (hS.sub _ _) (hT.sub _ _)
    sigma := inferInstanceAs (SigmaFinite (μ.prod μ'))
    nonempty := fun p h => (hS.nonempty _ h.1).prod (hT.nonempty _ h.2)
    regular := fun p h => (hS.regular _ h.1).prod (hT.regular _ h.2)
    minimal := fun p h => (hS.minimal _ h.1).prod
      ((hS.regular _ h.1).ne_zero (hS.nonempty _ h.1).some_mem)
      ((hT.regular _ h.2).ne_zero (hT.nonempty _ h.2).some_mem) (hT.minimal _ h.2)
    ecm := fun hc p h q hq he => by
      have h1 := (hS.ecm hc.1 p.1 h.1 q.1 hq.1 (congrArg Prod.fst he)).fst ((hT.regular _ h.2).density _ hq.2)
      have h2 := (hT.ecm hc.2 p.2 h.2 q.2 hq.2 (congrArg Prod.snd he)).snd ((hS.regular _ h.1).density _ hq.1)
      have e := (h1.add h2)
      rw [← funext (prodFam_pdf (K.F p.1) (R.F p.2) q)] at e
      exact e
    inv := fun he p h q hq => Prod.ext (hS.inv he.1 _ h.1 _ hq.1) (hT.inv he.2 _ h.2 _ hq.2) }

theorem Spec.Settings.Lawful.ofList : (l : List (String × Σ K : Kind C, Setting K)) →
    (∀ s ∈ l, s.2.2.Lawful) → (Settings.ofList l).Lawful
  | [], _ => .nil
  | s :: l, h => .cons (h s List.mem_cons_self) (ofList l fun s' h' => h s' (List.mem_cons_of_mem _ h'))

theorem Spec.Setting.Lawful.joint {c c' : C} {R : Parts C} {T : Settings R} (h : T.Lawful) :
    (Setting.joint c c' T).Lawful := ⟨h.1, h.2, h.3, h.4, h.5, h.6, h.7⟩

end Efax
