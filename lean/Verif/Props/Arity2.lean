import Verif.Props.Arity
import Verif.Model.Methods.Prior
import Verif.Model.Vjp

/-!
# C50, C64, C66: wrong numbers of parameters, and vectors of wrong types
-/

namespace Efax

open ClassTable Calc Spec

section

variable [MachEps]

omit [MachEps] in
/-- **C50.** `LogarithmicEP.to_nat` has no result if the search gives another number of parameters than one. -/
theorem C50_arity_search {search : List Val → Except Err (List Val)} {a : Val} {l : List Val}
    (h : search [a] = .ok l) (hl : l.length ≠ 1) :
    Methods.logarithmicEP.toNat search [a] = .error .typeError := by
  simp only [Methods.logarithmicEP, h, Bind.bind, Except.bind]
  rcases l with _ | ⟨b, _ | ⟨c, l⟩⟩
  · rfl
  · exact absurd rfl hl
  · rfl

example (a : Val) : Methods.logarithmicEP.toNat (fun _ => .ok [a, a]) [a] = .error .typeError :=
  C50_arity_search rfl (by simp)

end

/-- **C64.** No conjugate prior has a result for a wrong number of parameters. -/
theorem C64_arity (v : List Val) (n : Val) :
    (v.length ≠ 1 → Methods.bernoulliPrior v n = .error .typeError ∧ Methods.poissonPrior v n = .error .typeError ∧
      Methods.exponentialPrior v n = .error .typeError ∧ Methods.multinomialPrior v n = .error .typeError ∧
      Methods.multinomialGeneralPrior v n = .error .typeError ∧ Methods.unitNormalPrior v n = .error .typeError ∧
      Methods.mvUnitPrior v n = .error .typeError ∧ Methods.mvUnitGeneralPrior v n = .error .typeError) ∧
    (v.length ≠ 2 → Methods.mvFixedPrior v n = .error .typeError ∧
      Methods.mvFixedGeneralPrior v n = .error .typeError) ∧
    (v = [] ↔ Methods.priorObservation v = .error .typeError) := by
  refine ⟨fun h => ?_, fun h => ?_, ?_⟩
  · rcases v with _ | ⟨a, _ | ⟨b, l⟩⟩
    · exact ⟨rfl, rfl, rfl, rfl, rfl, rfl, rfl, rfl⟩
    · exact absurd rfl h
    · exact ⟨rfl, rfl, rfl, rfl, rfl, rfl, rfl, rfl⟩
  · rcases v with _ | ⟨a, _ | ⟨b, _ | ⟨c, l⟩⟩⟩
    · exact ⟨rfl, rfl⟩
    · exact ⟨rfl, rfl⟩
    · exact absurd rfl h
    · exact ⟨rfl, rfl⟩
  · rcases v with _ | ⟨a, l⟩
    · simp [Methods.priorObservation]
    · simp [Methods.priorObservation]

example (v : Val) : Methods.poissonPrior [v, v] v = .error .typeError :=
  ((C64_arity [v, v] v).1 (by simp)).2.1

/-- The values have the same shape, and both are real, both complex, both integers or both Booleans. -/
def SameArray (v w : Val) : Prop :=
  v.rshape = w.rshape ∧ ((∃ a, v = .real a) ↔ ∃ a, w = .real a) ∧ ((∃ a, v = .complex a) ↔ ∃ a, w = .complex a) ∧
    ((∃ a, v = .int a) ↔ ∃ a, w = .int a) ∧ ((∃ a, v = .bool a) ↔ ∃ a, w = .bool a)

theorem sameType_iff (v w : Val) : v.sameType w = true ↔ SameArray v w := by
  cases v <;> cases w <;> simp [Val.sameType, SameArray, Val.rshape]

theorem sameTypes_get {v w : List Val} (h : sameTypes v w = true) {n : ℕ} {a b : Val} (ha : v[n]? = some a)
    (hb : w[n]? = some b) : SameArray a b := by
  rw [sameTypes, Bool.and_eq_true] at h
  refine (sameType_iff a b).1 (List.all_eq_true.1 h.2 _ ?_)
  refine List.mem_of_getElem? (i := n) (a := a.sameType b) ?_
  rw [List.getElem?_zipWith, ha, hb]

variable {C : Type} [ClassTable C]

omit [ClassTable C] in
theorem subs_sameType [DecidableEq C] {s s' : Subs C} (h : Subs.sameType s s' = true) {n : String} {d : Dist C}
    (hm : (n, d) ∈ s.toList) : ∃ d', (n, d') ∈ s'.toList ∧ d.sameType d' = true := by
  induction s using Subs.rec (motive_1 := fun _ => True) generalizing s' with
  | mk => trivial
  | nil => cases hm
  | cons m e r _ ih =>
    cases s' with
    | nil => simp [Subs.sameType] at h
    | cons m' e' r' =>
      simp only [Subs.sameType, Bool.and_eq_true, beq_iff_eq] at h
      obtain ⟨⟨rfl, h1⟩, h2⟩ := h
      rcases List.mem_cons.1 hm with hm | hm
      · obtain ⟨rfl, rfl⟩ := Prod.mk.inj hm
        exact ⟨e', List.mem_cons_self, h1⟩
      · obtain ⟨d', h3, h4⟩ := ih h2 hm
        exact ⟨d', List.mem_cons_of_mem _ h3, h4⟩

theorem dist_sameType [DecidableEq C] {p q : Dist C} (h : p.sameType q = true) (hq : WF q) {k : Path}
    {f g : Field} {v w : Val} (hv : ParamAt p k f v) (hw : ParamAt q k g w) : SameArray v w := by
  induction hv generalizing q with
  | @here c vals subs i f v hf hi =>
    obtain ⟨c', vals', subs'⟩ := q
    simp only [Dist.sameType, Bool.and_eq_true, beq_iff_eq] at h
    obtain ⟨⟨rfl, h1⟩, -⟩ := h
    have hs := subs_nil_of_fields hq (by intro hh; simp [hh] at hf)
    subst hs
    generalize hk : [f.name] = k at hw
    cases hw with
    | @here _ _ _ j _ _ hf' hj =>
      have hij : i = j := by
        have hn := names_nodup c
        obtain ⟨hi, e1⟩ := List.getElem?_eq_some_iff.1 hf
        obtain ⟨hj, e2⟩ := List.getElem?_eq_some_iff.1 hf'
        have : ((fields c).map Field.name)[i]'(by simpa using hi) =
            ((fields c).map Field.name)[j]'(by simpa using hj) := by
          simp only [List.getElem_map, e1, e2]
          simpa using hk
        exact (List.Nodup.getElem_inj_iff hn).1 this
      subst hij
      exact sameTypes_get h1 hi hj
    | sub hm _ => simp [Subs.toList] at hm
  | @sub c vals subs n d k f v hm hp ih =>
    obtain ⟨c', vals', subs'⟩ := q
    simp only [Dist.sameType, Bool.and_eq_true, beq_iff_eq] at h
    obtain ⟨⟨rfl, -⟩, h2⟩ := h
    obtain ⟨d', m1, m2⟩ := subs_sameType h2 hm
    generalize hk : n :: k = k' at hw
    cases hw with
    | here hf' _ =>
      have hs := subs_nil_of_fields hq (by intro hh; simp [hh] at hf')
      subst hs
      simp [Subs.toList] at m1
    | @sub _ _ _ n' d'' k' _ _ hm' hp' =>
      cases hk
      have hn := hq.2.2.1
      rw [Subs.names_eq] at hn
      have e1 := Dict.get?_of_mem hn m1
      have e2 := Dict.get?_of_mem hn hm'
      rw [e1] at e2
      cases e2
      exact ih m2 (WFs_iff.1 hq.2.2.2 _ m1) hp'

/-- **C66.** `apply_fisher_information` accepts no vector whose parameters have other types or shapes than the
expectation parameters at the same paths. -/
theorem C66_vector_types [DecidableEq C] (L : Library C) {p vector : Dist C} {r : Dist C × Dist C}
    (h : p.applyFisher L vector = .ok r) (hw : WF r.1) {k : Path} {f g : Field} {v w : Val} (hv : ParamAt vector k f v)
    (hr : ParamAt r.1 k g w) : SameArray v w := by
  rw [Dist.applyFisher] at h
  cases he : p.toExp L.toExp with
  | error x => rw [he] at h; cases h
  | ok e =>
    rw [he] at h
    simp only [Bind.bind, Except.bind] at h
    split_ifs at h with ht
    cases h
    exact dist_sameType ht hw hv hr

/-- Non-vacuity: an integer vector for a Bernoulli distribution is rejected. -/
example [MachEps] (L : Library Cls) (p e : Dist Cls) (a : Arr ℤ) (b : Arr ℝ)
    (he : p.toExp L.toExp = .ok e) (h : e = .mk .bernoulliEP [.real b] .nil) :
    p.applyFisher L (.mk .bernoulliEP [.int a] .nil) = .error .valueError := by
  rw [Dist.applyFisher, he, h]
  simp [Bind.bind, Except.bind, Dist.sameType, sameTypes, Val.sameType]

end Efax
