import Verif.Spec.Cooperative
import Verif.Model.Tests.Bodies
import Verif.Props.ValidRandom
import Verif.Props.Fixed
import Verif.Props.RoundTrip

/-!
# The tests of conversions pass (C80)
-/

namespace Efax

open Spec Tests ClassTable Calc

variable [MachEps] {solve : Solver} {search : Cls → List Val → Except Err (List Val)} {g : Rng}

theorem Tests.check_ok {c : Prop} (h : c) : check c = .ok () := if_pos h

/-- A loop passes if its body passes in every state. -/
theorem Tests.times_ok {σ : Type} {body : σ → Except Err σ} (h : ∀ s, ∃ s', body s = .ok s') :
    ∀ n s, ∃ s', times body n s = .ok s'
  | 0, s => ⟨s, rfl⟩
  | n + 1, s => by
    obtain ⟨s', h1⟩ := h s
    obtain ⟨s'', h2⟩ := times_ok h n s'
    exact ⟨s'', by simp only [times, h1, Bind.bind, Except.bind, h2]⟩

/-- Natural and expectation parameters list the same fixed parameters. -/
theorem fixed_list {K : Kind Cls} (hK : LibraryKind solve K) {rs : List ℕ} {p : List ℕ → K.P}
    {q : List ℕ → K.N} {χ : List ℕ → K.E} : ∀ base : Path,
    ((K.nat rs p q).paramList (some true) base).map (fun kv => (kv.1, kv.2.1)) =
      ((K.exp rs p χ).paramList (some true) base).map fun kv => (kv.1, kv.2.1) := by
  induction hK with
  | simple s =>
    intro base
    cases s <;> rfl
  | @joint l _ _ _ ih =>
    intro base
    change ((Parts.ofList l).nat rs p q |>.paramList (some true) base).map _ =
      ((Parts.ofList l).exp rs p χ |>.paramList (some true) base).map _
    clear * - ih
    induction l with
    | nil => rfl
    | cons nk l ih' =>
      change List.map _ (_ ++ _) = List.map _ (_ ++ _)
      rw [List.map_append, List.map_append]
      exact congrArg₂ _ (ih nk List.mem_cons_self _) (ih' (fun nk hm => ih nk (List.mem_cons_of_mem _ hm)))

theorem fixed_parameters {K : Kind Cls} (hK : LibraryKind solve K) {rs : List ℕ} {p : List ℕ → K.P}
    {q : List ℕ → K.N} {χ : List ℕ → K.E} :
    parameters (K.nat rs p q) (some true) = parameters (K.exp rs p χ) (some true) :=
  congrArg Dict.ofList (fixed_list hK [])

/-- **C80.** `test_conversion` passes with exact arithmetic: for every description of distributions without
nested joint distributions and for every generic random stream, if the searches find what they search for. -/
theorem C80_conversion (hs : solve.For search) {info : TestInfo} (hi : Sound info) (hf : Shallow info)
    (hg : InRange g) (hz : NeverZero g) (hq : Generic g) (hc : Cooperative solve info g [4, 3]) (s : g.State) :
    ∃ s', testConversion (library search) info g s = .ok s' := by
  refine times_ok (fun s => ?_) 10 s
  obtain ⟨p, q, s', h1, h2⟩ := C76_test_parameters (solve := solve) hi hf hg hz hq [4, 3] s
  obtain ⟨hr, he, hx⟩ := hc s s' p q h1 h2
  have hS := sound_library (solve := solve) info hi
  have hO := C51_library hs hS.kind
  have h3 := C76_test_expectation hs hi h1 hr
  have h4 := hO.toNat [4, 3] p _ (searchable_dom hS.kind he)
  rw [natural_congr hS.kind (q' := q) hx] at h4
  have h5 := hO.toExp [4, 3] p q (regular_dom hS.kind hr)
  refine ⟨s', ?_⟩
  simp only [conversionBody, h3, h4, h5, Bind.bind, Except.bind]
  simp only [check_ok trivial, check_ok (fixed_parameters hS.kind).symm]

theorem eachLeaf_parts {P : Cls → List Val → Prop} {c : Cls} (hc : isJoint c = true) {n : String} {d : Dist Cls}
    {r : Subs Cls} (h : EachLeaf P d) (h' : EachLeaf P (.mk c [] r)) : EachLeaf P (.mk c [] (.cons n d r)) := by
  simp only [EachLeaf, leaves, hc, if_true, leavesOf, List.mem_append] at h h' ⊢
  rintro l (hl | hl)
  · exact h l hl
  · exact h' l hl

/-- Classes that do not search have no limits. -/
theorem closed_regular {K : Kind Cls} {S : Setting K} (hK : LibrarySetting solve K S) (h : S.closed)
    {rs : List ℕ} {p : List ℕ → K.P} {q : List ℕ → K.N} {χ : List ℕ → K.E} :
    EachLeaf RegularVals (K.nat rs p q) ∧ EachLeaf SearchableVals (K.exp rs p χ) := by
  induction hK with
  | simple s =>
    cases s
    all_goals first
      | exact h.elim
      | exact ⟨(eachLeaf_simple rfl).2 trivial, (eachLeaf_simple rfl).2 trivial⟩
  | @joint l _ _ _ ih =>
    clear * - h ih
    induction l with
    | nil => exact ⟨fun _ h => (List.not_mem_nil h).elim, fun _ h => (List.not_mem_nil h).elim⟩
    | cons nk l ih' =>
      have h1 := ih nk List.mem_cons_self h.1 (p := fun i => (p i).1) (q := fun i => (q i).1) (χ := fun i => (χ i).1)
      have h2 := ih' (fun nk hm => ih nk (List.mem_cons_of_mem _ hm)) h.2 (p := fun i => (p i).2)
        (q := fun i => (q i).2) (χ := fun i => (χ i).2)
      exact ⟨eachLeaf_parts rfl h1.1 h2.1, eachLeaf_parts rfl h1.2 h2.2⟩

/-- Every random stream is cooperative for descriptions of distributions that do not search. -/
theorem cooperative_closed {info : TestInfo} (hi : Sound info) (h : (settingOf solve info).2.closed)
    (rs : List ℕ) : Cooperative solve info g rs := by
  intro s s' p q _ h2
  have hS := sound_library (solve := solve) info hi
  have h3 := closed_regular hS h (rs := rs) (p := p) (q := q)
    (χ := fun i => ((settingOf solve info).1.F (p i)).toExp (q i))
  exact ⟨h3.1, h3.2, C68_found hS h2 (.inl h)⟩

/-- **C80.** `test_conversion` passes for all descriptions of distributions that do not search, without
further conditions. -/
theorem C80_conversion_closed (hs : solve.For search) {info : TestInfo} (hi : Sound info) (hf : Shallow info)
    (h : (settingOf solve info).2.closed) (hg : InRange g) (hz : NeverZero g) (hq : Generic g) (s : g.State) :
    ∃ s', testConversion (library search) info g s = .ok s' :=
  C80_conversion hs hi hf hg hz hq (cooperative_closed hi h _) s

namespace Samples

/-- A joint distribution of a normal and a geometric distribution. -/
def plainInfo : TestInfo := .joint (.cons "n" (.simple .normal 1) (.cons "g" (.simple .geometric 1) .nil))

omit [MachEps] in
theorem plain_sound : Sound plainInfo := ⟨⟨_, _, _, rfl⟩, by decide, rfl, rfl, trivial⟩

theorem plain_closed : (settingOf solve plainInfo).2.closed := ⟨trivial, trivial, trivial⟩

end Samples

/-- Non-vacuity of C80: a joint distribution that meets all conditions. -/
example : Sound Samples.plainInfo ∧ Shallow Samples.plainInfo ∧ InRange Samples.diagonal ∧
    NeverZero Samples.diagonal ∧ Generic Samples.diagonal ∧
    Cooperative (solverOf zeroMinimizer) Samples.plainInfo Samples.diagonal [4, 3] ∧
    ∀ s, ∃ s', testConversion (library (searchFor zeroMinimizer)) Samples.plainInfo Samples.diagonal s = .ok s' :=
  ⟨Samples.plain_sound, trivial, Samples.diagonal_inRange, Samples.diagonal_neverZero, Samples.diagonal_generic,
    cooperative_closed Samples.plain_sound Samples.plain_closed _,
    C80_conversion_closed (C51_search zeroMinimizer_returns) Samples.plain_sound trivial Samples.plain_closed
      Samples.diagonal_inRange Samples.diagonal_neverZero Samples.diagonal_generic⟩

end Efax
