import Verif.Props.Oracle.Library
import Verif.Model.Tests.Fixtures

/-!
# The distributions that the test-suite is run with
-/

namespace Efax

open Spec Tests

/-- **C75.** All descriptions in the test-suite are sound and describe no nested joint distributions, so that
the theorems about translations and structures apply to them. -/
theorem C75_infos : ∀ info ∈ createInfos, Sound info ∧ Shallow info := by
  simp [createInfos, Sound, Shallow, HasDimension, AllSimple, Sounds, TestInfos.names]

theorem selected_simple (s : SimpleInfo) (n : ℕ) : entropySelected (.simple s n) = true ↔ EntropicSimple s := by
  cases s <;> first | exact iff_of_true rfl trivial | exact iff_of_false Bool.false_ne_true id

/-- **C75.** The entropies are compared exactly for the distributions whose entropies both sides compute. -/
theorem C75_selected : ∀ info ∈ createInfos, entropySelected info = true ↔ Entropic info := by
  intro info hi
  rcases info with ⟨s, n⟩ | ⟨infos⟩
  · exact selected_simple s n
  · simp only [createInfos, List.mem_cons, TestInfo.joint.injEq, reduceCtorEq, List.not_mem_nil, or_false,
      false_or] at hi
    subst hi
    exact iff_of_true rfl ⟨trivial, trivial, trivial⟩

theorem found_of_any {c : Cls}
    (h : (createInfos.any fun info => info.natStructure.any fun i => decide (i.cls = c)) = true) :
    ∃ info ∈ createInfos, ∃ i ∈ info.natStructure, i.cls = c := by
  obtain ⟨info, h1, h2⟩ := List.any_eq_true.1 h
  obtain ⟨i, h3, h4⟩ := List.any_eq_true.1 h2
  exact ⟨info, h1, i, h3, of_decide_eq_true h4⟩

/-- **C75.** Every natural parametrization is tested, except for the multinomial distribution (and alternative
parametrizations). -/
theorem C75_coverage (c : Cls) : (∃ e, c.expCls = some e) → c ≠ .multinomialNP →
    ∃ info ∈ createInfos, ∃ i ∈ info.natStructure, i.cls = c := by
  intro ⟨e, he⟩ hm
  cases c
  all_goals first
    | exact found_of_any rfl
    | exact absurd rfl hm
    | cases he

/-- **C75 (violated).** No test is run with the multinomial distribution. -/
theorem C75_multinomial_untested : ∀ info ∈ createInfos, ∀ i ∈ info.natStructure, i.cls ≠ .multinomialNP := by
  simp [createInfos, TestInfo.natStructure, TestInfo.structureOf, TestInfos.structuresOf, SimpleInfo.natCls]

mutual
theorem supports_iff {cls : SimpleInfo → Cls} {joint : Cls} {sub : Cls → Bool} {P : SimpleInfo → Prop}
    (hj : joint.isJoint = true) (h : ∀ s, (sub (cls s) || (cls s).isJoint) = true ↔ P s) : (info : TestInfo) →
    (supports (TestInfo.structureOf cls joint info) sub = true ↔ Everywhere P info)
  | .simple s n => by simpa [supports, TestInfo.structureOf, Everywhere] using h s
  | .joint infos => by
    have := supports_all hj h infos
    simpa [supports, TestInfo.structureOf, Everywhere, hj] using this
theorem supports_all {cls : SimpleInfo → Cls} {joint : Cls} {sub : Cls → Bool} {P : SimpleInfo → Prop}
    (hj : joint.isJoint = true) (h : ∀ s, (sub (cls s) || (cls s).isJoint) = true ↔ P s) : (infos : TestInfos) →
    (supports (TestInfos.structuresOf cls joint infos) sub = true ↔ Everywheres P infos)
  | .nil => by simp [supports, TestInfos.structuresOf, Everywheres]
  | .cons n info rest => by
    have h1 := supports_iff hj h info
    have h2 := supports_all hj h rest
    simp only [supports, TestInfos.structuresOf, Everywheres, List.all_append, List.all_map, Function.comp_def,
      Bool.and_eq_true] at h1 h2 ⊢
    exact and_congr h1 h2
end

/-- **C75.** Sampling is tested exactly for the distributions all of whose parts can be sampled, whatever the
description of a distribution, simple or joint. -/
theorem C75_sampling_selected (info : TestInfo) (natural : Bool) :
    samplingSelected info natural = true ↔ Everywhere (Sampled natural) info := by
  cases natural
  · exact supports_iff rfl (fun s => by
      cases s <;> simp [SimpleInfo.expCls, Cls.isSamplable, Cls.isJoint, Sampled]) info
  · exact supports_iff rfl (fun s => by
      cases s <;> simp [SimpleInfo.natCls, Cls.isSamplable, Cls.isJoint, Sampled]) info

/-- **C75.** Conjugate priors are tested exactly for the distributions that have them. -/
theorem C75_prior_selected (info : TestInfo) :
    (cpSelected info = true ↔ Everywhere HasPrior info) ∧ (gcpSelected info = true ↔ Everywhere HasGeneralPrior info) :=
  ⟨supports_iff rfl (fun s => by
      cases s <;> simp [SimpleInfo.expCls, hasConjugatePrior, hasGeneralizedConjugatePrior, Cls.isJoint, HasPrior])
      info,
    supports_iff rfl (fun s => by
      cases s <;> simp [SimpleInfo.expCls, hasGeneralizedConjugatePrior, Cls.isJoint, HasGeneralPrior]) info⟩

/-- **C75.** Maximum likelihood estimates are compared with the drawn distribution exactly for the simple
distributions that can be sampled, have continuous observations, and are not excluded by name. -/
theorem C75_estimation_selected [MachEps] (info : TestInfo) (natural : Bool) :
    samplingWcSelected info natural = true ↔ ∃ s n, info = .simple s n ∧ Sampled natural s ∧ EstimateTested s := by
  rcases info with ⟨s, n⟩ | ⟨infos⟩
  · have h1 : ∀ c : Cls, domainSupports [(⟨[], c, n, []⟩ : Info Cls)] =
        match Cls.domainSupport c with | some t => [([], t)] | none => [] := by
      intro c
      have h : ClassTable.domainSupport c = Cls.domainSupport c := rfl
      simp only [domainSupports, List.filterMap_cons, List.filterMap_nil, h]
      cases Cls.domainSupport c <;> rfl
    cases natural <;> cases s <;>
      simp [samplingWcSelected, supports, anyIntegralSupports, TestInfo.natStructure, TestInfo.expStructure,
        TestInfo.structureOf, SimpleInfo.natCls, SimpleInfo.expCls, h1, Cls.isSamplable, Cls.isJoint, Cls.domainSupport,
        Dict.values, Support.ring, Sampled, EstimateTested, Ring.mkReal, Ring.realField, Ring.complexField,
        Ring.integralRing]
  · simp [samplingWcSelected]

/-- **C75.** `any_integral_supports` is true if some part of the distribution has observations that are
Booleans or integers. -/
theorem C75_any_integral [MachEps] {s : List (Info Cls)} (hs : (s.map Info.path).Nodup) :
    anyIntegralSupports s = true ↔ ∃ i ∈ s, Counts i.cls := by
  have key : ∀ c : Cls, Counts c ↔ ∃ t, Cls.domainSupport c = some t ∧
      (match t.ring with | .boolean | .integral _ _ => true | _ => false) = true := by
    intro c
    cases c <;> simp [Counts, Cls.domainSupport, Support.ring, Ring.mkReal, Ring.realField, Ring.complexField,
      Ring.integralRing]
  have h : ∀ i : Info Cls, ClassTable.domainSupport i.cls = Cls.domainSupport i.cls := fun _ => rfl
  have hn : ((s.filterMap fun i => (ClassTable.domainSupport i.cls).map fun t => (i.path, t)).map Prod.fst).Nodup := by
    refine List.Nodup.sublist ?_ hs
    clear hs
    induction s with
    | nil => simp
    | cons i s ih =>
      rw [List.filterMap_cons, h i]
      cases Cls.domainSupport i.cls with
      | none => exact ih.cons _
      | some t => exact ih.cons₂ _
  rw [anyIntegralSupports, domainSupports, Dict.ofList_eq hn, Dict.values, List.any_eq_true]
  constructor
  · rintro ⟨t, h1, h2⟩
    obtain ⟨⟨k, t⟩, h3, rfl⟩ := List.mem_map.1 h1
    obtain ⟨i, h4, h5⟩ := List.mem_filterMap.1 h3
    obtain ⟨t, h6, h7⟩ := Option.map_eq_some_iff.1 h5
    cases h7
    exact ⟨i, h4, (key _).2 ⟨t, h6, h2⟩⟩
  · rintro ⟨i, h1, h2⟩
    obtain ⟨t, h3, h4⟩ := (key _).1 h2
    refine ⟨t, List.mem_map.2 ⟨(i.path, t), List.mem_filterMap.2 ⟨i, h1, ?_⟩, rfl⟩, h4⟩
    rw [h i, h3]
    rfl

/-- The paths of the structures are distinct, for example in a joint distribution. -/
example : ((TestInfo.joint (.cons "a" (.simple .normal 1) (.cons "b" (.simple .poisson 1) .nil))).natStructure.map
    Info.path).Nodup := by decide

end Efax
