import Verif.Lemmas.ReachTree
import Verif.Lemmas.ReachConverse
import Verif.Props.Generate
import Verif.Model.Tests.Parameters

/-!
# The distributions that random generation can return (C85)
-/

namespace Efax

open Spec ClassTable Tests

variable [MachEps]

/-- **C85.** For every support with a spread, every number of dimensions and every batch shape, the values
that `generate` returns for some stream of the primitive generators are exactly those of `Reach`. -/
theorem C85_support {t : Support} {batch : List ℕ} (hS : Spreads t batch) (d : ℕ) (v : Val) :
    (∃ (g : Rng) (s s' : g.State), InRange g ∧ t.generate g batch d s = .ok (v, s')) ↔ Reach t d batch v := by
  constructor
  · rintro ⟨g, s, s', hg, h⟩
    exact Support.generate_reached hg hS h
  · intro h
    obtain ⟨s, hs⟩ := Support.generate_reach hS h
    exact ⟨script, s ++ [], [], script_inRange, hs []⟩

/-- Non-vacuity of C85: negative semidefinite matrices; one that can be generated, and one that cannot. -/
example : Spreads (.symmetric Ring.realField false true false) [] ∧
    Reach (.symmetric Ring.realField false true false) 1 [] (.real (Arr.full [1, 1] 0)) ∧
    ¬ Reach (.symmetric Ring.realField false true false) 1 [] (.real (Arr.full [1, 1] 1)) := by
  refine ⟨⟨one_pos, by simp⟩, ⟨rfl, fun r c j hr hc hj => ?_, fun j hj x => ⟨by simp, fun _ => ?_⟩, trivial⟩, ?_⟩
  · obtain rfl : r = 0 := by omega
    obtain rfl : c = 0 := by omega
    rfl
  · have : j = [] := by cases j with | nil => rfl | cons => simp [inB] at hj
    subst this
    simp [quadratic, Arr.full, Arr.ofFn, inB]
  · rintro ⟨-, -, h, -⟩
    have := (h [] rfl fun _ => 1).2 rfl
    simp [quadratic, Arr.full, Arr.ofFn, inB] at this
    linarith

/-- **C85.** The declared support of every parameter of every class has a spread. -/
theorem C85_declared {c : Cls} {f : Field} (h : f ∈ Cls.fields c) (batch : List ℕ) : Spreads f.support batch := by
  have hr : Spread Ring.realField batch := ⟨one_pos, by simp⟩
  have hm : ∀ (m : ℝ) {s : ℝ}, 0 < s → Spread (Ring.mkReal (some m) none s) batch := fun m s hs => ⟨hs, by simp⟩
  have hM : ∀ m : ℝ, Spread (Ring.mkReal none (some m)) batch := fun m => ⟨one_pos, by simp⟩
  have hu : Spread (Ring.mkReal (some 0) (some 1)) batch :=
    ⟨one_pos, fun m hm M hM => Cls.ringOk_unit true batch rfl m hm M hM⟩
  have hz : Spread Ring.complexField batch :=
    ⟨.inl rfl, by simp, fun j _ => ⟨by simp [boundVal, Arr.full, Arr.ofFn, inB], by simp⟩⟩
  have hi : Spread (.integral (some 1) none) batch := ⟨1, rfl, zero_le_one, rfl⟩
  cases c <;> simp only [Cls.fields, List.mem_cons, List.not_mem_nil, or_false] at h <;>
    (try rcases h with rfl | rfl | rfl) <;> (try rcases h with rfl | rfl) <;> (try subst h) <;>
    first
    | trivial
    | exact hr
    | exact hm _ one_pos
    | exact hm _ (by norm_num)
    | exact hM _
    | exact hu
    | exact hz
    | exact hi
    | exact ⟨one_pos, by simp⟩
    | exact ⟨rfl, rfl⟩

theorem eachField_hit {c : Cls} {d : ℕ} {batch : List ℕ} (hc : c ≠ .complexNormalNP) :
    {l : List (Field × Val)} → {kw : Dict String Val} → (∀ fv ∈ l, fv.1 ∈ Cls.fields c) →
    EachField (fun t v => Reach t d batch v) c l kw → EachField (Attained batch d) c l kw
  | [], _, _, _ => trivial
  | (f, v) :: l, kw, hl, ⟨⟨t, h1, h2⟩, h3⟩ => by
    have hf := hl (f, v) List.mem_cons_self
    have h4 : t = f.support := Except.ok.inj (h1.symm.trans (Cls.adjust_eq hf kw fun h => hc h.1))
    exact ⟨⟨t, h1, h4 ▸ C85_declared hf batch, h2⟩,
      eachField_hit hc (fun fv hfv => hl fv (List.mem_cons_of_mem _ hfv)) h3⟩

theorem eachField_hit_complexNormal {d : ℕ} {batch : List ℕ} {vals : List Val}
    (h : EachField (fun t v => Reach t d batch v) Cls.complexNormalNP ((fields Cls.complexNormalNP).zip vals) []) :
    EachField (Attained batch d) Cls.complexNormalNP ((fields Cls.complexNormalNP).zip vals) [] := by
  have key : ∀ {f : Field} {t : Support} {kw : Dict String Val}, f ∈ Cls.fields .complexNormalNP →
      f.name ≠ "pseudo_precision" → adjust Cls.complexNormalNP f.name kw = .ok t → Spreads t batch := by
    intro f t kw hf hn ha
    have h4 : t = f.support := Except.ok.inj (ha.symm.trans (Cls.adjust_eq hf kw fun h => hn h.2))
    exact h4 ▸ C85_declared hf batch
  rcases vals with _ | ⟨v1, _ | ⟨v2, _ | ⟨v3, vs⟩⟩⟩
  · trivial
  · obtain ⟨⟨t1, a1, b1⟩, -⟩ := h
    exact ⟨⟨t1, a1, key (f := ⟨_, .scalar Ring.complexField, false⟩) (by simp [Cls.fields]) (by simp) a1, b1⟩, trivial⟩
  · obtain ⟨⟨t1, a1, b1⟩, ⟨t2, a2, b2⟩, -⟩ := h
    exact ⟨⟨t1, a1, key (f := ⟨_, .scalar Ring.complexField, false⟩) (by simp [Cls.fields]) (by simp) a1, b1⟩,
      ⟨t2, a2, key (f := ⟨_, .scalar (Ring.mkReal none (some 0)), false⟩) (by simp [Cls.fields]) (by simp) a2, b2⟩,
      trivial⟩
  · obtain ⟨⟨t1, a1, b1⟩, ⟨t2, a2, b2⟩, ⟨t3, a3, b3⟩, -⟩ := h
    refine ⟨⟨t1, a1, key (f := ⟨_, .scalar Ring.complexField, false⟩) (by simp [Cls.fields]) (by simp) a1, b1⟩,
      ⟨t2, a2, key (f := ⟨_, .scalar (Ring.mkReal none (some 0)), false⟩) (by simp [Cls.fields]) (by simp) a2, b2⟩,
      ⟨t3, a3, ?_, b3⟩, by cases vs <;> trivial⟩
    have ht2 : t2 = .scalar (Ring.mkReal none (some 0)) := Except.ok.inj (a2.symm.trans
      (Cls.adjust_eq (c := .complexNormalNP) (f := ⟨_, .scalar (Ring.mkReal none (some 0)), false⟩) (by simp [Cls.fields]) _ (by simp)))
    subst ht2
    cases v2 with
    | complex a => exact b2.2.elim
    | bool a => exact b2.2.elim
    | int a => exact b2.2.elim
    | real a =>
      have hs : a.rshape = batch := b2.1
      have ha3 : Cls.adjust .complexNormalNP "pseudo_precision" _ = .ok t3 := a3
      rw [Cls.adjust, if_pos ⟨rfl, rfl⟩] at ha3
      obtain rfl : Support.scalar (.complex (Arr.full [] 0) (some (a.map fun x => |-x|))) = t3 := Except.ok.inj ha3
      have hz : ∀ j, boundVal (Arr.full [] (0 : ℝ)) j = 0 := fun j => by
        simp [boundVal, Arr.full, Arr.ofFn, inB]
      refine ⟨.inl rfl, fun M hM => ?_, fun j hj => ⟨(hz j).ge, fun M hM => ?_⟩⟩
      · cases hM
        exact .inr hs
      · cases v3 with
        | complex b =>
          have h1 := b3.2 [] j rfl hj
          have h2 := h1.2 M hM
          have h3 := h1.1
          rw [hz] at h2 h3
          linarith
        | real b => exact b3.2.elim
        | bool b => exact b3.2.elim
        | int b => exact b3.2.elim

mutual
theorem eachValue_hit {batch : List ℕ} : {q : Dist Cls} → WF q → EachValue (fun d t v => Reach t d batch v) q →
    EachValue (Attained batch) q
  | .mk c vals subs, hw, ⟨⟨d, h1, h2⟩, h3⟩ => by
    refine ⟨⟨d, h1, ?_⟩, eachValues_hit hw.2.2.2 h3⟩
    by_cases hc : c = .complexNormalNP
    · subst hc
      exact eachField_hit_complexNormal h2
    · exact eachField_hit hc (fun fv hfv => (List.of_mem_zip hfv).1) h2
theorem eachValues_hit {batch : List ℕ} : {q : Subs Cls} → WFs q → EachValues (fun d t v => Reach t d batch v) q →
    EachValues (Attained batch) q
  | .nil, _, _ => trivial
  | .cons _ _ _, hw, ⟨h1, h2⟩ => ⟨eachValue_hit hw.1 h1, eachValues_hit hw.2 h2⟩
end

/-- **C85.** `generate_random` leaves nothing out: every distribution, simple or joint, of every batch shape,
each of whose parameters could be a random element of its support (given the preceding parameters), is what
`generate_random` returns for its structure and some stream of the primitive generators. -/
theorem C85_generate_random {q : Dist Cls} (hw : WF q) {L : List (Info Cls)} (hL : infosOf q = .ok L)
    {batch : List ℕ} (h : EachValue (fun d t v => Reach t d batch v) q) :
    ∃ (g : Rng) (s s' : g.State), InRange g ∧ generateRandom L g batch s = .ok (q, s') := by
  obtain ⟨s, hs⟩ := Dist.generate_reach (base := []) hw hL (eachValue_hit hw h)
  obtain ⟨ps, h1, h2, -⟩ := hs [] []
  refine ⟨script, s ++ [], [], script_inRange, ?_⟩
  simp only [generateRandom, show generateInfos script batch L [] (s ++ []) = .ok (ps, []) from h1, Bind.bind, Except.bind]
  rw [assemble_ok hw (infosOf_skel hL) h2]

/-- Non-vacuity of C85: a joint distribution of a complex normal distribution and a negative binomial
distribution with 20 failures. -/
example : ∃ (g : Rng) (s s' : g.State), InRange g ∧ ∃ L,
    generateRandom L g [] s = .ok (.mk Cls.jointN [] (.cons "c" (.mk .complexNormalNP
      [.complex (Arr.full [] 1), .real (Arr.full [] (-2)), .complex (Arr.full [] 1)] .nil)
      (.cons "n" (.mk .negativeBinomialNP [.real (Arr.full [] (-1)), .int (Arr.full [] 20)] .nil) .nil)), s') := by
  have h0 := MachEps.pos
  have h1 := MachEps.lt
  have e2 : -1 ≤ Ring.openMax (0 : ℝ) := by
    rw [Ring.openMax, zero_mul]
    exact le_min (by linarith) (by norm_num)
  have e3 : 10 * Ring.openMin ((1 : ℤ) : ℝ) < (20 : ℝ) + 1 := by
    rw [Ring.openMin, copysign, if_pos (by norm_num)]
    push_cast
    rw [one_mul, max_self]
    linarith
  have hn : ∀ {i : List ℕ}, inB [] i = true → i = [] := fun {i} hi => by
    cases i with
    | nil => rfl
    | cons => simp [inB] at hi
  obtain ⟨g, s, s', hg, h⟩ := C85_generate_random (batch := [])
    (q := .mk Cls.jointN [] (.cons "c" (.mk .complexNormalNP
      [.complex (Arr.full [] 1), .real (Arr.full [] (-2)), .complex (Arr.full [] 1)] .nil)
      (.cons "n" (.mk .negativeBinomialNP [.real (Arr.full [] (-1)), .int (Arr.full [] 20)] .nil) .nil)))
    (by simp [WF, WFs, fields, isJoint, Cls.fields, Cls.isJoint, Subs.names]) rfl (by
      refine ⟨⟨_, rfl, trivial⟩, ⟨⟨_, rfl, ⟨_, rfl, rfl, ?_⟩, ⟨_, rfl, rfl, ?_⟩, ⟨_, rfl, rfl, ?_⟩, trivial⟩, trivial⟩,
        ⟨⟨_, rfl, ⟨_, rfl, rfl, ?_⟩, ⟨_, rfl, rfl, ?_⟩, trivial⟩, trivial⟩, trivial⟩
      · intro i j hi hj
        obtain rfl := hn hi
        obtain rfl := hn hj
        exact ⟨by simp [boundVal, Arr.full, Arr.ofFn, inB], fun M hM => by cases hM⟩
      · intro i hi
        obtain rfl := hn hi
        refine ⟨fun m hm => (by cases hm), fun M hM => ?_⟩
        cases hM
        exact ⟨show (-2 : ℝ) ≤ Ring.openMax 0 by linarith, fun h => absurd rfl h⟩
      · intro i j hi hj
        obtain rfl := hn hi
        obtain rfl := hn hj
        refine ⟨by simp [boundVal, Arr.full, Arr.ofFn, inB], fun M hM => ?_⟩
        cases hM
        simp [boundVal, Arr.full, Arr.ofFn, Arr.map, inB]
      · intro i hi
        obtain rfl := hn hi
        refine ⟨fun m hm => (by cases hm), fun M hM => ?_⟩
        cases hM
        exact ⟨e2, fun h => absurd rfl h⟩
      · intro i hi m hm
        obtain rfl := hn hi
        cases hm
        exact e3)
  exact ⟨g, s, s', hg, _, h⟩

/-- **C85.** The natural parameters that the test-suite generates leave nothing out. -/
theorem C85_test_parameters {info : TestInfo} {q : Dist Cls} (hw : WF q) (hL : infosOf q = .ok info.natStructure)
    {rs : List ℕ} (h : EachValue (fun d t v => Reach t d rs v) q) :
    ∃ (g : Rng) (s s' : g.State), InRange g ∧ info.natParameters g rs s = .ok (q, s') :=
  C85_generate_random hw hL h

/-- **C85, negation for integers.** The failures of a generated negative binomial distribution are at least 10,
although its support contains all positive integers: `IntegralRing.generate` multiplies the lower bound by ten
together with the random number.  So geometric-like negative binomial distributions are never tested. -/
theorem C85_failures : (∀ (g : Rng) (s s' : g.State) (batch : List ℕ) (q : Dist Cls), InRange g →
      (TestInfo.simple .negativeBinomial 1).natParameters g batch s = .ok (q, s') →
      ∃ a b, q = .mk .negativeBinomialNP [.real a, .int b] .nil ∧ b.rshape = batch ∧
        ∀ i, inB batch i = true → 10 ≤ b.get i) ∧
    (∃ f ∈ Cls.fields .negativeBinomialNP, f.name = "failures" ∧ InSupport f.support 0 [] (.int (Arr.full [] 1))) := by
  refine ⟨fun g s s' batch q hg h => ?_, ⟨"failures", .scalar (.integral (some 1) none), true⟩,
    by simp [Cls.fields], rfl, rfl, fun i hi => ⟨fun m hm => ?_, by simp⟩⟩
  · let x := Ring.realGenerate none (some (Ring.openMax 0)) 1 g batch s
    let y := Ring.realGenerate (some (Ring.openMin ((1 : ℤ) : ℝ))) none 1 g batch x.2
    have h1 : (TestInfo.simple .negativeBinomial 1).natParameters g batch s =
        .ok (.mk .negativeBinomialNP [.real x.1, .int (y.1.map fun x => truncZ (x * 10))] .nil, y.2) := rfl
    have h2 := Ring.generate_reached hg (r := .integral (some 1) none) (sup := []) (batch := batch)
      (s := x.2) ⟨1, rfl, zero_le_one, rfl⟩ rfl
    cases Except.ok.inj (h1.symm.trans h)
    refine ⟨_, _, rfl, h2.1, fun i hi => ?_⟩
    have h3 := h2.2 i hi 1 rfl
    have h4 : (1 : ℝ) < Ring.openMin 1 := lt_of_lt_of_le (by linarith [MachEps.pos]) (le_max_left _ _)
    have h5 : ((10 : ℤ) : ℝ) < (y.1.map fun x => truncZ (x * 10)).get i + 1 := by
      refine lt_of_lt_of_le ?_ h3.le
      push_cast
      linarith
    exact Int.lt_add_one_iff.1 (by exact_mod_cast h5)
  · cases hm
    exact (Arr.ofFn_get (rs := []) (f := fun _ => (1 : ℤ)) hi).ge

end Efax
