import Verif.Props.TestConversion
import Verif.Props.Oracle.Library

/-!
# The test of shapes passes (C80)
-/

namespace Efax

open Spec Tests ClassTable Calc

variable [MachEps] {solve : Solver} {search : Cls → List Val → Except Err (List Val)} {g : Rng}

/-- All parameters have the shape of the batch and the axes of their supports. -/
theorem nat_shapes {K : Kind Cls} (hK : LibraryKind solve K) {rs : List ℕ} {p : List ℕ → K.P}
    {q : List ℕ → K.N} : ∀ base : Path, ∀ kv ∈ (K.nat rs p q).paramList none base,
      kv.2.1.rshape.drop kv.2.2.axes = rs := by
  induction hK with
  | simple s =>
    intro base
    rw [← List.forall_iff_forall_mem]
    cases s <;> repeat' first | trivial | refine ⟨?_, ?_⟩ | rfl
  | @joint l _ _ _ ih =>
    intro base
    change ∀ kv ∈ ((Parts.ofList l).nat rs p q).paramList none base, _
    clear * - ih
    induction l with
    | nil => exact fun _ h => (List.not_mem_nil h).elim
    | cons nk l ih' =>
      intro kv hkv
      rcases List.mem_append.1 hkv with h | h
      · exact ih nk List.mem_cons_self _ kv h
      · exact ih' (fun nk hm => ih nk (List.mem_cons_of_mem _ hm)) kv h

theorem exp_shapes {K : Kind Cls} (hK : LibraryKind solve K) {rs : List ℕ} {p : List ℕ → K.P}
    {q : List ℕ → K.E} : ∀ base : Path, ∀ kv ∈ (K.exp rs p q).paramList none base,
      kv.2.1.rshape.drop kv.2.2.axes = rs := by
  induction hK with
  | simple s =>
    intro base
    rw [← List.forall_iff_forall_mem]
    cases s <;> repeat' first | trivial | refine ⟨?_, ?_⟩ | rfl
  | @joint l _ _ _ ih =>
    intro base
    change ∀ kv ∈ ((Parts.ofList l).exp rs p q).paramList none base, _
    clear * - ih
    induction l with
    | nil => exact fun _ h => (List.not_mem_nil h).elim
    | cons nk l ih' =>
      intro kv hkv
      rcases List.mem_append.1 hkv with h | h
      · exact ih nk List.mem_cons_self _ kv h
      · exact ih' (fun nk hm => ih nk (List.mem_cons_of_mem _ hm)) kv h

theorem known_ent_simple {s : SimpleInfo} {n : ℕ} (h : EntropyKnown s) : ((familyOf s n).kind solve).ent := by
  cases s <;> first | exact h.elim | exact trivial

mutual
theorem known_ent : (info : TestInfo) → Everywhere EntropyKnown info → (settingOf solve info).1.ent
  | .simple _ _, h => known_ent_simple h
  | .joint infos, h => knowns_ent infos h
theorem knowns_ent : (infos : TestInfos) → Everywheres EntropyKnown infos →
    (Parts.ofList (partsOf (settingsOf solve infos))).ent
  | .nil, _ => trivial
  | .cons _ info rest, h => ⟨known_ent info h.1, knowns_ent rest h.2⟩
end

/-- Joint distributions whose parts all have entropies, and all simple distributions. -/
theorem ent_of_instance {info : TestInfo} (h : ∀ infos, info = .joint infos → Everywheres EntropyKnown infos)
    {rs : List ℕ} {p : List ℕ → (settingOf solve info).1.P} {χ : List ℕ → (settingOf solve info).1.E}
    (hc : ((settingOf solve info).1.exp rs p χ).cls.hasEntropyEP = true) : (settingOf solve info).1.ent := by
  cases info with
  | simple s n =>
    refine known_ent_simple ?_
    cases s <;> first | trivial | (exact absurd hc Bool.false_ne_true)
  | joint infos => exact knowns_ent infos (h infos rfl)

theorem hasEntropyNP_nat {info : TestInfo} {rs rs' : List ℕ} {p p' : List ℕ → (settingOf solve info).1.P}
    {q : List ℕ → (settingOf solve info).1.N} {χ : List ℕ → (settingOf solve info).1.E} :
    hasEntropyNP ((settingOf solve info).1.nat rs p q).cls =
      ((settingOf solve info).1.exp rs' p' χ).cls.hasEntropyEP := by
  cases info with
  | simple s n => cases s <;> rfl
  | joint infos => rfl

theorem checkShape_ok {rs : List ℕ} {f : List ℕ → ℝ} {a : Calc ℝ} (h : a = ok (scalars rs f)) :
    checkShape a rs = .ok () := by
  subst h
  exact check_ok rfl

/-- **C80.** `test_shapes` passes for every description without nested joint distributions whose joint
distributions have parts with entropies: for every generic random stream, if the searches find what they
search for, and for all observations that can be drawn. -/
theorem C80_shapes (hs : solve.For search) {info : TestInfo} (hi : Sound info) (hf : Shallow info)
    (he : ∀ infos, info = .joint infos → Everywheres EntropyKnown infos)
    (hg : InRange g) (hz : NeverZero g) (hq : Generic g) (hc : Cooperative solve info g [4, 3])
    {scipyX : Tree Val} (hd : Drawn [4, 3] info scipyX) (s : g.State) :
    ∃ s', testShapes (library search) info g scipyX s = .ok s' := by
  obtain ⟨p, q, s', h1, h2⟩ := C76_test_parameters (solve := solve) hi hf hg hz hq [4, 3] s
  obtain ⟨hr, hx, hy⟩ := hc s s' p q h1 h2
  obtain ⟨p', q', s'', h1', h2'⟩ := C76_test_parameters (solve := solve) hi hf hg hz hq [4, 3] s'
  obtain ⟨hr', -, -⟩ := hc s' s'' p' q' h1' h2'
  have hS := sound_library (solve := solve) info hi
  have hO := C51_library hs hS.kind
  have h3 := C76_test_expectation hs hi h1 hr
  obtain ⟨e, h4, h5⟩ := C75_expectation hs hi h2 hr hy
  rw [hO.toExp [4, 3] p q (regular_dom hS.kind hr)] at h4
  cases h4
  obtain ⟨o, h6, -⟩ := h5 hx
  obtain ⟨_, _, h7, _⟩ := agrees_all hs info hi [4, 3] p q h2
  obtain ⟨x, x', h8, h9, -⟩ := h7 scipyX hd
  refine ⟨s'', ?_⟩
  have hent := fun h => ent_of_instance (p := p)
    (χ := fun i => ((settingOf solve info).1.F (p i)).toExp (q i)) he (rs := [4, 3]) h
  have c1 := checkShape_ok (hO.logNormalizer [4, 3] p' q')
  have c2 := checkShape_ok (hO.carrier [4, 3] p' q' x' x h9)
  have c3 := checkShape_ok (C51_pdf hO [4, 3] p' q' x' x h9)
  have c4 := fun h => checkShape_ok (hO.ecm (hent h) [4, 3] p
    fun i => ((settingOf solve info).1.F (p i)).toExp (q i))
  have c5 := fun h => checkShape_ok (C51_entropy_natural hO (hent h) [4, 3] p' q' (regular_dom hS.kind hr'))
  have c6 : ∀ h : _, checkShape (((settingOf solve info).1.exp [4, 3] p fun i =>
      ((settingOf solve info).1.F (p i)).toExp (q i)).crossEntropy (library search)
      ((settingOf solve info).1.nat [4, 3] p' q')) [4, 3] = .ok () := fun h => by
    rw [Dist.crossEntropy, hO.dotCalc, hO.logNormalizer, hO.ecm (hent h), scalars_neg, scalars_add, scalars_sub]
    exact checkShape_ok rfl
  have c7 : checkParameters ((settingOf solve info).1.exp [4, 3] p fun i =>
      ((settingOf solve info).1.F (p i)).toExp (q i)) [4, 3] = .ok () := check_ok fun kv h => by
    rw [parametersS_eq (hO.wfE _ _ _)] at h
    exact exp_shapes hS.kind [] kv h
  have c8 : checkParameters ((settingOf solve info).1.nat [4, 3] p' q') [4, 3] = .ok () :=
    check_ok fun kv h => by
      rw [parametersS_eq (hO.wfN _ _ _)] at h
      exact nat_shapes hS.kind [] kv h
  have hl : (library search).hasEntropy = Cls.hasEntropyEP := rfl
  simp only [testShapes, h3, h1', h6, h8, hO.shapeN, hO.shapeE, c1, c2, c3, c7, c8, Bind.bind, Except.bind,
    check_ok trivial]
  rw [hasEntropyNP_nat (p' := p) (rs' := [4, 3]) (χ := fun i => ((settingOf solve info).1.F (p i)).toExp (q i))]
  by_cases h : ((settingOf solve info).1.exp [4, 3] p fun i =>
      ((settingOf solve info).1.F (p i)).toExp (q i)).cls.hasEntropyEP = true
  · simp only [hl, h, if_true, c4 h, c5 h, c6 h]
  · simp only [hl, h]
    rfl

theorem fail_left {e : Err} (a : Calc ℝ) : (fail e + a : Calc ℝ) = fail e := rfl

theorem fail_right {e : Err} (a : Arr ℝ) : (ok a + fail e : Calc ℝ) = fail e := rfl

theorem foldl_fail {e : Err} (l : List (Calc ℝ)) : l.foldl (· + ·) (fail e) = fail e := by
  induction l with
  | nil => rfl
  | cons a l ih => rw [List.foldl_cons, fail_left, ih]

/-- A sum with a term that fails. -/
theorem foldl_some_fail {e : Err} {rs : List ℕ} : ∀ (l : List (Calc ℝ)) (f : List ℕ → ℝ),
    (∀ a ∈ l, a = fail e ∨ ∃ f, a = ok (scalars rs f)) → fail e ∈ l →
    l.foldl (· + ·) (ok (scalars rs f)) = fail e
  | a :: l, f, h, hm => by
    rw [List.foldl_cons]
    rcases h a List.mem_cons_self with rfl | ⟨g, rfl⟩
    · rw [fail_right, foldl_fail]
    · rw [scalars_add]
      refine foldl_some_fail l _ (fun a ha => h a (List.mem_cons_of_mem _ ha)) ?_
      rcases List.mem_cons.1 hm with h' | h'
      · cases h'
      · exact h'

theorem reduce_some_fail {e : Err} {rs : List ℕ} {l : List (Calc ℝ)}
    (h : ∀ a ∈ l, a = fail e ∨ ∃ f, a = ok (scalars rs f)) (hm : fail e ∈ l) : reduceCalc l = fail e := by
  cases l with
  | nil => cases hm
  | cons a l =>
    rcases h a List.mem_cons_self with rfl | ⟨g, rfl⟩
    · exact foldl_fail l
    · refine foldl_some_fail l g (fun a ha => h a (List.mem_cons_of_mem _ ha)) ?_
      rcases List.mem_cons.1 hm with h' | h'
      · cases h'
      · exact h'

/-- The expected carrier measures of the parts of a joint distribution of simple distributions. -/
theorem ecms_simple (hs : solve.For search) {rs : List ℕ} : ∀ {infos : TestInfos}, AllSimple infos →
    ∀ {p : List ℕ → (Parts.ofList (partsOf (settingsOf solve infos))).P}
      {χ : List ℕ → (Parts.ofList (partsOf (settingsOf solve infos))).E},
    (∀ a ∈ Subs.ecms (library search) ((Parts.ofList (partsOf (settingsOf solve infos))).exp rs p χ),
      a = fail .assertionError ∨ ∃ f, a = ok (scalars rs f)) ∧
    (¬ Everywheres EntropyKnown infos →
      fail .assertionError ∈
        Subs.ecms (library search) ((Parts.ofList (partsOf (settingsOf solve infos))).exp rs p χ))
  | .nil, _, _, _ => ⟨fun _ h => (List.not_mem_nil h).elim, fun h => (h trivial).elim⟩
  | .cons n (.joint _) r, h, _, _ => h.elim
  | .cons n (.simple s d) r, h, p, χ => by
    obtain ⟨h1, h2⟩ := ecms_simple hs (infos := r) h (p := fun i => (p i).2) (χ := fun i => (χ i).2)
    have hO := C51_library hs (LibraryKind.simple (solve := solve) (familyOf s d))
    by_cases hk : EntropyKnown s
    · have h3 : (if isJoint (((familyOf s d).kind solve).exp rs (fun i => (p i).1) fun i => (χ i).1).cls ||
          (library search).hasEntropy (((familyOf s d).kind solve).exp rs (fun i => (p i).1) fun i => (χ i).1).cls
          then Dist.ecm (library search) (((familyOf s d).kind solve).exp rs (fun i => (p i).1) fun i => (χ i).1)
          else fail .assertionError) = ok (scalars rs fun i =>
            ((familyOf s d).kind solve).ecm (p i).1 (χ i).1) := by
        refine (if_pos ?_).trans (hO.ecm (known_ent_simple hk) rs (fun i => (p i).1) fun i => (χ i).1)
        rcases hO.entropic (known_ent_simple hk) rs (fun i => (p i).1) fun i => (χ i).1 with h | h
        · exact Bool.or_eq_true_iff.2 (.inl h)
        · exact Bool.or_eq_true_iff.2 (.inr h)
      refine ⟨fun a ha => ?_, fun hn => ?_⟩
      · rcases List.mem_cons.1 ha with rfl | ha
        · exact .inr ⟨_, h3⟩
        · exact h1 a ha
      · exact List.mem_cons_of_mem _ (h2 fun h => hn ⟨hk, h⟩)
    · have h3 : (if isJoint (((familyOf s d).kind solve).exp rs (fun i => (p i).1) fun i => (χ i).1).cls ||
          (library search).hasEntropy (((familyOf s d).kind solve).exp rs (fun i => (p i).1) fun i => (χ i).1).cls
          then Dist.ecm (library search) (((familyOf s d).kind solve).exp rs (fun i => (p i).1) fun i => (χ i).1)
          else fail .assertionError) = fail .assertionError := by
        refine if_neg ?_
        cases s <;> first | exact (hk trivial).elim | exact Bool.false_ne_true
      refine ⟨fun a ha => ?_, fun _ => ?_⟩
      · rcases List.mem_cons.1 ha with rfl | ha
        · exact .inl h3
        · exact h1 a ha
      · exact List.mem_cons.2 (.inl h3.symm)

/-- **C80.** A joint distribution is an instance of `HasEntropyEP` whatever its parts are, so that
`test_shapes` fails for a joint distribution with a part whose entropy is not known: `cross_entropy` raises
`AssertionError`. -/
theorem C80_shapes_violated (hs : solve.For search) {infos : TestInfos} (hi : Sound (.joint infos))
    (hf : AllSimple infos) (he : ¬ Everywheres EntropyKnown infos)
    (hg : InRange g) (hz : NeverZero g) (hq : Generic g) (hc : Cooperative solve (.joint infos) g [4, 3])
    {scipyX : Tree Val} (hd : Drawn [4, 3] (.joint infos) scipyX) (s : g.State) :
    testShapes (library search) (.joint infos) g scipyX s = .error .assertionError := by
  obtain ⟨p, q, s', h1, h2⟩ := C76_test_parameters (solve := solve) hi hf hg hz hq [4, 3] s
  obtain ⟨hr, hx, hy⟩ := hc s s' p q h1 h2
  obtain ⟨p', q', s'', h1', h2'⟩ := C76_test_parameters (solve := solve) hi hf hg hz hq [4, 3] s'
  have hS := sound_library (solve := solve) _ hi
  have hO := C51_library hs hS.kind
  have h3 := C76_test_expectation hs hi h1 hr
  obtain ⟨e, h4, h5⟩ := C75_expectation hs hi h2 hr hy
  rw [hO.toExp [4, 3] p q (regular_dom hS.kind hr)] at h4
  cases h4
  obtain ⟨o, h6, -⟩ := h5 hx
  obtain ⟨_, _, h7, _⟩ := agrees_all hs _ hi [4, 3] p q h2
  obtain ⟨x, x', h8, h9, -⟩ := h7 scipyX hd
  have c1 := checkShape_ok (hO.logNormalizer [4, 3] p' q')
  obtain ⟨k1, k2⟩ := ecms_simple hs hf (rs := [4, 3]) (p := p)
    (χ := fun i => ((settingOf solve (.joint infos)).1.F (p i)).toExp (q i))
  have k3 : Dist.ecm (library search) ((settingOf solve (.joint infos)).1.exp [4, 3] p fun i =>
      ((settingOf solve (.joint infos)).1.F (p i)).toExp (q i)) = fail .assertionError :=
    reduce_some_fail k1 (k2 he)
  have c6 : checkShape (((settingOf solve (.joint infos)).1.exp [4, 3] p fun i =>
      ((settingOf solve (.joint infos)).1.F (p i)).toExp (q i)).crossEntropy (library search)
      ((settingOf solve (.joint infos)).1.nat [4, 3] p' q')) [4, 3] = .error .assertionError := by
    rw [Dist.crossEntropy, hO.dotCalc, hO.logNormalizer, k3, scalars_neg, scalars_add]
    rfl
  have c7 : checkParameters ((settingOf solve (.joint infos)).1.exp [4, 3] p fun i =>
      ((settingOf solve (.joint infos)).1.F (p i)).toExp (q i)) [4, 3] = .ok () := check_ok fun kv h => by
    rw [parametersS_eq (hO.wfE _ _ _)] at h
    exact exp_shapes hS.kind [] kv h
  have c8 : checkParameters ((settingOf solve (.joint infos)).1.nat [4, 3] p' q') [4, 3] = .ok () :=
    check_ok fun kv h => by
      rw [parametersS_eq (hO.wfN _ _ _)] at h
      exact nat_shapes hS.kind [] kv h
  have hl : (library search).hasEntropy ((settingOf solve (.joint infos)).1.exp [4, 3] p fun i =>
      ((settingOf solve (.joint infos)).1.F (p i)).toExp (q i)).cls = true := rfl
  simp only [testShapes, h3, h1', h6, h8, hO.shapeN, hO.shapeE, c1, c7, c8, Bind.bind, Except.bind,
    check_ok trivial, hl, if_true, c6]

namespace Samples

/-- Observations of the parts of `plainInfo`. -/
noncomputable def plainX : Tree Val := .node (.cons "n" (.leaf (.real (scalars [4, 3] fun _ => 1)))
  (.cons "g" (.leaf (.real (scalars [4, 3] fun _ => 1))) .nil))

omit [MachEps] in
theorem plain_drawn : Drawn [4, 3] plainInfo plainX :=
  ⟨_, rfl, .refl _, ⟨_, List.mem_cons_self, _, rfl, fun _ => 1, rfl⟩,
    ⟨_, List.mem_cons_of_mem _ List.mem_cons_self, _, rfl, fun _ => 1, rfl, fun _ _ => ⟨1, le_refl 1, by simp⟩⟩,
    trivial⟩

/-- A joint distribution of a normal and a Poisson distribution. -/
def countInfos : TestInfos := .cons "n" (.simple .normal 1) (.cons "p" (.simple .poisson 1) .nil)

omit [MachEps] in
theorem count_sound : Sound (.joint countInfos) := ⟨⟨_, _, _, rfl⟩, by decide, rfl, rfl, trivial⟩

theorem count_closed : (settingOf solve (.joint countInfos)).2.closed := ⟨trivial, trivial, trivial⟩

/-- Observations of the parts of `countInfos`. -/
noncomputable def countX : Tree Val := .node (.cons "n" (.leaf (.real (scalars [4, 3] fun _ => 1)))
  (.cons "p" (.leaf (.real (scalars [4, 3] fun _ => 1))) .nil))

omit [MachEps] in
theorem count_drawn : Drawn [4, 3] (.joint countInfos) countX :=
  ⟨_, rfl, .refl _, ⟨_, List.mem_cons_self, _, rfl, fun _ => 1, rfl⟩,
    ⟨_, List.mem_cons_of_mem _ List.mem_cons_self, _, rfl, fun _ => 1, rfl, fun _ _ => ⟨1, by simp⟩⟩, trivial⟩

end Samples

/-- Non-vacuity of C80: a joint distribution that meets all conditions. -/
example : ∀ s, ∃ s', testShapes (library (searchFor zeroMinimizer)) Samples.plainInfo Samples.diagonal
    Samples.plainX s = .ok s' :=
  C80_shapes (C51_search zeroMinimizer_returns) Samples.plain_sound trivial
    (fun _ h => by cases h; exact ⟨trivial, trivial, trivial⟩) Samples.diagonal_inRange
    Samples.diagonal_neverZero Samples.diagonal_generic
    (cooperative_closed Samples.plain_sound Samples.plain_closed _) Samples.plain_drawn

/-- The violation of C80 occurs for the joint distribution of a normal and a Poisson distribution. -/
example : ∀ s, testShapes (library (searchFor zeroMinimizer)) (.joint Samples.countInfos) Samples.diagonal
    Samples.countX s = .error .assertionError :=
  C80_shapes_violated (C51_search zeroMinimizer_returns) Samples.count_sound trivial (fun h => h.2.1)
    Samples.diagonal_inRange Samples.diagonal_neverZero Samples.diagonal_generic
    (cooperative_closed Samples.count_sound Samples.count_closed _) Samples.count_drawn

end Efax
