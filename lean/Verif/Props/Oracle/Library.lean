import Verif.Props.Oracle.Joint

/-!
# The test-suite compares with the right distributions

`DistributionInfo` translates distributions of efax to distributions of `scipy.stats` (or to the
replacements in `tests/scipy_replacement`), and observations drawn from those to observations of efax.
-/

namespace Efax

open Spec Calc Tests MeasureTheory

variable [MachEps] {solve : Solver} {search : Cls → List Val → Except Err (List Val)}

mutual
theorem sound_library : (info : TestInfo) → Sound info →
    LibrarySetting solve (settingOf solve info).1 (settingOf solve info).2
  | .simple s n, _ => .simple (familyOf s n)
  | .joint infos, h => .joint (l := settingsOf solve infos) (by
      obtain ⟨⟨name, info, rest, rfl⟩, -⟩ := h
      exact List.cons_ne_nil _ _) (by rw [settingsOf_names]; exact h.2.1) (sounds_library infos h.2.2)
theorem sounds_library : (infos : TestInfos) → Sounds infos →
    ∀ s ∈ settingsOf solve infos, LibrarySetting solve s.2.1 s.2.2
  | .nil, _ => fun _ h => by simp [settingsOf] at h
  | .cons _ info rest, h => fun s hs => by
    rcases List.mem_cons.1 hs with rfl | hs
    · exact sound_library info h.1
    · exact sounds_library rest h.2 s hs
end

theorem entropic_ent_simple {s : SimpleInfo} {n : ℕ} (h : EntropicSimple s) : ((familyOf s n).kind solve).ent := by
  cases s <;> first | exact h.elim | exact trivial

mutual
theorem entropic_ent : (info : TestInfo) → Entropic info → (settingOf solve info).1.ent
  | .simple _ _, h => entropic_ent_simple h
  | .joint infos, h => entropics_ent infos h
theorem entropics_ent : (infos : TestInfos) → Entropics infos →
    (Parts.ofList (partsOf (settingsOf solve infos))).ent
  | .nil, _ => trivial
  | .cons _ info rest, h => ⟨entropic_ent info h.1, entropics_ent rest h.2⟩
end

section

variable (hs : solve.For search) {info : TestInfo} (hi : Sound info) {rs : List ℕ}
  {p : List ℕ → (settingOf solve info).1.P} {q : List ℕ → (settingOf solve info).1.N}
include hs hi

/-- **C75.** The translation of a distribution has the densities that `pdf` of the distribution computes,
at all observations that can be drawn. -/
theorem C75_pdf (hq : (settingOf solve info).2.Inside rs p q) :
    ∃ o, info.natToScipy (library search) ((settingOf solve info).1.nat rs p q) = .ok o ∧
      ∀ t, Drawn rs info t → ∃ t' a, info.observation t = .ok t' ∧
        ((settingOf solve info).1.nat rs p q).pdf (library search) t' = .ok a ∧ o.pdf t = .ok a := by
  obtain ⟨o, h1, h2, -⟩ := agrees_all hs info hi rs p q hq
  refine ⟨o, h1, fun t ht => ?_⟩
  obtain ⟨t', x, h3, h4, h5⟩ := h2 t ht
  exact ⟨t', _, h3, C51_pdf (C51_library hs (sound_library info hi).kind) rs p q x t' h4, h5⟩

/-- **C75.** The translation has the entropy that `entropy()` of the distribution computes. -/
theorem C75_entropy (hq : (settingOf solve info).2.Inside rs p q)
    (hr : EachLeaf RegularVals ((settingOf solve info).1.nat rs p q))
    (hx : Found (settingOf solve info).1 rs p q) (he : Entropic info) :
    ∃ o a, info.natToScipy (library search) ((settingOf solve info).1.nat rs p q) = .ok o ∧
      ((settingOf solve info).1.nat rs p q).entropyN (library search) = .ok a ∧ o.entropy = .ok a := by
  obtain ⟨o, h1, -, h2⟩ := agrees_all hs info hi rs p q hq
  have hL := sound_library (solve := solve) info hi
  exact ⟨o, _, h1, C51_entropy_natural (C51_library hs hL.kind) (entropic_ent info he) rs p q
    (regular_dom hL.kind hr), h2 hx he⟩

/-- **C75.** The same for the translation of expectation parameters: the expectation parameters of a
distribution are translated to a distribution with the same densities and the same entropy. -/
theorem C75_expectation (hq : (settingOf solve info).2.Inside rs p q)
    (hr : EachLeaf RegularVals ((settingOf solve info).1.nat rs p q))
    (hx : Found (settingOf solve info).1 rs p q) :
    ∃ e, ((settingOf solve info).1.nat rs p q).toExp (library search).toExp = .ok e ∧
      (EachLeaf SearchableVals e → ∃ o, info.expToScipy (library search) e = .ok o ∧
        (∀ t, Drawn rs info t → ∃ t' a, info.observation t = .ok t' ∧
          ((settingOf solve info).1.nat rs p q).pdf (library search) t' = .ok a ∧ o.pdf t = .ok a) ∧
        (Entropic info → ∃ a, e.entropyE (library search) = .ok a ∧ o.entropy = .ok a)) := by
  have hL := sound_library (solve := solve) info hi
  have hO := C51_library hs hL.kind
  have hE := hO.toExp rs p q (regular_dom hL.kind hr)
  refine ⟨_, hE, fun he => ?_⟩
  have hN := hO.toNat rs p _ (searchable_dom hL.kind he)
  set q' := fun i => (settingOf solve info).1.toNat (p i) (((settingOf solve info).1.F (p i)).toExp (q i))
    with hq'
  have h' : ∀ i, inB rs i = true → q' i = q i := hx
  have hq2 : (settingOf solve info).2.Inside rs p q' := fun i hi => by rw [h' i hi]; exact hq i hi
  have hx2 : Found (settingOf solve info).1 rs p q' := fun i hi => by rw [h' i hi]; exact hx i hi
  have key : ∃ o, info.expToScipy (library search) ((settingOf solve info).1.exp rs p fun i =>
      ((settingOf solve info).1.F (p i)).toExp (q i)) = .ok o ∧
      (info.natToScipy (library search) ((settingOf solve info).1.nat rs p q) = .ok o ∨
        info.natToScipy (library search) ((settingOf solve info).1.nat rs p q') = .ok o) := by
    obtain ⟨o, h1, -⟩ := agrees_all hs info hi rs p q hq
    obtain ⟨o', h1', -⟩ := agrees_all hs info hi rs p q' hq2
    cases info with
    | joint infos => exact ⟨o', by
        rw [TestInfo.expToScipy]
        exact (bind_of_ok hN).trans h1', .inr h1'⟩
    | simple s n =>
      cases hf : s.expTo n with
      | none => exact ⟨o', by
          simp only [TestInfo.expToScipy, hf]
          exact (bind_of_ok hN).trans h1', .inr h1'⟩
      | some f =>
        have hn : s.natTo = none := by cases s <;> first | rfl | simp [SimpleInfo.expTo] at hf
        refine ⟨o, ?_, .inl h1⟩
        simp only [TestInfo.expToScipy, hf]
        rw [natToScipy_expTo hn hf hE] at h1
        exact h1
  obtain ⟨o, h1, h2⟩ := key
  refine ⟨o, h1, fun t ht => ?_, fun hen => ⟨_, C51_entropy_expectation hO (entropic_ent info hen) rs p _
    (searchable_dom hL.kind he), ?_⟩⟩
  · rcases h2 with h2 | h2
    · obtain ⟨o', h3, h4⟩ := C75_pdf hs hi hq
      obtain rfl := Except.ok.inj (h3.symm.trans h2)
      exact h4 t ht
    · obtain ⟨o', h3, h4, -⟩ := agrees_all hs info hi rs p q' hq2
      obtain rfl := Except.ok.inj (h3.symm.trans h2)
      obtain ⟨t', x, h5, h6, h7⟩ := h4 t ht
      refine ⟨t', _, h5, C51_pdf hO rs p q x t' h6, h7.trans ?_⟩
      exact congrArg _ (scalars_congr fun i hi => by rw [h' i hi])
  · rcases h2 with h2 | h2
    · obtain ⟨o', h3, -, h4⟩ := agrees_all hs info hi rs p q hq
      obtain rfl := Except.ok.inj (h3.symm.trans h2)
      rw [h4 hx hen]
      refine congrArg _ (scalars_congr fun i hi => ?_)
      rw [ExpFam.entropyE, hx i hi]
      rfl
    · obtain ⟨o', h3, -, h4⟩ := agrees_all hs info hi rs p q' hq2
      obtain rfl := Except.ok.inj (h3.symm.trans h2)
      rw [h4 hx2 hen]
      refine congrArg _ (scalars_congr fun i hi => ?_)
      rw [ExpFam.entropyE, hx i hi, h' i hi]
      rfl

end


/-! ### Structures -/

/-- The structure with all paths reversed. -/
def reversed (l : List (Info Cls)) : List (Info Cls) := l.map fun i => { i with path := i.path.reverse }

/-- The structure with all paths prolonged at the front. -/
def under (base : Path) (l : List (Info Cls)) : List (Info Cls) := l.map fun i => { i with path := base ++ i.path }

theorem walk_simple {s : SimpleInfo} {n : ℕ} (h : HasDimension s n) (rs : List ℕ) (base : Path)
    (p : List ℕ → ((familyOf s n).kind solve).P) :
    (∀ q, (((familyOf s n).kind solve).nat rs p q).walk makeInfo base = .ok [⟨base, s.natCls, n, []⟩]) ∧
    ∀ χ, (((familyOf s n).kind solve).exp rs p χ).walk makeInfo base = .ok [⟨base, s.expCls, n, []⟩] := by
  cases s <;> simp only [HasDimension] at h
  case dirichlet =>
    obtain ⟨d, rfl⟩ : ∃ d, n = d + 1 := ⟨n - 1, by omega⟩
    exact ⟨fun _ => rfl, fun _ => rfl⟩
  all_goals first
    | exact ⟨fun _ => rfl, fun _ => rfl⟩
    | (subst h; exact ⟨fun _ => rfl, fun _ => rfl⟩)

theorem under_append (base : Path) (a b : List (Info Cls)) :
    under base (reversed (a ++ b)) = under base (reversed a) ++ under base (reversed b) := by
  simp [under, reversed]

theorem under_named (base : Path) (name : String) (l : List (Info Cls)) :
    under base (reversed (l.map fun i => { i with path := i.path ++ [name] })) =
      under (base ++ [name]) (reversed l) := by
  simp [under, reversed, Function.comp_def]

theorem walk_joint {c : Cls} {s : Subs Cls} {base : Path} {l : List (Info Cls)} {ns : List String}
    (hc : c = .jointN ∨ c = .jointE) (h : s.walk makeInfo base = .ok l) (hn : s.names = ns) :
    (Dist.mk c [] s).walk makeInfo base = .ok (l ++ [⟨base, c, 1, ns⟩]) := by
  subst hn
  rw [Dist.walk, h]
  rcases hc with rfl | rfl <;> rfl

theorem walk_cons {name : String} {d : Dist Cls} {s : Subs Cls} {base : Path} {a b : List (Info Cls)}
    (h : d.walk makeInfo (base ++ [name]) = .ok a) (h' : s.walk makeInfo base = .ok b) :
    (Subs.cons name d s).walk makeInfo base = .ok (a ++ b) := by
  rw [Subs.walk, h, h']
  rfl

theorem subs_names : ∀ s : Subs Cls, s.names = s.toList.map Prod.fst
  | .nil => rfl
  | .cons _ _ r => congrArg (List.cons _) (subs_names r)

theorem expNames : ∀ (l : List (String × Kind Cls)) {rs : List ℕ} {p χ},
    ((Parts.ofList l).exp rs p χ).toList.map Prod.fst = l.map Prod.fst
  | [], _, _, _ => rfl
  | nk :: l, _, _, _ => congrArg (List.cons nk.1) (expNames l)

theorem partsOf_names (infos : TestInfos) : (partsOf (settingsOf solve infos)).map Prod.fst = infos.names := by
  rw [← settingsOf_names (solve := solve) infos, partsOf, List.map_map]
  rfl

mutual
theorem walk_all : (info : TestInfo) → Sound info → ∀ (rs : List ℕ) (base : Path)
    (p : List ℕ → (settingOf solve info).1.P),
    (∀ q, ((settingOf solve info).1.nat rs p q).walk makeInfo base =
      .ok (under base (reversed info.natStructure))) ∧
    ∀ χ, ((settingOf solve info).1.exp rs p χ).walk makeInfo base =
      .ok (under base (reversed info.expStructure))
  | .simple s n, h, rs, base, p => by
    rw [show under base (reversed (TestInfo.simple s n).natStructure) = [⟨base ++ [], s.natCls, n, []⟩] from rfl,
      show under base (reversed (TestInfo.simple s n).expStructure) = [⟨base ++ [], s.expCls, n, []⟩] from rfl,
      List.append_nil]
    exact walk_simple h rs base p
  | .joint infos, h, rs, base, p => by
    obtain ⟨h1, h2⟩ := walks_all infos h.2.2 rs base p
    refine ⟨fun q => (walk_joint (.inl rfl) (h1 q) ((subs_names _).trans ((natNames _).trans
      (partsOf_names infos)))).trans ?_, fun χ => (walk_joint (.inr rfl) (h2 χ) ((subs_names _).trans
        ((expNames _).trans (partsOf_names infos)))).trans ?_⟩
    · rw [TestInfo.natStructure, TestInfo.structureOf, under_append]
      simp [under, reversed]
    · rw [TestInfo.expStructure, TestInfo.structureOf, under_append]
      simp [under, reversed]
theorem walks_all : (infos : TestInfos) → Sounds infos → ∀ (rs : List ℕ) (base : Path)
    (p : List ℕ → (Parts.ofList (partsOf (settingsOf solve infos))).P),
    (∀ q, ((Parts.ofList (partsOf (settingsOf solve infos))).nat rs p q).walk makeInfo base =
      .ok (under base (reversed (TestInfos.structuresOf SimpleInfo.natCls .jointN infos)))) ∧
    ∀ χ, ((Parts.ofList (partsOf (settingsOf solve infos))).exp rs p χ).walk makeInfo base =
      .ok (under base (reversed (TestInfos.structuresOf SimpleInfo.expCls .jointE infos)))
  | .nil, _, _, _, _ => ⟨fun _ => rfl, fun _ => rfl⟩
  | .cons name info rest, h, rs, base, p => by
    obtain ⟨h1, h2⟩ := walk_all info h.1 rs (base ++ [name]) fun i => (p i).1
    obtain ⟨h3, h4⟩ := walks_all rest h.2 rs base fun i => (p i).2
    rw [TestInfos.structuresOf, TestInfos.structuresOf, under_append, under_append, under_named, under_named]
    exact ⟨fun q => walk_cons (h1 _) (h3 _), fun χ => walk_cons (h2 _) (h4 _)⟩
end

theorem under_nil (l : List (Info Cls)) : under [] l = l := by simp [under]

section

variable {info : TestInfo} (hi : Sound info) (rs : List ℕ) (p : List ℕ → (settingOf solve info).1.P)
include hi

/-- **C75.** `nat_structure()` is the structure of the distributions that it describes, except that the paths
of nested parts are reversed. -/
theorem C75_nat_structure (q : List ℕ → (settingOf solve info).1.N) :
    infosOf ((settingOf solve info).1.nat rs p q) =
      .ok (info.natStructure.map fun i => { i with path := i.path.reverse }) :=
  ((walk_all info hi rs [] p).1 q).trans (congrArg _ (under_nil _))

/-- **C75.** The same for `exp_structure()`. -/
theorem C75_exp_structure (χ : List ℕ → (settingOf solve info).1.E) :
    infosOf ((settingOf solve info).1.exp rs p χ) =
      .ok (info.expStructure.map fun i => { i with path := i.path.reverse }) :=
  ((walk_all info hi rs [] p).2 χ).trans (congrArg _ (under_nil _))

end

theorem shallow_parts (cls : SimpleInfo → Cls) (c : Cls) : ∀ infos : TestInfos, AllSimple infos →
    ∀ i ∈ TestInfos.structuresOf cls c infos, i.path.reverse = i.path
  | .nil, _, i, h => by simp [TestInfos.structuresOf] at h
  | .cons name (.simple s n) rest, h, i, hi => by
    rw [TestInfos.structuresOf, List.mem_append] at hi
    rcases hi with hi | hi
    · obtain rfl := List.mem_singleton.1 hi
      rfl
    · exact shallow_parts cls c rest h i hi

theorem shallow_reversed (cls : SimpleInfo → Cls) (c : Cls) {info : TestInfo} (h : Shallow info) :
    reversed (info.structureOf cls c) = info.structureOf cls c := by
  refine (List.map_congr_left (g := id) fun i hi => ?_).trans (List.map_id _)
  have : i.path.reverse = i.path := by
    cases info with
    | simple s n =>
      obtain rfl := List.mem_singleton.1 hi
      rfl
    | joint infos =>
      rcases List.mem_append.1 hi with hi | hi
      · exact shallow_parts cls c infos h i hi
      · obtain rfl := List.mem_singleton.1 hi
        rfl
  simp only [this, id]

/-- **C75.** For all the distributions of the test-suite, which has no nested joint distributions, the
structures are those of the distributions. -/
theorem C75_structures {info : TestInfo} (hi : Sound info) (hf : Shallow info) (rs : List ℕ)
    (p : List ℕ → (settingOf solve info).1.P) (q : List ℕ → (settingOf solve info).1.N)
    (χ : List ℕ → (settingOf solve info).1.E) :
    infosOf ((settingOf solve info).1.nat rs p q) = .ok info.natStructure ∧
      infosOf ((settingOf solve info).1.exp rs p χ) = .ok info.expStructure :=
  ⟨(C75_nat_structure hi rs p q).trans (congrArg _ (shallow_reversed _ _ hf)),
    (C75_exp_structure hi rs p χ).trans (congrArg _ (shallow_reversed _ _ hf))⟩

/-! ### An example -/

namespace Samples

/-- A normal distribution, and a joint distribution with a geometric part. -/
def nestedInfo : TestInfo :=
  .joint (.cons "n" (.simple .normal 1) (.cons "g" (.joint (.cons "x" (.simple .geometric 1) .nil)) .nil))

theorem nestedInfo_sound : Sound nestedInfo :=
  ⟨⟨_, _, _, rfl⟩, by decide, rfl, ⟨⟨_, _, _, rfl⟩, by decide, rfl, trivial⟩, trivial⟩

/-- Three distributions of this kind. -/
noncomputable def nestedPoint (i : List ℕ) : (settingOf solve nestedInfo).1.N :=
  show (ℝ × ℝ) × (ℝ × Unit) × Unit from ((i.headD 0, -1), (-1, ()), ())

/-- There are no fixed parameters. -/
def nestedFixed : (settingOf solve nestedInfo).1.P := show Unit × (Unit × Unit) × Unit from ((), ((), ()), ())

theorem nested_inside : (settingOf solve nestedInfo).2.Inside [3] (fun _ => nestedFixed) nestedPoint :=
  fun _ _ => ⟨⟨trivial, ⟨trivial, trivial⟩, trivial⟩,
    show (-1 : ℝ) < 0 by norm_num, ⟨show (-1 : ℝ) < 0 by norm_num, trivial⟩, trivial⟩

/-- Observations, in another order. -/
noncomputable def nestedObservation : Tree Val :=
  .node (.cons "g" (.node (.cons "x" (.leaf (.real (scalars [3] fun _ => 1))) .nil))
    (.cons "n" (.leaf (.real (scalars [3] fun i => i.headD 0))) .nil))

theorem nested_drawn : Drawn [3] nestedInfo nestedObservation := by
  have hg : DrawnSimple [3] .geometric 1 (.real (scalars [3] fun _ => (1 : ℝ))) :=
    ⟨fun _ => 1, rfl, fun _ _ => ⟨1, le_rfl, by simp⟩⟩
  have hn : DrawnSimple [3] .normal 1 (.real (scalars [3] fun i => ((i.headD 0 : ℕ) : ℝ))) := ⟨_, rfl⟩
  exact ⟨_, rfl, List.Perm.swap _ _ _, ⟨_, List.mem_cons_of_mem _ (List.mem_cons_self ..), _, rfl, hn⟩,
    ⟨_, List.mem_cons_self .., _, rfl, List.Perm.refl _, ⟨_, List.mem_cons_self .., _, rfl, hg⟩, trivial⟩,
    trivial⟩

theorem nested_regular : EachLeaf RegularVals ((settingOf solve nestedInfo).1.nat [3] (fun _ => nestedFixed)
    nestedPoint) := by
  intro l h
  rcases List.mem_cons.1 h with rfl | h
  · exact trivial
  rcases List.mem_cons.1 h with rfl | h
  · exact trivial
  · exact (List.not_mem_nil h).elim

theorem nested_found : Found (settingOf solve nestedInfo).1 [3] (fun _ => nestedFixed) nestedPoint :=
  C68_found (sound_library nestedInfo nestedInfo_sound) nested_inside
    (.inl ⟨trivial, ⟨trivial, trivial⟩, trivial⟩)

end Samples

/-- **C75 (violated).** The structures of nested joint distributions are wrong: the names in the paths are in
reverse order. -/
theorem C75_nested_violated : ∃ (info : TestInfo) (rs : List ℕ) (p : List ℕ → (settingOf solve info).1.P)
    (q : List ℕ → (settingOf solve info).1.N), Sound info ∧
    infosOf ((settingOf solve info).1.nat rs p q) ≠ .ok info.natStructure := by
  refine ⟨Samples.nestedInfo, [3], fun _ => Samples.nestedFixed, Samples.nestedPoint, Samples.nestedInfo_sound,
    fun h => ?_⟩
  rw [C75_nat_structure Samples.nestedInfo_sound] at h
  have := congrArg (List.map Info.path) (Except.ok.inj h)
  revert this
  decide

/-- Non-vacuity of C75: densities of nested joint distributions. -/
example (hs : solve.For search) :
    ∃ o, Samples.nestedInfo.natToScipy (library search) ((settingOf solve Samples.nestedInfo).1.nat [3]
      (fun _ => Samples.nestedFixed) Samples.nestedPoint) = .ok o ∧ ∃ a, o.pdf Samples.nestedObservation = .ok a := by
  obtain ⟨o, h1, h2⟩ := C75_pdf hs Samples.nestedInfo_sound Samples.nested_inside
  obtain ⟨_, a, -, -, h3⟩ := h2 _ Samples.nested_drawn
  exact ⟨o, h1, a, h3⟩

/-- Non-vacuity of C75: entropies of nested joint distributions. -/
example (hs : solve.For search) :
    ∃ o a, Samples.nestedInfo.natToScipy (library search) ((settingOf solve Samples.nestedInfo).1.nat [3]
      (fun _ => Samples.nestedFixed) Samples.nestedPoint) = .ok o ∧ o.entropy = .ok a := by
  obtain ⟨o, a, h1, -, h2⟩ := C75_entropy hs Samples.nestedInfo_sound Samples.nested_inside Samples.nested_regular
    Samples.nested_found ⟨trivial, ⟨trivial, trivial⟩, trivial⟩
  exact ⟨o, a, h1, h2⟩

/-- Non-vacuity of C75: expectation parameters of nested joint distributions. -/
example (hs : solve.For search) :
    ∃ e o, ((settingOf solve Samples.nestedInfo).1.nat [3] (fun _ => Samples.nestedFixed)
      Samples.nestedPoint).toExp (library search).toExp = .ok e ∧
      Samples.nestedInfo.expToScipy (library search) e = .ok o := by
  obtain ⟨e, h1, h2⟩ := C75_expectation hs Samples.nestedInfo_sound Samples.nested_inside Samples.nested_regular
    Samples.nested_found
  have hO := C51_library hs (sound_library (solve := solve) Samples.nestedInfo Samples.nestedInfo_sound).kind
  obtain rfl := Except.ok.inj ((hO.toExp _ _ _ (regular_dom (sound_library Samples.nestedInfo
    Samples.nestedInfo_sound).kind Samples.nested_regular)).symm.trans h1)
  obtain ⟨o, h3, -⟩ := h2 (by
    intro l h
    rcases List.mem_cons.1 h with rfl | h
    · exact trivial
    rcases List.mem_cons.1 h with rfl | h
    · exact trivial
    · exact (List.not_mem_nil h).elim)
  exact ⟨_, o, h1, h3⟩

/-- Non-vacuity of C75: a joint distribution of the test-suite. -/
example : Shallow (.joint (.cons "gamma" (.simple .gamma 1) (.cons "dirichlet" (.simple .dirichlet 3) .nil))) ∧
    Sound (.joint (.cons "gamma" (.simple .gamma 1) (.cons "dirichlet" (.simple .dirichlet 3) .nil))) :=
  ⟨trivial, ⟨_, _, _, rfl⟩, by decide, rfl, (by decide : 2 ≤ 3), trivial⟩

end Efax
