import Verif.Props.Valid
import Verif.Lemmas.ValidRandom
import Verif.Props.Oracle.Library
import Verif.Model.Tests.Parameters

/-!
# Random parameters are parameters of distributions (C76)
-/

namespace Efax

open Spec ClassTable

open scoped ComplexOrder

variable [MachEps] {solve : Solver} {rs rs₀ : List ℕ} {g : Rng}

theorem nat_allClasses_parts {P : Cls → Prop} : (l : List (String × Σ K : Kind Cls, Setting K)) →
    (∀ s ∈ l, ∀ p q, AllClasses P (s.2.1.nat rs p q)) → ∀ p q,
      AllClassess P ((Parts.ofList (partsOf l)).nat rs p q)
  | [], _, _, _ => trivial
  | s :: l, h, p, q => ⟨h s (by simp) (fun i => (p i).1) (fun i => (q i).1),
      nat_allClasses_parts l (fun t ht => h t (by simp [ht])) (fun i => (p i).2) (fun i => (q i).2)⟩

/-- The classes of the natural objects. -/
theorem nat_allClasses {P : Cls → Prop} (hs : ∀ s : Simple, P s.cls) (hj : P .jointN) {K : Kind Cls}
    {S : Setting K} (hS : LibrarySetting solve K S) : ∀ p q, AllClasses P (K.nat rs p q) := by
  induction hS with
  | simple s =>
    intro p q
    have := hs s
    cases s <;> exact ⟨this, trivial⟩
  | joint h0 hn hS ih =>
    intro p q
    exact ⟨hj, nat_allClasses_parts _ ih p q⟩

mutual
theorem eachNode_of_value {Q : Cls → ℕ → List Val → Prop} {R : ℕ → Support → Val → Prop}
    (h : ∀ c d v, EachField (R d) c ((fields c).zip v) [] → Q c d v) :
    {q : Dist Cls} → EachValue R q → EachNode Q q
  | .mk _ _ _, ⟨⟨d, h1, h2⟩, h3⟩ => ⟨⟨d, h1, h _ d _ h2⟩, eachNodes_of_values h h3⟩
theorem eachNodes_of_values {Q : Cls → ℕ → List Val → Prop} {R : ℕ → Support → Val → Prop}
    (h : ∀ c d v, EachField (R d) c ((fields c).zip v) [] → Q c d v) :
    {q : Subs Cls} → EachValues R q → EachNodes Q q
  | .nil, _ => trivial
  | .cons _ _ _, ⟨h1, h2⟩ => ⟨eachNode_of_value h h1, eachNodes_of_values h h2⟩
end

/-- **C76.** Make a structure from a batch of distributions of any kind, simple or joint.  Whatever is
generated from it with a generic random stream has parameters in the natural domain, i.e. is a batch of
distributions of the same kind, with any batch shape.  Unlike the arrays that are unflattened, this
includes negative definite matrices, and valid fixed parameters. -/
theorem C76_random {K : Kind Cls} {S : Setting K} (hS : LibrarySetting solve K S) {p : Dist Cls}
    (hp : ValidOf K S rs₀ p) (hne : ∃ i, inB rs₀ i = true) {L : List (Info Cls)} (hL : infosOf p = .ok L)
    (hg : InRange g) (hz : NeverZero g) (hq : Generic g) (rs : List ℕ) (s : g.State) :
    ∃ q s', generateRandom L g rs s = .ok (q, s') ∧ ValidOf K S rs q := by
  obtain ⟨p₀, q₀, rfl, hi⟩ := hp
  have hw := nat_wf (rs := rs₀) hS p₀ q₀
  have hc : AllClasses (fun c => c ≠ Cls.vonMisesFisherEP) (K.nat rs₀ p₀ q₀) :=
    nat_allClasses (fun s => by cases s <;> simp [Simple.cls]) (by simp) hS p₀ q₀
  obtain ⟨q, ps, s', h1, h2, h3, h4, h5, h6, h7, _⟩ := Dist.generate_ok hg (batch := rs)
    (base := []) hw hL (AllClasses.imp (fun c hc => Cls.classGenerates hc (fun _ _ _ _ _ => hz) rs) hc) [] s
  refine ⟨q, s', ?_, ?_⟩
  · simp only [generateRandom, h1, Bind.bind, Except.bind]
    rw [assemble_ok h2 ((infosOf_skel hL).trans (Dist.skel_same h3)) h7]
  · refine transfers hS (fun s => transfers_random hg hq hne s) p₀ q₀ hi q h2 ?_
    exact Dist.sameLeaf hw h2 h3 hL h4 (by simp) (eachNode_of_value (fun _ _ _ h => h) h5)

/-! ## The parameters of the tests -/

section

open Tests

/-- The families of the test-suite have parameters. -/
theorem family_inside (s : SimpleInfo) (n : ℕ) (h : HasDimension s n) :
    ∃ p q, ((familyOf s n).setting solve).ok p ∧ q ∈ ((familyOf s n).setting solve).dom p := by
  cases s with
  | bernoulli => exact ⟨(), (0 : ℝ), trivial, trivial⟩
  | geometric => exact ⟨(), (-1 : ℝ), trivial, show (-1 : ℝ) < 0 by norm_num⟩
  | poisson => exact ⟨(), (0 : ℝ), trivial, trivial⟩
  | negativeBinomial => exact ⟨(1 : ℕ), (-1 : ℝ), le_refl 1, show (-1 : ℝ) < 0 by norm_num⟩
  | logarithmic => exact ⟨(), (-1 : ℝ), trivial, show (-1 : ℝ) < 0 by norm_num⟩
  | normal => exact ⟨(), ((0 : ℝ), (-1 : ℝ)), trivial, show (-1 : ℝ) < 0 by norm_num⟩
  | unitNormal => exact ⟨(), (0 : ℝ), trivial, trivial⟩
  | mvFixed => exact ⟨(1 : ℝ), (fun _ => 0 : Fin n → ℝ), show (0 : ℝ) < 1 by norm_num, trivial⟩
  | mvUnit => exact ⟨(), (fun _ => 0 : Fin n → ℝ), trivial, trivial⟩
  | isotropic => exact ⟨(), ((fun _ => 0 : Fin n → ℝ), (-1 : ℝ)), h, show (-1 : ℝ) < 0 by norm_num⟩
  | mvDiagonal => exact ⟨(), ((fun _ => 0 : Fin n → ℝ), (fun _ => -1 : Fin n → ℝ)), trivial,
      fun _ => show (-1 : ℝ) < 0 by norm_num⟩
  | mvNormal => exact ⟨(), ((fun _ => 0 : Fin n → ℝ), (-1 : Matrix (Fin n) (Fin n) ℝ)), trivial,
      show (-(-1) : Matrix (Fin n) (Fin n) ℝ).PosDef by rw [neg_neg]; exact .one⟩
  | complexUnit => exact ⟨(), (0 : ℂ), trivial, trivial⟩
  | complexNormal => exact ⟨(), ((0 : ℂ), (-1 : ℝ), (0 : ℂ)), trivial, show ‖(0 : ℂ)‖ < -(-1 : ℝ) by simp⟩
  | cmvUnit => exact ⟨(), (fun _ => 0 : Fin n → ℂ), trivial, trivial⟩
  | cmvCircular => exact ⟨(), (-1 : Matrix (Fin n) (Fin n) ℂ), trivial,
      show (-(-1) : Matrix (Fin n) (Fin n) ℂ).PosDef by rw [neg_neg]; exact .one⟩
  | exponential => exact ⟨(), (-1 : ℝ), trivial, show (-1 : ℝ) < 0 by norm_num⟩
  | rayleigh => exact ⟨(), (-1 : ℝ), trivial, show (-1 : ℝ) < 0 by norm_num⟩
  | beta => exact ⟨(), (fun _ => 0 : Fin 2 → ℝ), trivial, fun _ => show (-1 : ℝ) < 0 by norm_num⟩
  | gamma => exact ⟨(), ((-1 : ℝ), (0 : ℝ)), trivial, show (-1 : ℝ) < 0 by norm_num,
      show (-1 : ℝ) < 0 by norm_num⟩
  | dirichlet =>
    have h : 2 ≤ n := h
    exact ⟨(), (fun _ => 0 : Fin (n - 1 + 1) → ℝ), show 0 < n - 1 by omega, fun _ => show (-1 : ℝ) < 0 by norm_num⟩
  | genDirichlet => exact ⟨(), ((fun _ => 0 : Fin n → ℝ), (fun _ => 0 : Fin n → ℝ)), trivial,
      fun _ => show (-1 : ℝ) < 0 by norm_num, fun i => by
        have h1 : 0 ≤ ∑ j : Fin n, if i < j then (0 : ℝ) + 1 else 0 := Finset.sum_nonneg fun j _ => by
          split <;> norm_num
        show 0 < (∑ j : Fin n, if i ≤ j then (0 : ℝ) else 0) + (∑ j : Fin n, if i < j then (0 : ℝ) + 1 else 0) + 1
        simp only [ite_self, Finset.sum_const_zero]
        linarith⟩
  | vonMises => exact ⟨(), EuclideanSpace.single (0 : Fin 2) (1 : ℝ), show 0 < 2 by norm_num, by
      show EuclideanSpace.single (0 : Fin 2) (1 : ℝ) ≠ 0
      simp⟩
  | vonMisesFisher =>
    have h : 2 ≤ n := h
    exact ⟨(), EuclideanSpace.single (⟨0, by omega⟩ : Fin n) (1 : ℝ), show 0 < n by omega, by
      show EuclideanSpace.single (⟨0, _⟩ : Fin n) (1 : ℝ) ≠ 0
      simp⟩
  | chiSquare => exact ⟨(), (0 : ℝ), trivial, show (-1 : ℝ) < 0 by norm_num⟩
  | chi => exact ⟨(), (0 : ℝ), trivial, show (-1 : ℝ) < 0 by norm_num⟩
  | weibull => exact ⟨(1 : ℝ), (-1 : ℝ), show (0 : ℝ) < 1 by norm_num, show (-1 : ℝ) < 0 by norm_num⟩

mutual
theorem info_inside : (info : TestInfo) → Sound info → ∃ p q, (settingOf solve info).2.ok p ∧
    q ∈ (settingOf solve info).2.dom p
  | .simple s n, h => family_inside s n h
  | .joint infos, ⟨_, _, h⟩ => infos_inside infos h
theorem infos_inside : (infos : TestInfos) → Sounds infos → ∃ p q,
    (Settings.ofList (settingsOf solve infos)).ok p ∧ q ∈ (Settings.ofList (settingsOf solve infos)).dom p
  | .nil, _ => ⟨(), (), trivial, trivial⟩
  | .cons _ info rest, ⟨h, h'⟩ =>
    have ⟨p, q, h1, h2⟩ := info_inside info h
    have ⟨p', q', h3, h4⟩ := infos_inside rest h'
    ⟨(p, p'), (q, q'), ⟨h1, h3⟩, ⟨h2, h4⟩⟩
end

/-- **C76.** The natural parameters that the tests generate, for any of the distributions that they test, are
parameters of distributions of the family that they test. -/
theorem C76_test_parameters {info : TestInfo} (hi : Sound info) (hf : Shallow info) (hg : InRange g)
    (hz : NeverZero g) (hq : Generic g) (rs : List ℕ) (s : g.State) :
    ∃ p q s', info.natParameters g rs s = .ok ((settingOf solve info).1.nat rs p q, s') ∧
      (settingOf solve info).2.Inside rs p q := by
  obtain ⟨p₀, q₀, h1, h2⟩ := info_inside (solve := solve) info hi
  have hS := sound_library (solve := solve) info hi
  have hc := (C75_structures (solve := solve) hi hf [] (fun _ => p₀) (fun _ => q₀)
    fun _ => ((settingOf solve info).1.F p₀).toExp q₀).1
  obtain ⟨_, s', h3, p, q, rfl, h4⟩ := C76_random hS (rs₀ := []) ⟨fun _ => p₀, fun _ => q₀, rfl,
    fun _ _ => ⟨h1, h2⟩⟩ ⟨[], rfl⟩ hc hg hz hq rs s
  exact ⟨p, q, s', h3, h4⟩

/-- **C76.** The expectation parameters that the tests generate are those of the natural parameters that the
same random stream gives. -/
theorem C76_test_expectation {search : Cls → List Val → Except Err (List Val)} (hs : solve.For search)
    {info : TestInfo} (hi : Sound info) {rs : List ℕ} {s s' : g.State}
    {p : List ℕ → (settingOf solve info).1.P} {q : List ℕ → (settingOf solve info).1.N}
    (h : info.natParameters g rs s = .ok ((settingOf solve info).1.nat rs p q, s'))
    (hr : EachLeaf RegularVals ((settingOf solve info).1.nat rs p q)) :
    info.expParameters (library search) g rs s = .ok ((settingOf solve info).1.exp rs p
      fun i => ((settingOf solve info).1.F (p i)).toExp (q i), s') := by
  have hS := sound_library (solve := solve) info hi
  have h6 := (C51_library hs hS.kind).toExp rs p q (regular_dom hS.kind hr)
  simp only [TestInfo.expParameters, h, Bind.bind, Except.bind, h6]

namespace Samples

/-- A generator of normal variables that are larger on the diagonal of matrices. -/
noncomputable def diagonal : Rng where
  State := Unit
  exponential rs _ := (Arr.full rs 1, ())
  uniform rs _ := (Arr.full rs (1 / 2), ())
  normal rs _ := (Arr.ofFn rs fun i => match i with
    | k :: l :: _ => if k = l then 2 else 1
    | _ => 1, ())
  binomial rs _ := (Arr.full rs 0, ())

theorem diagonal_inRange : InRange diagonal where
  exponential_shape _ _ := rfl
  exponential_nonneg rs _ i hi := by
    change 0 ≤ (Arr.full rs (1 : ℝ)).get i
    rw [full_get hi]
    norm_num
  uniform_shape _ _ := rfl
  uniform_nonneg rs _ i hi := by
    change 0 ≤ (Arr.full rs (1 / 2 : ℝ)).get i
    rw [full_get hi]
    norm_num
  uniform_lt rs _ i hi := by
    change (Arr.full rs (1 / 2 : ℝ)).get i < 1
    rw [full_get hi]
    norm_num
  normal_shape _ _ := rfl
  binomial_shape _ _ := rfl
  binomial_mem rs _ i hi := .inl (Arr.ofFn_get hi)

theorem diagonal_ne {rs i : List ℕ} (hi : inB rs i = true) (s : Unit) : (diagonal.normal rs s).1.get i ≠ 0 := by
  refine (Arr.ofFn_get hi).trans_ne ?_
  split
  · split <;> norm_num
  · norm_num

theorem diagonal_neverZero : NeverZero diagonal := fun _ s _ hi => .inl (diagonal_ne hi s)

/-- Matrices with the same entry everywhere except on the diagonal, where it is twice as large. -/
theorem det_diagonal {α : Type} [RCLike α] {d : ℕ} {u : α} (hu : u ≠ 0) {M : Matrix (Fin d) (Fin d) α}
    (hM : ∀ r c, M r c = if r = c then u + u else u) : M.det ≠ 0 := by
  intro h0
  obtain ⟨v, hv, h1⟩ := Matrix.exists_mulVec_eq_zero_iff.2 h0
  have h2 : ∀ r, v r = -∑ c, v c := by
    intro r
    have h3 : ∑ c, M r c * v c = 0 := congrFun h1 r
    have h4 : ∑ c, M r c * v c = u * ((∑ c, v c) + v r) := by
      have : ∀ c, M r c * v c = u * v c + if r = c then u * v c else 0 := fun c => by
        rw [hM]; split <;> ring
      rw [Finset.sum_congr rfl fun c _ => this c, Finset.sum_add_distrib, Finset.sum_ite_eq, ← Finset.mul_sum]
      simp [mul_add]
    rw [h4] at h3
    have := (mul_eq_zero.1 h3).resolve_left hu
    linear_combination this
  have h5 : ∑ c, v c = -(d * ∑ c, v c) := by
    conv_lhs => rw [Finset.sum_congr rfl fun c _ => h2 c]
    simp
  have h6 : ((d : α) + 1) * ∑ c, v c = 0 := by linear_combination h5
  have h7 : ∑ c, v c = 0 := (mul_eq_zero.1 h6).resolve_left (by exact_mod_cast Nat.succ_ne_zero d)
  exact hv (funext fun r => by rw [h2, h7, neg_zero]; rfl)

theorem diagonal_get {d : ℕ} {rs i : List ℕ} (hi : inB rs i = true) (s : Unit) (r c : Fin d) :
    (diagonal.normal (d :: d :: rs) s).1.get (c.1 :: r.1 :: i) = if r = c then 2 else 1 := by
  have h : (diagonal.normal (d :: d :: rs) s).1.get (c.1 :: r.1 :: i) = if c.1 = r.1 then 2 else 1 :=
    Arr.ofFn_get ((inB_cons ..).2 ⟨c.2, (inB_cons ..).2 ⟨r.2, hi⟩⟩)
  rw [h]
  simp only [Fin.ext_iff, eq_comm]

theorem diagonal_generic : Generic diagonal where
  vector d rs s i hd hi := ⟨0, hd, diagonal_ne ((inB_cons ..).2 ⟨hd, hi⟩) s⟩
  matrix d rs s i hi := det_diagonal (u := (1 : ℝ)) one_ne_zero fun r c => by
    refine (diagonal_get hi s r c).trans ?_
    norm_num
  complex d rs s i hi := det_diagonal (u := 1 + Complex.I) (fun h => by
      have := congrArg Complex.re h
      simp at this) fun r c => by
    have h : (diagonal.normal (d :: d :: rs) s).1.get (c.1 :: r.1 :: i) = if r = c then 2 else 1 :=
      diagonal_get hi s r c
    have h' : (diagonal.normal (d :: d :: rs) (diagonal.normal (d :: d :: rs) s).2).1.get (c.1 :: r.1 :: i) =
        if r = c then 2 else 1 := diagonal_get hi _ r c
    rw [Matrix.of_apply, h, h']
    split <;> (push_cast; ring)

end Samples

/-- Non-vacuity of C76: a generator, and a description of a joint distribution with a matrix, a von
Mises-Fisher distribution and a fixed parameter. -/
example : ∃ g : Rng, InRange g ∧ NeverZero g ∧ Generic g ∧ ∃ info : TestInfo, Sound info ∧ Shallow info ∧
    ∀ rs s, ∃ q s', info.natParameters g rs s = .ok (q, s') ∧
      ValidOf (settingOf solve info).1 (settingOf solve info).2 rs q := by
  refine ⟨_, Samples.diagonal_inRange, Samples.diagonal_neverZero, Samples.diagonal_generic,
    .joint (.cons "m" (.simple .mvNormal 3) (.cons "v" (.simple .vonMisesFisher 4)
      (.cons "w" (.simple .weibull 1) .nil))), ⟨⟨_, _, _, rfl⟩, by decide, ?_⟩, trivial, fun rs s => ?_⟩
  · exact ⟨show 1 ≤ 3 by norm_num, show 2 ≤ 4 by norm_num, rfl, trivial⟩
  · have h0 : Sound (.joint (.cons "m" (.simple .mvNormal 3) (.cons "v" (.simple .vonMisesFisher 4)
        (.cons "w" (.simple .weibull 1) .nil)))) := ⟨⟨_, _, _, rfl⟩, by decide, show 1 ≤ 3 by norm_num,
      show 2 ≤ 4 by norm_num, rfl, trivial⟩
    obtain ⟨p, q, s', h1, h2⟩ := C76_test_parameters (solve := solve) h0 trivial Samples.diagonal_inRange
      Samples.diagonal_neverZero Samples.diagonal_generic rs s
    exact ⟨_, s', h1, p, q, rfl, h2⟩

/-! ## Nested joint descriptions -/

theorem generateFields_get? {g : Rng} {batch : List ℕ} {info : Info Cls} {k : Path} :
    {ns : List String} → {kw : Dict String Val} → {ps : Dict Path Val} → {s : g.State} →
    {r : Dict Path Val × g.State} → generateFields g batch info ns kw ps s = .ok r →
    (∀ n ∈ ns, k ≠ info.path ++ [n]) → r.1.get? k = ps.get? k
  | [], kw, ps, s, r, h, _ => by cases h; rfl
  | n :: ns, kw, ps, s, r, h, hk => by
    simp only [generateFields, Bind.bind, Except.bind] at h
    split at h
    · cases h
    split at h
    · cases h
    rw [generateFields_get? h fun m hm => hk m (by simp [hm]), Dict.get?_set, if_neg (hk n (by simp)).symm]

theorem generateInfos_get? {g : Rng} {batch : List ℕ} {k : Path} : {l : List (Info Cls)} →
    {ps : Dict Path Val} → {s : g.State} → {r : Dict Path Val × g.State} →
    generateInfos g batch l ps s = .ok r →
    (∀ i ∈ l, ∀ n ∈ (supportOf i.cls none).keys, k ≠ i.path ++ [n]) → r.1.get? k = ps.get? k
  | [], ps, s, r, h, _ => by cases h; rfl
  | i :: l, ps, s, r, h, hk => by
    simp only [generateInfos, Bind.bind, Except.bind] at h
    split at h
    · cases h
    rename_i h1
    rw [generateInfos_get? h fun j hj => hk j (by simp [hj]), generateFields_get? h1 (hk i (by simp))]

theorem assembleStep_get? {con con' : Dict Path (Obj Cls)} {i : Info Cls} {k : Path}
    (h : assembleStep con i = .ok con') (hk : k ≠ i.path) : con'.get? k = con.get? k := by
  simp only [assembleStep, Bind.bind, Except.bind] at h
  split at h
  · cases h
  split at h
  · cases h
  split at h
  · cases h
  cases h
  rw [Dict.get?_set, if_neg hk.symm]

theorem assembleStep_sub {con : Dict Path (Obj Cls)} {i : Info Cls} {n : String} (hn : i.subNames = [n])
    (h : con.get? (i.path ++ [n]) = none) : ∃ e, assembleStep con i = .error e := by
  have : gatherSubs con i = .error .keyError := by
    simp [gatherSubs, hn, getDist, Dict.get, h, Bind.bind, Except.bind]
  simp only [assembleStep, Bind.bind, Except.bind, this]
  split
  · exact ⟨_, rfl⟩
  · exact ⟨_, rfl⟩

theorem get?_inl (ps : Dict Path Val) (k : Path) :
    Dict.get? (ps.map fun kv => (kv.1, (Sum.inl kv.2 : Obj Cls))) k = (ps.get? k).map Sum.inl := by
  induction ps with
  | nil => rfl
  | cons kv ps ih =>
    simp only [List.map_cons, Dict.get?]
    split
    · rfl
    · exact ih

/-- **C76 (violated).** For a nested joint description, because of the reversed paths, no parameters can be
generated, whatever the random stream is. -/
theorem C76_nested_violated : ∃ info : TestInfo, Sound info ∧ ∀ (g : Rng) (rs : List ℕ) (s : g.State),
    ∃ e, info.natParameters g rs s = .error e := by
  refine ⟨Samples.nestedInfo, Samples.nestedInfo_sound, fun g rs s => ?_⟩
  let l : List (Info Cls) := [⟨["n"], .normalNP, 1, []⟩, ⟨["x", "g"], .geometricNP, 1, []⟩,
    ⟨["g"], .jointN, 1, ["x"]⟩, ⟨[], .jointN, 1, ["n", "g"]⟩]
  have h : Samples.nestedInfo.natStructure = l := rfl
  rw [TestInfo.natParameters, h, generateRandom]
  rcases h1 : generateInfos g rs l [] s with e | ⟨ps, s'⟩
  · exact ⟨e, rfl⟩
  have h2 : ps.get? ["g", "x"] = none := generateInfos_get? h1 (k := ["g", "x"]) (by
    intro i hi n hn
    simp only [l, List.mem_cons, List.not_mem_nil, or_false] at hi
    rcases hi with rfl | rfl | rfl | rfl
    · simp
    · simp
    · exact (List.not_mem_nil hn).elim
    · exact (List.not_mem_nil hn).elim)
  have h3 : ∃ e, assemble l ps = .error e := by
    simp only [assemble, l, List.foldlM_cons, List.foldlM_nil, Bind.bind, Except.bind]
    rcases h4 : assembleStep (ps.map fun kv => (kv.1, (Sum.inl kv.2 : Obj Cls))) ⟨["n"], .normalNP, 1, []⟩ with e | con
    · exact ⟨e, by simp only [h4]⟩
    rcases h5 : assembleStep con ⟨["x", "g"], .geometricNP, 1, []⟩ with e | con'
    · exact ⟨e, by simp only [h4, h5]⟩
    have h6 : con'.get? ["g", "x"] = none := by
      rw [assembleStep_get? h5 (by simp), assembleStep_get? h4 (by simp), get?_inl, h2]
      rfl
    obtain ⟨e, h7⟩ := assembleStep_sub (con := con') (i := ⟨["g"], .jointN, 1, ["x"]⟩) rfl h6
    exact ⟨e, by simp only [h4, h5, h7]⟩
  obtain ⟨e, h3⟩ := h3
  exact ⟨e, by simp only [Bind.bind, Except.bind, h3]⟩

end

end Efax
