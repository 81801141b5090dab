import Verif.Model.Tests.Bodies2
import Verif.Props.TestShapes
import Verif.Props.Oracle.Fixtures

/-!
# The tests against `scipy.stats` pass (C81)
-/

namespace Efax

open Spec Tests ClassTable Calc

variable [MachEps] {solve : Solver} {search : Cls → List Val → Except Err (List Val)} {g : Rng}

/-! ### Shapes of observations -/

omit [MachEps] in
theorem rshape_of_toR {v : Val} {a : Arr ℝ} (h : v.toR = ok a) : v.rshape = a.rshape := by
  rw [← toC_rshape, toC_of_toR h, toC_rshape]
  rfl

omit [MachEps] in
theorem rshape_of_toC {v : Val} {a : Arr ℂ} (h : v.toC = a) : v.rshape = a.rshape := by
  rw [← toC_rshape, h]

theorem observation_checked {c : Cls} {vals : List Val} {subs : Subs Cls} {v : Val} {d : ℕ} {S : Support}
    (h1 : c ≠ .jointN) (h2 : c.isJoint = false)
    (h3 : (if c.isMultidimensional then c.dimensions vals else .ok 0) = .ok d) (h4 : c.domainSupport = some S)
    (h5 : v.rshape = S.rshape d) : checkObservationShape (.mk c vals subs) (.leaf v) = .ok () := by
  simp only [checkObservationShape, if_neg h1, check_ok h2, h3, h4, Bind.bind, Except.bind]
  split_ifs at h3 ⊢
  · rw [h3]
    exact check_ok h5
  · cases h3
    exact check_ok h5

theorem observations_checked {rs : List ℕ} : ∀ (l : List (String × Kind Cls)) {p : List ℕ → (Parts.ofList l).P}
    {q : List ℕ → (Parts.ofList l).N} {x : List ℕ → (Parts.ofList l).X} {f : Forest Val},
    (∀ nk ∈ l, ∀ (p : List ℕ → nk.2.P) (q : List ℕ → nk.2.N) (x : List ℕ → nk.2.X) (t : Tree Val),
      nk.2.obs rs x t → checkObservationShape (nk.2.nat rs p q) t = .ok ()) →
    f.keys.Nodup → (Parts.ofList l).obs rs x f →
    checkObservationShapes ((Parts.ofList l).nat rs p q) f = .ok ()
  | [], _, _, _, _, _, _, _ => rfl
  | (name, K) :: l, p, q, x, f, h, hd, ⟨⟨t, ht, ho⟩, hr⟩ => by
    have h1 := h (name, K) List.mem_cons_self (fun i => (p i).1) (fun i => (q i).1) _ t ho
    have h2 := observations_checked l (p := fun i => (p i).2) (q := fun i => (q i).2)
      (fun nk hm => h nk (List.mem_cons_of_mem _ hm)) hd hr
    change checkObservationShapes (.cons name (K.nat rs (fun i => (p i).1) fun i => (q i).1)
      ((Parts.ofList l).nat rs (fun i => (p i).2) fun i => (q i).2)) f = _
    rw [checkObservationShapes, Forest.get?_of_mem hd ht]
    simp only [Bind.bind, Except.bind, h1, h2]

/-- **C81.** An observation of a single distribution, of any kind, has the shape that the support of the
observations of its class prescribes. -/
theorem C81_observation_shape {K : Kind Cls} (hK : LibraryKind solve K) (p : List ℕ → K.P) (q : List ℕ → K.N)
    (x : List ℕ → K.X) (t : Tree Val) (h : K.obs [] x t) :
    checkObservationShape (K.nat [] p q) t = .ok () := by
  induction hK generalizing t with
  | simple s =>
    cases s
    all_goals
      obtain ⟨v, rfl, h⟩ := h
      first
        | exact observation_checked (by decide) rfl rfl rfl (rshape_of_toR h)
        | exact observation_checked (by decide) rfl rfl rfl (rshape_of_toC h)
  | @joint l _ _ _ ih =>
    obtain ⟨f, rfl, hd, hr, -⟩ := h
    exact observations_checked l (fun nk hm p q x t => ih nk hm p q x t) hd hr

/-- Non-vacuity of C81: a point of the plane is an observation of a von Mises distribution. -/
example (p : List ℕ → Unit) (q : List ℕ → EuclideanSpace ℝ (Fin 2)) :
    checkObservationShape ((Simple.kind solve (.vonMisesFisher 2)).nat [] p q)
      (.leaf (.real (vectors [] fun _ (k : Fin 2) => if k = 0 then (1 : ℝ) else 0))) = .ok () := by
  refine C81_observation_shape (.simple (.vonMisesFisher 2)) p q
    (fun _ => (⟨EuclideanSpace.single (0 : Fin 2) (1 : ℝ), by simp⟩ :
      Metric.sphere (0 : EuclideanSpace ℝ (Fin 2)) 1)) _ ⟨_, rfl, ?_⟩
  change ok _ = ok _
  congr 2
  funext _ k
  simp [Pi.single_apply]

/-! ### The tests -/

/-- **C81.** `test_pdf` passes with exact arithmetic, for every description of distributions without nested
joint distributions, for every generic random stream, and whatever is drawn. -/
theorem C81_pdf (hs : solve.For search) {info : TestInfo} (hi : Sound info) (hf : Shallow info)
    (hg : InRange g) (hz : NeverZero g) (hq : Generic g) {draw : Oracle → g.State → Tree Val × g.State}
    (hd : DrawsInRange info draw) (s : g.State) : ∃ s', testPdf (library search) info g draw s = .ok s' := by
  refine times_ok (fun s => ?_) 10 s
  obtain ⟨p, q, s', h1, h2⟩ := C76_test_parameters (solve := solve) hi hf hg hz hq [] s
  have hL := sound_library (solve := solve) info hi
  obtain ⟨o, h3, h4, -⟩ := agrees_all hs info hi [] p q h2
  obtain ⟨t', x, h5, h6, h7⟩ := h4 _ (hd o s')
  have h8 := C51_pdf (C51_library hs hL.kind) [] p q x t' h6
  have h9 := C81_observation_shape hL.kind p q x t' h6
  refine ⟨(draw o s').2, ?_⟩
  simp only [pdfBody, h1, h3, h5, h7, h9, Bind.bind, Except.bind, show (Dist.pdf (library search) _ t').run =
    .ok (scalars [] _) from h8, check_ok trivial]

theorem entropic_cls {info : TestInfo} (he : Entropic info) {rs : List ℕ} {p : List ℕ → (settingOf solve info).1.P}
    {q : List ℕ → (settingOf solve info).1.N} : hasEntropyNP ((settingOf solve info).1.nat rs p q).cls = true := by
  cases info with
  | simple s n => cases s <;> first | rfl | exact he.elim
  | joint infos => rfl

/-- **C81.** `test_nat_entropy` passes with exact arithmetic, for every description of distributions without
nested joint distributions whose entropies both sides compute. -/
theorem C81_nat_entropy (hs : solve.For search) {info : TestInfo} (hi : Sound info) (hf : Shallow info)
    (he : Entropic info) (hg : InRange g) (hz : NeverZero g) (hq : Generic g)
    (hc : Cooperative solve info g [13, 7]) (s : g.State) :
    ∃ s', testNatEntropy (library search) info g s = .ok s' := by
  obtain ⟨p, q, s', h1, h2⟩ := C76_test_parameters (solve := solve) hi hf hg hz hq [13, 7] s
  obtain ⟨hr, -, hx⟩ := hc s s' p q h1 h2
  obtain ⟨o, a, h3, h4, h5⟩ := C75_entropy hs hi h2 hr hx he
  refine ⟨s', ?_⟩
  simp only [testNatEntropy, h1, h3, h5, entropic_cls he, Bind.bind, Except.bind,
    show (Dist.entropyN (library search) _).run = .ok a from h4, check_ok trivial]

/-- **C81.** `test_exp_entropy` passes with exact arithmetic, for every description of distributions without
nested joint distributions whose entropies both sides compute. -/
theorem C81_exp_entropy (hs : solve.For search) {info : TestInfo} (hi : Sound info) (hf : Shallow info)
    (he : Entropic info) (hg : InRange g) (hz : NeverZero g) (hq : Generic g)
    (hc : Cooperative solve info g [13, 7]) (s : g.State) :
    ∃ s', testExpEntropy (library search) info g s = .ok s' := by
  obtain ⟨p, q, s', h1, h2⟩ := C76_test_parameters (solve := solve) hi hf hg hz hq [13, 7] s
  obtain ⟨hr, hsr, hx⟩ := hc s s' p q h1 h2
  have hL := sound_library (solve := solve) info hi
  have h3 := C76_test_expectation hs hi h1 hr
  obtain ⟨e, h4, h5⟩ := C75_expectation hs hi h2 hr hx
  obtain rfl := Except.ok.inj (((C51_library hs hL.kind).toExp [13, 7] p q (regular_dom hL.kind hr)).symm.trans h4)
  obtain ⟨o, h6, -, h7⟩ := h5 hsr
  obtain ⟨a, h8, h9⟩ := h7 he
  have h10 : (library search).hasEntropy ((settingOf solve info).1.exp [13, 7] p fun i =>
      ((settingOf solve info).1.F (p i)).toExp (q i)).cls = true :=
    (hasEntropyNP_nat (p := p) (q := q) (rs := [13, 7])).symm.trans (entropic_cls he)
  refine ⟨s', ?_⟩
  simp only [testExpEntropy, h3, h6, h9, h10, Bind.bind, Except.bind,
    show (Dist.entropyE (library search) _).run = .ok a from h8, check_ok trivial]

/-- **C81.** The three tests pass for all the distributions of the test-suite that they are run with, if the
searches find what they search for. -/
theorem C81_suite (hs : solve.For search) {info : TestInfo} (hi : info ∈ createInfos)
    (hg : InRange g) (hz : NeverZero g) (hq : Generic g) (s : g.State) :
    (∀ draw : Oracle → g.State → Tree Val × g.State, DrawsInRange info draw →
      ∃ s', testPdf (library search) info g draw s = .ok s') ∧
    (entropySelected info = true → Cooperative solve info g [13, 7] →
      (∃ s', testNatEntropy (library search) info g s = .ok s') ∧
      ∃ s', testExpEntropy (library search) info g s = .ok s') := by
  obtain ⟨h1, h2⟩ := C75_infos info hi
  refine ⟨fun draw hd => C81_pdf hs h1 h2 hg hz hq hd s, fun hsel hc => ?_⟩
  have he := (C75_selected info hi).1 hsel
  exact ⟨C81_nat_entropy hs h1 h2 he hg hz hq hc s, C81_exp_entropy hs h1 h2 he hg hz hq hc s⟩

/-- Non-vacuity of C81: a joint distribution that meets all conditions. -/
example : Entropic Samples.plainInfo ∧ (∀ s, ∃ s', testPdf (library (searchFor zeroMinimizer)) Samples.plainInfo
      Samples.diagonal (fun _ s => (.node (.cons "n" (.leaf (.real (scalars [] fun _ => 1)))
        (.cons "g" (.leaf (.real (scalars [] fun _ => 1))) .nil)), s)) s = .ok s') ∧
    (∀ s, ∃ s', testNatEntropy (library (searchFor zeroMinimizer)) Samples.plainInfo Samples.diagonal s = .ok s') ∧
    ∀ s, ∃ s', testExpEntropy (library (searchFor zeroMinimizer)) Samples.plainInfo Samples.diagonal s = .ok s' :=
  ⟨⟨trivial, trivial, trivial⟩,
    C81_pdf (C51_search zeroMinimizer_returns) Samples.plain_sound trivial Samples.diagonal_inRange
      Samples.diagonal_neverZero Samples.diagonal_generic fun _ _ =>
        ⟨_, rfl, .refl _, ⟨_, List.mem_cons_self, _, rfl, fun _ => 1, rfl⟩,
          ⟨_, List.mem_cons_of_mem _ List.mem_cons_self, _, rfl, fun _ => 1, rfl,
            fun _ _ => ⟨1, le_refl 1, by simp⟩⟩, trivial⟩,
    C81_nat_entropy (C51_search zeroMinimizer_returns) Samples.plain_sound trivial ⟨trivial, trivial, trivial⟩
      Samples.diagonal_inRange Samples.diagonal_neverZero Samples.diagonal_generic
      (cooperative_closed Samples.plain_sound Samples.plain_closed _),
    C81_exp_entropy (C51_search zeroMinimizer_returns) Samples.plain_sound trivial ⟨trivial, trivial, trivial⟩
      Samples.diagonal_inRange Samples.diagonal_neverZero Samples.diagonal_generic
      (cooperative_closed Samples.plain_sound Samples.plain_closed _)⟩

end Efax
