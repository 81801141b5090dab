import Verif.Props.RandomReach
import Verif.Model.Tests.Bodies2
import Verif.Model.Tests.Bodies3
import Verif.Model.Tests.Bodies4

/-!
# Defects that the tests detect (C86)
-/

namespace Efax

open Spec ClassTable Tests

theorem bind_ok_iff {α β : Type} {x : Except Err α} {f : α → Except Err β} {b : β} :
    (x >>= f) = .ok b ↔ ∃ a, x = .ok a ∧ f a = .ok b := by
  cases x with
  | error e => simp [Bind.bind, Except.bind]
  | ok a => simp [Bind.bind, Except.bind]

theorem check_iff {c : Prop} {u : Unit} : check c = .ok u ↔ c := by
  by_cases h : c <;> simp [check, h]

theorem times_succ {σ : Type} {body : σ → Except Err σ} {n : ℕ} {s s' : σ} (h : times body (n + 1) s = .ok s') :
    ∃ s'', body s = .ok s'' := by
  obtain ⟨s'', h, -⟩ := bind_ok_iff.1 h
  exact ⟨s'', h⟩

variable [MachEps]

/-- The natural parameters of batch shape `rs` that the test-suite can generate for a distribution. -/
def Reachable (info : TestInfo) (rs : List ℕ) (q : Dist Cls) : Prop :=
  WF q ∧ infosOf q = .ok info.natStructure ∧ EachValue (fun d t v => Reach t d rs v) q

/-- A stream that begins with given parameters. -/
theorem Reachable.stream {info : TestInfo} {rs : List ℕ} {q : Dist Cls} (h : Reachable info rs q) :
    ∃ s : List (Arr ℝ), ∀ u : List (Arr ℝ), info.natParameters script rs (show List (Arr ℝ) from s ++ u) = .ok (q, u) := by
  obtain ⟨hw, hL, hv⟩ := id h
  obtain ⟨s, hs⟩ := Dist.generate_reach (base := []) hw hL (eachValue_hit hw hv)
  refine ⟨s, fun u => ?_⟩
  obtain ⟨ps, h1, h2, -⟩ := hs [] u
  simp only [TestInfo.natParameters, generateRandom]
  refine (congrArg (· >>= _) h1).trans ?_
  simp only [Bind.bind, Except.bind]
  rw [assemble_ok hw (infosOf_skel hL) h2]

/-- What one round of `test_conversion` asserts about the natural parameters `q`. -/
def ConversionHolds (L : Library Cls) (q : Dist Cls) : Prop :=
  ∃ p r, q.toExp L.toExp = .ok p ∧ p.toNat L.toNat = .ok r ∧ r.toExp L.toExp = .ok p ∧
    parameters p (some true) = parameters r (some true)

/-- What one round of `test_gradient_log_normalizer_jvp` asserts about the natural parameters `q`. -/
def TangentHolds (L : Library Cls) (q : Dist Cls) : Prop :=
  ∃ v a p, unitTangent q = .ok v ∧ (q.logNormalizer L).run = .ok a ∧ q.toExp L.toExp = .ok p ∧
    deriv (fun t : ℝ => scalarOf ((along t q v).logNormalizer L)) 0 = scalarOf (dotCalc v p)

/-- What one round of `test_gradient_log_normalizer_primals` asserts about the natural parameters `q`. -/
def GradientHolds (L : Library Cls) (q : Dist Cls) : Prop :=
  ∃ a p infos r r', (q.logNormalizer L).run = .ok a ∧ a.rshape = [] ∧ q.toExp L.toExp = .ok p ∧
    infosOf p = .ok infos ∧
    reinterpret infos (q.cotangent fun path k i z =>
      deriv (fun t : ℝ => weigh (Arr.full [] 1) ((q.nudge k i (t * z) path).logNormalizer L)) 0) = .ok r ∧
    reinterpret infos (q.cotangent fun path k i z =>
      weigh (Arr.full [] 1) (dotCalc ((zeroTangent q).nudge k i z path) p)) = .ok r' ∧
    parameters r (some false) = parameters p (some false) ∧ parameters r' (some false) = parameters p (some false)

/-- What one round of `test_gradient_log_normalizer_vjp` asserts about the natural parameters `q`. -/
def CotangentHolds (L : Library Cls) (q : Dist Cls) : Prop :=
  ∃ v a p, unitTangent q = .ok v ∧ (q.logNormalizer L).run = .ok a ∧ q.toExp L.toExp = .ok p ∧
    parameters (q.cotangent fun path k i z =>
      deriv (fun t : ℝ => weigh (Arr.full [] 1) ((q.nudge k i (t * z) path).logNormalizer L)) 0) (some false) =
    parameters (q.cotangent fun path k i z =>
      weigh (Arr.full [] 1) (dotCalc ((zeroTangent q).nudge k i z path) p)) (some false)

/-- What `test_nat_entropy` asserts about the natural parameters `q`. -/
def NatEntropyHolds (L : Library Cls) (info : TestInfo) (q : Dist Cls) : Prop :=
  hasEntropyNP q.cls = true ∧ ∃ o a, info.natToScipy L q = .ok o ∧ (q.entropyN L).run = .ok a ∧ o.entropy = .ok a

/-- What `test_exp_entropy` asserts about the expectation parameters of `q`. -/
def ExpEntropyHolds (L : Library Cls) (info : TestInfo) (q : Dist Cls) : Prop :=
  ∃ p, q.toExp L.toExp = .ok p ∧ L.hasEntropy p.cls = true ∧
    ∃ o a, info.expToScipy L p = .ok o ∧ (p.entropyE L).run = .ok a ∧ o.entropy = .ok a

/-- What one round of `test_pdf` asserts about the natural parameters `q` and the observation `x`. -/
def DensityHolds (L : Library Cls) (info : TestInfo) (q : Dist Cls) (x : Tree Val) : Prop :=
  ∃ o y a, info.natToScipy L q = .ok o ∧ info.observation x = .ok y ∧ checkObservationShape q y = .ok () ∧
    (q.pdf L y).run = .ok a ∧ o.pdf x = .ok a

/-- What `test_flatten` asserts about parameters `p`. -/
def FlattenHolds (p : Dist Cls) : Prop := ∃ f y, flatten p true = .ok (f, y) ∧ f.unflatten y = .ok p

/-- What `test_fisher_information_is_convex` asserts about the natural parameters `q`. -/
def ConvexHolds (L : Library Cls) (q : Dist Cls) (shape : List ℕ) : Prop :=
  ∃ F n D, fisherMatrix L q = .ok F ∧ F.rshape = n :: n :: shape ∧
    (∀ i, inB shape i = true →
      ∀ z ∈ spectrum ℂ (Matrix.of fun r c : Fin n => (F.get (c.1 :: r.1 :: i) : ℂ)), 0 < z.re ∨ z.re = 0 ∧ 0 ≤ z.im) ∧
    (Calc.det (Calc.ok F)).run = .ok D ∧ D.rshape = shape ∧ ∀ i, inB shape i = true → 0 ≤ D.get i

/-- **C86.** What a round of each test asserts, for an arbitrary implementation `L` of the methods of distributions: it
passes exactly if the statement holds for the parameters that were generated. -/
theorem C86_rounds {L : Library Cls} {info : TestInfo} {g : Rng} {s s' : g.State} :
    (∀ rs, conversionBody L info g rs s = .ok s' ↔
      ∃ q, info.natParameters g rs s = .ok (q, s') ∧ ConversionHolds L q) ∧
    (jvpBody L info g s = .ok s' ↔ ∃ q, info.natParameters g [] s = .ok (q, s') ∧ TangentHolds L q) ∧
    (primalsBody L info g s = .ok s' ↔ ∃ q, info.natParameters g [] s = .ok (q, s') ∧ GradientHolds L q) ∧
    (vjpBody L info g s = .ok s' ↔ ∃ q, info.natParameters g [] s = .ok (q, s') ∧ CotangentHolds L q) ∧
    (testNatEntropy L info g s = .ok s' ↔
      ∃ q, info.natParameters g [13, 7] s = .ok (q, s') ∧ NatEntropyHolds L info q) ∧
    (testExpEntropy L info g s = .ok s' ↔
      ∃ q, info.natParameters g [13, 7] s = .ok (q, s') ∧ ExpEntropyHolds L info q) ∧
    (testFlatten L info g false s = .ok s' ↔ ∃ q, info.natParameters g [4, 3] s = .ok (q, s') ∧ FlattenHolds q) ∧
    (testFlatten L info g true s = .ok s' ↔ ∃ q p, info.natParameters g [4, 3] s = .ok (q, s') ∧
      q.toExp L.toExp = .ok p ∧ FlattenHolds p) ∧
    (testConvex L info g s = .ok s' ↔ ∃ q, info.natParameters g [2, 3] s = .ok (q, s') ∧ ConvexHolds L q [2, 3]) := by
  refine ⟨fun rs => ?_, ?_, ?_, ?_, ?_, ?_, ?_, ?_, ?_⟩
  · simp only [conversionBody, TestInfo.expParameters, bind_ok_iff, check_iff, Prod.exists]
    constructor
    · rintro ⟨_, _, ⟨q, s₁, h1, p, h2, h⟩, r, h3, p', h4, -, h7, -, h5, -, -, h6⟩
      cases h
      cases h6
      subst h7
      exact ⟨q, h1, _, r, h2, h3, h4, h5⟩
    · rintro ⟨q, h1, p, r, h2, h3, h4, h5⟩
      exact ⟨p, s', ⟨q, s', h1, p, h2, rfl⟩, r, h3, p, h4, (), rfl, (), h5, (), rfl, rfl⟩
  · simp only [jvpBody, originalJvp, optimizedJvp, bind_ok_iff, check_iff, Prod.exists]
    constructor
    · rintro ⟨q, s₁, h1, v, h2, _, _, ⟨a, h3, h4⟩, _, _, ⟨b, h5, p, h6, h7⟩, -, -, -, h9, h10⟩
      cases h4
      cases h7
      cases h10
      exact ⟨q, h1, v, _, p, h2, h3, h6, h9⟩
    · rintro ⟨q, h1, v, a, p, h2, h3, h4, h5⟩
      exact ⟨q, s', h1, v, h2, _, _, ⟨a, h3, rfl⟩, _, _, ⟨a, h3, p, h4, rfl⟩, (), rfl, (), h5, rfl⟩
  · simp only [primalsBody, originalVjp, optimizedVjp, gradOf, bind_ok_iff, check_iff, Prod.exists]
    constructor
    · rintro ⟨q, s₁, h1, p, h2, infos, h3, x, ⟨_, _, ⟨a, h4, h5⟩, h6⟩, r, h7, y, ⟨_, _, ⟨b, h8, p', h9, h10⟩, h11⟩,
        r', h12, -, h13, -, h14, h15⟩
      cases h5
      cases h10
      cases h15
      rw [h2] at h9
      cases h9
      split_ifs at h6 h11 with h16 h17
      cases h6
      cases h11
      exact ⟨q, h1, _, p, infos, r, r', h4, h16, h2, h3, h7, h12, h13.symm, h14.symm⟩
    · rintro ⟨q, h1, a, p, infos, r, r', h4, h16, h2, h3, h7, h12, h13, h14⟩
      exact ⟨q, s', h1, p, h2, infos, h3, _, ⟨_, _, ⟨a, h4, rfl⟩, if_pos h16⟩, r, h7, _,
        ⟨_, _, ⟨a, h4, p, h2, rfl⟩, if_pos h16⟩, r', h12, (), h13.symm, (), h14.symm, rfl⟩
  · simp only [vjpBody, originalJvp, originalVjp, optimizedVjp, bind_ok_iff, check_iff, Prod.exists]
    constructor
    · rintro ⟨q, s₁, h1, v, h2, _, _, ⟨a, h3, h4⟩, _, _, ⟨b, h5, h6⟩, _, _, ⟨c, h7, p, h8, h9⟩, -, -, -, -, -, h10, h11⟩
      cases h4
      cases h6
      cases h9
      cases h11
      exact ⟨q, h1, v, _, p, h2, h3, h8, h10⟩
    · rintro ⟨q, h1, v, a, p, h2, h3, h4, h5⟩
      exact ⟨q, s', h1, v, h2, _, _, ⟨a, h3, rfl⟩, _, _, ⟨a, h3, rfl⟩, _, _, ⟨a, h3, p, h4, rfl⟩, (), rfl, (), rfl, (),
        h5, rfl⟩
  · simp only [testNatEntropy, bind_ok_iff, check_iff, Prod.exists]
    constructor
    · rintro ⟨q, s₁, h1, -, h2, o, h3, a, h4, b, h5, -, h7, h6⟩
      cases h6
      subst h7
      exact ⟨q, h1, h2, o, _, h3, h4, h5⟩
    · rintro ⟨q, h1, h2, o, a, h3, h4, h5⟩
      exact ⟨q, s', h1, (), h2, o, h3, a, h4, a, h5, (), rfl, rfl⟩
  · simp only [testExpEntropy, TestInfo.expParameters, bind_ok_iff, check_iff, Prod.exists]
    constructor
    · rintro ⟨_, _, ⟨q, s₁, h1, p, h2, h⟩, -, h3, o, h4, a, h5, b, h6, -, h7, h8⟩
      cases h
      cases h8
      subst h7
      exact ⟨q, h1, _, h2, h3, o, _, h4, h5, h6⟩
    · rintro ⟨q, h1, p, h2, h3, o, a, h4, h5, h6⟩
      exact ⟨p, s', ⟨q, s', h1, p, h2, rfl⟩, (), h3, o, h4, a, h5, a, h6, (), rfl, rfl⟩
  · simp only [testFlatten, Bool.false_eq_true, if_false, bind_ok_iff, check_iff, Prod.exists]
    constructor
    · rintro ⟨q, s₁, h1, f, y, h2, -, h3, h4⟩
      cases h4
      exact ⟨q, h1, f, y, h2, h3⟩
    · rintro ⟨q, h1, f, y, h2, h3⟩
      exact ⟨q, s', h1, f, y, h2, (), h3, rfl⟩
  · simp only [testFlatten, if_true, TestInfo.expParameters, bind_ok_iff, check_iff, Prod.exists]
    constructor
    · rintro ⟨_, _, ⟨q, s₁, h1, p, h2, h⟩, f, y, h3, -, h4, h5⟩
      cases h
      cases h5
      exact ⟨q, _, h1, h2, f, y, h3, h4⟩
    · rintro ⟨q, p, h1, h2, f, y, h3, h4⟩
      exact ⟨p, s', ⟨q, s', h1, p, h2, rfl⟩, f, y, h3, (), h4, rfl⟩
  · simp only [testConvex, bind_ok_iff, check_iff, Prod.exists]
    constructor
    · rintro ⟨q, s₁, h1, F, h2, -, ⟨n, h3, h4⟩, D, h5, -, h6, -, h7, h8⟩
      cases h8
      exact ⟨q, h1, F, n, D, h2, h3, h4, h5, h6, h7⟩
    · rintro ⟨q, h1, F, n, D, h2, h3, h4, h5, h6, h7⟩
      exact ⟨q, s', h1, F, h2, (), ⟨n, h3, h4⟩, D, h5, (), h6, (), h7, rfl⟩

/-- **C86.** The same for one round of `test_pdf`, whatever `rvs` of the distributions of `scipy.stats` is. -/
theorem C86_round_pdf {L : Library Cls} {info : TestInfo} {g : Rng} {draw : Oracle → g.State → Tree Val × g.State}
    {s s' : g.State} : pdfBody L info g draw s = .ok s' ↔ ∃ q s₁ o, info.natParameters g [] s = .ok (q, s₁) ∧
      info.natToScipy L q = .ok o ∧ (draw o s₁).2 = s' ∧ DensityHolds L info q (draw o s₁).1 := by
  simp only [pdfBody, bind_ok_iff, check_iff, Prod.exists]
  constructor
  · rintro ⟨q, s₁, h1, o, h2, y, h3, u, h4, a, h5, b, h6, -, h7, h8⟩
    cases h8
    subst h7
    exact ⟨q, s₁, o, h1, h2, rfl, o, y, _, h2, h3, h4, h5, h6⟩
  · rintro ⟨q, s₁, o, h1, h2, rfl, o', y, a, h2', h3, h4, h5, h6⟩
    rw [h2] at h2'
    cases h2'
    exact ⟨q, s₁, h1, o, h2, y, h3, (), h4, a, h5, a, h6, (), rfl, rfl⟩

/-- A body that asserts `Holds` about the generated parameters fails for some stream, if `Holds` fails for parameters that
can be generated. -/
theorem Reachable.fails {info : TestInfo} {rs : List ℕ} {q : Dist Cls} (h : Reachable info rs q) {Holds : Dist Cls → Prop}
    {body : (g : Rng) → g.State → Except Err g.State}
    (hb : ∀ (g : Rng) (s s' : g.State), body g s = .ok s' → ∃ q s'', info.natParameters g rs s = .ok (q, s'') ∧ Holds q)
    (hq : ¬ Holds q) : ∃ (g : Rng) (s : g.State), InRange g ∧ ∀ s', body g s ≠ .ok s' := by
  obtain ⟨s, hs⟩ := h.stream
  refine ⟨script, s ++ [], script_inRange, fun s' h' => hq ?_⟩
  obtain ⟨q', s'', h1, h2⟩ := hb _ _ _ h'
  have := (hs []).symm.trans h1
  cases this
  exact h2

/-- **C86.** Every defect that one of these tests is about is found by some random stream: if, for any parameters that can
be generated (C85), the implementation `L` violates what the test asserts, then there is a stream of the primitive generators
for which the test fails. -/
theorem C86_detects {L : Library Cls} {info : TestInfo} {q : Dist Cls} :
    (Reachable info [4, 3] q → ¬ ConversionHolds L q →
      ∃ (g : Rng) (s : g.State), InRange g ∧ ∀ s', testConversion L info g s ≠ .ok s') ∧
    (Reachable info [] q → ¬ TangentHolds L q →
      ∃ (g : Rng) (s : g.State), InRange g ∧ ∀ s', testJvp L info g s ≠ .ok s') ∧
    (Reachable info [] q → ¬ GradientHolds L q →
      ∃ (g : Rng) (s : g.State), InRange g ∧ ∀ s', testPrimals L info g s ≠ .ok s') ∧
    (Reachable info [] q → ¬ CotangentHolds L q →
      ∃ (g : Rng) (s : g.State), InRange g ∧ ∀ s', testVjp L info g s ≠ .ok s') ∧
    (Reachable info [13, 7] q → ¬ NatEntropyHolds L info q →
      ∃ (g : Rng) (s : g.State), InRange g ∧ ∀ s', testNatEntropy L info g s ≠ .ok s') ∧
    (Reachable info [13, 7] q → ¬ ExpEntropyHolds L info q →
      ∃ (g : Rng) (s : g.State), InRange g ∧ ∀ s', testExpEntropy L info g s ≠ .ok s') ∧
    (Reachable info [4, 3] q → ¬ FlattenHolds q →
      ∃ (g : Rng) (s : g.State), InRange g ∧ ∀ s', testFlatten L info g false s ≠ .ok s') ∧
    (Reachable info [4, 3] q → (¬ ∃ p, q.toExp L.toExp = .ok p ∧ FlattenHolds p) →
      ∃ (g : Rng) (s : g.State), InRange g ∧ ∀ s', testFlatten L info g true s ≠ .ok s') ∧
    (Reachable info [2, 3] q → ¬ ConvexHolds L q [2, 3] →
      ∃ (g : Rng) (s : g.State), InRange g ∧ ∀ s', testConvex L info g s ≠ .ok s') ∧
    (∀ x, Reachable info [] q → ¬ DensityHolds L info q x → ∃ (g : Rng) (draw : Oracle → g.State → Tree Val × g.State)
      (s : g.State), InRange g ∧ ∀ s', testPdf L info g draw s ≠ .ok s') := by
  have hlater : ∀ {Holds : Dist Cls → Prop} {body : (g : Rng) → g.State → Except Err g.State} (_ : Reachable info [] q)
      (_ : ∀ (g : Rng) (s s' : g.State), body g s = .ok s' → ∃ q s'', info.natParameters g [] s = .ok (q, s'') ∧ Holds q)
      (_ : ¬ Holds q), ∃ (g : Rng) (s : g.State), InRange g ∧ ∀ s',
        (do let (_, s) ← info.natParameters g [] s; times (body g) 20 s) ≠ .ok s' := by
    intro Holds body h hb hq
    obtain ⟨s, hs⟩ := h.stream
    refine ⟨script, s ++ (s ++ []), script_inRange, fun s' h' => hq ?_⟩
    simp only [bind_ok_iff, Prod.exists] at h'
    obtain ⟨q₁, s₁, h1, h2⟩ := h'
    have e := (hs (s ++ [])).symm.trans h1
    cases e
    obtain ⟨s₂, h3⟩ := times_succ h2
    obtain ⟨q', s'', h4, h5⟩ := hb _ _ _ h3
    have := (hs []).symm.trans h4
    cases this
    exact h5
  refine ⟨fun h hq => ?_, fun h hq => ?_, fun h hq => ?_, fun h hq => ?_, fun h hq => ?_, fun h hq => ?_, fun h hq => ?_,
    fun h hq => ?_, fun h hq => ?_, fun x h hq => ?_⟩
  · refine h.fails (fun g s s' h => ?_) hq
    obtain ⟨s'', h⟩ := times_succ h
    obtain ⟨q, h1, h2⟩ := (C86_rounds.1 _).1 h
    exact ⟨q, _, h1, h2⟩
  · exact hlater h (fun g s s' h => (C86_rounds.2.1.1 h).imp fun q hq => ⟨s', hq⟩) hq
  · exact hlater h (fun g s s' h => (C86_rounds.2.2.1.1 h).imp fun q hq => ⟨s', hq⟩) hq
  · exact hlater h (fun g s s' h => (C86_rounds.2.2.2.1.1 h).imp fun q hq => ⟨s', hq⟩) hq
  · exact h.fails (fun g s s' h => (C86_rounds.2.2.2.2.1.1 h).imp fun q hq => ⟨s', hq⟩) hq
  · exact h.fails (fun g s s' h => (C86_rounds.2.2.2.2.2.1.1 h).imp fun q hq => ⟨s', hq⟩) hq
  · exact h.fails (fun g s s' h => (C86_rounds (L := L).2.2.2.2.2.2.1.1 h).imp fun q hq => ⟨s', hq⟩) hq
  · refine h.fails (Holds := fun q => ∃ p, q.toExp L.toExp = .ok p ∧ FlattenHolds p) (fun g s s' h => ?_) hq
    obtain ⟨q, p, h1, h2⟩ := C86_rounds.2.2.2.2.2.2.2.1.1 h
    exact ⟨q, s', h1, p, h2⟩
  · exact h.fails (fun g s s' h => (C86_rounds.2.2.2.2.2.2.2.2.1 h).imp fun q hq => ⟨s', hq⟩) hq
  · obtain ⟨g, s, h1, h2⟩ := h.fails (Holds := fun q => DensityHolds L info q x)
      (body := fun g s => testPdf L info g (fun _ s => (x, s)) s) (fun g s s' h => by
      obtain ⟨s'', h⟩ := times_succ h
      obtain ⟨q, s₁, o, h1, h2, h3, h4⟩ := C86_round_pdf.1 h
      exact ⟨q, s₁, h1, h4⟩) hq
    exact ⟨g, _, s, h1, h2⟩

/-- What `test_shapes` asserts about expectation parameters `p`, natural parameters `q` and an observation `x` of
`scipy.stats`. -/
def ShapesHold (L : Library Cls) (info : TestInfo) (shape : List ℕ) (p q : Dist Cls) (x : Tree Val) : Prop :=
  (∃ o, info.expToScipy L p = .ok o) ∧ p.shape L = .ok shape ∧ q.shape L = .ok shape ∧
    (∀ kv ∈ parametersS p none, kv.2.1.rshape.drop kv.2.2.axes = shape) ∧
    (∀ kv ∈ parametersS q none, kv.2.1.rshape.drop kv.2.2.axes = shape) ∧
    (∃ a, (q.logNormalizer L).run = .ok a ∧ a.rshape = shape) ∧
    (L.hasEntropy p.cls = true → ∃ a, (p.crossEntropy L q).run = .ok a ∧ a.rshape = shape) ∧
    (hasEntropyNP q.cls = true → ∃ a, (q.entropyN L).run = .ok a ∧ a.rshape = shape) ∧
    (L.hasEntropy p.cls = true → ∃ a, (p.ecm L).run = .ok a ∧ a.rshape = shape) ∧
    ∃ y, info.observation x = .ok y ∧ (∃ a, (q.carrier L y).run = .ok a ∧ a.rshape = shape) ∧
      ∃ a, (q.pdf L y).run = .ok a ∧ a.rshape = shape

theorem checkShape_iff {a : Calc ℝ} {shape : List ℕ} {u : Unit} :
    checkShape a shape = .ok u ↔ ∃ b, a.run = .ok b ∧ b.rshape = shape := by
  simp only [checkShape, bind_ok_iff, check_iff]

theorem ite_seq_iff {β : Type} {c : Bool} {x : Except Err Unit} {k : Except Err β} {b : β} :
    (if c = true then (x >>= fun _ => k) else k) = .ok b ↔ (c = true → x = .ok ()) ∧ k = .ok b := by
  cases c
  · simp
  · simp only [if_true, bind_ok_iff, true_imp_iff]
    exact ⟨fun ⟨_, h1, h2⟩ => ⟨h1, h2⟩, fun ⟨h1, h2⟩ => ⟨(), h1, h2⟩⟩

/-- **C86.** `test_shapes` passes exactly if the shapes are right for the parameters that were generated. -/
theorem C86_shapes {L : Library Cls} {info : TestInfo} {g : Rng} {x : Tree Val} {s s' : g.State} :
    testShapes L info g x s = .ok s' ↔ ∃ q₀ p q s₁, info.natParameters g [4, 3] s = .ok (q₀, s₁) ∧
      q₀.toExp L.toExp = .ok p ∧ info.natParameters g [4, 3] s₁ = .ok (q, s') ∧ ShapesHold L info [4, 3] p q x := by
  simp only [testShapes, checkParameters, TestInfo.expParameters, bind_ok_iff, check_iff, ite_seq_iff, checkShape_iff,
    Prod.exists]
  constructor
  · rintro ⟨_, _, ⟨q₀, s₁, h1, p, h2, h⟩, q, s₂, h3, o, h4, y, h5, _, h6, -, h'', _, h7, -, h', -, h8, -, h9, -, h10, h11, h12,
      -, h13, h14, -, h15, h16⟩
    cases h
    subst h' h''
    cases h16
    exact ⟨q₀, _, q, _, h1, h2, h3, ⟨o, h4⟩, h6, h7, h8, h9, h10, h11, h12, h14, y, h5, h13, h15⟩
  · rintro ⟨q₀, p, q, s₁, h1, h2, h3, ⟨o, h4⟩, h6, h7, h8, h9, h10, h11, h12, h14, y, h5, h13, h15⟩
    exact ⟨p, s₁, ⟨q₀, s₁, h1, p, h2, rfl⟩, q, s', h3, o, h4, y, h5, _, h6, (), rfl, _, h7, (), rfl, (), h8, (), h9, (), h10,
      h11, h12, (), h13, h14, (), h15, rfl⟩

/-- What `test_normal_kl` asserts about expectation parameters `x` and natural parameters `y`. -/
def NormalKlHolds (L : Library Cls) (x y : Dist Cls) : Prop :=
  x.cls = .normalEP ∧ y.cls = .normalNP ∧ ∃ y' a xm xs ym ys, y.toExp L.toExp = .ok y' ∧ (x.klE L y).run = .ok a ∧
    x.vals = [xm, xs] ∧ y'.vals = [ym, ys] ∧ (scipyNormalKl xm xs ym ys).run = .ok a

/-- What `test_mvn_kl` asserts about expectation parameters `x` and natural parameters `y`. -/
def MvnKlHolds (L : Library Cls) (x y : Dist Cls) : Prop :=
  x.cls = .mvNormalEP ∧ y.cls = .mvNormalNP ∧ ∃ y' d a xm xs ym ys, y.toExp L.toExp = .ok y' ∧
    x.cls.dimensions x.vals = .ok d ∧ (x.klE L y).run = .ok a ∧
    x.vals = [xm, xs] ∧ y'.vals = [ym, ys] ∧ (scipyMvnKl d xm xs ym ys).run = .ok a

/-- What `test_gamma_kl` asserts about expectation parameters `x` and natural parameters `y`. -/
def GammaKlHolds (L : Library Cls) (x y : Dist Cls) : Prop :=
  x.cls = .gammaEP ∧ y.cls = .gammaNP ∧ ∃ x' a xr xs yr ys, x.toNat L.toNat = .ok x' ∧ (x.klE L y).run = .ok a ∧
    x'.vals = [xr, xs] ∧ y.vals = [yr, ys] ∧ (scipyGammaKl xr xs yr ys).run = .ok a

theorem klPrelude_iff {L : Library Cls} {info : TestInfo} {g : Rng} {s s' : g.State} {x y : Dist Cls} {a : Arr ℝ} :
    klPrelude L info g s = .ok (x, y, a, s') ↔ ∃ q s₁, info.natParameters g [2, 3] s = .ok (q, s₁) ∧
      q.toExp L.toExp = .ok x ∧ info.natParameters g [2, 3] s₁ = .ok (y, s') ∧ (x.klE L y).run = .ok a := by
  simp only [klPrelude, TestInfo.expParameters, bind_ok_iff, Prod.exists]
  constructor
  · rintro ⟨_, _, ⟨q, s₁, h1, p, h2, h⟩, y, s₂, h3, b, h4, h5⟩
    cases h
    cases h5
    exact ⟨q, _, h1, h2, h3, h4⟩
  · rintro ⟨q, s₁, h1, h2, h3, h4⟩
    exact ⟨x, s₁, ⟨q, s₁, h1, x, h2, rfl⟩, y, s', h3, a, h4, rfl⟩

theorem match_pair_iff {β : Type} {l m : List Val} {f : Val → Val → Val → Val → Except Err β} {e : Err} {b : β} :
    (match l, m with
      | [a, c], [a', c'] => f a c a' c'
      | _, _ => .error e) = .ok b ↔ ∃ a c a' c', l = [a, c] ∧ m = [a', c'] ∧ f a c a' c' = .ok b := by
  constructor
  · intro h
    split at h
    · exact ⟨_, _, _, _, rfl, rfl, h⟩
    · cases h
  · rintro ⟨a, c, a', c', rfl, rfl, h⟩
    exact h

/-- **C86.** The tests of divergences pass exactly if the formulas agree for the parameters that were generated. -/
theorem C86_kl {L : Library Cls} {g : Rng} {s s' : g.State} :
    (testNormalKl L g s = .ok s' ↔ ∃ q x y s₁, (TestInfo.simple .normal 1).natParameters g [2, 3] s = .ok (q, s₁) ∧
      q.toExp L.toExp = .ok x ∧ (TestInfo.simple .normal 1).natParameters g [2, 3] s₁ = .ok (y, s') ∧
      NormalKlHolds L x y) ∧
    (testMvnKl L g s = .ok s' ↔ ∃ q x y s₁, (TestInfo.simple .mvNormal 4).natParameters g [2, 3] s = .ok (q, s₁) ∧
      q.toExp L.toExp = .ok x ∧ (TestInfo.simple .mvNormal 4).natParameters g [2, 3] s₁ = .ok (y, s') ∧
      MvnKlHolds L x y) ∧
    (testGammaKl L g s = .ok s' ↔ ∃ q x y s₁, (TestInfo.simple .gamma 1).natParameters g [2, 3] s = .ok (q, s₁) ∧
      q.toExp L.toExp = .ok x ∧ (TestInfo.simple .gamma 1).natParameters g [2, 3] s₁ = .ok (y, s') ∧
      GammaKlHolds L x y) := by
  refine ⟨?_, ?_, ?_⟩
  · simp only [testNormalKl, bind_ok_iff, check_iff, Prod.exists, klPrelude_iff]
    constructor
    · rintro ⟨x, y, a, s₂, ⟨q, s₁, h1, h2, h3, h4⟩, -, h5, -, h6, y', h7, h⟩
      obtain ⟨xm, xs, ym, ys, h8, h9, h⟩ := match_pair_iff.1 h
      simp only [bind_ok_iff, check_iff] at h
      obtain ⟨b, h10, -, h11, h12⟩ := h
      cases h12
      subst h11
      exact ⟨q, x, y, s₁, h1, h2, h3, h5, h6, y', _, xm, xs, ym, ys, h7, h4, h8, h9, h10⟩
    · rintro ⟨q, x, y, s₁, h1, h2, h3, h5, h6, y', a, xm, xs, ym, ys, h7, h4, h8, h9, h10⟩
      refine ⟨x, y, a, s', ⟨q, s₁, h1, h2, h3, h4⟩, (), h5, (), h6, y', h7, match_pair_iff.2 ⟨xm, xs, ym, ys, h8, h9, ?_⟩⟩
      simp only [bind_ok_iff, check_iff]
      exact ⟨a, h10, (), rfl, trivial⟩
  · simp only [testMvnKl, bind_ok_iff, check_iff, Prod.exists, klPrelude_iff]
    constructor
    · rintro ⟨x, y, a, s₂, ⟨q, s₁, h1, h2, h3, h4⟩, -, h5, -, h6, y', h7, d, hd, h⟩
      obtain ⟨xm, xs, ym, ys, h8, h9, h⟩ := match_pair_iff.1 h
      simp only [bind_ok_iff, check_iff] at h
      obtain ⟨b, h10, -, h11, h12⟩ := h
      cases h12
      subst h11
      exact ⟨q, x, y, s₁, h1, h2, h3, h5, h6, y', d, _, xm, xs, ym, ys, h7, hd, h4, h8, h9, h10⟩
    · rintro ⟨q, x, y, s₁, h1, h2, h3, h5, h6, y', d, a, xm, xs, ym, ys, h7, hd, h4, h8, h9, h10⟩
      refine ⟨x, y, a, s', ⟨q, s₁, h1, h2, h3, h4⟩, (), h5, (), h6, y', h7, d, hd,
        match_pair_iff.2 ⟨xm, xs, ym, ys, h8, h9, ?_⟩⟩
      simp only [bind_ok_iff, check_iff]
      exact ⟨a, h10, (), rfl, trivial⟩
  · simp only [testGammaKl, bind_ok_iff, check_iff, Prod.exists, klPrelude_iff]
    constructor
    · rintro ⟨x, y, a, s₂, ⟨q, s₁, h1, h2, h3, h4⟩, -, h5, -, h6, x', h7, h⟩
      obtain ⟨xm, xs, ym, ys, h8, h9, h⟩ := match_pair_iff.1 h
      simp only [bind_ok_iff, check_iff] at h
      obtain ⟨b, h10, -, h11, h12⟩ := h
      cases h12
      subst h11
      exact ⟨q, x, y, s₁, h1, h2, h3, h5, h6, x', _, xm, xs, ym, ys, h7, h4, h8, h9, h10⟩
    · rintro ⟨q, x, y, s₁, h1, h2, h3, h5, h6, x', a, xm, xs, ym, ys, h7, h4, h8, h9, h10⟩
      refine ⟨x, y, a, s', ⟨q, s₁, h1, h2, h3, h4⟩, (), h5, (), h6, x', h7, match_pair_iff.2 ⟨xm, xs, ym, ys, h8, h9, ?_⟩⟩
      simp only [bind_ok_iff, check_iff]
      exact ⟨a, h10, (), rfl, trivial⟩

theorem times_iff {σ : Type} {body : σ → Except Err σ} : {n : ℕ} → {s s' : σ} → (times body n s = .ok s' ↔
    ∃ f : ℕ → σ, f 0 = s ∧ f n = s' ∧ ∀ k < n, body (f k) = .ok (f (k + 1)))
  | 0, s, s' => ⟨fun h => ⟨fun _ => s, rfl, Except.ok.inj h, by simp⟩, fun ⟨f, h1, h2, _⟩ => by rw [← h1, ← h2]; rfl⟩
  | n + 1, s, s' => by
    simp only [times, bind_ok_iff]
    constructor
    · rintro ⟨s₁, h1, h2⟩
      obtain ⟨f, h3, h4, h5⟩ := times_iff.1 h2
      refine ⟨fun k => k.casesOn s f, rfl, h4, fun k hk => ?_⟩
      cases k with
      | zero => exact h1.trans (congrArg _ h3.symm)
      | succ k => exact h5 k (by omega)
    · rintro ⟨f, rfl, rfl, h⟩
      exact ⟨f 1, h 0 (by omega), times_iff.2 ⟨fun k => f (k + 1), rfl, rfl, fun k hk => h (k + 1) (by omega)⟩⟩

/-- **C86.** The numbers of rounds: the tests with loops pass exactly if each of 10 (20) successive parameters has the
asserted property. -/
theorem C86_loops {L : Library Cls} {info : TestInfo} {g : Rng} {s s' : g.State} :
    (testConversion L info g s = .ok s' ↔ ∃ (f : ℕ → g.State) (q : ℕ → Dist Cls), f 0 = s ∧ f 10 = s' ∧ ∀ k < 10,
      info.natParameters g [4, 3] (f k) = .ok (q k, f (k + 1)) ∧ ConversionHolds L (q k)) ∧
    (∀ (Holds : Dist Cls → Prop) (test : g.State → Except Err g.State),
      (test = testJvp L info g ∧ Holds = TangentHolds L) ∨ (test = testPrimals L info g ∧ Holds = GradientHolds L) ∨
        (test = testVjp L info g ∧ Holds = CotangentHolds L) →
      (test s = .ok s' ↔ ∃ (f : ℕ → g.State) (q : ℕ → Dist Cls), info.natParameters g [] s = .ok (q 0, f 0) ∧ f 20 = s' ∧
        ∀ k < 20, info.natParameters g [] (f k) = .ok (q (k + 1), f (k + 1)) ∧ Holds (q (k + 1)))) ∧
    (∀ draw, testPdf L info g draw s = .ok s' ↔ ∃ f : ℕ → g.State, f 0 = s ∧ f 10 = s' ∧ ∀ k < 10, ∃ q s₁ o,
      info.natParameters g [] (f k) = .ok (q, s₁) ∧ info.natToScipy L q = .ok o ∧ (draw o s₁).2 = f (k + 1) ∧
      DensityHolds L info q (draw o s₁).1) := by
  refine ⟨?_, fun Holds test h => ?_, fun draw => ?_⟩
  · rw [testConversion, times_iff]
    constructor
    · rintro ⟨f, h1, h2, h3⟩
      have h : ∀ k, ∃ q, k < 10 → info.natParameters g [4, 3] (f k) = .ok (q, f (k + 1)) ∧ ConversionHolds L q := fun k => by
        by_cases hk : k < 10
        · exact ((C86_rounds.1 _).1 (h3 k hk)).imp fun q h _ => h
        · exact ⟨.mk .bernoulliNP [] .nil, fun h => absurd h hk⟩
      choose q hq using h
      exact ⟨f, q, h1, h2, hq⟩
    · rintro ⟨f, q, h1, h2, h3⟩
      exact ⟨f, h1, h2, fun k hk => (C86_rounds.1 _).2 ⟨q k, h3 k hk⟩⟩
  · have hb : ∃ body : g.State → Except Err g.State, (∀ s s', body s = .ok s' ↔
        ∃ q, info.natParameters g [] s = .ok (q, s') ∧ Holds q) ∧
        test = fun s => (do let (_, s) ← info.natParameters g [] s; times body 20 s) := by
      rcases h with ⟨rfl, rfl⟩ | ⟨rfl, rfl⟩ | ⟨rfl, rfl⟩
      · exact ⟨_, fun s s' => C86_rounds.2.1, rfl⟩
      · exact ⟨_, fun s s' => C86_rounds.2.2.1, rfl⟩
      · exact ⟨_, fun s s' => C86_rounds.2.2.2.1, rfl⟩
    obtain ⟨body, hb, rfl⟩ := hb
    simp only [bind_ok_iff, Prod.exists, times_iff]
    constructor
    · rintro ⟨q₀, s₁, h1, f, rfl, h2, h3⟩
      have h : ∀ k, ∃ q, k < 20 → info.natParameters g [] (f k) = .ok (q, f (k + 1)) ∧ Holds q := fun k => by
        by_cases hk : k < 20
        · exact ((hb _ _).1 (h3 k hk)).imp fun q h _ => h
        · exact ⟨.mk .bernoulliNP [] .nil, fun h => absurd h hk⟩
      choose q hq using h
      exact ⟨f, fun k => k.casesOn q₀ q, h1, h2, hq⟩
    · rintro ⟨f, q, h1, h2, h3⟩
      exact ⟨q 0, f 0, h1, f, rfl, h2, fun k hk => (hb _ _).2 ⟨_, h3 k hk⟩⟩
  · rw [testPdf, times_iff]
    simp only [C86_round_pdf]

/-- **C86.** The same for the tests that use two random parameters. -/
theorem C86_detects_two {L : Library Cls} {q₀ q : Dist Cls} :
    (∀ {info : TestInfo} (x : Tree Val), Reachable info [4, 3] q₀ → Reachable info [4, 3] q →
      (¬ ∃ p, q₀.toExp L.toExp = .ok p ∧ ShapesHold L info [4, 3] p q x) →
      ∃ (g : Rng) (s : g.State), InRange g ∧ ∀ s', testShapes L info g x s ≠ .ok s') ∧
    (Reachable (.simple .normal 1) [2, 3] q₀ → Reachable (.simple .normal 1) [2, 3] q →
      (¬ ∃ p, q₀.toExp L.toExp = .ok p ∧ NormalKlHolds L p q) →
      ∃ (g : Rng) (s : g.State), InRange g ∧ ∀ s', testNormalKl L g s ≠ .ok s') ∧
    (Reachable (.simple .mvNormal 4) [2, 3] q₀ → Reachable (.simple .mvNormal 4) [2, 3] q →
      (¬ ∃ p, q₀.toExp L.toExp = .ok p ∧ MvnKlHolds L p q) →
      ∃ (g : Rng) (s : g.State), InRange g ∧ ∀ s', testMvnKl L g s ≠ .ok s') ∧
    (Reachable (.simple .gamma 1) [2, 3] q₀ → Reachable (.simple .gamma 1) [2, 3] q →
      (¬ ∃ p, q₀.toExp L.toExp = .ok p ∧ GammaKlHolds L p q) →
      ∃ (g : Rng) (s : g.State), InRange g ∧ ∀ s', testGammaKl L g s ≠ .ok s') := by
  have h2 : ∀ {info : TestInfo} {rs : List ℕ} {Holds : Dist Cls → Dist Cls → Prop}
      {body : (g : Rng) → g.State → Except Err g.State}, Reachable info rs q₀ → Reachable info rs q →
      (∀ (g : Rng) (s s' : g.State), body g s = .ok s' → ∃ q₀ p q s₁, info.natParameters g rs s = .ok (q₀, s₁) ∧
        q₀.toExp L.toExp = .ok p ∧ info.natParameters g rs s₁ = .ok (q, s') ∧ Holds p q) →
      (¬ ∃ p, q₀.toExp L.toExp = .ok p ∧ Holds p q) →
      ∃ (g : Rng) (s : g.State), InRange g ∧ ∀ s', body g s ≠ .ok s' := by
    intro info rs Holds body h₀ h hb hq
    obtain ⟨s₀, hs₀⟩ := h₀.stream
    obtain ⟨s, hs⟩ := h.stream
    refine ⟨script, s₀ ++ (s ++ []), script_inRange, fun s' h' => hq ?_⟩
    obtain ⟨q₁, p, q₂, s₁, h1, h2, h3, h4⟩ := hb _ _ _ h'
    have e := (hs₀ (s ++ [])).symm.trans h1
    cases e
    have e := (hs []).symm.trans h3
    cases e
    exact ⟨p, h2, h4⟩
  exact ⟨fun x h₀ h hq => h2 h₀ h (fun g s s' h => C86_shapes.1 h) hq,
    fun h₀ h hq => h2 h₀ h (fun g s s' h => C86_kl.1.1 h) hq,
    fun h₀ h hq => h2 h₀ h (fun g s s' h => C86_kl.2.1.1 h) hq,
    fun h₀ h hq => h2 h₀ h (fun g s s' h => C86_kl.2.2.1 h) hq⟩

end Efax
