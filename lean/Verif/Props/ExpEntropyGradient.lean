import Verif.Lemmas.FlatExp
import Verif.Props.EntropyGradient
import Verif.Props.Reach
import Verif.Props.SampleLaws
import Verif.Props.Samples
import Verif.Props.TestDetect
import Verif.Model.Tests.Bodies10

/-!
# C93: the gradient of the entropy of expectation parameters
-/

namespace Efax

open MeasureTheory Spec Filter Topology Calc

variable [MachEps] {solve : Solver} {search : Cls → List Val → Except Err (List Val)}

theorem plain_library {K : Kind Cls} {S : Setting K} {flat : Prop}
    (h : PlainSetting solve flat K S) : LibrarySetting solve K S := by
  induction h with
  | simple s _ _ _ _ => exact .simple s
  | joint h0 hn _ ih => exact .joint h0 hn ih

/-- `deriv_kl_curve` for a curve that is inside near its start. -/
theorem Spec.Setting.Lawful.deriv_kl_near {C : Type} {K : Kind C} {S : Setting K} (h : S.Lawful) (ho : S.Open)
    {p : K.P} (hp : S.ok p) {q : ℝ → K.N} (hq : ∀ᶠ t in 𝓝 (0 : ℝ), q t ∈ S.dom p)
    (hd : ∀ v ∈ S.dirs, DifferentiableAt ℝ (fun t => (K.F p).dot v ((K.F p).toExp (q t))) 0) :
    HasDerivAt (fun t => (K.F p).kl (q t) (q 0)) 0 0 := by
  have hkl := h.kl_eq (p := p)
  have h1 := h.regular p hp
  have h2 := h.minimal p hp
  have h3 := ho.isOpen p hp
  have h4 := ho.fg
  obtain ⟨G, M, MS, μ, ok, dom, dirs, closed⟩ := S
  simp only [hkl]
  exact h1.deriv_kl_curve h2 h3 h4 hq.self_of_nhds hq hd

section

variable {K : Kind Cls} {S : Setting K} {rs : List ℕ} {p : List ℕ → K.P}

theorem dot_of_exp (hO : K.Ok (library search)) {χ χ' : List ℕ → K.E} (h : K.exp rs p χ = K.exp rs p χ')
    (v : K.N) {i : List ℕ} (hi : inB rs i = true) : (K.F (p i)).dot v (χ i) = (K.F (p i)).dot v (χ' i) := by
  rw [← hO.dot rs p (fun _ => v) p χ i hi, ← hO.dot rs p (fun _ => v) p χ' i hi, h]

theorem cross_of_exp (hO : K.Ok (library search)) (he : K.ent) {χ χ' : List ℕ → K.E}
    (h : K.exp rs p χ = K.exp rs p χ') (q : List ℕ → K.N) {i : List ℕ} (hi : inB rs i = true) :
    (K.F (p i)).crossEntropy (K.ecm (p i)) (χ i) (q i) = (K.F (p i)).crossEntropy (K.ecm (p i)) (χ' i) (q i) := by
  have h1 := C51_cross_entropy hO he rs p χ q
  rw [h, C51_cross_entropy hO he rs p χ' q] at h1
  have h2 := congrArg (fun a : Arr ℝ => a.get i) (Except.ok.inj h1)
  exact ((Arr.ofFn_get hi).symm.trans (h2.trans (Arr.ofFn_get hi))).symm

/-- Along a line of expectation parameters that `to_nat()` recovers, the entropy and the cross entropy with the
constant natural parameters of the start have the same derivative. -/
theorem entropy_line (hO : K.Ok (library search)) (hl : S.Lawful) (ho : S.Open) (he : K.ent)
    [AddCommGroup K.E] [Module ℝ K.E]
    (hdot : ∀ p v χ w (t : ℝ), (K.F p).dot v (χ + t • w) = (K.F p).dot v χ + t * (K.F p).dot v w)
    {χ w : List ℕ → K.E} (hecm : ∀ i, inB rs i = true → DifferentiableAt ℝ (fun t : ℝ => K.ecm (p i) (χ i + t • w i)) 0)
    {Q : ℝ → List ℕ → K.N} (hQ : ∀ᶠ t in 𝓝 (0 : ℝ), S.Inside rs p (Q t) ∧
      K.exp rs p (fun i => χ i + t • w i) = K.exp rs p fun i => (K.F (p i)).toExp (Q t i))
    {i : List ℕ} (hi : inB rs i = true) :
    ∃ g, HasDerivAt (fun t : ℝ => (K.F (p i)).crossEntropy (K.ecm (p i)) (χ i + t • w i) (Q 0 i)) g 0 ∧
      HasDerivAt (fun t : ℝ => (K.F (p i)).crossEntropy (K.ecm (p i)) (χ i + t • w i) (Q t i)) g 0 := by
  have hok := (hQ.self_of_nhds.1 i hi).1
  obtain ⟨g, hg⟩ : ∃ g, HasDerivAt (fun t : ℝ =>
      (K.F (p i)).crossEntropy (K.ecm (p i)) (χ i + t • w i) (Q 0 i)) g 0 := by
    refine ⟨_, DifferentiableAt.hasDerivAt ?_⟩
    have h1 : DifferentiableAt ℝ (fun t : ℝ => -((K.F (p i)).dot (Q 0 i) (χ i) + t * (K.F (p i)).dot (Q 0 i) (w i)) +
        (K.F (p i)).logNormalizer (Q 0 i)) 0 := by fun_prop
    have h2 := h1.fun_sub (hecm i hi)
    simp only [← hdot] at h2
    exact h2
  refine ⟨g, hg, ?_⟩
  have hk := hl.deriv_kl_near ho hok (q := fun t => Q t i) (hQ.mono fun t ht => (ht.1 i hi).2) fun v _ => by
    have h1 : DifferentiableAt ℝ (fun t : ℝ => (K.F (p i)).dot v (χ i) + t * (K.F (p i)).dot v (w i)) 0 := by
      fun_prop
    refine h1.congr_of_eventuallyEq (hQ.mono fun t ht => ?_)
    exact (dot_of_exp hO ht.2 v hi).symm.trans (hdot ..)
  refine ((hg.sub hk).congr_deriv (sub_zero g)).congr_of_eventuallyEq (hQ.mono fun t ht => ?_)
  have e := dot_of_exp hO ht.2 (Q t i - Q 0 i) hi
  have e1 := hO.dot_sub (p i) (Q t i) (Q 0 i) (χ i + t • w i)
  simp only [Pi.sub_apply, ExpFam.kl, ExpFam.klWith, ExpFam.crossEntropy]
  rw [← e, e1]
  ring

end

theorem moved_zero (y δ : Arr ℝ) : Tests.movedBy y δ 0 = y :=
  Arr.ext rfl fun i hi => by
    have hi : inB y.rshape i = true := hi
    have e : (Tests.movedBy y δ 0).get i = y.get i + 0 * δ.get i := Arr.ofFn_get hi
    rw [e, zero_mul, add_zero]

theorem along_near {f : Flattener Cls → Arr ℝ → Except Err ℝ} {fl : Flattener Cls} {y δ : Arr ℝ}
    {e : ℝ → ℝ} {g : ℝ} (h2 : ∀ᶠ t in 𝓝 (0 : ℝ), f fl (Tests.movedBy y δ t) = .ok (e t)) (h3 : HasDerivAt e g 0) :
    Tests.derivativeAlong f fl y δ = g := by
  unfold Tests.derivativeAlong
  refine HasDerivAt.deriv (h3.congr_of_eventuallyEq (h2.mono fun t ht => ?_))
  simp only [ht]

/-- `check_central` for a function that returns a result near the start. -/
theorem central_near {f : Flattener Cls → Arr ℝ → Except Err ℝ} {d : Dist Cls} {fl : Flattener Cls} {y δ : Arr ℝ}
    {e : ℝ → ℝ} {g : ℝ} (h1 : flatten d false = .ok (fl, y))
    (h2 : ∀ᶠ t in 𝓝 (0 : ℝ), f fl (Tests.movedBy y δ t) = .ok (e t))
    (h3 : HasDerivAt e g 0) (D : Flattener Cls → Arr ℝ → Arr ℝ → ℝ) :
    (|D fl y δ - g| < 1e-4 + 1e-2 * |g| →
      ∀ᶠ ε in 𝓝[>] (0 : ℝ), Tests.checkEntropyGradient f D ε d δ = .ok ()) ∧
    (1e-4 + 1e-2 * |g| < |D fl y δ - g| →
      ∀ᶠ ε in 𝓝[>] (0 : ℝ), Tests.checkEntropyGradient f D ε d δ = .error .assertionError) := by
  have ha : f fl y = .ok (e 0) := by
    have := h2.self_of_nhds
    rwa [moved_zero] at this
  have hn : ∀ᶠ t in 𝓝 (0 : ℝ), f fl (Tests.movedBy y δ (-t)) = .ok (e (-t)) := by
    have : Tendsto (fun t : ℝ => -t) (𝓝 0) (𝓝 0) := by
      have := (continuous_neg (G := ℝ)).tendsto 0
      rwa [neg_zero] at this
    exact this.eventually h2
  have key : ∀ᶠ ε in 𝓝[>] (0 : ℝ), Tests.checkEntropyGradient f D ε d δ =
      Tests.check (|D fl y δ - (e ε - e (-ε)) / (2 * ε)| ≤ 1e-4 + 1e-2 * |(e ε - e (-ε)) / (2 * ε)|) := by
    filter_upwards [nhdsWithin_le_nhds h2, nhdsWithin_le_nhds hn] with ε e1 e2
    simp only [Tests.checkEntropyGradient, Tests.numericalDerivative, h1, ha, e1, e2, Bind.bind, Except.bind]
  have hc := central_tendsto h3
  have l1 := (tendsto_const_nhds (x := D fl y δ)).sub hc |>.abs
  have l2 := (hc.abs.const_mul 1e-2).const_add 1e-4
  refine ⟨fun h => ?_, fun h => ?_⟩
  · filter_upwards [key, l1.eventually_lt l2 h] with ε hk hε
    rw [hk, Tests.check, if_pos hε.le]
  · filter_upwards [key, l2.eventually_lt l1 h] with ε hk hε
    rw [hk, Tests.check, if_neg (not_le.2 hε)]

theorem eventually_box : (rs : List ℕ) → {P : ℝ → List ℕ → Prop} →
    (∀ i, inB rs i = true → ∀ᶠ t in 𝓝 (0 : ℝ), P t i) → ∀ᶠ t in 𝓝 (0 : ℝ), ∀ i, inB rs i = true → P t i
  | [], _, h => (h [] rfl).mono fun t ht i hi => by rwa [inB_nil_iff.1 hi]
  | n :: rs, P, h => by
    have : ∀ᶠ t in 𝓝 (0 : ℝ), ∀ k ∈ Finset.range n, ∀ i, inB rs i = true → P t (k :: i) :=
      (eventually_all_finset _).2 fun k hk => eventually_box rs fun i hi =>
        h (k :: i) ((inB_cons ..).2 ⟨Finset.mem_range.1 hk, hi⟩)
    refine this.mono fun t ht i hi => ?_
    obtain ⟨k, j, rfl, hk, hj⟩ := inB_cons_elim hi
    exact ht k (Finset.mem_range.2 hk) j hj

section

variable (hs : solve.For search) {K : Kind Cls} {S : Setting K} {rs : List ℕ} {p : List ℕ → K.P}

include hs

/-- **C93.** `entropy()` of expectation parameters stops the gradient of the natural parameters, so that automatic
differentiation of the sum of the entropies computes the derivative of the cross entropies with constant
natural parameters.  This is the derivative of the sum of the entropies in every direction `δ` of the flat array
along which `to_nat()` recovers the distributions near the start. -/
theorem C93_stop {flat : Prop} (hK : PlainSetting solve flat K S) {q : List ℕ → K.N} {d : Dist Cls} (hq : S.Inside rs p q)
    (hm : EachLeaf (fun c _ => HasEcm c) (K.nat rs p q))
    (hd : (K.nat rs p q).toExp (library search).toExp = .ok d) :
    ∃ fl y, flatten d false = .ok (fl, y) ∧ ∀ δ : Arr ℝ, δ.rshape = y.rshape →
      (∀ᶠ t in 𝓝 (0 : ℝ), ∃ d', fl.unflatten (Tests.movedBy y δ t) = .ok d' ∧
        Recovers (library search) S rs p d') →
      ∃ g, ∃ e : ℝ → ℝ, (∀ᶠ t in 𝓝 (0 : ℝ), Tests.sumEntropyE (library search) fl (Tests.movedBy y δ t) = .ok (e t)) ∧
        HasDerivAt e g 0 ∧ Tests.frozenDerivative (library search) fl y δ = g := by
  have hL := plain_library hK
  have hO := C51_library hs hL.kind
  have he := ecm_ent_nat hL.kind hm
  have hd' := ent_dom hL.kind he
  obtain ⟨n, i1, i2, good, c, c1, c2, c3, -⟩ := hasFlatE hs hK
  have hg : ∀ i, inB rs i = true → good ((K.F (p i)).toExp (q i)) := fun i hi => c1 _ _ (hq i hi).1 (hq i hi).2
  obtain ⟨l, hl⟩ := c.infos []
  have hde := hd.symm.trans (hO.toExp rs p q fun i _ => hd' _ _)
  obtain rfl := Except.ok.inj hde
  refine ⟨_, _, c.flatten_eq hO.wfE hl rs p _ hg, fun δ hδ hr => ?_⟩
  obtain ⟨z, rfl⟩ : ∃ z : List ℕ → Fin n → ℝ, δ = vectors rs z := ⟨_, Arr.eq_vectors hδ⟩
  have hu : ∀ t : ℝ, Flattener.unflatten ⟨l, parameters (K.exp rs p fun i => (K.F (p i)).toExp (q i)) (some true), false⟩
      (Tests.movedBy (vectors rs fun i => c.enc ((K.F (p i)).toExp (q i))) (vectors rs z) t) =
      .ok (K.exp rs p fun i => c.dec (c.enc ((K.F (p i)).toExp (q i))) + t • c.dec (z i)) := fun t => by
    rw [movedBy_vectors, c.unflatten_eq hO.wfE hl rs p _ _]
    simp only [map_add, map_smul]
  have h0 := hu 0
  rw [moved_zero] at h0
  generalize Flattener.mk l (parameters (K.exp rs p fun i => (K.F (p i)).toExp (q i)) (some true)) false = fl at hr hu h0 ⊢
  generalize (vectors rs fun i => c.enc ((K.F (p i)).toExp (q i))) = y at hr hu h0 ⊢
  obtain ⟨χ, hχ⟩ : ∃ χ : List ℕ → K.E, χ = fun i => c.dec (c.enc ((K.F (p i)).toExp (q i))) := ⟨_, rfl⟩
  obtain ⟨w, hw⟩ : ∃ w : List ℕ → K.E, w = fun i => c.dec (z i) := ⟨_, rfl⟩
  have hu : ∀ t : ℝ, fl.unflatten (Tests.movedBy y (vectors rs z) t) = .ok (K.exp rs p fun i => χ i + t • w i) := by
    rw [hχ, hw]; exact hu
  have h0 : fl.unflatten y = .ok (K.exp rs p fun i => χ i + (0 : ℝ) • w i) := by
    rw [hχ, hw]; exact h0
  have hecm : ∀ i, inB rs i = true → DifferentiableAt ℝ (fun t : ℝ => K.ecm (p i) (χ i + t • w i)) 0 := fun i hi => by
    rw [hχ]
    simp only [c.dec_enc _ (hg i hi)]
    exact c3 he _ _ _ (hq i hi).1 (hq i hi).2
  have hQ : ∀ t : ℝ, ∃ Q : List ℕ → K.N, Recovers (library search) S rs p (K.exp rs p fun i => χ i + t • w i) →
      S.Inside rs p Q ∧
      (K.exp rs p fun i => χ i + t • w i).toNat (library search).toNat = .ok (K.nat rs p Q) ∧
      (K.nat rs p Q).toExp (library search).toExp = .ok (K.exp rs p fun i => χ i + t • w i) := fun t => by
    by_cases h : Recovers (library search) S rs p (K.exp rs p fun i => χ i + t • w i)
    · obtain ⟨Q, hQ⟩ := h
      exact ⟨Q, fun _ => hQ⟩
    · exact ⟨q, fun h' => absurd h' h⟩
  choose Q hQ using hQ
  have hr : ∀ᶠ t in 𝓝 (0 : ℝ), S.Inside rs p (Q t) ∧
      (K.exp rs p fun i => χ i + t • w i).toNat (library search).toNat = .ok (K.nat rs p (Q t)) ∧
      (K.nat rs p (Q t)).toExp (library search).toExp = .ok (K.exp rs p fun i => χ i + t • w i) :=
    hr.mono fun t ⟨d', e1, e2⟩ => by
      rw [hu t] at e1
      obtain rfl := Except.ok.inj e1
      exact hQ t e2
  have hline := fun i hi => entropy_line (i := i) hO (library_lawful hL) (library_open hL) he c2 hecm
    (hr.mono fun t ht => ⟨ht.1, Except.ok.inj (ht.2.2.symm.trans (hO.toExp rs p (Q t) fun i _ => hd' _ _))⟩) hi
  choose! g g1 g2 using hline
  have hce : ∀ (t : ℝ) (q' : List ℕ → K.N), ((K.exp rs p fun i => χ i + t • w i).crossEntropy (library search) (K.nat rs p q') >>=
      fun e => Except.ok (sumBox e.rshape e.get)) =
      .ok (sumBox rs fun i => (K.F (p i)).crossEntropy (K.ecm (p i)) (χ i + t • w i) (q' i)) := fun t q' => by
    rw [C51_cross_entropy hO he]
    exact congrArg Except.ok (sumBox_congr rs fun i hi => Arr.ofFn_get hi)
  refine ⟨sumBox rs g, _, hr.mono fun t ht => ?_, hasDerivAt_sumBox rs g2,
    along_near (Eventually.of_forall fun t => ?_) (hasDerivAt_sumBox rs g1)⟩
  · have := hce t (Q t)
    unfold Tests.sumEntropyE
    rw [hu t]
    simp only [Dist.entropyE, ht.2.1, Bind.bind, Except.bind] at this ⊢
    exact this
  · have := hce t (Q 0)
    unfold Tests.frozenEntropy
    rw [hu t, h0]
    have h1 := hr.self_of_nhds.2.1
    simp only [h1, Bind.bind, Except.bind] at this ⊢
    exact this

/-- **C93.** What `test_exp_entropy_gradient` decides, in every direction `δ` along which `to_nat()` recovers the
distributions: with `g` the derivative of the sum of the entropies, for all small steps of the central difference,
the test passes if the derivative that is computed is within the tolerances of `g`, and fails if it is not.  What
automatic differentiation of `entropy()` computes, with the gradient stopped, passes. -/
theorem C93_test {flat : Prop} (hK : PlainSetting solve flat K S) {q : List ℕ → K.N} {d : Dist Cls}
    (hq : S.Inside rs p q) (hm : EachLeaf (fun c _ => HasEcm c) (K.nat rs p q))
    (hd : (K.nat rs p q).toExp (library search).toExp = .ok d) :
    ∃ fl y, flatten d false = .ok (fl, y) ∧ ∀ δ : Arr ℝ, δ.rshape = y.rshape →
      (∀ᶠ t in 𝓝 (0 : ℝ), ∃ d', fl.unflatten (Tests.movedBy y δ t) = .ok d' ∧
        Recovers (library search) S rs p d') →
      (∀ᶠ ε in 𝓝[>] (0 : ℝ), Tests.testExpEntropyGradient (library search) ε d δ = .ok ()) ∧
      ∃ g, Tests.derivativeAlong (Tests.sumEntropyE (library search)) fl y δ = g ∧
        ∀ D : Flattener Cls → Arr ℝ → Arr ℝ → ℝ,
          (|D fl y δ - g| < 1e-4 + 1e-2 * |g| → ∀ᶠ ε in 𝓝[>] (0 : ℝ),
            Tests.checkEntropyGradient (Tests.sumEntropyE (library search)) D ε d δ = .ok ()) ∧
          (1e-4 + 1e-2 * |g| < |D fl y δ - g| → ∀ᶠ ε in 𝓝[>] (0 : ℝ),
            Tests.checkEntropyGradient (Tests.sumEntropyE (library search)) D ε d δ = .error .assertionError) := by
  obtain ⟨fl, y, h1, h2⟩ := C93_stop hs hK hq hm hd
  refine ⟨fl, y, h1, fun δ hδ hr => ?_⟩
  obtain ⟨g, e, e1, e2, e3⟩ := h2 δ hδ hr
  have key := central_near h1 e1 e2
  refine ⟨(key _).1 ?_, g, along_near e1 e2, fun D => key D⟩
  rw [e3, sub_self, abs_zero]
  positivity

/-- Distributions along lines of the flat array are recovered if `to_nat()` is the inverse of `to_exp()` along the
lines of the parameters. -/
theorem recovers_line (hK : LibrarySetting solve K S) (hdom : ∀ p q, K.dom p q) [AddCommGroup K.E] [Module ℝ K.E]
    {n : ℕ} {good : K.E → Prop} (c : Coords K.exp n good) {q : List ℕ → K.N} (hq : S.Inside rs p q)
    (hg : ∀ i, inB rs i = true → good ((K.F (p i)).toExp (q i)))
    (h4 : ∀ i, inB rs i = true → ∀ w, good w → ∀ᶠ t in 𝓝 (0 : ℝ),
      K.domE (p i) ((K.F (p i)).toExp (q i) + t • w) ∧ K.toNat (p i) ((K.F (p i)).toExp (q i) + t • w) ∈ S.dom (p i) ∧
        (K.F (p i)).toExp (K.toNat (p i) ((K.F (p i)).toExp (q i) + t • w)) = (K.F (p i)).toExp (q i) + t • w)
    {d : Dist Cls} (hd : (K.nat rs p q).toExp (library search).toExp = .ok d) {fl : Flattener Cls} {y : Arr ℝ}
    (h1 : flatten d false = .ok (fl, y)) (δ : Arr ℝ) (hδ : δ.rshape = y.rshape) :
    ∀ᶠ t in 𝓝 (0 : ℝ), ∃ d', fl.unflatten (Tests.movedBy y δ t) = .ok d' ∧
      Recovers (library search) S rs p d' := by
  have hO := C51_library hs hK.kind
  obtain ⟨l, hl⟩ := c.infos []
  have hde := hd.symm.trans (hO.toExp rs p q fun i _ => hdom _ _)
  obtain rfl := Except.ok.inj hde
  obtain ⟨rfl, rfl⟩ := Prod.mk.inj (Except.ok.inj (h1.symm.trans (c.flatten_eq hO.wfE hl rs p _ hg)))
  obtain ⟨z, rfl⟩ : ∃ z : List ℕ → Fin n → ℝ, δ = vectors rs z := ⟨_, Arr.eq_vectors hδ⟩
  have hu := fun t : ℝ => c.unflatten_eq hO.wfE hl rs p (fun i => (K.F (p i)).toExp (q i))
    fun i => c.enc ((K.F (p i)).toExp (q i)) + t • z i
  have hall : ∀ᶠ t in 𝓝 (0 : ℝ), ∀ i, inB rs i = true →
      K.domE (p i) ((K.F (p i)).toExp (q i) + t • c.dec (z i)) ∧
      K.toNat (p i) ((K.F (p i)).toExp (q i) + t • c.dec (z i)) ∈ S.dom (p i) ∧
      (K.F (p i)).toExp (K.toNat (p i) ((K.F (p i)).toExp (q i) + t • c.dec (z i))) =
        (K.F (p i)).toExp (q i) + t • c.dec (z i) :=
    eventually_box rs fun i hi => h4 i hi _ (c.dec_good _)
  refine hall.mono fun t ht => ⟨_, (congrArg _ (movedBy_vectors _ _ t)).trans (hu t), ?_⟩
  have hx : ∀ i, inB rs i = true → c.dec (c.enc ((K.F (p i)).toExp (q i)) + t • z i) =
      (K.F (p i)).toExp (q i) + t • c.dec (z i) := fun i hi => by
    rw [map_add, map_smul, c.dec_enc _ (hg i hi)]
  refine ⟨fun i => K.toNat (p i) (c.dec (c.enc ((K.F (p i)).toExp (q i)) + t • z i)), fun i hi => ⟨(hq i hi).1, ?_⟩,
    hO.toNat rs p _ fun i hi => ?_, (hO.toExp rs p _ fun i _ => hdom _ _).trans
      (congrArg Except.ok (expectation_congr hK.kind fun i hi => ?_))⟩
  · simp only [hx i hi]; exact (ht i hi).2.1
  · rw [hx i hi]; exact (ht i hi).1
  · simp only [hx i hi]; exact (ht i hi).2.2

/-- **C93.** If `to_nat()` has a closed form, it recovers the distributions along every direction of the flat
array; so the stopped gradient is right in every direction, and `test_exp_entropy_gradient` passes in
every direction for all small steps. -/
theorem C93_closed (hK : PlainSetting solve True K S) (hc : S.closed) {q : List ℕ → K.N} {d : Dist Cls}
    (hq : S.Inside rs p q) (hm : EachLeaf (fun c _ => HasEcm c) (K.nat rs p q))
    (hd : (K.nat rs p q).toExp (library search).toExp = .ok d) :
    ∃ fl y, flatten d false = .ok (fl, y) ∧ ∀ δ : Arr ℝ, δ.rshape = y.rshape →
      Tests.frozenDerivative (library search) fl y δ =
        Tests.derivativeAlong (Tests.sumEntropyE (library search)) fl y δ ∧
      ∀ᶠ ε in 𝓝[>] (0 : ℝ), Tests.testExpEntropyGradient (library search) ε d δ = .ok () := by
  have hL := plain_library hK
  obtain ⟨fl, y, h1, h2⟩ := C93_test hs hK hq hm hd
  obtain ⟨fl', y', h1', h2'⟩ := C93_stop hs hK hq hm hd
  obtain ⟨rfl, rfl⟩ := Prod.mk.inj (Except.ok.inj (h1.symm.trans h1'))
  obtain ⟨n, i1, i2, good, c, c1, c2, c3, c4⟩ := hasFlatE hs hK
  have main := recovers_line hs hL (ent_dom hL.kind (ecm_ent_nat hL.kind hm)) c hq
    (fun i hi => c1 _ _ (hq i hi).1 (hq i hi).2)
    (fun i hi w hw => c4 trivial hc _ _ _ (hq i hi).1 (hq i hi).2 hw) hd h1
  refine ⟨fl, y, h1, fun δ hδ => ⟨?_, (h2 δ hδ (main δ hδ)).1⟩⟩
  obtain ⟨g, e, e1, e2, e3⟩ := h2' δ hδ (main δ hδ)
  rw [e3, along_near e1 e2]

/-- `entropy()` of recovered distributions, of the shape `()`, is `entropy()` of their natural parameters. -/
theorem through_nat (hK : LibrarySetting solve K S) (he : K.ent) {fl : Flattener Cls} {y : Arr ℝ} {d : Dist Cls}
    {p : List ℕ → K.P} (hu : fl.unflatten y = .ok d) (hr : Recovers (library search) S [] p d) :
    Tests.entropyThroughNat (library search) fl y = Tests.sumEntropyE (library search) fl y := by
  obtain ⟨q, h1, h2, h3⟩ := hr
  have hO := C51_library hs hK.kind
  have h4 := hO.toExp [] p q fun i _ => ent_dom hK.kind he _ _
  obtain rfl := Except.ok.inj (h4.symm.trans h3)
  have h5 := C51_cross_entropy hO he [] p (fun i => (K.F (p i)).toExp (q i)) q
  unfold Tests.entropyThroughNat Tests.sumEntropyE
  simp only [hu, h2, Dist.entropyN, Dist.entropyE, h4, Bind.bind, Except.bind]
  rw [h5]
  rfl

/-- **C93.** `test_gamma_vp_entropy_gradient` for any distribution of the shape `()` such that `to_nat()` recovers
the distributions near it: the two functions have the same values and the same gradients, although the
gradient of the first is stopped.  So the test passes for all tolerances. -/
theorem C93_through {flat : Prop} (hK : PlainSetting solve flat K S) {q : List ℕ → K.N} {p : List ℕ → K.P} {d : Dist Cls}
    (hq : S.Inside [] p q) (hm : EachLeaf (fun c _ => HasEcm c) (K.nat [] p q))
    (hd : (K.nat [] p q).toExp (library search).toExp = .ok d) {fl : Flattener Cls} {y : Arr ℝ}
    (hf : flatten d false = .ok (fl, y))
    (hr : ∀ δ : Arr ℝ, δ.rshape = y.rshape → ∀ᶠ t in 𝓝 (0 : ℝ), ∃ d',
      fl.unflatten (Tests.movedBy y δ t) = .ok d' ∧ Recovers (library search) S [] p d')
    {rtol atol : ℝ} (hrt : 0 ≤ rtol) (hat : 0 ≤ atol) :
    Tests.testGammaEntropyGradient (library search) rtol atol d = .ok () := by
  have hL := plain_library hK
  have he := ecm_ent_nat hL.kind hm
  obtain ⟨fl', y', h1, h2⟩ := C93_stop hs hK hq hm hd
  obtain ⟨rfl, rfl⟩ := Prod.mk.inj (Except.ok.inj (h1.symm.trans hf))
  have close : ∀ a : ℝ, Tests.assertClose rtol atol a a = .ok () := fun a => by
    rw [Tests.assertClose, Tests.check, if_pos]
    rw [sub_self, abs_zero]
    positivity
  have hfg : ∀ δ : Arr ℝ, δ.rshape = y'.rshape → ∀ᶠ t in 𝓝 (0 : ℝ),
      Tests.entropyThroughNat (library search) fl' (Tests.movedBy y' δ t) =
        Tests.sumEntropyE (library search) fl' (Tests.movedBy y' δ t) := fun δ hδ =>
    (hr δ hδ).mono fun t ⟨d', e1, e2⟩ => through_nat hs hL he e1 e2
  obtain ⟨-, e, e1, -, -⟩ := h2 y' rfl (hr y' rfl)
  have e0 := e1.self_of_nhds
  have g0 := (hfg y' rfl).self_of_nhds
  rw [moved_zero] at e0 g0
  rw [e0] at g0
  have hk : ∀ k, Tests.frozenDerivative (library search) fl' y' (Tests.coordinate y' k) =
      Tests.derivativeAlong (Tests.entropyThroughNat (library search)) fl' y' (Tests.coordinate y' k) := fun k => by
    obtain ⟨g, e, e1, e2, e3⟩ := h2 (Tests.coordinate y' k) rfl (hr _ rfl)
    rw [e3, along_near ((hfg (Tests.coordinate y' k) rfl).and e1 |>.mono fun t ht => ht.1.trans ht.2) e2]
  simp only [Tests.testGammaEntropyGradient, h1, e0, g0, close, hk, Bind.bind, Except.bind]
  exact forM_ok.2 fun _ _ => rfl

/-- **C93.** `test_gamma_vp_entropy_gradient` passes for all tolerances, for every gamma distribution whose mean is
in the support, if the root finder returns the roots. -/
theorem C93_gamma (hsolve : ∀ q ∈ gammaDom, solve.gamma (gamma.toExp q) = q) {q : ℝ × ℝ} (hq : q ∈ gammaDom)
    (hm : Ring.openMin 0 < (gamma.toExp q).1) {d : Dist Cls}
    (hd : ((Simple.gamma.kind solve).nat [] (fun _ => ()) fun _ => q).toExp (library search).toExp = .ok d)
    {rtol atol : ℝ} (hrt : 0 ≤ rtol) (hat : 0 ≤ atol) :
    Tests.testGammaEntropyGradient (library search) rtol atol d = .ok () := by
  have hK : PlainSetting solve False _ _ := .simple .gamma nofun nofun nofun nofun
  have hi : (Simple.gamma.setting solve).Inside [] (fun _ => ()) fun _ => q := fun _ _ => ⟨trivial, hq⟩
  have hl : EachLeaf (fun c _ => HasEcm c) ((Simple.gamma.kind solve).nat [] (fun _ => ()) fun _ => q) :=
    fun l h => by rw [List.mem_singleton.1 h]; exact trivial
  obtain ⟨fl, y, h1, -⟩ := C93_stop hs hK hi hl hd
  refine C93_through hs hK hi hl hd h1 ?_ hrt hat
  have hL := plain_library hK
  have hw := (C51_library hs hL.kind).wfE
  refine @recovers_line _ _ _ hs _ _ _ _ hL (fun _ _ => trivial) (inferInstanceAs (AddCommGroup (ℝ × ℝ)))
    (inferInstanceAs (Module ℝ (ℝ × ℝ))) _ _
    ((Raw.two codecS codecS rfl rfl (by decide) rfl (fun _ => rfl) fun _ _ _ => rfl : Raw .gammaEP laySS 2 _).coords hw
      ⟨_, fun _ _ _ => rfl⟩ (fun _ _ _ _ => rfl)
      fun _ _ _ _ => fits_loops ⟨⟨_, rfl, ⟨_, rfl, rfl, nofun⟩, ⟨_, rfl, rfl, nofun⟩, trivial⟩, trivial⟩)
    _ hi ?_ ?_ _ hd _ _ h1
  · exact fun _ _ => ⟨trivial, trivial⟩
  · intro i _ (w : ℝ × ℝ) _
    have hc : Continuous fun t : ℝ => (gamma.toExp q + t • w : ℝ × ℝ) := by fun_prop
    have h0 : (gamma.toExp q + (0 : ℝ) • w : ℝ × ℝ) = gamma.toExp q := by rw [zero_smul, add_zero]
    have hp := (C32_gamma_domain _).1.1 ⟨q, hq, rfl⟩
    have a1 : ∀ᶠ t in 𝓝 (0 : ℝ), Ring.openMin 0 < (gamma.toExp q + t • w : ℝ × ℝ).1 :=
      hc.fst.continuousAt.eventually (lt_mem_nhds (by simpa only [h0] using hm))
    have a2 : ∀ᶠ t in 𝓝 (0 : ℝ), 0 < (gamma.toExp q + t • w : ℝ × ℝ).1 :=
      hc.fst.continuousAt.eventually (lt_mem_nhds (by simpa only [h0] using hp.1))
    have a3 : ∀ᶠ t in 𝓝 (0 : ℝ), (gamma.toExp q + t • w : ℝ × ℝ).2 < Real.log (gamma.toExp q + t • w : ℝ × ℝ).1 :=
      hc.snd.continuousAt.eventually_lt (hc.fst.continuousAt.log (by simpa only [h0] using hp.1.ne'))
        (by simpa only [h0] using hp.2)
    filter_upwards [a1, a2, a3] with t b1 b2 b3
    obtain ⟨q', hq', e⟩ := (C32_gamma_domain _).1.2 ⟨b2, b3⟩
    refine ⟨b1, ?_, ?_⟩
    · change solve.gamma (gamma.toExp q + t • w : ℝ × ℝ) ∈ gammaDom
      rw [← e, hsolve q' hq']
      exact hq'
    · change gamma.toExp (solve.gamma (gamma.toExp q + t • w : ℝ × ℝ)) = (gamma.toExp q + t • w : ℝ × ℝ)
      rw [← e, hsolve q' hq']

/-- The flat array of a single gamma distribution. -/
theorem gamma_flat (χ : ℝ × ℝ) : ∃ fl,
    flatten ((Simple.gamma.kind solve).exp [] (fun _ => ()) fun _ => χ) false =
      .ok (fl, vectors [] fun _ => ![χ.1, χ.2]) ∧
    ∀ z : ℝ × ℝ, fl.unflatten (vectors [] fun _ => ![z.1, z.2]) =
      .ok ((Simple.gamma.kind solve).exp [] (fun _ => ()) fun _ => z) := by
  have hO := C51_library hs (K := Simple.gamma.kind solve) (.simple .gamma)
  have hw : ∀ rs (p : List ℕ → Unit) (q : List ℕ → ℝ × ℝ), WF (.mk Cls.gammaEP (laySS rs p q) .nil) := hO.wfE
  obtain ⟨c, c1, c2⟩ : ∃ c : Coords (fun rs (p : List ℕ → Unit) (q : List ℕ → ℝ × ℝ) =>
        Dist.mk Cls.gammaEP (laySS rs p q) .nil) 2 (fun _ => True ∧ True),
      (∀ χ : ℝ × ℝ, c.enc χ = ![χ.1, χ.2]) ∧ ∀ z : ℝ × ℝ, c.dec ![z.1, z.2] = z := by
    refine ⟨(Raw.two codecS codecS rfl rfl (by decide) rfl (fun _ => rfl) fun _ _ _ => rfl : Raw .gammaEP laySS 2 _).coords hw
      ⟨_, fun _ _ _ => rfl⟩ (fun _ _ _ _ => rfl)
      fun _ _ _ _ => fits_loops ⟨⟨_, rfl, ⟨_, rfl, rfl, nofun⟩, ⟨_, rfl, rfl, nofun⟩, trivial⟩, trivial⟩, fun χ => ?_, fun z => ?_⟩
    · funext k
      match k with
      | 0 => rfl
      | 1 => rfl
    · rfl
  obtain ⟨l, hl⟩ := c.infos []
  have h1 := c.flatten_eq hw hl [] (fun _ => ()) (fun _ => χ) fun _ _ => ⟨trivial, trivial⟩
  simp only [c1] at h1
  refine ⟨_, h1, fun z => ?_⟩
  have h2 := c.unflatten_eq hw hl [] (fun _ => ()) (fun _ => χ) fun _ => ![z.1, z.2]
  simp only [c2] at h2
  exact h2

omit [MachEps] hs in
theorem gamma_moved (χ : ℝ × ℝ) (t : ℝ) :
    Tests.movedBy (vectors [] fun _ => ![χ.1, χ.2]) (Tests.coordinate (vectors [] fun _ => ![χ.1, χ.2]) 0) t =
      vectors [] (fun _ => ![χ.1 + t, χ.2]) ∧
    Tests.movedBy (vectors [] fun _ => ![χ.1, χ.2]) (Tests.coordinate (vectors [] fun _ => ![χ.1, χ.2]) 1) t =
      vectors [] fun _ => ![χ.1, χ.2 + t] := by
  have h0 : inB [2] [0] = true := rfl
  have h1 : inB [2] [1] = true := rfl
  have hx : ∀ a b : Arr ℝ, a.rshape = [2] → b.rshape = [2] → a.get [0] = b.get [0] → a.get [1] = b.get [1] → a = b :=
    fun a b ha hb e0 e1 => Arr.ext (ha.trans hb.symm) fun i hi => by
      rw [ha] at hi
      obtain ⟨k, j, rfl, hk, hj⟩ := inB_cons_elim hi
      rw [inB_nil_iff.1 hj]
      interval_cases k
      · exact e0
      · exact e1
  have hv : ∀ z : Fin 2 → ℝ, (vectors [] fun _ => z).get [0] = z 0 ∧ (vectors [] fun _ => z).get [1] = z 1 := fun z =>
    ⟨Arr.ofFn_get h0, Arr.ofFn_get h1⟩
  have hm : ∀ z : Fin 2 → ℝ, ∀ k, ∀ i, inB [2] i = true →
      (Tests.movedBy (vectors [] fun _ => z) (Tests.coordinate (vectors [] fun _ => z) k) t).get i =
        (vectors [] fun _ => z).get i + t * if i = [k] then 1 else 0 := fun z k i hi =>
    (Arr.ofFn_get hi).trans (congrArg (fun x => _ + t * x) (Arr.ofFn_get hi))
  refine ⟨hx _ _ rfl rfl ?_ ?_, hx _ _ rfl rfl ?_ ?_⟩
  all_goals
    rw [hm _ _ _ (by assumption)]
    simp [hv]

/-- **C93.** What `test_gamma_vp_entropy_gradient` decides about the root finder, for any expectation parameters `χ`
whose mean is in the support: with `q` the natural parameters that it returns, the test passes exactly if the
dot product of `q` with the difference of `χ` and the expectation parameters of `q` is within the
tolerances, and `-q` is within the tolerances of the derivatives of the entropy of the natural parameters. -/
theorem C93_gamma_decides {χ : ℝ × ℝ} (hχ : Ring.openMin 0 < χ.1) {rtol atol : ℝ} :
    let q := solve.gamma χ
    let H : ℝ × ℝ → ℝ := fun χ => gamma.entropyN gammaEcm (solve.gamma χ)
    let g₁ := deriv (fun t => H (χ.1 + t, χ.2)) 0
    let g₂ := deriv (fun t => H (χ.1, χ.2 + t)) 0
    Tests.testGammaEntropyGradient (library search) rtol atol
        ((Simple.gamma.kind solve).exp [] (fun _ => ()) fun _ => χ) = .ok () ↔
      |q.1 * ((gamma.toExp q).1 - χ.1) + q.2 * ((gamma.toExp q).2 - χ.2)| ≤ atol + rtol * |H χ| ∧
        |-q.1 - g₁| ≤ atol + rtol * |g₁| ∧ |-q.2 - g₂| ≤ atol + rtol * |g₂| := by
  intro q H g₁ g₂
  obtain ⟨fl, h1, h2⟩ := gamma_flat hs χ
  have hO := C51_library hs (K := Simple.gamma.kind solve) (.simple .gamma)
  have hcross : ∀ (χ q : ℝ × ℝ), ((Simple.gamma.kind solve).exp [] (fun _ => ()) fun _ => χ).crossEntropy (library search)
      ((Simple.gamma.kind solve).nat [] (fun _ => ()) fun _ => q) = ok (scalars [] fun _ => gamma.crossEntropy gammaEcm χ q) :=
    fun χ q => C51_cross_entropy hO trivial [] (fun _ => ()) (fun _ => χ) fun _ => q
  have hnat : ∀ χ : ℝ × ℝ, Ring.openMin 0 < χ.1 →
      ((Simple.gamma.kind solve).exp [] (fun _ => ()) fun _ => χ).toNat (library search).toNat =
        .ok ((Simple.gamma.kind solve).nat [] (fun _ => ()) fun _ => solve.gamma χ) :=
    fun χ h => hO.toNat [] (fun _ => ()) (fun _ => χ) fun _ _ => h
  have hexp : ∀ q : ℝ × ℝ, ((Simple.gamma.kind solve).nat [] (fun _ => ()) fun _ => q).toExp (library search).toExp =
      .ok ((Simple.gamma.kind solve).exp [] (fun _ => ()) fun _ => gamma.toExp q) :=
    fun q => hO.toExp [] (fun _ => ()) (fun _ => q) fun _ _ => trivial
  have hf : ∀ z : ℝ × ℝ, Ring.openMin 0 < z.1 →
      Tests.sumEntropyE (library search) fl (vectors [] fun _ => ![z.1, z.2]) =
        .ok (gamma.crossEntropy gammaEcm z (solve.gamma z)) := fun z hz => by
    unfold Tests.sumEntropyE
    simp only [h2, Dist.entropyE, hnat z hz, Bind.bind, Except.bind, hcross]
    rfl
  have hg : ∀ z : ℝ × ℝ, Ring.openMin 0 < z.1 →
      Tests.entropyThroughNat (library search) fl (vectors [] fun _ => ![z.1, z.2]) = .ok (H z) := fun z hz => by
    unfold Tests.entropyThroughNat
    simp only [h2, Dist.entropyN, hnat z hz, hexp, Bind.bind, Except.bind, hcross]
    rfl
  have hz : ∀ z : ℝ × ℝ, Tests.frozenEntropy (library search) fl (vectors [] fun _ => ![χ.1, χ.2])
      (vectors [] fun _ => ![z.1, z.2]) = .ok (gamma.crossEntropy gammaEcm z q) := fun z => by
    unfold Tests.frozenEntropy
    simp only [h2, hnat χ hχ, Bind.bind, Except.bind, hcross]
    rfl
  have hz' : ∀ a b : ℝ, Tests.frozenEntropy (library search) fl (vectors [] fun _ => ![χ.1, χ.2])
      (vectors [] fun _ => ![a, b]) = .ok (gamma.crossEntropy gammaEcm (a, b) q) := fun a b => hz (a, b)
  have hc : ∀ z : ℝ × ℝ, gamma.crossEntropy gammaEcm z q =
      -(q.1 * z.1 + q.2 * z.2) + gamma.logNormalizer q - 0 := fun z => rfl
  have d1 : Tests.frozenDerivative (library search) fl (vectors [] fun _ => ![χ.1, χ.2])
      (Tests.coordinate (vectors [] fun _ => ![χ.1, χ.2]) 0) = -q.1 := by
    unfold Tests.frozenDerivative Tests.derivativeAlong
    refine HasDerivAt.deriv ?_
    simp only [(gamma_moved χ _).1, hz', hc]
    have := (((((hasDerivAt_id' (0 : ℝ)).const_add χ.1).const_mul q.1).add_const (q.2 * χ.2)).neg.add_const
      (gamma.logNormalizer q)).sub_const 0
    rwa [mul_one] at this
  have d2 : Tests.frozenDerivative (library search) fl (vectors [] fun _ => ![χ.1, χ.2])
      (Tests.coordinate (vectors [] fun _ => ![χ.1, χ.2]) 1) = -q.2 := by
    unfold Tests.frozenDerivative Tests.derivativeAlong
    refine HasDerivAt.deriv ?_
    simp only [(gamma_moved χ _).2, hz', hc]
    have := (((((hasDerivAt_id' (0 : ℝ)).const_add χ.2).const_mul q.2).const_add (q.1 * χ.1)).neg.add_const
      (gamma.logNormalizer q)).sub_const 0
    rwa [mul_one] at this
  have e1 : Tests.derivativeAlong (Tests.entropyThroughNat (library search)) fl (vectors [] fun _ => ![χ.1, χ.2])
      (Tests.coordinate (vectors [] fun _ => ![χ.1, χ.2]) 0) = g₁ := by
    unfold Tests.derivativeAlong
    refine Filter.EventuallyEq.deriv_eq ?_
    have : ∀ᶠ t in 𝓝 (0 : ℝ), Ring.openMin 0 < χ.1 + t :=
      (show ContinuousAt (fun t : ℝ => χ.1 + t) 0 by fun_prop).eventually (lt_mem_nhds (by simpa using hχ))
    refine this.mono fun t ht => ?_
    simp only [(gamma_moved χ _).1, hg (χ.1 + t, χ.2) ht]
  have e2 : Tests.derivativeAlong (Tests.entropyThroughNat (library search)) fl (vectors [] fun _ => ![χ.1, χ.2])
      (Tests.coordinate (vectors [] fun _ => ![χ.1, χ.2]) 1) = g₂ := by
    unfold Tests.derivativeAlong
    refine congrArg (fun f => deriv f 0) (funext fun t => ?_)
    simp only [(gamma_moved χ _).2, hg (χ.1, χ.2 + t) hχ]
  have hv : gamma.crossEntropy gammaEcm χ q - H χ =
      q.1 * ((gamma.toExp q).1 - χ.1) + q.2 * ((gamma.toExp q).2 - χ.2) := by
    change -(q.1 * χ.1 + q.2 * χ.2) + gamma.logNormalizer q - 0 -
      (-(q.1 * (gamma.toExp q).1 + q.2 * (gamma.toExp q).2) + gamma.logNormalizer q - 0) = _
    ring
  have hr : (vectors [] fun _ => ![χ.1, χ.2]).rshape.headD 0 = 2 := rfl
  simp only [Tests.testGammaEntropyGradient, h1, hf χ hχ, hg χ hχ, hr, bind_ok_iff, Except.ok.injEq,
    exists_eq_left', Tests.assertClose, check_iff, forM_ok, ← hv]
  constructor
  · rintro ⟨-, a, b⟩
    have b0 := b 0 (by simp)
    have b1 := b 1 (by simp)
    rw [d1, e1] at b0
    rw [d2, e2] at b1
    exact ⟨a, b0, b1⟩
  · rintro ⟨a, b0, b1⟩
    refine ⟨(), a, fun k hk => ?_⟩
    rcases (by simpa using hk : k < 2) with hk
    interval_cases k
    · rwa [d1, e1]
    · rwa [d2, e2]

end

/-! ### Examples -/

/-- Non-vacuity of C93: three exponential distributions.  The stopped gradient of their entropies passes in all
directions. -/
example (hs : solve.For search) {d : Dist Cls}
    (hd : ((Simple.exponential.kind solve).nat [3] (fun _ => ()) Samples.rates).toExp (library search).toExp = .ok d) :
    ∃ fl y, flatten d false = .ok (fl, y) ∧ ∀ δ : Arr ℝ, δ.rshape = y.rshape →
      Tests.frozenDerivative (library search) fl y δ =
        Tests.derivativeAlong (Tests.sumEntropyE (library search)) fl y δ ∧
      ∀ᶠ ε in 𝓝[>] (0 : ℝ), Tests.testExpEntropyGradient (library search) ε d δ = .ok () :=
  C93_closed hs (.simple .exponential nofun nofun nofun nofun) trivial
    (fun i _ => ⟨trivial, Samples.rates_neg i⟩) (fun l h => by rw [List.mem_singleton.1 h]; exact trivial) hd

/-- Non-vacuity of the hypothesis: `to_exp()` of these distributions returns. -/
example (hs : solve.For search) : ∃ d,
    ((Simple.exponential.kind solve).nat [3] (fun _ => ()) Samples.rates).toExp (library search).toExp = .ok d :=
  ⟨_, (C51_library hs (.simple .exponential)).toExp [3] _ _ fun _ _ => trivial⟩

/-- Non-vacuity of C93: the distribution of `test_gamma_vp_entropy_gradient`, with a root finder that
returns the roots. -/
example {rtol atol : ℝ} (hrt : 0 ≤ rtol) (hat : 0 ≤ atol) :
    ∃ d, ((Simple.gamma.kind (solverOf exactMinimizer)).nat [] (fun _ => ()) fun _ =>
        gammaVarToNat (1, 0.25)).toExp (library (searchFor exactMinimizer)).toExp = .ok d ∧
      Tests.testGammaEntropyGradient (library (searchFor exactMinimizer)) rtol atol d = .ok () := by
  have hs := C51_search exactMinimizer_returns
  have h := (C51_library hs (.simple .gamma)).toExp [] (fun _ => ()) (fun _ => gammaVarToNat (1, 0.25))
    fun _ _ => trivial
  refine ⟨_, h, C93_gamma hs (fun q hq => exact_gamma hq) (gammaVarToNat_mem one_pos (by norm_num)) ?_ h hrt hat⟩
  have := MachEps.lt
  simp only [gamma, gammaVarToNat, Samples.openMin_zero]
  norm_num
  linarith

/-- Non-vacuity of C93: `test_gamma_vp_entropy_gradient` detects a root finder that returns zero. -/
example {rtol atol : ℝ} (h : atol ≤ 0.1) :
    Tests.testGammaEntropyGradient (library (searchFor zeroMinimizer)) rtol atol
      ((Simple.gamma.kind (solverOf zeroMinimizer)).exp [] (fun _ => ()) fun _ => gammaVarToExp (1, 0.25)) ≠ .ok () := by
  have hs := C51_search zeroMinimizer_returns
  have hm : Ring.openMin 0 < (gammaVarToExp (1, 0.25)).1 := by
    have := MachEps.lt
    simp only [gammaVarToExp, gamma, gammaVarToNat, Samples.openMin_zero]
    norm_num
    linarith
  intro hok
  obtain ⟨-, -, h2⟩ := (C93_gamma_decides hs hm).1 hok
  have hz : ∀ χ : ℝ × ℝ, (solverOf zeroMinimizer).gamma χ = gammaSearchToNatural χ 0 := fun χ =>
    congrArg (gammaSearchToNatural χ) (Arr.ofFn_get rfl)
  simp only [hz] at h2
  have hc : ∀ t : ℝ, gammaSearchToNatural ((gammaVarToExp (1, 0.25)).1, (gammaVarToExp (1, 0.25)).2 + t) 0 =
      gammaSearchToNatural (gammaVarToExp (1, 0.25)) 0 := fun _ => rfl
  simp only [hc, deriv_const, abs_zero, mul_zero, add_zero, sub_zero] at h2
  have hl : (gammaSearchToNatural (gammaVarToExp (1, 0.25)) 0).2 = Real.log 2 - 1 := by
    simp only [gammaSearchToNatural, softplus, Real.exp_zero]
    norm_num
  rw [hl] at h2
  have := Real.log_two_lt_d9
  have := le_abs_self (-(Real.log 2 - 1))
  norm_num at h this h2
  linarith

end Efax
