import Verif.Lemmas.EntropyGradient
import Verif.Props.FisherJoint
import Verif.Model.Tests.Bodies8

/-!
# C90: the gradient of the entropy
-/

namespace Efax

open MeasureTheory Spec Filter Topology Calc

variable [MachEps] {solve : Solver} {search : Cls → List Val → Except Err (List Val)}
  (hs : solve.For search) {K : Kind Cls} {S : Setting K} {rs : List ℕ} {p : List ℕ → K.P}

/-- What `deriv_entropy` needs, for one entry. -/
theorem carried_or {q v : List ℕ → K.N}
    (hx : DirectSetting solve K S ∨ ∀ᶠ t in 𝓝 (0 : ℝ), Found K rs p fun i => S.line (q i) (v i) t) {i : List ℕ}
    (hi : inB rs i = true) :
    S.Carried ∨ ∀ᶠ t in 𝓝 (0 : ℝ),
      K.toNat (p i) ((K.F (p i)).toExp (S.line (q i) (v i) t)) = S.line (q i) (v i) t :=
  hx.imp direct_carried fun h => h.mono fun _ ht => ht i hi

include hs

/-- **C90.** The derivative of `entropy()` of natural parameters, in every direction within the family, is the
covariance of the surprise `-log(pdf)` and of the sufficient statistics paired with the direction.  The
chi and chi-square distributions, whose expected carrier measure converts to natural parameters by a search, need
a search that finds them. -/
theorem C90_entropy (hK : LibrarySetting solve K S) {q v : List ℕ → K.N} {f : List ℕ → K.X → ℝ}
    (hq : S.Inside rs p q) (hm : EachLeaf (fun c _ => HasEcm c) (K.nat rs p q))
    (hv : ∀ i, inB rs i = true → v i ∈ S.dirs)
    (hx : DirectSetting solve K S ∨ ∀ᶠ t in 𝓝 (0 : ℝ), Found K rs p fun i => S.line (q i) (v i) t)
    (hf : PdfIs (library search) K rs (K.nat rs p q) f) : letI := S.ms
    ∃ s, ∃ e : ℝ → List ℕ → ℝ, StatisticIs (library search) K rs (K.nat rs p q) (K.nat rs p v) s ∧
      (∀ t : ℝ, (K.nat rs p fun i => S.line (q i) (v i) t).entropyN (library search) = ok (scalars rs (e t))) ∧
      ∀ i, inB rs i = true → ∃ c, HasCov S.μ (f i) (fun x => -Real.log (f i x)) (s i) c ∧
        HasDerivAt (fun t => e t i) c 0 := by
  have h := C51_library hs hK.kind
  have he := ecm_ent_nat hK.kind hm
  refine ⟨fun i x => (K.F (p i)).dot (v i) ((K.F (p i)).stat x),
    fun t i => (K.F (p i)).entropyN (K.ecm (p i)) (S.line (q i) (v i) t),
    fun x t ht => statistic_eq hs hK ht,
    fun t => C51_entropy_natural h he rs p _ fun i _ => ent_dom hK.kind he _ _, fun i hi => ?_⟩
  rw [pdfIs_eq hs hK hf hi]
  exact (library_lawful hK).deriv_entropy he (hq i hi).1 (hq i hi).2 (hv i hi) (carried_or hx hi)

omit hs [MachEps] in
theorem hasDerivAt_sumBox : (rs : List ℕ) → {e : ℝ → List ℕ → ℝ} → {c : List ℕ → ℝ} →
    (∀ i, inB rs i = true → HasDerivAt (fun t => e t i) (c i) 0) →
    HasDerivAt (fun t => sumBox rs (e t)) (sumBox rs c) 0
  | [], _, _, h => h [] rfl
  | n :: rs, e, c, h => HasDerivAt.fun_sum fun k hk => hasDerivAt_sumBox rs fun i hi =>
      h (k :: i) ((inB_cons ..).2 ⟨Finset.mem_range.1 hk, hi⟩)

omit hs [MachEps] in
theorem sumBox_congr : (rs : List ℕ) → {g h : List ℕ → ℝ} → (∀ i, inB rs i = true → g i = h i) →
    sumBox rs g = sumBox rs h
  | [], _, _, e => e [] rfl
  | n :: rs, _, _, e => Finset.sum_congr rfl fun k hk => sumBox_congr rs fun i hi =>
      e (k :: i) ((inB_cons ..).2 ⟨Finset.mem_range.1 hk, hi⟩)

omit hs [MachEps] in
theorem movedBy_vectors {n : ℕ} (y z : List ℕ → Fin n → ℝ) (t : ℝ) :
    Tests.movedBy (vectors rs y) (vectors rs z) t = vectors rs fun i => y i + t • z i := by
  refine Arr.ext rfl fun j hj => ?_
  have hj : inB (n :: rs) j = true := hj
  obtain ⟨k, i, rfl, hk, hi⟩ := inB_cons_elim hj
  have e : (Tests.movedBy (vectors rs y) (vectors rs z) t).get (k :: i) =
    (vectors rs y).get (k :: i) + t * (vectors rs z).get (k :: i) := Arr.ofFn_get hj
  rw [e, Calc.vectors_get _ hk hi, Calc.vectors_get _ hk hi, Calc.vectors_get _ hk hi]
  rfl

/-- **C90.** The gradient that `test_nat_entropy_gradient` computes: the sum of the entropies of a batch, as a
function of its flat array, has in every direction `δ` of the array the derivative that is the sum over the batch
of the covariances of the surprise and of the statistics paired with the direction. -/
theorem C90_flat (hK : FlatSetting solve K S) {q : List ℕ → K.N} {f : List ℕ → K.X → ℝ}
    (hq : S.Inside rs p q) (hm : EachLeaf (fun c _ => HasEcm c) (K.nat rs p q))
    (hx : DirectSetting solve K S ∨
      ∀ v : List ℕ → K.N, ∀ᶠ t in 𝓝 (0 : ℝ), Found K rs p fun i => S.line (q i) (v i) t)
    (hf : PdfIs (library search) K rs (K.nat rs p q) f) : letI := S.ms
    ∃ fl y, flatten (K.nat rs p q) false = .ok (fl, y) ∧ ∀ δ : Arr ℝ, δ.rshape = y.rshape →
      ∃ d s c, ∃ e : ℝ → ℝ, fl.unflatten δ = .ok d ∧ StatisticIs (library search) K rs (K.nat rs p q) d s ∧
        (∀ i, inB rs i = true → HasCov S.μ (f i) (fun x => -Real.log (f i x)) (s i) (c i)) ∧
        (∀ t, Tests.sumEntropy (library search) fl (Tests.movedBy y δ t) = .ok (e t)) ∧
        HasDerivAt e (sumBox rs c) 0 := by
  have hE := fun v => C90_entropy hs (flat_library hK) (v := v) (f := f) hq hm
  obtain ⟨n, hc⟩ := hasCoords hs (flat_coord hK)
  have hO := C51_library hs (flat_library hK).kind
  have he := ecm_ent_nat (flat_library hK).kind hm
  have hd := ent_dom (flat_library hK).kind he
  have hx' : ∀ v : List ℕ → K.N, DirectSetting solve K S ∨
      ∀ᶠ t in 𝓝 (0 : ℝ), Found K rs p fun i => S.line (q i) (v i) t := fun v => hx.imp_right fun h => h v
  obtain ⟨G, M, MS, μ, ok, dom, dirs, closed⟩ := S
  obtain ⟨good, g, h1, h2, -, -⟩ := hc
  have hg : ∀ i, inB rs i = true → good (q i) := fun i hi => h1 _ _ (hq i hi).1 (hq i hi).2
  obtain ⟨l, hl⟩ := g.infos []
  refine ⟨_, _, g.flatten_eq hO.wfN hl rs p q hg, fun δ hδ => ?_⟩
  obtain ⟨z, rfl⟩ : ∃ z : List ℕ → Fin n → ℝ, δ = vectors rs z := ⟨_, Arr.eq_vectors hδ⟩
  obtain ⟨s, e, e1, e2, e3⟩ := hE (fun i => g.dec (z i)) (fun i _ => h2 trivial _) (hx' _) hf
  choose! c c1 c2 using e3
  refine ⟨_, s, c, fun t => sumBox rs (e t), g.unflatten_eq hO.wfN hl rs p q z, e1, c1, fun t => ?_,
    hasDerivAt_sumBox rs c2⟩
  have hu := g.unflatten_eq hO.wfN hl rs p q fun i => g.enc (q i) + t • z i
  rw [movedBy_vectors]
  unfold Tests.sumEntropy
  rw [hu]
  change (do
    let e ← (K.nat rs p fun i => g.dec (g.enc (q i) + t • z i)).entropyN (library search)
    Except.ok (sumBox e.rshape e.get)) = _
  have hn : (K.nat rs p fun i => g.dec (g.enc (q i) + t • z i)).entropyN (library search) =
      (K.nat rs p fun i => q i + t • g.dec (z i)).entropyN (library search) := by
    rw [C51_entropy_natural hO he rs p _ fun i _ => hd _ _, C51_entropy_natural hO he rs p _ fun i _ => hd _ _]
    refine ok_ofFn_congr fun i hi => ?_
    rw [map_add, map_smul, g.dec_enc _ (hg i hi)]
  rw [hn]
  change ((K.nat rs p fun i => q i + t • g.dec (z i)).entropyN (library search) >>= _) = _
  erw [e2 t]
  refine congrArg Except.ok (sumBox_congr rs fun i hi => Arr.ofFn_get hi)

omit hs [MachEps] in
/-- Central differences tend to the derivative. -/
theorem central_tendsto {e : ℝ → ℝ} {g : ℝ} (h : HasDerivAt e g 0) :
    Tendsto (fun ε => (e ε - e (-ε)) / (2 * ε)) (𝓝[>] 0) (𝓝 g) := by
  have h1 : HasDerivAt (fun t => e (-t)) (-g) 0 := by
    have h' : HasDerivAt e g (-0) := by rwa [neg_zero]
    have := HasDerivAt.comp (0 : ℝ) h' (hasDerivAt_neg' 0)
    rw [mul_neg_one] at this
    exact this
  have h2 : HasDerivAt (fun t => (e t - e (-t)) / 2) g 0 := by
    exact ((h.fun_sub h1).div_const 2).congr_deriv (by ring)
  have h3 := h2.tendsto_slope_zero_right
  refine h3.congr fun ε => ?_
  simp only [zero_add, neg_zero, sub_self, zero_div, sub_zero, smul_eq_mul]
  rw [div_eq_inv_mul, div_eq_inv_mul, mul_inv, ← mul_assoc, mul_comm ε⁻¹]

omit hs in
theorem check_central {f : Flattener Cls → Arr ℝ → Except Err ℝ} {d : Dist Cls} {fl : Flattener Cls} {y δ : Arr ℝ}
    {e : ℝ → ℝ} {g : ℝ} (h1 : flatten d false = .ok (fl, y)) (h2 : ∀ t, f fl (Tests.movedBy y δ t) = .ok (e t))
    (h3 : HasDerivAt e g 0) (D : Flattener Cls → Arr ℝ → Arr ℝ → ℝ) :
    (|D fl y δ - g| < 1e-4 + 1e-2 * |g| →
      ∀ᶠ ε in 𝓝[>] (0 : ℝ), Tests.checkEntropyGradient f D ε d δ = .ok ()) ∧
    (1e-4 + 1e-2 * |g| < |D fl y δ - g| →
      ∀ᶠ ε in 𝓝[>] (0 : ℝ), Tests.checkEntropyGradient f D ε d δ = .error .assertionError) ∧
    Tests.derivativeAlong f fl y δ = g := by
  have hy : ∃ a, f fl y = .ok a := by
    have : Tests.movedBy y δ 0 = y := Arr.ext rfl fun i hi => by
      have hi : inB y.rshape i = true := hi
      have e : (Tests.movedBy y δ 0).get i = y.get i + 0 * δ.get i := Arr.ofFn_get hi
      rw [e, zero_mul, add_zero]
    exact ⟨_, this ▸ h2 0⟩
  obtain ⟨a, ha⟩ := hy
  have key : ∀ ε, Tests.checkEntropyGradient f D ε d δ =
      Tests.check (|D fl y δ - (e ε - e (-ε)) / (2 * ε)| ≤ 1e-4 + 1e-2 * |(e ε - e (-ε)) / (2 * ε)|) := fun ε => by
    simp only [Tests.checkEntropyGradient, Tests.numericalDerivative, h1, ha, h2, Bind.bind, Except.bind]
  have hc := central_tendsto h3
  have l1 := (tendsto_const_nhds (x := D fl y δ)).sub hc |>.abs
  have l2 := (hc.abs.const_mul 1e-2).const_add 1e-4
  refine ⟨fun h => ?_, fun h => ?_, ?_⟩
  · filter_upwards [l1.eventually_lt l2 h] with ε hε
    rw [key, Tests.check, if_pos hε.le]
  · filter_upwards [l2.eventually_lt l1 h] with ε hε
    rw [key, Tests.check, if_neg (not_le.2 hε)]
  · unfold Tests.derivativeAlong
    exact (congrArg (fun e => deriv e 0) (funext fun t => by simp only [h2])).trans h3.deriv

/-- **C90.** What `test_nat_entropy_gradient` decides, in every direction `δ`.  Let `g` be the sum of the
covariances of the surprise and the statistics.  For all small steps of the central difference, the test passes
if the derivative that is computed is within the tolerances of `g`, and fails if it is not.  The derivative of
`sum_entropy` is `g`, and passes. -/
theorem C90_test (hK : FlatSetting solve K S) {q : List ℕ → K.N} {f : List ℕ → K.X → ℝ}
    (hq : S.Inside rs p q) (hm : EachLeaf (fun c _ => HasEcm c) (K.nat rs p q))
    (hx : DirectSetting solve K S ∨
      ∀ v : List ℕ → K.N, ∀ᶠ t in 𝓝 (0 : ℝ), Found K rs p fun i => S.line (q i) (v i) t)
    (hf : PdfIs (library search) K rs (K.nat rs p q) f) : letI := S.ms
    ∃ fl y, flatten (K.nat rs p q) false = .ok (fl, y) ∧ ∀ δ : Arr ℝ, δ.rshape = y.rshape →
      ∃ d s c, fl.unflatten δ = .ok d ∧ StatisticIs (library search) K rs (K.nat rs p q) d s ∧
        (∀ i, inB rs i = true → HasCov S.μ (f i) (fun x => -Real.log (f i x)) (s i) (c i)) ∧
        (∀ D : Flattener Cls → Arr ℝ → Arr ℝ → ℝ,
          (|D fl y δ - sumBox rs c| < 1e-4 + 1e-2 * |sumBox rs c| → ∀ᶠ ε in 𝓝[>] (0 : ℝ),
            Tests.checkEntropyGradient (Tests.sumEntropy (library search)) D ε (K.nat rs p q) δ = .ok ()) ∧
          (1e-4 + 1e-2 * |sumBox rs c| < |D fl y δ - sumBox rs c| → ∀ᶠ ε in 𝓝[>] (0 : ℝ),
            Tests.checkEntropyGradient (Tests.sumEntropy (library search)) D ε (K.nat rs p q) δ =
              .error .assertionError)) ∧
        ∀ᶠ ε in 𝓝[>] (0 : ℝ), Tests.checkEntropyGradient (Tests.sumEntropy (library search))
          (Tests.derivativeAlong (Tests.sumEntropy (library search))) ε (K.nat rs p q) δ = .ok () := by
  obtain ⟨fl, y, h1, h2⟩ := C90_flat hs hK hq hm hx hf
  refine ⟨fl, y, h1, fun δ hδ => ?_⟩
  obtain ⟨d, s, c, e, e1, e2, e3, e4, e5⟩ := h2 δ hδ
  have key := check_central h1 e4 e5
  refine ⟨d, s, c, e1, e2, e3, fun D => ⟨(key D).1, (key D).2.1⟩, (key _).1 ?_⟩
  rw [(key fun _ _ _ => 0).2.2, sub_self, abs_zero]
  positivity

end Efax

namespace Efax

open MeasureTheory Spec Filter Topology Calc

variable [MachEps] {solve : Solver} {search : Cls → List Val → Except Err (List Val)}

/-! ### Examples -/

/-- Natural parameters of exponential distributions. -/
def Samples.rates (i : List ℕ) : ℝ := -1 - (i.headD 0 : ℝ)

theorem Samples.rates_neg (i : List ℕ) : Samples.rates i < 0 := by
  have : (0 : ℝ) ≤ (i.headD 0 : ℝ) := Nat.cast_nonneg _
  unfold Samples.rates
  linarith

/-- Non-vacuity of C90: three exponential distributions.  The derivative of their entropies passes in all
directions for small steps; a derivative that is too large does not. -/
example (hs : solve.For search) :
    let d := (Simple.exponential.kind solve).nat [3] (fun _ => ()) Samples.rates
    ∃ fl y, flatten d false = .ok (fl, y) ∧ ∀ δ : Arr ℝ, δ.rshape = y.rshape →
      (∀ᶠ ε in 𝓝[>] (0 : ℝ), Tests.checkEntropyGradient (Tests.sumEntropy (library search))
        (Tests.derivativeAlong (Tests.sumEntropy (library search))) ε d δ = .ok ()) ∧
      ∃ D, ∀ᶠ ε in 𝓝[>] (0 : ℝ), Tests.checkEntropyGradient (Tests.sumEntropy (library search)) D ε d δ =
        .error .assertionError := by
  intro d
  have hK : FlatSetting solve _ _ := .simple .exponential nofun
  have hD : DirectSetting solve _ _ := .simple .exponential nofun nofun
  have hi : (Simple.exponential.setting solve).Inside [3] (fun _ => ()) Samples.rates :=
    fun i _ => ⟨trivial, Samples.rates_neg i⟩
  obtain ⟨f, hf, -⟩ := C68_pdf hs (flat_library hK) hi
  obtain ⟨fl, y, h1, h2⟩ := C90_test hs hK hi
    (fun l h => by rw [List.mem_singleton.1 h]; exact trivial) (.inl hD) hf
  refine ⟨fl, y, h1, fun δ hδ => ?_⟩
  obtain ⟨_, _, c, -, -, -, h3, h4⟩ := h2 δ hδ
  refine ⟨h4, fun _ _ _ => sumBox [3] c + (1 + |sumBox [3] c|), (h3 _).2 ?_⟩
  have := abs_nonneg (sumBox [3] c)
  have h := le_abs_self (1 + |sumBox [3] c|)
  rw [add_sub_cancel_left]
  linarith

/-- Non-vacuity of C90: a joint distribution of a normal and an exponential distribution. -/
example (hs : solve.For search) :
    let l : List (String × Σ K : Kind Cls, Setting K) :=
      [("x", ⟨_, Simple.normal.setting solve⟩), ("y", ⟨_, Simple.exponential.setting solve⟩)]
    let K := Kind.joint .jointN .jointE (.ofList (partsOf l))
    ∃ e : ℝ → List ℕ → ℝ, (∀ t : ℝ, (K.nat [3] (fun _ => ((), (), ()))
        fun i => ((t, -1), (Samples.rates i, ()))).entropyN (library search) = ok (scalars [3] (e t))) ∧
      DifferentiableAt ℝ (fun t => e t [1]) 0 := by
  intro l K
  have h1 : DirectSetting solve _ (Simple.normal.setting solve) := .simple .normal nofun nofun
  have h2 : DirectSetting solve _ (Simple.exponential.setting solve) := .simple .exponential nofun nofun
  have hD : DirectSetting solve K (Setting.joint .jointN .jointE (Settings.ofList l)) :=
    .joint (List.cons_ne_nil _ _) (by simp [l]) fun s hs => by
      simp only [l, List.mem_cons, List.not_mem_nil, or_false] at hs
      rcases hs with rfl | rfl
      · exact h1
      · exact h2
  have hL := direct_library hD
  have hi : (Setting.joint .jointN .jointE (Settings.ofList l)).Inside [3] (fun _ => ((), (), ()))
      fun i => (((0 : ℝ), (-1 : ℝ)), (Samples.rates i, ())) :=
    fun i _ => ⟨⟨trivial, trivial, trivial⟩, show (-1 : ℝ) < 0 by norm_num, Samples.rates_neg i, trivial⟩
  obtain ⟨f, hf, -⟩ := C68_pdf hs hL hi
  obtain ⟨_, e, -, h3, h4⟩ := C90_entropy hs hL (v := fun _ => ((((1 : ℝ), (0 : ℝ)), ((0 : ℝ), ())))) hi
    (fun l h => by
      rcases List.mem_cons.1 h with rfl | h
      · exact trivial
      · rw [List.mem_singleton.1 h]; exact trivial)
    (fun _ _ => ⟨trivial, trivial, trivial⟩) (.inl hD) hf
  refine ⟨e, fun t => ?_, ?_⟩
  · have := h3 t
    rw [← this]
    refine congrArg (fun q => (K.nat [3] (fun _ => ((), (), ())) q).entropyN (library search)) (funext fun i => ?_)
    change _ = (((0 : ℝ), (-1 : ℝ)), (Samples.rates i, ())) + t • (((1 : ℝ), (0 : ℝ)), ((0 : ℝ), ()))
    simp
    rfl
  · obtain ⟨_, -, h⟩ := h4 [1] rfl
    exact h.differentiableAt

end Efax
