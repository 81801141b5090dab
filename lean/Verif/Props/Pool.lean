import Verif.Lemmas.ConvexMeans
import Verif.Lemmas.MeanSpace
import Verif.Props.RoundTrip
import Verif.Props.Average
import Verif.Props.Consistent
import Verif.Lemmas.Families.VmfMean

/-!
# C105: averages of expectation parameters belong to distributions

The averages of the expectation parameters of two distributions, with little weight on the second, are the expectation
parameters of a distribution near the first.  Some averages are of none: the average of two opposite von Mises-Fisher
distributions is 0, which is the expectation parameter of the uniform distribution, outside of the domain.
-/

namespace Efax

open MeasureTheory Spec Calc ClassTable Filter Topology

variable [MachEps] {solve : Solver} {search : Cls → List Val → Except Err (List Val)}

omit [MachEps] in
theorem Spec.Setting.Lawful.pool {C : Type} {K : Kind C} {S : Setting K} (h : S.Lawful) (ho : S.Open)
    {p : K.P} (hp : S.ok p) {q q' : K.N} (hq : q ∈ S.dom p) {ε : ℝ} (hε : 0 < ε) : letI := S.grp
    letI := S.mod
    ∀ f : K.N →ₗ[ℝ] ℝ, ∀ᶠ t in 𝓝 (0 : ℝ), ∃ r ∈ S.dom p, |f r - f q| < ε ∧
      ∀ w ∈ S.dirs, (K.F p).dot w ((K.F p).toExp r) =
        (1 - t) * (K.F p).dot w ((K.F p).toExp q) + t * (K.F p).dot w ((K.F p).toExp q') := by
  have h1 := h.regular p hp
  have h2 := h.minimal p hp
  have h3 := ho.isOpen p hp
  have h4 := ho.fg
  obtain ⟨G, M, MS, μ, ok, dom, dirs, closed⟩ := S
  intro f
  obtain ⟨n, b, η, hb, hη, h⟩ := h1.mean_space h2 h3 h4 hq f hε
  have near : ∀ k, ∀ᶠ t in 𝓝 (0 : ℝ), |((1 - t) * (K.F p).dot (b k) ((K.F p).toExp q) +
      t * (K.F p).dot (b k) ((K.F p).toExp q')) - (K.F p).dot (b k) ((K.F p).toExp q)| < η := fun k => by
    have : Continuous fun t : ℝ => |((1 - t) * (K.F p).dot (b k) ((K.F p).toExp q) +
      t * (K.F p).dot (b k) ((K.F p).toExp q')) - (K.F p).dot (b k) ((K.F p).toExp q)| := by fun_prop
    exact (this.tendsto 0).eventually (gt_mem_nhds (by simpa using hη))
  filter_upwards [eventually_all.2 near] with t ht
  refine h _ (fun c => ?_) fun k => (ht k).le
  simp only [h1.dot_sum, Finset.mul_sum, ← Finset.sum_add_distrib]
  exact Finset.sum_congr rfl fun k _ => by ring

theorem library_averages {K : Kind Cls} {S : Setting K} (h : LibrarySetting solve K S) : S.Averages := by
  induction h with
  | simple s => exact simple_averages s
  | joint h0 hn hS ih => exact Settings.Averages.ofList _ ih fun s hs => library_lawful (hS s hs)

section

variable (hs : solve.For search) {K : Kind Cls} {S : Setting K} (hK : LibrarySetting solve K S)
  {rs : List ℕ} {p : List ℕ → K.P}

include hs hK

/-- The average of the expectation parameters is that of the distribution from which the weighted divergences are least. -/
theorem pooled_least (t : ℝ) {a b r c : List ℕ → K.N} (hra : EachLeaf RegularVals (K.nat rs p a))
    (hrb : EachLeaf RegularVals (K.nat rs p b)) (hin : S.Inside rs p r)
    (hr : ∀ i, inB rs i = true → ∀ w ∈ (letI := S.grp; letI := S.mod; S.dirs), (K.F (p i)).dot w ((K.F (p i)).toExp (r i)) =
      (1 - t) * (K.F (p i)).dot w ((K.F (p i)).toExp (a i)) + t * (K.F (p i)).dot w ((K.F (p i)).toExp (b i)))
    (hc : S.Inside rs p c) : ∃ ac bc ar br,
        (K.nat rs p a).klN (library search) (K.nat rs p c) = ok (scalars rs ac) ∧
        (K.nat rs p b).klN (library search) (K.nat rs p c) = ok (scalars rs bc) ∧
        (K.nat rs p a).klN (library search) (K.nat rs p r) = ok (scalars rs ar) ∧
        (K.nat rs p b).klN (library search) (K.nat rs p r) = ok (scalars rs br) ∧
        ∀ i, inB rs i = true → (1 - t) * ar i + t * br i ≤ (1 - t) * ac i + t * bc i ∧
          ((1 - t) * ar i + t * br i = (1 - t) * ac i + t * bc i ↔ r i = c i) := by
  have h := C51_library hs hK.kind
  have hL := library_lawful hK
  refine ⟨_, _, _, _, C51_kl_natural h rs p a c (regular_dom hK.kind hra),
    C51_kl_natural h rs p b c (regular_dom hK.kind hrb), C51_kl_natural h rs p a r (regular_dom hK.kind hra),
    C51_kl_natural h rs p b r (regular_dom hK.kind hrb), fun i hi => ?_⟩
  have k1 := hr i hi _ (hL.mem_dirs (hin i hi).1 (hin i hi).2)
  have k2 := hr i hi _ (hL.mem_dirs (hc i hi).1 (hc i hi).2)
  obtain ⟨-, g1, g2⟩ := hL.kl (hin i hi).1 (hin i hi).2 (hc i hi).2
  have key : (1 - t) * (K.F (p i)).kl (a i) (c i) + t * (K.F (p i)).kl (b i) (c i) =
      (1 - t) * (K.F (p i)).kl (a i) (r i) + t * (K.F (p i)).kl (b i) (r i) + (K.F (p i)).kl (r i) (c i) := by
    simp only [ExpFam.kl, ExpFam.klWith, h.dot_sub] at *
    rw [k1, k2]
    ring
  refine ⟨by linarith, ?_⟩
  rw [← g2]
  constructor <;> intro e <;> linarith

/-- **C105.** For all small weights `t` the average of the expectation parameters of `a` and `b` is, paired with all
directions, the expectation parameters of a distribution `r` near `a`; `r` is the only distribution from which the
weighted divergences of `a` and `b` are least. -/
theorem C105_pooled {a b : List ℕ → K.N} (ha : S.Inside rs p a)
    (hra : EachLeaf RegularVals (K.nat rs p a)) (hrb : EachLeaf RegularVals (K.nat rs p b)) :
    letI := S.grp
    letI := S.mod
    ∀ (f : K.N →ₗ[ℝ] ℝ) (ε : ℝ), 0 < ε → ∃ T > 0, ∀ t, |t| < T → ∃ ea eb e d r,
      (K.nat rs p a).toExp (library search).toExp = .ok ea ∧
      (K.nat rs p b).toExp (library search).toExp = .ok eb ∧
      paramMap (addScaled (-t)) ea [ea] = .ok e ∧ paramMap (addScaled t) e [eb] = .ok d ∧
      S.Inside rs p r ∧ (∀ i, inB rs i = true → |f (r i) - f (a i)| < ε) ∧
      (∀ v : List ℕ → K.N, (∀ i, inB rs i = true → v i ∈ S.dirs) →
        dotCalc (K.nat rs p v) (K.exp rs p fun i => (K.F (p i)).toExp (r i)) = dotCalc (K.nat rs p v) d) ∧
      ∀ c, S.Inside rs p c → ∃ ac bc ar br,
        (K.nat rs p a).klN (library search) (K.nat rs p c) = ok (scalars rs ac) ∧
        (K.nat rs p b).klN (library search) (K.nat rs p c) = ok (scalars rs bc) ∧
        (K.nat rs p a).klN (library search) (K.nat rs p r) = ok (scalars rs ar) ∧
        (K.nat rs p b).klN (library search) (K.nat rs p r) = ok (scalars rs br) ∧
        ∀ i, inB rs i = true → (1 - t) * ar i + t * br i ≤ (1 - t) * ac i + t * bc i ∧
          ((1 - t) * ar i + t * br i = (1 - t) * ac i + t * bc i ↔ r i = c i) := by
  classical
  have h := C51_library hs hK.kind
  have hL := library_lawful hK
  let := S.grp
  let := S.mod
  intro f ε hε
  have hev : ∀ᶠ t in 𝓝 (0 : ℝ), ∀ i ∈ box rs, ∃ r ∈ S.dom (p i), |f r - f (a i)| < ε ∧
      ∀ w ∈ S.dirs, (K.F (p i)).dot w ((K.F (p i)).toExp r) = (1 - t) * (K.F (p i)).dot w ((K.F (p i)).toExp (a i)) +
        t * (K.F (p i)).dot w ((K.F (p i)).toExp (b i)) := by
    rw [Filter.eventually_all_finset]
    intro i hi
    have hi' := mem_box.1 hi
    exact hL.pool (library_open hK) (ha i hi').1 (ha i hi').2 hε f
  obtain ⟨T, hT, hev⟩ := Metric.eventually_nhds_iff.1 hev
  refine ⟨T, hT, fun t ht => ?_⟩
  have hev := @hev t (by simpa using ht)
  have hr : ∀ i, ∃ r : K.N, inB rs i = true → r ∈ S.dom (p i) ∧ |f r - f (a i)| < ε ∧
      ∀ w ∈ S.dirs, (K.F (p i)).dot w ((K.F (p i)).toExp r) = (1 - t) * (K.F (p i)).dot w ((K.F (p i)).toExp (a i)) +
        t * (K.F (p i)).dot w ((K.F (p i)).toExp (b i)) := fun i => by
    by_cases hi : inB rs i = true
    · obtain ⟨r, hr⟩ := hev i (mem_box.2 hi)
      exact ⟨r, fun _ => hr⟩
    · exact ⟨0, fun h => absurd h hi⟩
  choose r hr using hr
  have hin : S.Inside rs p r := fun i hi => ⟨(ha i hi).1, (hr i hi).1⟩
  obtain ⟨ea, eb, e, χ, h1, h2, h3, h4, h5⟩ := exp_average hs hK t hra hrb
  refine ⟨ea, eb, e, _, r, h1, h2, h3, h4, hin, fun i hi => (hr i hi).2.1, fun v hv => ?_, fun c hc => ?_⟩
  · rw [h.dotCalc, h.dotCalc]
    exact congrArg ok (scalars_congr fun i hi => by rw [(hr i hi).2.2 _ (hv i hi), h5])
  exact pooled_least hs hK t hra hrb hin (fun i hi => (hr i hi).2.2) hc

/-- **C105.** For the families whose `to_nat()` is a closed form and joint distributions of them, `to_nat()` converts the
average of the expectation parameters of `a` and `b` with any weight `t` between 0 and 1, to the distribution from which
the weighted divergences of `a` and `b` are least. -/
theorem C105_converted (hcl : S.closed) {t : ℝ} (h0 : 0 ≤ t) (h1 : t ≤ 1) {a b : List ℕ → K.N} (ha : S.Inside rs p a)
    (hb : S.Inside rs p b) (hra : EachLeaf RegularVals (K.nat rs p a)) (hrb : EachLeaf RegularVals (K.nat rs p b)) :
    ∃ ea eb e d r, (K.nat rs p a).toExp (library search).toExp = .ok ea ∧
      (K.nat rs p b).toExp (library search).toExp = .ok eb ∧
      paramMap (addScaled (-t)) ea [ea] = .ok e ∧ paramMap (addScaled t) e [eb] = .ok d ∧
      d.toNat (library search).toNat = .ok (K.nat rs p r) ∧ S.Inside rs p r ∧
      (K.nat rs p r).toExp (library search).toExp = .ok d ∧
      ∀ c, S.Inside rs p c → ∃ ac bc ar br,
        (K.nat rs p a).klN (library search) (K.nat rs p c) = ok (scalars rs ac) ∧
        (K.nat rs p b).klN (library search) (K.nat rs p c) = ok (scalars rs bc) ∧
        (K.nat rs p a).klN (library search) (K.nat rs p r) = ok (scalars rs ar) ∧
        (K.nat rs p b).klN (library search) (K.nat rs p r) = ok (scalars rs br) ∧
        ∀ i, inB rs i = true → (1 - t) * ar i + t * br i ≤ (1 - t) * ac i + t * bc i ∧
          ((1 - t) * ar i + t * br i = (1 - t) * ac i + t * bc i ↔ r i = c i) := by
  have h := C51_library hs hK.kind
  obtain ⟨ea, eb, e, χ, k1, k2, k3, k4, k5⟩ := exp_average hs hK t hra hrb
  have key := fun i hi => library_averages hK hcl (p i) (ha i hi).1 (a i) (ha i hi).2 (b i) (hb i hi).2 t h0 h1 (χ i) (k5 i)
  have hin : S.Inside rs p fun i => K.toNat (p i) (χ i) := fun i hi => ⟨(ha i hi).1, (key i hi).1⟩
  refine ⟨ea, eb, e, _, _, k1, k2, k3, k4, h.toNat rs p χ fun i hi => (key i hi).2.2.1, hin, ?_, fun c hc =>
    pooled_least hs hK t hra hrb hin (fun i hi w _ => ?_) hc⟩
  · refine (h.toExp rs p _ fun i hi => (key i hi).2.2.2).trans (congrArg _ ?_)
    exact expectation_congr hK.kind fun i hi => (key i hi).2.1
  · rw [(key i hi).2.1, k5]

end

/-- Non-vacuity: three nested joint distributions. -/
example (hs : solve.For search) :
    let K := Kind.joint .jointN .jointE (.ofList (partsOf (Samples.outer solve)))
    ∃ T > (0 : ℝ), ∀ t, |t| < T → ∃ ea eb e d,
      (K.nat [3] (fun _ => ((), ((), (), ()), ())) fun i => Samples.point (i.headD 0)).toExp
        (library search).toExp = .ok ea ∧
      (K.nat [3] (fun _ => ((), ((), (), ()), ())) fun _ => Samples.point 1).toExp (library search).toExp = .ok eb ∧
      paramMap (addScaled (-t)) ea [ea] = .ok e ∧ paramMap (addScaled t) e [eb] = .ok d := by
  intro K
  obtain ⟨T, hT, h⟩ := C105_pooled hs Samples.outer_setting
    (Samples.point_inside [3] fun i => (i.headD 0 : ℝ))
    (Samples.point_regular [3] fun i => (i.headD 0 : ℝ)) (Samples.point_regular [3] fun _ => 1) 0 1 one_pos
  refine ⟨T, hT, fun t ht => ?_⟩
  obtain ⟨ea, eb, e, d, r, h1, h2, h3, h4, -⟩ := h t ht
  exact ⟨ea, eb, e, d, h1, h2, h3, h4⟩

/-- Non-vacuity of `C105_converted`: three nested joint distributions, with every weight between 0 and 1. -/
example (hs : solve.For search) {t : ℝ} (h0 : 0 ≤ t) (h1 : t ≤ 1) :
    let K := Kind.joint .jointN .jointE (.ofList (partsOf (Samples.outer solve)))
    ∃ ea eb e d r, (K.nat [3] (fun _ => ((), ((), (), ()), ())) fun i => Samples.point (i.headD 0)).toExp
        (library search).toExp = .ok ea ∧
      (K.nat [3] (fun _ => ((), ((), (), ()), ())) fun _ => Samples.point 1).toExp (library search).toExp = .ok eb ∧
      paramMap (addScaled (-t)) ea [ea] = .ok e ∧ paramMap (addScaled t) e [eb] = .ok d ∧
      d.toNat (library search).toNat = .ok (K.nat [3] (fun _ => ((), ((), (), ()), ())) r) := by
  intro K
  obtain ⟨ea, eb, e, d, r, k1, k2, k3, k4, k5, -⟩ := C105_converted hs Samples.outer_setting
    (by simp [Samples.outer, Settings.ofList]; trivial) h0 h1
    (Samples.point_inside [3] fun i => (i.headD 0 : ℝ)) (Samples.point_inside [3] fun _ => 1)
    (Samples.point_regular [3] fun i => (i.headD 0 : ℝ)) (Samples.point_regular [3] fun _ => 1)
  exact ⟨ea, eb, e, d, r, k1, k2, k3, k4, k5⟩

/-- **C105.** Not all averages are those of a distribution: the average of the expectation parameters of a
von Mises-Fisher distribution and of the opposite one belongs to none. -/
theorem C105_opposite (hs : solve.For search) {n : ℕ} {rs : List ℕ}
    (a : List ℕ → EuclideanSpace ℝ (Fin (n + 1))) (ha : ∀ i, inB rs i = true → a i ≠ 0) {i : List ℕ}
    (hi : inB rs i = true) :
    let K := (Simple.vonMisesFisher (n + 1)).kind solve
    let S := (Simple.vonMisesFisher (n + 1)).setting solve
    ∃ ea eb e d, (K.nat rs (fun _ => ()) a).toExp (library search).toExp = .ok ea ∧
      (K.nat rs (fun _ => ()) (fun i => -a i : List ℕ → EuclideanSpace ℝ (Fin (n + 1)))).toExp
        (library search).toExp = .ok eb ∧
      paramMap (addScaled (-(1 / 2))) ea [ea] = .ok e ∧ paramMap (addScaled (1 / 2)) e [eb] = .ok d ∧
      ∀ r : List ℕ → EuclideanSpace ℝ (Fin (n + 1)), S.Inside rs (fun _ => ()) r →
        ∃ v : List ℕ → EuclideanSpace ℝ (Fin (n + 1)),
        dotCalc (K.nat rs (fun _ => ()) v) (K.exp rs (fun _ => ()) fun i => (K.F ()).toExp (r i)) ≠
          dotCalc (K.nat rs (fun _ => ()) v) d := by
  intro K S
  have hK : LibrarySetting solve K S := .simple (.vonMisesFisher (n + 1))
  have h := C51_library hs hK.kind
  have hr : ∀ q, EachLeaf RegularVals (K.nat rs (fun _ => ()) q) := fun q l hl => by
    rw [List.mem_singleton.1 hl]
    exact trivial
  obtain ⟨ea, eb, e, χ, h1, h2, h3, h4, h5⟩ := exp_average hs hK (1 / 2) (p := fun _ => ()) (rs := rs) (a := a)
    (b := (fun i => -a i : List ℕ → EuclideanSpace ℝ (Fin (n + 1)))) (hr _) (hr _)
  refine ⟨ea, eb, e, _, h1, h2, h3, h4, fun r hin => ⟨r, fun heq => ?_⟩⟩
  have heq' := ok_scalars_inj (((h.dotCalc _ _ _ _ _).symm.trans heq).trans (h.dotCalc _ _ _ _ _)) i hi
  have h0 : r i ≠ 0 := (hin i hi).2
  have hneg : (vonMisesFisher (n + 1)).toExp (-a i) = -(vonMisesFisher (n + 1)).toExp (a i) := by
    rw [vmf_toExp' (ha i hi), vmf_toExp' (neg_ne_zero.2 (ha i hi)), norm_neg, smul_neg]
  have key : (vonMisesFisher (n + 1)).dot (r i) ((vonMisesFisher (n + 1)).toExp (r i)) = 0 := by
    refine (heq'.trans (h5 i (r i))).trans ?_
    show (1 - 1 / 2) * (vonMisesFisher (n + 1)).dot (r i) ((vonMisesFisher (n + 1)).toExp (a i)) +
      1 / 2 * (vonMisesFisher (n + 1)).dot (r i) ((vonMisesFisher (n + 1)).toExp (-a i)) = 0
    rw [hneg, vmf_dot, vmf_dot, inner_neg_right]
    ring
  have hk : 0 < ‖r i‖ := norm_pos_iff.2 h0
  have hA := vmfAK_pos (n := n) hk
  rw [vmf_dot, vmf_toExp' h0, inner_smul_right, real_inner_self_eq_norm_sq] at key
  have : 0 < vmfAK (n + 1 : ℕ) ‖r i‖ / ‖r i‖ * ‖r i‖ ^ 2 := by positivity
  exact this.ne' key

/-- Non-vacuity: three distributions on the sphere. -/
example : ∀ i, inB [3] i = true → (EuclideanSpace.single 0 ((i.headD 0 : ℝ) + 1) : EuclideanSpace ℝ (Fin (2 + 1))) ≠ 0 := by
  intro i _ h
  have := congrFun (congrArg WithLp.ofLp h) 0
  have h2 : ((i.headD 0 : ℝ) + 1) = 0 := by simpa using this
  have : (0 : ℝ) ≤ (i.headD 0 : ℝ) := Nat.cast_nonneg _
  linarith

end Efax
