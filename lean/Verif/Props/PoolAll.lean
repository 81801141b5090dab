import Verif.Spec.ConvexMeans
import Verif.Props.Pool
import Verif.Lemmas.SteepSimplex
import Verif.Props.Families.Search
import Mathlib.Analysis.Calculus.Darboux

/-!
# C105: averages with all weights between 0 and 1
-/

namespace Efax

open MeasureTheory Spec Calc ClassTable Set

/-- Averages of the expectation parameters of two distributions are those of a distribution. -/
def Spec.Setting.Pools {C : Type} {K : Kind C} (S : Setting K) : Prop :=
  ∀ p, S.ok p → ∀ a ∈ S.dom p, ∀ b ∈ S.dom p, ∀ t : ℝ, 0 ≤ t → t ≤ 1 → ∃ r ∈ S.dom p, ∀ v,
    (K.F p).dot v ((K.F p).toExp r) =
      (1 - t) * (K.F p).dot v ((K.F p).toExp a) + t * (K.F p).dot v ((K.F p).toExp b)

/-- `Pools` for parts. -/
def Spec.Settings.Pools {C : Type} {R : Parts C} (S : Settings R) : Prop :=
  ∀ p, S.ok p → ∀ a ∈ S.dom p, ∀ b ∈ S.dom p, ∀ t : ℝ, 0 ≤ t → t ≤ 1 → ∃ r ∈ S.dom p, ∀ v,
    (R.F p).dot v ((R.F p).toExp r) =
      (1 - t) * (R.F p).dot v ((R.F p).toExp a) + t * (R.F p).dot v ((R.F p).toExp b)

theorem Spec.Settings.Pools.ofList {C : Type} : (l : List (String × Σ K : Kind C, Setting K)) →
    (∀ s ∈ l, s.2.2.Pools) → (Settings.ofList l).Pools
  | [], _ => fun _ _ a _ _ _ t _ _ => ⟨a, trivial, fun _ => by
      show (0 : ℝ) = (1 - t) * 0 + t * 0
      ring⟩
  | s :: l, h => fun p hp a ha b hb t h0 h1 => by
      obtain ⟨r, hr, k⟩ := h s List.mem_cons_self p.1 hp.1 a.1 ha.1 b.1 hb.1 t h0 h1
      obtain ⟨r', hr', k'⟩ := ofList l (fun s' m => h s' (List.mem_cons_of_mem _ m)) p.2 hp.2 a.2 ha.2 b.2 hb.2 t h0 h1
      refine ⟨(r, r'), ⟨hr, hr'⟩, fun v => ?_⟩
      have e : ∀ x y x1 x2 y1 y2 : ℝ, x = (1 - t) * x1 + t * x2 → y = (1 - t) * y1 + t * y2 →
          x + y = (1 - t) * (x1 + y1) + t * (x2 + y2) := fun x y x1 x2 y1 y2 hx hy => by rw [hx, hy]; ring
      exact e _ _ _ _ _ _ (k v.1) (k' v.2)

/-- Families with one parameter: a derivative has the intermediate value property. -/
theorem pools_real {X : Type} [MeasurableSpace X] {F : ExpFam ℝ ℝ X} {μ : Measure X} {dom : Set ℝ}
    (R : LocallyRegular F μ dom ⊤) (hdot : ∀ v x, F.dot v x = v * x) (hc : OrdConnected dom) {a b t : ℝ} (ha : a ∈ dom)
    (hb : b ∈ dom) (h0 : 0 ≤ t) (h1 : t ≤ 1) : ∃ r ∈ dom, ∀ v,
      F.dot v (F.toExp r) = (1 - t) * F.dot v (F.toExp a) + t * F.dot v (F.toExp b) := by
  have hd : ∀ q ∈ dom, HasDerivWithinAt F.logNormalizer (F.toExp q) dom q := fun q hq => by
    have h := R.gradient q hq 1 trivial
    simp only [hdot, one_mul, smul_eq_mul, mul_one] at h
    have h2 := (HasDerivAt.comp_sub_const (x := q) (a := q) (f := fun t => F.logNormalizer (q + t))
      (f' := F.toExp q) (by simpa using h))
    simpa using h2.hasDerivWithinAt
  have hcon := hc.image_hasDerivWithinAt hd
  have hin : (1 - t) • F.toExp a + t • F.toExp b ∈ F.toExp '' dom :=
    hcon.convex ⟨a, ha, rfl⟩ ⟨b, hb, rfl⟩ (by linarith) h0 (by ring)
  obtain ⟨r, hr, e⟩ := hin
  refine ⟨r, hr, fun v => ?_⟩
  rw [hdot, hdot, hdot, e]
  simp only [smul_eq_mul]
  ring

variable [MachEps] {solve : Solver} {search : Cls → List Val → Except Err (List Val)}

theorem simple_closed_pools {s : Simple} (hcl : (s.setting solve).closed)
    (hlin : ∀ p, (s.setting solve).ok p → ∀ a ∈ (s.setting solve).dom p, ∀ b ∈ (s.setting solve).dom p, ∀ t : ℝ,
      ∃ x : (s.kind solve).E, ∀ v, ((s.kind solve).F p).dot v x =
        (1 - t) * ((s.kind solve).F p).dot v (((s.kind solve).F p).toExp a) +
          t * ((s.kind solve).F p).dot v (((s.kind solve).F p).toExp b)) : (s.setting solve).Pools := by
  intro p hp a ha b hb t h0 h1
  obtain ⟨x, hx⟩ := hlin p hp a ha b hb t
  obtain ⟨k1, k2, -⟩ := simple_averages s hcl p hp a ha b hb t h0 h1 x hx
  exact ⟨_, k1, fun v => by rw [k2, hx]⟩

theorem gamma_pools : (Simple.gamma.setting solve).Pools := by
  intro p _ a ha b hb t h0 h1
  change ℝ × ℝ at a b
  obtain ⟨A1, A2⟩ := (C32_gamma_domain (gamma.toExp a)).1.1 ⟨a, ha, rfl⟩
  obtain ⟨B1, B2⟩ := (C32_gamma_domain (gamma.toExp b)).1.1 ⟨b, hb, rfl⟩
  set x := gamma.toExp a with hx
  set y := gamma.toExp b with hy
  have hpos := pos_average A1 B1 (sub_nonneg.2 h1) h0 (by ring)
  have hlog : (1 - t) * Real.log x.1 + t * Real.log y.1 ≤ Real.log ((1 - t) * x.1 + t * y.1) :=
    strictConcaveOn_log_Ioi.concaveOn.2 A1 B1 (sub_nonneg.2 h1) h0 (by ring)
  have hlt := pos_average (sub_pos.2 A2) (sub_pos.2 B2) (sub_nonneg.2 h1) h0 (by ring)
  obtain ⟨r, hr, e⟩ := (C32_gamma_domain ((1 - t) * x.1 + t * y.1, (1 - t) * x.2 + t * y.2)).1.2
    ⟨hpos, by show _ < Real.log _; linarith⟩
  refine ⟨r, hr, fun v => ?_⟩
  change ℝ × ℝ at v
  show v.1 * (gamma.toExp r).1 + v.2 * (gamma.toExp r).2 = (1 - t) * (v.1 * x.1 + v.2 * x.2) + t * (v.1 * y.1 + v.2 * y.2)
  rw [e]
  ring

theorem simple_pools (s : Simple) (h : ∀ d, s ≠ .vonMisesFisher d) : (s.setting solve).Pools := by
  have hlin : ∀ p, (s.setting solve).ok p → ∀ a ∈ (s.setting solve).dom p, ∀ b ∈ (s.setting solve).dom p, ∀ t : ℝ,
      ∃ x : (s.kind solve).E, ∀ v, ((s.kind solve).F p).dot v x =
        (1 - t) * ((s.kind solve).F p).dot v (((s.kind solve).F p).toExp a) +
          t * ((s.kind solve).F p).dot v (((s.kind solve).F p).toExp b) := fun p _ a _ b _ t => by
    obtain ⟨χ, -, -, -, -, -, -, -, -, e⟩ := simple_averaged (solve := solve) s (-t) [] (fun _ => p) (fun _ => p)
      (fun _ => ((s.kind solve).F p).toExp a) fun _ => ((s.kind solve).F p).toExp a
    obtain ⟨χ', -, -, -, -, -, -, -, -, e'⟩ := simple_averaged (solve := solve) s t [] (fun _ => p) (fun _ => p)
      χ fun _ => ((s.kind solve).F p).toExp b
    exact ⟨χ' [], fun v => by rw [e' [] v, e [] v]; ring⟩
  cases s
  case vonMisesFisher d => exact absurd rfl (h d)
  case dirichlet d =>
    intro p hp a ha b hb t h0 h1
    obtain ⟨d, rfl⟩ : ∃ n, d = n + 1 := Nat.exists_eq_succ_of_ne_zero (Nat.pos_iff_ne_zero.1 hp)
    have R := dirichlet_regular (d + 1)
    exact R.toLocallyRegular.pools (dirichlet_minimal d) (isOpen_dirichletDom _) R.convex R.finitelyOpen
      (dirichlet_steep d) ha hb h0 h1
  case genDirichlet d =>
    intro p hp a ha b hb t h0 h1
    have R := genDirichlet_regular d
    exact R.toLocallyRegular.pools (genDirichlet_minimal d) (isOpen_genDirichletDom d) R.convex R.finitelyOpen
      (genDirichlet_steep d) ha hb h0 h1
  case beta =>
    intro p hp a ha b hb t h0 h1
    exact beta_regular.toLocallyRegular.pools beta_minimal (isOpen_dirichletDom _) beta_regular.convex
      beta_regular.finitelyOpen beta_steep ha hb h0 h1
  case gamma => exact gamma_pools
  case chi => exact fun p _ a ha b hb t h0 h1 => pools_real chi_regular.toLocallyRegular (fun _ _ => rfl) ordConnected_Ioi ha hb h0 h1
  case chiSquare =>
    exact fun p _ a ha b hb t h0 h1 => pools_real chiSquare_regular.toLocallyRegular (fun _ _ => rfl) ordConnected_Ioi ha hb h0 h1
  case logarithmic =>
    exact fun p _ a ha b hb t h0 h1 => pools_real logarithmic_regular.toLocallyRegular (fun _ _ => rfl) ordConnected_Iio ha hb h0 h1
  all_goals exact simple_closed_pools trivial hlin

theorem convex_pools {K : Kind Cls} {S : Setting K} (h : ConvexSetting solve K S) : S.Pools := by
  induction h with
  | simple s h => exact simple_pools s h
  | joint h0 hn hS ih => exact Settings.Pools.ofList _ ih

theorem pooled_exists (hs : solve.For search) {K : Kind Cls} {S : Setting K} (hK : LibrarySetting solve K S)
    {rs : List ℕ} {p : List ℕ → K.P} (t : ℝ) {a b : List ℕ → K.N} (ha : S.Inside rs p a)
    (hra : EachLeaf RegularVals (K.nat rs p a)) (hrb : EachLeaf RegularVals (K.nat rs p b))
    (hex : ∀ i, inB rs i = true → ∃ r ∈ S.dom (p i), ∀ v, (K.F (p i)).dot v ((K.F (p i)).toExp r) =
      (1 - t) * (K.F (p i)).dot v ((K.F (p i)).toExp (a i)) + t * (K.F (p i)).dot v ((K.F (p i)).toExp (b i))) :
    ∃ ea eb e d r, (K.nat rs p a).toExp (library search).toExp = .ok ea ∧
      (K.nat rs p b).toExp (library search).toExp = .ok eb ∧
      paramMap (addScaled (-t)) ea [ea] = .ok e ∧ paramMap (addScaled t) e [eb] = .ok d ∧ S.Inside rs p r ∧
      (∀ v : List ℕ → K.N,
        dotCalc (K.nat rs p v) (K.exp rs p fun i => (K.F (p i)).toExp (r i)) = dotCalc (K.nat rs p v) d) ∧
      ∀ c, S.Inside rs p c → ∃ ac bc ar br,
        (K.nat rs p a).klN (library search) (K.nat rs p c) = ok (scalars rs ac) ∧
        (K.nat rs p b).klN (library search) (K.nat rs p c) = ok (scalars rs bc) ∧
        (K.nat rs p a).klN (library search) (K.nat rs p r) = ok (scalars rs ar) ∧
        (K.nat rs p b).klN (library search) (K.nat rs p r) = ok (scalars rs br) ∧
        ∀ i, inB rs i = true → (1 - t) * ar i + t * br i ≤ (1 - t) * ac i + t * bc i ∧
          ((1 - t) * ar i + t * br i = (1 - t) * ac i + t * bc i ↔ r i = c i) := by
  classical
  have h := C51_library hs hK.kind
  obtain ⟨ea, eb, e, χ, k1, k2, k3, k4, k5⟩ := exp_average hs hK t hra hrb
  have hr : ∀ i, ∃ r : K.N, inB rs i = true → r ∈ S.dom (p i) ∧ ∀ w,
      (K.F (p i)).dot w ((K.F (p i)).toExp r) = (1 - t) * (K.F (p i)).dot w ((K.F (p i)).toExp (a i)) +
        t * (K.F (p i)).dot w ((K.F (p i)).toExp (b i)) := fun i => by
    by_cases hi : inB rs i = true
    · obtain ⟨r, hr⟩ := hex i hi
      exact ⟨r, fun _ => hr⟩
    · exact ⟨a i, fun h => absurd h hi⟩
  choose r hr using hr
  have hin : S.Inside rs p r := fun i hi => ⟨(ha i hi).1, (hr i hi).1⟩
  refine ⟨ea, eb, e, _, r, k1, k2, k3, k4, hin, fun v => ?_, fun c hc =>
    pooled_least hs hK t hra hrb hin (fun i hi w _ => (hr i hi).2 w) hc⟩
  rw [h.dotCalc, h.dotCalc]
  exact congrArg ok (scalars_congr fun i hi => by rw [(hr i hi).2, k5])

/-- **C105.** Except for von Mises-Fisher distributions, the average of the expectation parameters of
`a` and `b` with any weight `t` between 0 and 1 is, paired with natural parameters, the expectation parameters of a
distribution `r`; `r` is the only distribution from which the weighted divergences of `a` and `b` are least. -/
theorem C105_convex (hs : solve.For search) {K : Kind Cls} {S : Setting K} (hC : ConvexSetting solve K S) {rs : List ℕ}
    {p : List ℕ → K.P} {t : ℝ} (h0 : 0 ≤ t) (h1 : t ≤ 1) {a b : List ℕ → K.N} (ha : S.Inside rs p a)
    (hb : S.Inside rs p b) (hra : EachLeaf RegularVals (K.nat rs p a)) (hrb : EachLeaf RegularVals (K.nat rs p b)) :
    ∃ ea eb e d r, (K.nat rs p a).toExp (library search).toExp = .ok ea ∧
      (K.nat rs p b).toExp (library search).toExp = .ok eb ∧
      paramMap (addScaled (-t)) ea [ea] = .ok e ∧ paramMap (addScaled t) e [eb] = .ok d ∧ S.Inside rs p r ∧
      (∀ v : List ℕ → K.N,
        dotCalc (K.nat rs p v) (K.exp rs p fun i => (K.F (p i)).toExp (r i)) = dotCalc (K.nat rs p v) d) ∧
      ∀ c, S.Inside rs p c → ∃ ac bc ar br,
        (K.nat rs p a).klN (library search) (K.nat rs p c) = ok (scalars rs ac) ∧
        (K.nat rs p b).klN (library search) (K.nat rs p c) = ok (scalars rs bc) ∧
        (K.nat rs p a).klN (library search) (K.nat rs p r) = ok (scalars rs ar) ∧
        (K.nat rs p b).klN (library search) (K.nat rs p r) = ok (scalars rs br) ∧
        ∀ i, inB rs i = true → (1 - t) * ar i + t * br i ≤ (1 - t) * ac i + t * bc i ∧
          ((1 - t) * ar i + t * br i = (1 - t) * ac i + t * bc i ↔ r i = c i) :=
  pooled_exists hs hC.toLibrary t ha hra hrb fun i hi =>
    convex_pools hC (p i) (ha i hi).1 (a i) (ha i hi).2 (b i) (hb i hi).2 t h0 h1

/-- Non-vacuity: gamma distributions. -/
example (hs : solve.For search) {t : ℝ} (h0 : 0 ≤ t) (h1 : t ≤ 1) :
    let K := Simple.gamma.kind solve
    ∃ ea eb e d, (K.nat [3] (fun _ => ()) fun _ => ((-1, 2) : ℝ × ℝ)).toExp (library search).toExp = .ok ea ∧
      (K.nat [3] (fun _ => ()) fun i => ((-2, (i.headD 0 : ℝ)) : ℝ × ℝ)).toExp (library search).toExp = .ok eb ∧
      paramMap (addScaled (-t)) ea [ea] = .ok e ∧ paramMap (addScaled t) e [eb] = .ok d := by
  intro K
  have hr : ∀ q, EachLeaf RegularVals (K.nat [3] (fun _ => ()) q) := fun q l hl => by
    rw [List.mem_singleton.1 hl]
    exact trivial
  obtain ⟨ea, eb, e, d, r, k1, k2, k3, k4, -⟩ := C105_convex hs (.simple .gamma nofun) h0 h1
    (p := fun _ => ()) (rs := [3]) (a := fun _ => ((-1, 2) : ℝ × ℝ)) (b := fun i => ((-2, (i.headD 0 : ℝ)) : ℝ × ℝ))
    (fun i _ => ⟨trivial, show (-1 : ℝ) < 0 ∧ (-1 : ℝ) < 2 by norm_num⟩)
    (fun i _ => ⟨trivial, show (-2 : ℝ) < 0 ∧ (-1 : ℝ) < (i.headD 0 : ℝ) from
      ⟨by norm_num, by have : (0 : ℝ) ≤ (i.headD 0 : ℝ) := Nat.cast_nonneg _
                       linarith⟩⟩) (hr _) (hr _)
  exact ⟨ea, eb, e, d, k1, k2, k3, k4⟩

end Efax
