import Verif.Props.Combine

/-!
# C103: which combinations of distributions are distributions
-/

namespace Efax

open MeasureTheory Spec Calc ClassTable
open scoped ComplexOrder

variable [MachEps] {solve : Solver} {search : Cls → List Val → Except Err (List Val)}

omit [MachEps] in
theorem add_neg_of {t a b : ℝ} (ht : 0 ≤ t) (ha : a < 0) (hb : b < 0) : a + t • b < 0 := by
  have := mul_nonpos_of_nonneg_of_nonpos ht hb.le
  rw [smul_eq_mul]
  linarith

theorem simple_addable (s : Simple) {t : ℝ} (ht : 0 ≤ t) {rs : List ℕ} {p : List ℕ → (s.kind solve).P}
    {a : List ℕ → (s.kind solve).N} (h : EachLeaf (fun c _ => Addable c) ((s.kind solve).nat rs p a))
    (i : List ℕ) {q v : (s.kind solve).N} (hq : q ∈ (s.setting solve).dom (p i)) (hv : v ∈ (s.setting solve).dom (p i)) :
    (s.setting solve).line q v t ∈ (s.setting solve).dom (p i) := by
  cases s
  case beta => exact ((eachLeaf_simple rfl).1 h).elim
  case chi => exact ((eachLeaf_simple rfl).1 h).elim
  case chiSquare => exact ((eachLeaf_simple rfl).1 h).elim
  case dirichlet => exact ((eachLeaf_simple rfl).1 h).elim
  case gamma => exact ((eachLeaf_simple rfl).1 h).elim
  case genDirichlet => exact ((eachLeaf_simple rfl).1 h).elim
  case vonMisesFisher => exact ((eachLeaf_simple rfl).1 h).elim
  case exponential => exact add_neg_of ht hq hv
  case geometric => exact add_neg_of ht hq hv
  case logarithmic => exact add_neg_of ht hq hv
  case negativeBinomial => exact add_neg_of ht hq hv
  case rayleigh => exact add_neg_of ht hq hv
  case weibull => exact add_neg_of ht hq hv
  case normal => exact add_neg_of (a := q.2) ht hq hv
  case mvIsotropic => exact add_neg_of (a := q.2) ht hq hv
  case mvDiagonal => exact fun j => add_neg_of (a := q.2 j) ht (hq j) (hv j)
  case complexNormal =>
    obtain ⟨q1, (q2 : ℝ), (q3 : ℂ)⟩ := q
    obtain ⟨v1, (v2 : ℝ), (v3 : ℂ)⟩ := v
    have hq : ‖q3‖ < -q2 := hq
    have hv : ‖v3‖ < -v2 := hv
    show ‖q3 + t • v3‖ < -(q2 + t • v2)
    have := norm_add_le q3 (t • v3)
    rw [norm_smul, Real.norm_of_nonneg ht] at this
    have := mul_le_mul_of_nonneg_left hv.le ht
    rw [smul_eq_mul]
    linarith
  case mvNormal d =>
    obtain ⟨q1, (q2 : Matrix (Fin d) (Fin d) ℝ)⟩ := q
    obtain ⟨v1, (v2 : Matrix (Fin d) (Fin d) ℝ)⟩ := v
    have hq : (-q2).PosDef := hq
    have hv : (-v2).PosDef := hv
    show (-(q2 + t • v2)).PosDef
    rw [neg_add, ← smul_neg]
    exact hq.add_posSemidef (hv.posSemidef.smul ht)
  case cmvCircular d =>
    have hq : (-(show Matrix (Fin d) (Fin d) ℂ from q)).PosDef := hq
    have hv : (-(show Matrix (Fin d) (Fin d) ℂ from v)).PosDef := hv
    show (-((show Matrix (Fin d) (Fin d) ℂ from q) + t • (show Matrix (Fin d) (Fin d) ℂ from v))).PosDef
    rw [neg_add, ← smul_neg]
    exact hq.add_posSemidef (hv.posSemidef.smul ht)
  all_goals trivial

theorem library_addable {K : Kind Cls} {S : Setting K} (hK : LibrarySetting solve K S) {rs : List ℕ} {p : List ℕ → K.P}
    {a : List ℕ → K.N} {t : ℝ} (ht : 0 ≤ t) (h : EachLeaf (fun c _ => Addable c) (K.nat rs p a)) (i : List ℕ) {q v : K.N}
    (hq : q ∈ S.dom (p i)) (hv : v ∈ S.dom (p i)) : S.line q v t ∈ S.dom (p i) := by
  induction hK with
  | simple s => exact simple_addable s ht h i hq hv
  | @joint l _ _ _ ih =>
    clear * - h ih hq hv
    induction l with
    | nil => trivial
    | cons nk l ih' =>
      obtain ⟨h1, h2⟩ := eachLeaf_cons rfl h
      exact ⟨ih nk List.mem_cons_self h1 hq.1 hv.1,
        ih' (fun nk hm => ih nk (List.mem_cons_of_mem _ hm)) h2 hq.2 hv.2⟩

/-- **C103.** Sums of natural parameters are distributions, for all but seven classes: if `a` and `b` are distributions
and `t` is not negative, then the parameters `a + t b` are those of a distribution. -/
theorem C103_addable {K : Kind Cls} {S : Setting K} (hK : LibrarySetting solve K S) {rs : List ℕ} {p : List ℕ → K.P}
    {a b : List ℕ → K.N} {t : ℝ} (ht : 0 ≤ t) (h : EachLeaf (fun c _ => Addable c) (K.nat rs p a))
    (ha : S.Inside rs p a) (hb : S.Inside rs p b) : S.Inside rs p fun i => S.line (a i) (b i) t :=
  fun i hi => ⟨(ha i hi).1, library_addable hK ht h i (ha i hi).2 (hb i hi).2⟩

omit [MachEps] in
theorem mix_mem {N : Type} [AddCommGroup N] [Module ℝ N] {D : Set N} (hc : Convex ℝ D) {t : ℝ} (h0 : 0 ≤ t) (h1 : t ≤ 1)
    {q v : N} (hq : q ∈ D) (hv : v ∈ D) : q + (-t) • q + t • v ∈ D := by
  have := hc hq hv (sub_nonneg.2 h1) h0 (by ring)
  rwa [sub_smul, one_smul, sub_eq_add_neg, ← neg_smul] at this

theorem simple_mixable (s : Simple) {t : ℝ} (h0 : 0 ≤ t) (h1 : t ≤ 1) {rs : List ℕ} {p : List ℕ → (s.kind solve).P}
    {a : List ℕ → (s.kind solve).N} (h : EachLeaf (fun c _ => Mixable c) ((s.kind solve).nat rs p a)) (i : List ℕ)
    (hp : (s.setting solve).ok (p i)) {q v : (s.kind solve).N} (hq : q ∈ (s.setting solve).dom (p i))
    (hv : v ∈ (s.setting solve).dom (p i)) :
    (s.setting solve).line ((s.setting solve).line q q (-t)) v t ∈ (s.setting solve).dom (p i) := by
  cases s
  case vonMisesFisher => exact ((eachLeaf_simple rfl).1 h).elim
  case bernoulli => trivial
  case beta => exact mix_mem beta_regular.convex h0 h1 hq hv
  case chi => exact mix_mem chi_regular.convex h0 h1 hq hv
  case chiSquare => exact mix_mem chiSquare_regular.convex h0 h1 hq hv
  case cmvCircular d => exact mix_mem (cmvCircular_regular d).convex h0 h1 hq hv
  case complexNormal => exact mix_mem complexNormal_regular.convex h0 h1 hq hv
  case dirichlet d => exact mix_mem (convex_dirichletDom (d + 1)) h0 h1 hq hv
  case exponential => exact mix_mem exponential_regular.convex h0 h1 hq hv
  case gamma => exact mix_mem gamma_regular.convex h0 h1 hq hv
  case genDirichlet d => exact mix_mem (convex_genDirichletDom d) h0 h1 hq hv
  case geometric => exact mix_mem geometric_regular.convex h0 h1 hq hv
  case logarithmic => exact mix_mem logarithmic_regular.convex h0 h1 hq hv
  case mvNormal d => exact mix_mem (mvNormal_regular d).convex h0 h1 hq hv
  case mvDiagonal d => exact mix_mem (mvDiagonal_regular d).convex h0 h1 hq hv
  case mvIsotropic d =>
    obtain ⟨d, rfl⟩ := Nat.exists_eq_succ_of_ne_zero (ne_of_gt hp)
    exact mix_mem (mvIsotropic_regular d).convex h0 h1 hq hv
  case negativeBinomial => exact mix_mem (negativeBinomial_regular hp).convex h0 h1 hq hv
  case normal => exact mix_mem normal_regular.convex h0 h1 hq hv
  case rayleigh => exact mix_mem rayleigh_regular.convex h0 h1 hq hv
  case weibull => exact mix_mem (weibull_regular hp).convex h0 h1 hq hv
  all_goals trivial

theorem library_mixable {K : Kind Cls} {S : Setting K} (hK : LibrarySetting solve K S) {rs : List ℕ} {p : List ℕ → K.P}
    {a : List ℕ → K.N} {t : ℝ} (h0 : 0 ≤ t) (h1 : t ≤ 1) (h : EachLeaf (fun c _ => Mixable c) (K.nat rs p a))
    (i : List ℕ) (hp : S.ok (p i)) {q v : K.N} (hq : q ∈ S.dom (p i)) (hv : v ∈ S.dom (p i)) :
    S.line (S.line q q (-t)) v t ∈ S.dom (p i) := by
  induction hK with
  | simple s => exact simple_mixable s h0 h1 h i hp hq hv
  | @joint l _ _ _ ih =>
    clear * - h ih hp hq hv
    induction l with
    | nil => trivial
    | cons nk l ih' =>
      obtain ⟨h1, h2⟩ := eachLeaf_cons rfl h
      exact ⟨ih nk List.mem_cons_self h1 hp.1 hq.1 hv.1,
        ih' (fun nk hm => ih nk (List.mem_cons_of_mem _ hm)) h2 hp.2 hq.2 hv.2⟩

/-- **C103.** Mixtures of natural parameters are distributions, for all but the von Mises-Fisher distributions: if `a`
and `b` are distributions and `t` is between 0 and 1, then the parameters `(1 - t) a + t b` are those of a
distribution. -/
theorem C103_mixable {K : Kind Cls} {S : Setting K} (hK : LibrarySetting solve K S) {rs : List ℕ} {p : List ℕ → K.P}
    {a b : List ℕ → K.N} {t : ℝ} (h0 : 0 ≤ t) (h1 : t ≤ 1) (h : EachLeaf (fun c _ => Mixable c) (K.nat rs p a))
    (ha : S.Inside rs p a) (hb : S.Inside rs p b) :
    S.Inside rs p fun i => S.line (S.line (a i) (a i) (-t)) (b i) t :=
  fun i hi => ⟨(ha i hi).1, library_mixable hK h0 h1 h i (ha i hi).1 (ha i hi).2 (hb i hi).2⟩

omit [MachEps] in
theorem gamma_not_density : ¬IsDensity positive (gamma.pdf ((-2 : ℝ), (-3 / 2 : ℝ))) := by
  intro h
  have h1 : IntegrableOn (gamma.pdf ((-2 : ℝ), (-3 / 2 : ℝ))) (Set.Ioo 0 1) :=
    IntegrableOn.mono_set h.integrable fun x hx => hx.1
  set A := gamma.logNormalizer ((-2 : ℝ), (-3 / 2 : ℝ)) with hA
  have h2 : IntegrableOn (fun x : ℝ => x ^ (-3 / 2 : ℝ)) (Set.Ioo 0 1) := by
    refine Integrable.mono' (h1.const_mul (Real.exp (2 + A))) ?_ ?_
    · exact (measurable_id.pow_const _).aestronglyMeasurable
    · refine (ae_restrict_iff' measurableSet_Ioo).2 (Filter.Eventually.of_forall fun x hx => ?_)
      rw [Real.norm_of_nonneg (Real.rpow_nonneg hx.1.le _), ExpFam.pdf, ← Real.exp_add,
        Real.rpow_def_of_pos hx.1, ExpFam.logPdf, ← hA]
      refine Real.exp_le_exp.2 ?_
      simp only [gamma]
      linarith [hx.2]
  have := (intervalIntegral.integrableOn_Ioo_rpow_iff zero_lt_one).1 h2
  norm_num at this

/-- **C103.** Sums of gamma parameters need not be distributions: the parameters (-1, -3/4) are those of a gamma
distribution, but the density computed for their sum with themselves does not integrate to one. -/
theorem C103_not_addable (hs : solve.For search) :
    let a : Dist Cls := (Simple.gamma.kind solve).nat [] (fun _ => ()) fun _ => ((-1 : ℝ), (-3 / 4 : ℝ))
    ∃ d f h, PdfIs (library search) (Simple.gamma.kind solve) [] a f ∧ IsDensity positive (f []) ∧
      paramMap (addScaled 1) a [a] = .ok d ∧
      PdfIs (library search) (Simple.gamma.kind solve) [] d h ∧ ¬IsDensity positive (h []) := by
  intro a
  have hK := LibrarySetting.simple (solve := solve) .gamma
  have h := C51_library hs hK.kind
  refine ⟨_, _, _, fun x tr ht => C51_pdf h [] _ _ x tr ht, ?_, C103_combine hs hK 1 (fun _ => ()) _ _,
    fun x tr ht => C51_pdf h [] _ _ x tr ht, ?_⟩
  · exact C28_gamma (q := ((-1 : ℝ), (-3 / 4 : ℝ))) (by norm_num [gammaDom])
  · have e : (Simple.gamma.setting solve).line ((-1 : ℝ), (-3 / 4 : ℝ)) ((-1 : ℝ), (-3 / 4 : ℝ)) 1 =
        ((-2 : ℝ), (-3 / 2 : ℝ)) := by
      show ((-1 : ℝ), (-3 / 4 : ℝ)) + (1 : ℝ) • ((-1 : ℝ), (-3 / 4 : ℝ)) = _
      norm_num
    rw [e]
    exact gamma_not_density

/-- Non-vacuity of C103: sums of nested joint distributions of normal, Poisson and exponential distributions. -/
example : (Setting.joint .jointN .jointE (Settings.ofList (Samples.outer solve))).Inside [3]
    (fun _ => ((), ((), (), ()), ())) fun i => (Setting.joint .jointN .jointE (Settings.ofList (Samples.outer solve))).line
      (Samples.point (i.headD 0)) (Samples.point 1) 7 := by
  refine C103_addable Samples.outer_setting (by norm_num) (fun l hl => ?_)
    (Samples.point_inside [3] fun i => (i.headD 0 : ℝ)) (Samples.point_inside [3] fun _ => 1)
  have e : leaves ((Kind.joint .jointN .jointE (.ofList (partsOf (Samples.outer solve)))).nat [3]
      (fun _ => ((), ((), (), ()), ())) fun i => Samples.point (i.headD 0)) =
      [.mk .normalNP (laySS [3] (fun _ => ()) fun i => (((i.headD 0 : ℕ) : ℝ), -1)) .nil,
        .mk .poissonNP (layS [3] (fun _ => ()) fun i => ((i.headD 0 : ℕ) : ℝ)) .nil,
        .mk .exponentialNP (layS [3] (fun _ => ()) fun _ => -1) .nil] := rfl
  rw [e] at hl
  simp only [List.mem_cons, List.not_mem_nil, or_false] at hl
  rcases hl with rfl | rfl | rfl <;> exact trivial

/-- Non-vacuity of C103: mixtures of gamma distributions. -/
example : (Simple.gamma.setting solve).Inside [] (fun _ => ()) fun _ => (Simple.gamma.setting solve).line
    ((Simple.gamma.setting solve).line ((-1 : ℝ), (-3 / 4 : ℝ)) ((-1 : ℝ), (-3 / 4 : ℝ)) (-(1 / 3)))
    ((-2 : ℝ), (5 : ℝ)) (1 / 3) := by
  refine C103_mixable (.simple .gamma) (by norm_num) (by norm_num) ((eachLeaf_simple rfl).2 trivial)
    (fun _ _ => ⟨trivial, ?_⟩) fun _ _ => ⟨trivial, ?_⟩
  · show ((-1 : ℝ), (-3 / 4 : ℝ)) ∈ gammaDom
    norm_num [gammaDom]
  · show ((-2 : ℝ), (5 : ℝ)) ∈ gammaDom
    norm_num [gammaDom]

end Efax
