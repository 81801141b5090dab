import Verif.Lemmas.Average
import Verif.Props.Combine
import Verif.Props.Projection
import Verif.Props.Estimation

/-!
# C104: in the expectation parametrization, mixing distributions is averaging

README.rst 85-87.  `addScaled t` is `lambda x, y: x + t * y` (C103); averages with the weights `1 - t` and `t` are taken in
two steps.
-/

namespace Efax

open MeasureTheory Spec Calc ClassTable

variable [MachEps] {solve : Solver} {search : Cls → List Val → Except Err (List Val)}

theorem exp_combine (hs : solve.For search) {K : Kind Cls} (hK : LibraryKind solve K) (t : ℝ) (rs : List ℕ)
    (p : List ℕ → K.P) (a b : List ℕ → K.E) : ∃ χ : List ℕ → K.E,
      paramMap (addScaled t) (K.exp rs p a) [K.exp rs p b] = .ok (K.exp rs p χ) ∧
      ∀ i, PairsAdd (K.F (p i)) t (a i) (b i) (χ i) := by
  have h := C51_library hs hK
  have hc := library_collects (search := search) hK
  obtain ⟨χ, key, hp⟩ := library_averaged hK t rs p p a b
  refine ⟨χ, ?_, hp⟩
  obtain ⟨l, h1⟩ := (library_indexed hs hK).infosE rs p a []
  obtain ⟨q, q1, q2, q3, q4⟩ := C16_map (x := K.exp rs p a) (ys := [K.exp rs p b]) (h.wfE _ _ _)
    (by rintro y hy; rw [List.mem_singleton.1 hy]; exact ⟨h.wfE _ _ _, hc.same _ _ _ _⟩) (infos := l) h1
    (op := addScaled t) fun k f v vs hv hf hvs => by
      obtain ⟨w, r, e1, -, -, e4⟩ := key k f v hv
      cases hvs with
      | cons hw hnil =>
        cases hnil
        obtain ⟨-, rfl⟩ := ParamAt.unique (h.wfE _ _ _) hw e1
        exact ⟨r, e4 hf⟩
  rw [q1]
  refine congrArg _ (SameTree.eq_of_params q2 (h.wfE _ _ _) ?_ fun k f r hr => ?_)
  · exact (q3.symm).trans (hc.same _ _ _ _)
  · rw [q4] at hr
    split_ifs at hr with hf
    · obtain ⟨w, r', -, e2, e3, -⟩ := key k f r hr
      rwa [e3 hf] at e2
    · obtain ⟨v, vs, hv, hvs, e⟩ := hr
      obtain ⟨w, r', e1, e2, -, e4⟩ := key k f v hv
      cases hvs with
      | cons hw hnil =>
        cases hnil
        obtain ⟨-, rfl⟩ := ParamAt.unique (h.wfE _ _ _) hw e1
        rw [e4 (by simpa using hf)] at e
        cases e
        exact e2

section

variable (hs : solve.For search) {K : Kind Cls} {S : Setting K} (hK : LibrarySetting solve K S)
  {rs : List ℕ} {p : List ℕ → K.P}

include hs hK

/-- **C104.** `parameter_map(lambda x, y: x + t * y, a, b)` of expectation parameters succeeds, and the products of
the result with natural parameters are those of `a` plus `t` times those of `b`. -/
theorem C104_combine (t : ℝ) (a b : List ℕ → K.E) :
    ∃ d, paramMap (addScaled t) (K.exp rs p a) [K.exp rs p b] = .ok d ∧
      ∀ v : List ℕ → K.N, ∃ x y z, dotCalc (K.nat rs p v) (K.exp rs p a) = ok (scalars rs x) ∧
        dotCalc (K.nat rs p v) (K.exp rs p b) = ok (scalars rs y) ∧ dotCalc (K.nat rs p v) d = ok (scalars rs z) ∧
        ∀ i, inB rs i = true → z i = x i + t * y i := by
  have h := C51_library hs hK.kind
  obtain ⟨χ, h1, h2⟩ := exp_combine hs hK.kind t rs p a b
  exact ⟨_, h1, fun v => ⟨_, _, _, h.dotCalc _ _ _ _ _, h.dotCalc _ _ _ _ _, h.dotCalc _ _ _ _ _, fun i _ => h2 i (v i)⟩⟩

/-- The average of the expectation parameters of `a` and `b`, and its products with natural parameters. -/
theorem exp_average (t : ℝ) {a b : List ℕ → K.N} (hra : EachLeaf RegularVals (K.nat rs p a))
    (hrb : EachLeaf RegularVals (K.nat rs p b)) :
    ∃ ea eb e χ, (K.nat rs p a).toExp (library search).toExp = .ok ea ∧
      (K.nat rs p b).toExp (library search).toExp = .ok eb ∧
      paramMap (addScaled (-t)) ea [ea] = .ok e ∧ paramMap (addScaled t) e [eb] = .ok (K.exp rs p χ) ∧
      ∀ i v, (K.F (p i)).dot v (χ i) =
        (1 - t) * (K.F (p i)).dot v ((K.F (p i)).toExp (a i)) + t * (K.F (p i)).dot v ((K.F (p i)).toExp (b i)) := by
  have h := C51_library hs hK.kind
  obtain ⟨χ, h1, h2⟩ := exp_combine hs hK.kind (-t) rs p (fun i => (K.F (p i)).toExp (a i))
    fun i => (K.F (p i)).toExp (a i)
  obtain ⟨χ', h3, h4⟩ := exp_combine hs hK.kind t rs p χ fun i => (K.F (p i)).toExp (b i)
  refine ⟨_, _, _, χ', h.toExp rs p a (regular_dom hK.kind hra), h.toExp rs p b (regular_dom hK.kind hrb), h1, h3,
    fun i v => ?_⟩
  rw [h4 i v, h2 i v]
  ring

/-- **C104.** Mixing: let `f` and `g` be the computed densities of `a` and `b`.  Under the mixture `(1 - t) f + t g`
every sufficient statistic `s`, as computed by the estimator and paired with `v`, has as its mean the product of `v` with
the average of the expectation parameters. -/
theorem C104_mixture (t : ℝ) {a b : List ℕ → K.N} (ha : S.Inside rs p a) (hb : S.Inside rs p b)
    (hra : EachLeaf RegularVals (K.nat rs p a)) (hrb : EachLeaf RegularVals (K.nat rs p b)) : letI := S.ms
    ∃ ea eb e d f g, (K.nat rs p a).toExp (library search).toExp = .ok ea ∧
      (K.nat rs p b).toExp (library search).toExp = .ok eb ∧
      paramMap (addScaled (-t)) ea [ea] = .ok e ∧ paramMap (addScaled t) e [eb] = .ok d ∧
      PdfIs (library search) K rs (K.nat rs p a) f ∧ PdfIs (library search) K rs (K.nat rs p b) g ∧
      (0 ≤ t → t ≤ 1 → ∀ i, inB rs i = true → IsDensity S.μ fun x => (1 - t) * f i x + t * g i x) ∧
      ∀ v : List ℕ → K.N, (∀ i, inB rs i = true → v i ∈ S.dirs) → ∃ s m,
        StatisticIs (library search) K rs (K.nat rs p a) (K.nat rs p v) s ∧
        dotCalc (K.nat rs p v) d = ok (scalars rs m) ∧
        ∀ i, inB rs i = true → HasMean S.μ (fun x => (1 - t) * f i x + t * g i x) (s i) (m i) := by
  have h := C51_library hs hK.kind
  have hL := library_lawful hK
  obtain ⟨ea, eb, e, χ, h1, h2, h3, h4, h5⟩ := exp_average hs hK t hra hrb
  refine ⟨ea, eb, e, _, _, _, h1, h2, h3, h4, fun x tr ht => C51_pdf h rs p a x tr ht,
    fun x tr ht => C51_pdf h rs p b x tr ht, fun h0 h1 i hi => ?_, fun v hv => ⟨fun i x => (K.F (p i)).dot (v i) ((K.F (p i)).stat x), _,
      fun x tr ht => statistic_eq hs hK ht, h.dotCalc _ _ _ _ _, fun i hi => ?_⟩⟩
  · have da := hL.density (ha i hi).1 (ha i hi).2
    have db := hL.density (hb i hi).1 (hb i hi).2
    obtain ⟨G, M, MS, μ, ok, dom, dirs, closed⟩ := S
    refine ⟨fun x => ?_, ?_⟩
    · have := da.1 x
      have := db.1 x
      have : 0 ≤ 1 - t := by linarith
      positivity
    · rw [integral_add (da.integrable.const_mul _) (db.integrable.const_mul _), integral_const_mul, integral_const_mul,
        da.2, db.2]
      ring
  · have ma := hL.mean (ha i hi).1 (ha i hi).2 (hv i hi)
    have mb := hL.mean (hb i hi).1 (hb i hi).2 (hv i hi)
    rw [h5]
    obtain ⟨G, M, MS, μ, ok, dom, dirs, closed⟩ := S
    obtain ⟨ma1, ma2⟩ := ma
    obtain ⟨mb1, mb2⟩ := mb
    have e : ∀ x, (K.F (p i)).dot (v i) ((K.F (p i)).stat x) *
        ((1 - t) * (K.F (p i)).pdf (a i) x + t * (K.F (p i)).pdf (b i) x) =
        (1 - t) * ((K.F (p i)).dot (v i) ((K.F (p i)).stat x) * (K.F (p i)).pdf (a i) x) +
          t * ((K.F (p i)).dot (v i) ((K.F (p i)).stat x) * (K.F (p i)).pdf (b i) x) := fun x => by ring
    refine ⟨?_, ?_⟩
    · simp only [e]
      exact (ma1.const_mul _).add (mb1.const_mul _)
    · simp only [e]
      rw [integral_add (ma1.const_mul _) (mb1.const_mul _), integral_const_mul, integral_const_mul, ma2, mb2]

/-- **C104.** Pooling: if `to_exp()` of `r` is the average of the expectation parameters of `a` and `b`, paired with
all directions, then `r` is the distribution from which the divergences of `a` and of `b`, weighted by `1 - t` and `t`,
are least; what the weighted divergences from another distribution `c` exceed the least by is the divergence of `r` from
`c`. -/
theorem C104_pool (t : ℝ) {a b r c : List ℕ → K.N} (hr : S.Inside rs p r) (hc : S.Inside rs p c)
    (hra : EachLeaf RegularVals (K.nat rs p a)) (hrb : EachLeaf RegularVals (K.nat rs p b))
    (hrr : EachLeaf RegularVals (K.nat rs p r)) :
    ∃ ea eb e d er, (K.nat rs p a).toExp (library search).toExp = .ok ea ∧
      (K.nat rs p b).toExp (library search).toExp = .ok eb ∧
      paramMap (addScaled (-t)) ea [ea] = .ok e ∧ paramMap (addScaled t) e [eb] = .ok d ∧
      (K.nat rs p r).toExp (library search).toExp = .ok er ∧
      ((∀ v : List ℕ → K.N, (∀ i, inB rs i = true → v i ∈ S.dirs) →
          dotCalc (K.nat rs p v) er = dotCalc (K.nat rs p v) d) →
        ∃ ac bc ar br rc, (K.nat rs p a).klN (library search) (K.nat rs p c) = ok (scalars rs ac) ∧
          (K.nat rs p b).klN (library search) (K.nat rs p c) = ok (scalars rs bc) ∧
          (K.nat rs p a).klN (library search) (K.nat rs p r) = ok (scalars rs ar) ∧
          (K.nat rs p b).klN (library search) (K.nat rs p r) = ok (scalars rs br) ∧
          (K.nat rs p r).klN (library search) (K.nat rs p c) = ok (scalars rs rc) ∧
          ∀ i, inB rs i = true → (1 - t) * ac i + t * bc i = (1 - t) * ar i + t * br i + rc i ∧ 0 ≤ rc i ∧
            (rc i = 0 ↔ r i = c i)) := by
  have h := C51_library hs hK.kind
  have hL := library_lawful hK
  obtain ⟨ea, eb, e, χ, h1, h2, h3, h4, h5⟩ := exp_average hs hK t hra hrb
  refine ⟨ea, eb, e, _, _, h1, h2, h3, h4, h.toExp rs p r (regular_dom hK.kind hrr), fun hv => ?_⟩
  refine ⟨_, _, _, _, _, C51_kl_natural h rs p a c (regular_dom hK.kind hra),
    C51_kl_natural h rs p b c (regular_dom hK.kind hrb), C51_kl_natural h rs p a r (regular_dom hK.kind hra),
    C51_kl_natural h rs p b r (regular_dom hK.kind hrb), C51_kl_natural h rs p r c (regular_dom hK.kind hrr),
    fun i hi => ?_⟩
  have key : ∀ q : List ℕ → K.N, S.Inside rs p q → (K.F (p i)).dot (q i) ((K.F (p i)).toExp (r i)) =
      (1 - t) * (K.F (p i)).dot (q i) ((K.F (p i)).toExp (a i)) +
        t * (K.F (p i)).dot (q i) ((K.F (p i)).toExp (b i)) := by
    intro q hq
    have := hv q fun i hi => hL.mem_dirs (hq i hi).1 (hq i hi).2
    rw [h.dotCalc, h.dotCalc] at this
    rw [ok_scalars_inj this i hi, h5]
  have k1 := key r hr
  have k2 := key c hc
  obtain ⟨-, g1, g2⟩ := hL.kl (hr i hi).1 (hr i hi).2 (hc i hi).2
  refine ⟨?_, g1, g2⟩
  simp only [ExpFam.kl, ExpFam.klWith, h.dot_sub] at *
  rw [k1, k2]
  ring

end

/-- Non-vacuity of `C104_combine` and `C104_mixture`: three nested joint distributions. -/
example (hs : solve.For search) :
    let K := Kind.joint .jointN .jointE (.ofList (partsOf (Samples.outer solve)))
    ∃ ea eb e d, (K.nat [3] (fun _ => ((), ((), (), ()), ())) fun i => Samples.point (i.headD 0)).toExp
        (library search).toExp = .ok ea ∧
      (K.nat [3] (fun _ => ((), ((), (), ()), ())) fun _ => Samples.point 1).toExp (library search).toExp = .ok eb ∧
      paramMap (addScaled (-(1 / 3))) ea [ea] = .ok e ∧ paramMap (addScaled (1 / 3)) e [eb] = .ok d := by
  intro K
  obtain ⟨ea, eb, e, d, _, _, h1, h2, h3, h4, -⟩ := C104_mixture hs Samples.outer_setting (1 / 3)
    (Samples.point_inside [3] fun i => (i.headD 0 : ℝ)) (Samples.point_inside [3] fun _ => 1)
    (Samples.point_regular [3] fun i => (i.headD 0 : ℝ)) (Samples.point_regular [3] fun _ => 1)
  exact ⟨ea, eb, e, d, h1, h2, h3, h4⟩

/-- Non-vacuity of `C104_pool`: the exponential distribution of mean 2 pools those of the means 1 and 3. -/
example (hs : solve.For search) :
    let E : ℝ → Dist Cls := fun q => (Simple.exponential.kind solve).nat [] (fun _ => ()) fun _ => q
    ∃ ac bc ar br : List ℕ → ℝ, (E (-1)).klN (library search) (E (-1)) = ok (scalars [] ac) ∧
      (E (-(1 / 3))).klN (library search) (E (-1)) = ok (scalars [] bc) ∧
      (E (-1)).klN (library search) (E (-(1 / 2))) = ok (scalars [] ar) ∧
      (E (-(1 / 3))).klN (library search) (E (-(1 / 2))) = ok (scalars [] br) ∧
      (1 - 1 / 2) * ar [] + 1 / 2 * br [] < (1 - 1 / 2) * ac [] + 1 / 2 * bc [] := by
  intro E
  have hK : LibrarySetting solve _ (Simple.exponential.setting solve) := .simple .exponential
  have ha : ∀ q < (0 : ℝ), (Simple.exponential.setting solve).Inside [] (fun _ => ()) fun _ => q :=
    fun q h i _ => ⟨trivial, h⟩
  have hr : ∀ q : ℝ, EachLeaf RegularVals (E q) := fun q l hl => by
    rw [List.mem_singleton.1 hl]
    exact trivial
  have h := C51_library hs hK.kind
  obtain ⟨ea, eb, e, d, er, h1, h2, h3, h4, h5, h6⟩ := C104_pool hs hK (1 / 2) (a := fun _ => (-1 : ℝ))
    (b := fun _ => (-(1 / 3) : ℝ)) (r := fun _ => (-(1 / 2) : ℝ)) (c := fun _ => (-1 : ℝ)) (ha _ (by norm_num))
    (ha _ (by norm_num)) (hr _) (hr _) (hr _)
  obtain ⟨ea', eb', e', χ, g1, g2, g3, g4, g5⟩ := exp_average hs hK (1 / 2) (p := fun _ => ()) (rs := [])
    (a := fun _ => (-1 : ℝ)) (b := fun _ => (-(1 / 3) : ℝ)) (hr _) (hr _)
  cases h1.symm.trans g1
  cases h2.symm.trans g2
  cases h3.symm.trans g3
  cases h4.symm.trans g4
  cases h5.symm.trans (h.toExp [] (fun _ => ()) (fun _ => (-(1 / 2) : ℝ)) (regular_dom hK.kind (hr _)))
  obtain ⟨ac, bc, ar, br, rc, k1, k2, k3, k4, -, k5⟩ := h6 fun v _ => by
    refine (h.dotCalc _ _ _ _ _).trans (Eq.trans (congrArg ok (scalars_congr fun i _ => ?_)) (h.dotCalc _ _ _ _ _).symm)
    refine Eq.trans ?_ (g5 i (v i)).symm
    have e : ∀ w : ℝ, w * (-1 / -(1 / 2)) = (1 - 1 / 2) * (w * (-1 / -1)) + 1 / 2 * (w * (-1 / -(1 / 3))) :=
      fun w => by ring
    exact e (v i)
  refine ⟨ac, bc, ar, br, k1, k2, k3, k4, ?_⟩
  obtain ⟨l1, l2, l3⟩ := k5 [] rfl
  have : rc [] ≠ 0 := fun h0 => by
    have : (-(1 / 2) : ℝ) = -1 := l3.1 h0
    norm_num at this
  have := lt_of_le_of_ne l2 (Ne.symm this)
  linarith

end Efax
