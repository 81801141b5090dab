import Verif.Lemmas.Combine
import Verif.Lemmas.Gradients

/-!
# C103: in the natural parametrization, combining and scaling evidence are addition and scaling

README.rst 82-83.  `addScaled t` is `lambda x, y: x + t * y`: with `t = 1`, the parameters are added; with the same
object twice, they are scaled by `1 + t`.
-/

namespace Efax

open MeasureTheory Spec Calc ClassTable

variable [MachEps] {solve : Solver} {search : Cls → List Val → Except Err (List Val)}

section

variable (hs : solve.For search) {K : Kind Cls} {S : Setting K} (hK : LibrarySetting solve K S)
  {rs : List ℕ} {p : List ℕ → K.P}

include hs hK

/-- **C103.** `parameter_map(lambda x, y: x + t * y, a, b)` is the object of the parameters `a + t b`, with the
fixed parameters of `a`. -/
theorem C103_combine (t : ℝ) (p' : List ℕ → K.P) (a b : List ℕ → K.N) :
    paramMap (addScaled t) (K.nat rs p a) [K.nat rs p' b] = .ok (K.nat rs p fun i => S.line (a i) (b i) t) := by
  have h := C51_library hs hK.kind
  have key := library_added hK t rs p p' a b
  obtain ⟨l, h1, _⟩ := h.infos rs p a []
  obtain ⟨q, q1, q2, q3, q4⟩ := C16_map (x := K.nat rs p a) (ys := [K.nat rs p' b]) (h.wfN _ _ _)
    (by rintro y hy; rw [List.mem_singleton.1 hy]; exact ⟨h.wfN _ _ _, (h.same _ _ _ _ _).1⟩) (infos := l) h1
    (op := addScaled t) fun k f v vs hv hf hvs => by
      obtain ⟨w, r, e1, -, -, e4⟩ := key k f v hv
      cases hvs with
      | cons hw hnil =>
        cases hnil
        obtain ⟨-, rfl⟩ := ParamAt.unique (h.wfN _ _ _) hw e1
        exact ⟨r, e4 hf⟩
  rw [q1]
  refine congrArg _ (SameTree.eq_of_params q2 (h.wfN _ _ _) ?_ fun k f r hr => ?_)
  · exact (q3.symm).trans (h.same _ _ _ _ _).1
  · rw [q4] at hr
    split_ifs at hr with hf
    · obtain ⟨w, r', -, e2, e3, -⟩ := key k f r hr
      rwa [e3 hf] at e2
    · obtain ⟨v, vs, hv, hvs, e⟩ := hr
      obtain ⟨w, r', e1, e2, -, e4⟩ := key k f v hv
      cases hvs with
      | cons hw hnil =>
        cases hnil
        obtain ⟨-, rfl⟩ := ParamAt.unique (h.wfN _ _ _) hw e1
        rw [e4 (by simpa using hf)] at e
        cases e
        exact e2

/-- **C103.** The order in which evidence is combined does not matter. -/
theorem C103_comm (a b : List ℕ → K.N) :
    paramMap (addScaled 1) (K.nat rs p a) [K.nat rs p b] = paramMap (addScaled 1) (K.nat rs p b) [K.nat rs p a] := by
  rw [C103_combine hs hK, C103_combine hs hK]
  refine congrArg _ (natural_congr hK.kind fun i _ => ?_)
  clear hK
  obtain ⟨G, M, MS, μ, ok, dom, dirs, closed⟩ := S
  show a i + (1 : ℝ) • b i = b i + (1 : ℝ) • a i
  rw [one_smul, one_smul, add_comm]

/-- **C103.** Evidence that has been added can be taken away. -/
theorem C103_undo (t : ℝ) (p' : List ℕ → K.P) (a b : List ℕ → K.N) :
    ∃ d, paramMap (addScaled t) (K.nat rs p a) [K.nat rs p' b] = .ok d ∧
      paramMap (addScaled (-t)) d [K.nat rs p' b] = .ok (K.nat rs p a) := by
  refine ⟨_, C103_combine hs hK t p' a b, ?_⟩
  rw [C103_combine hs hK]
  refine congrArg _ (natural_congr hK.kind fun i _ => ?_)
  clear hK
  obtain ⟨G, M, MS, μ, ok, dom, dirs, closed⟩ := S
  show a i + t • b i + -t • b i = a i
  rw [neg_smul, add_neg_cancel_right]

omit hs in
/-- The densities are taken with respect to the carrier. -/
theorem pdf_line {i : List ℕ} (ho : S.ok (p i)) (a b : K.N) (t : ℝ) (x : K.X) :
    (K.F (p i)).pdf (S.line a b t) x =
      (K.F (p i)).pdf a x * ((K.F (p i)).pdf b x / Real.exp ((K.F (p i)).carrier x)) ^ t /
        Real.exp ((K.F (p i)).logNormalizer (S.line a b t) - (K.F (p i)).logNormalizer a -
          t * (K.F (p i)).logNormalizer b) := by
  rw [ExpFam.pdf, ExpFam.pdf, ExpFam.pdf, ← Real.exp_sub, ← Real.exp_mul, ← Real.exp_add, ← Real.exp_sub,
    ExpFam.logPdf, ExpFam.logPdf, ExpFam.logPdf, (library_lawful hK).dot_line ho]
  congr 1
  ring

/-- **C103.** Combining: let `f`, `g`, `h` be the densities of `a`, `b` and of the object `d` of the parameters
`a + t b`, and `m` the carrier measure, all as computed by the library.  If `a + t b` is a distribution, `h` is `f` times
the power `t` of the density of `b` with respect to the carrier, normalized.  The constant is the exponential of a
combination of the numbers that `log_normalizer` gives. -/
theorem C103_evidence (t : ℝ) {a b : List ℕ → K.N} (hd : S.Inside rs p fun i => S.line (a i) (b i) t) : letI := S.ms
    ∃ (d : Dist Cls) (la lb ld : List ℕ → ℝ) (f g h m : List ℕ → K.X → ℝ),
      paramMap (addScaled t) (K.nat rs p a) [K.nat rs p b] = .ok d ∧
      (K.nat rs p a).logNormalizer (library search) = ok (scalars rs la) ∧
      (K.nat rs p b).logNormalizer (library search) = ok (scalars rs lb) ∧
      d.logNormalizer (library search) = ok (scalars rs ld) ∧
      PdfIs (library search) K rs (K.nat rs p a) f ∧ PdfIs (library search) K rs (K.nat rs p b) g ∧
      PdfIs (library search) K rs d h ∧
      (∀ x tr, K.obs rs x tr → (K.nat rs p a).carrier (library search) tr = ok (scalars rs fun i => m i (x i))) ∧
      ∀ i, inB rs i = true → IsDensity S.μ (h i) ∧
        Integrable (fun x => f i x * (g i x / Real.exp (m i x)) ^ t) S.μ ∧
        ∫ x, f i x * (g i x / Real.exp (m i x)) ^ t ∂S.μ = Real.exp (ld i - la i - t * lb i) ∧
        ∀ x, h i x = f i x * (g i x / Real.exp (m i x)) ^ t / ∫ y, f i y * (g i y / Real.exp (m i y)) ^ t ∂S.μ := by
  let := S.ms
  have h := C51_library hs hK.kind
  have hp : ∀ q : List ℕ → K.N, PdfIs (library search) K rs (K.nat rs p q) fun i => (K.F (p i)).pdf (q i) :=
    fun q x tr ht => C51_pdf h rs p q x tr ht
  refine ⟨_, _, _, _, _, _, _, _, C103_combine hs hK t p a b, h.logNormalizer _ _ _, h.logNormalizer _ _ _,
    h.logNormalizer _ _ _, hp _, hp _, hp _, fun x tr ht => h.carrier _ _ _ x tr ht, fun i hi => ?_⟩
  have hD := (library_lawful hK).density (hd i hi).1 (hd i hi).2
  have e : ∀ x, (K.F (p i)).pdf (a i) x * ((K.F (p i)).pdf (b i) x / Real.exp ((K.F (p i)).carrier x)) ^ t =
      (K.F (p i)).pdf (S.line (a i) (b i) t) x * Real.exp ((K.F (p i)).logNormalizer (S.line (a i) (b i) t) -
        (K.F (p i)).logNormalizer (a i) - t * (K.F (p i)).logNormalizer (b i)) := fun x => by
    rw [pdf_line hK (hd i hi).1, div_mul_cancel₀ _ (Real.exp_pos _).ne']
  have e1 : ∫ x, (K.F (p i)).pdf (a i) x * ((K.F (p i)).pdf (b i) x / Real.exp ((K.F (p i)).carrier x)) ^ t ∂S.μ =
      Real.exp ((K.F (p i)).logNormalizer (S.line (a i) (b i) t) -
        (K.F (p i)).logNormalizer (a i) - t * (K.F (p i)).logNormalizer (b i)) := by
    simp only [e]
    rw [integral_mul_const, hD.2, one_mul]
  refine ⟨hD, ?_, e1, fun x => ?_⟩
  · simp only [e]
    exact hD.integrable.mul_const _
  · rw [e1, pdf_line hK (hd i hi).1]

/-- **C103.** Mixing: let `f`, `g`, `h` be the densities of `a`, `b` and of the object `d` of the parameters
`(1 - t) a + t b`.  If these are the parameters of a distribution, `h` is the geometric mean of `f` and `g` with
the weights `1 - t` and `t`, normalized; the carrier does not matter. -/
theorem C103_mixture (t : ℝ) {a b : List ℕ → K.N}
    (hd : S.Inside rs p fun i => S.line (S.line (a i) (a i) (-t)) (b i) t) : letI := S.ms
    ∃ e d la lb ld f g h,
      paramMap (addScaled (-t)) (K.nat rs p a) [K.nat rs p a] = .ok e ∧
      paramMap (addScaled t) e [K.nat rs p b] = .ok d ∧
      (K.nat rs p a).logNormalizer (library search) = ok (scalars rs la) ∧
      (K.nat rs p b).logNormalizer (library search) = ok (scalars rs lb) ∧
      d.logNormalizer (library search) = ok (scalars rs ld) ∧
      PdfIs (library search) K rs (K.nat rs p a) f ∧ PdfIs (library search) K rs (K.nat rs p b) g ∧
      PdfIs (library search) K rs d h ∧
      ∀ i, inB rs i = true → IsDensity S.μ (h i) ∧
        Integrable (fun x => f i x ^ (1 - t) * g i x ^ t) S.μ ∧
        ∫ x, f i x ^ (1 - t) * g i x ^ t ∂S.μ = Real.exp (ld i - (1 - t) * la i - t * lb i) ∧
        ∀ x, h i x = f i x ^ (1 - t) * g i x ^ t / ∫ y, f i y ^ (1 - t) * g i y ^ t ∂S.μ := by
  let := S.ms
  have h := C51_library hs hK.kind
  have hp : ∀ q : List ℕ → K.N, PdfIs (library search) K rs (K.nat rs p q) fun i => (K.F (p i)).pdf (q i) :=
    fun q x tr ht => C51_pdf h rs p q x tr ht
  refine ⟨_, _, _, _, _, _, _, _, C103_combine hs hK (-t) p a a, C103_combine hs hK t p _ b, h.logNormalizer _ _ _,
    h.logNormalizer _ _ _, h.logNormalizer _ _ _, hp _, hp _, hp _, fun i hi => ?_⟩
  have hD := (library_lawful hK).density (hd i hi).1 (hd i hi).2
  have e : ∀ x, (K.F (p i)).pdf (a i) x ^ (1 - t) * (K.F (p i)).pdf (b i) x ^ t =
      (K.F (p i)).pdf (S.line (S.line (a i) (a i) (-t)) (b i) t) x *
        Real.exp ((K.F (p i)).logNormalizer (S.line (S.line (a i) (a i) (-t)) (b i) t) -
          (1 - t) * (K.F (p i)).logNormalizer (a i) - t * (K.F (p i)).logNormalizer (b i)) := fun x => by
    rw [ExpFam.pdf, ExpFam.pdf, ExpFam.pdf, ← Real.exp_mul, ← Real.exp_mul, ← Real.exp_add, ← Real.exp_add,
      ExpFam.logPdf, ExpFam.logPdf, ExpFam.logPdf, (library_lawful hK).dot_line (hd i hi).1,
      (library_lawful hK).dot_line (hd i hi).1]
    congr 1
    ring
  have e1 : ∫ x, (K.F (p i)).pdf (a i) x ^ (1 - t) * (K.F (p i)).pdf (b i) x ^ t ∂S.μ =
      Real.exp ((K.F (p i)).logNormalizer (S.line (S.line (a i) (a i) (-t)) (b i) t) -
        (1 - t) * (K.F (p i)).logNormalizer (a i) - t * (K.F (p i)).logNormalizer (b i)) := by
    simp only [e]
    rw [integral_mul_const, hD.2, one_mul]
  refine ⟨hD, ?_, e1, fun x => ?_⟩
  · simp only [e]
    exact hD.integrable.mul_const _
  · rw [e1, e, mul_div_cancel_right₀ _ (Real.exp_pos _).ne']

/-- **C103.** Pooling: the distribution `d` of the parameters `(1 - t) a + t b` is the one whose divergences from `a`
and from `b`, weighted by `1 - t` and `t`, are least; what the weighted divergences of another distribution `r` exceed
the least by is its divergence from `d`.  All divergences are those that `kl_divergence` computes. -/
theorem C103_pool (t : ℝ) {a b r : List ℕ → K.N}
    (hd : S.Inside rs p fun i => S.line (S.line (a i) (a i) (-t)) (b i) t) (hr : S.Inside rs p r)
    (hl : EachLeaf RegularVals (K.nat rs p r))
    (hl' : EachLeaf RegularVals (K.nat rs p fun i => S.line (S.line (a i) (a i) (-t)) (b i) t)) :
    ∃ e d ka kb kd ja jb,
      paramMap (addScaled (-t)) (K.nat rs p a) [K.nat rs p a] = .ok e ∧
      paramMap (addScaled t) e [K.nat rs p b] = .ok d ∧
      (K.nat rs p r).klN (library search) (K.nat rs p a) = ok (scalars rs ka) ∧
      (K.nat rs p r).klN (library search) (K.nat rs p b) = ok (scalars rs kb) ∧
      (K.nat rs p r).klN (library search) d = ok (scalars rs kd) ∧
      d.klN (library search) (K.nat rs p a) = ok (scalars rs ja) ∧
      d.klN (library search) (K.nat rs p b) = ok (scalars rs jb) ∧
      ∀ i, inB rs i = true →
        (1 - t) * ka i + t * kb i = (1 - t) * ja i + t * jb i + kd i ∧ 0 ≤ kd i ∧
        (kd i = 0 → ka i = ja i ∧ kb i = jb i) := by
  have h := C51_library hs hK.kind
  have hL := library_lawful hK
  refine ⟨_, _, _, _, _, _, _, C103_combine hs hK (-t) p a a, C103_combine hs hK t p _ b,
    C51_kl_natural h rs p r a (regular_dom hK.kind hl), C51_kl_natural h rs p r b (regular_dom hK.kind hl),
    C51_kl_natural h rs p r _ (regular_dom hK.kind hl), C51_kl_natural h rs p _ a (regular_dom hK.kind hl'),
    C51_kl_natural h rs p _ b (regular_dom hK.kind hl'), fun i hi => ?_⟩
  obtain ⟨-, k1, k2⟩ := hL.kl (hr i hi).1 (hr i hi).2 (hd i hi).2
  refine ⟨?_, k1, fun e => ?_⟩
  · simp only [ExpFam.kl, ExpFam.klWith, h.dot_sub, hL.dot_line (hd i hi).1]
    ring
  · have := k2.1 e
    beta_reduce at this ⊢
    rw [this]
    exact ⟨rfl, rfl⟩

/-- **C103.** Scaling: the density of the object of the parameters `s a` is, with respect to the carrier, the power
`s` of that of `a`, normalized. -/
theorem C103_scale (s : ℝ) {a : List ℕ → K.N} (hd : S.Inside rs p fun i => S.line (a i) (a i) (s - 1)) : letI := S.ms
    ∃ (d : Dist Cls) (f h m : List ℕ → K.X → ℝ),
      paramMap (addScaled (s - 1)) (K.nat rs p a) [K.nat rs p a] = .ok d ∧
      PdfIs (library search) K rs (K.nat rs p a) f ∧ PdfIs (library search) K rs d h ∧
      (∀ x tr, K.obs rs x tr → (K.nat rs p a).carrier (library search) tr = ok (scalars rs fun i => m i (x i))) ∧
      ∀ i, inB rs i = true → IsDensity S.μ (h i) ∧ ∃ Z > 0, ∀ x,
        h i x / Real.exp (m i x) = (f i x / Real.exp (m i x)) ^ s / Z := by
  obtain ⟨d, la, lb, ld, f, g, h, m, h1, -, -, -, h2, h3, h4, h5, h6⟩ := C103_evidence hs hK (s - 1) hd
  refine ⟨d, f, h, m, h1, h2, h4, h5, fun i hi => ?_⟩
  obtain ⟨k1, -, k2, k3⟩ := h6 i hi
  refine ⟨k1, _, Real.exp_pos (ld i - la i - (s - 1) * lb i), fun x => ?_⟩
  have e : g i x = f i x := by rw [pdfIs_eq hs hK h2 hi, pdfIs_eq hs hK h3 hi]
  have hf : 0 < f i x := by rw [pdfIs_eq hs hK h2 hi]; exact Real.exp_pos _
  rw [k3, k2, e, Real.rpow_sub_one (by positivity)]
  field_simp

end

/-- Non-vacuity of C103: three nested joint distributions, each mixed with another one. -/
example (hs : solve.For search) :
    let K := Kind.joint .jointN .jointE (.ofList (partsOf (Samples.outer solve)))
    let S : Setting K := Setting.joint .jointN .jointE (Settings.ofList (Samples.outer solve))
    ∃ e d, paramMap (addScaled (-(1 / 2))) (K.nat [3] (fun _ => ((), ((), (), ()), ()))
        fun i => Samples.point (i.headD 0)) [K.nat [3] (fun _ => ((), ((), (), ()), ()))
        fun i => Samples.point (i.headD 0)] = .ok e ∧
      paramMap (addScaled (1 / 2)) e [K.nat [3] (fun _ => ((), ((), (), ()), ())) fun _ => Samples.point 1] =
        .ok d ∧
      ∃ h, PdfIs (library search) K [3] d h ∧ letI := S.ms; IsDensity S.μ (h [2]) := by
  intro K S
  have h1 : ∀ i : List ℕ, S.line (S.line (Samples.point (i.headD 0)) (Samples.point (i.headD 0)) (-(1 / 2)))
      (Samples.point 1) (1 / 2) = Samples.point (((i.headD 0 : ℕ) : ℝ) / 2 + 1 / 2) := by
    intro i
    show Samples.point (i.headD 0) + (-(1 / 2) : ℝ) • Samples.point (i.headD 0) + (1 / 2 : ℝ) • Samples.point 1 = _
    simp only [Samples.point, Prod.smul_mk, Prod.mk_add_mk, smul_eq_mul, Prod.mk.injEq, and_true]
    refine ⟨⟨?_, ?_⟩, ⟨?_, ?_⟩⟩ <;> ring
  have h2 : S.Inside [3] (fun _ => ((), ((), (), ()), ())) fun i =>
      S.line (S.line (Samples.point (i.headD 0)) (Samples.point (i.headD 0)) (-(1 / 2))) (Samples.point 1) (1 / 2) := by
    simp only [h1]
    exact Samples.point_inside [3] _
  obtain ⟨e, d, _, _, _, _, _, h, k1, k2, -, -, -, -, -, k3, k4⟩ := C103_mixture hs Samples.outer_setting (1 / 2)
    (a := fun i => Samples.point (i.headD 0)) (b := fun _ => Samples.point 1) h2
  exact ⟨e, d, k1, k2, h, k3, (k4 [2] rfl).1⟩

/-- Non-vacuity of C103: the evidence of two normal distributions. -/
example (hs : solve.For search) :
    paramMap (addScaled 1) ((Simple.normal.kind solve).nat [] (fun _ => ()) fun _ => ((3 : ℝ), (-1 : ℝ)))
      [(Simple.normal.kind solve).nat [] (fun _ => ()) fun _ => ((5 : ℝ), (-2 : ℝ))] =
      .ok ((Simple.normal.kind solve).nat [] (fun _ => ()) fun _ => ((8 : ℝ), (-3 : ℝ))) := by
  refine (C103_combine hs (.simple .normal) 1 (fun _ => ()) _ _).trans (congrArg _ ?_)
  refine (natural_congr (LibrarySetting.simple .normal).kind fun i _ => ?_)
  show ((3 : ℝ), (-1 : ℝ)) + (1 : ℝ) • ((5 : ℝ), (-2 : ℝ)) = _
  norm_num

end Efax
