import Verif.Lemmas.Projection
import Verif.Spec.Projection
import Verif.Props.Analysis

/-!
# C96: the geometry of divergences and entropies

The densities of the library among all densities with respect to the reference measure: divergences from
the outside, the largest entropy, and the identities between the methods that follow.
-/

namespace Efax

open MeasureTheory Spec ClassTable Calc

variable [MachEps] {solve : Solver}

namespace Spec.Setting.Lawful

variable {C : Type} {K : Kind C} {S : Setting K}

omit [MachEps] in
theorem pythagoras (h : S.Lawful) {p : K.P} (hp : S.ok p) {a b : K.N} (ha : a ∈ S.dom p) (hb : b ∈ S.dom p)
    {g : K.X → ℝ} {k : ℝ} : letI := S.ms
    IsDensity S.μ g →
    (∀ v ∈ S.dirs, HasMean S.μ g (fun x => (K.F p).dot v ((K.F p).stat x)) ((K.F p).dot v ((K.F p).toExp a))) →
    IsKL S.μ g ((K.F p).pdf a) k → IsKL S.μ g ((K.F p).pdf b) (k + (K.F p).kl a b) := by
  have h1 := h.regular p hp
  have h3 := h.sub a b
  obtain ⟨G, M, MS, μ, ok, dom, dirs, closed⟩ := S
  intro hg hm hk
  have := h1.pythagoras hg (hm _ (h1.sub_mem b hb a ha)) hk
  rw [ExpFam.kl, ExpFam.klWith, h3]
  exact this

omit [MachEps] in
theorem conjugate (h : S.Lawful) {p : K.P} (hp : S.ok p) (a b : K.N) :
    (K.F p).dot b ((K.F p).toExp a) - (K.F p).logNormalizer b =
      (K.F p).dot a ((K.F p).toExp a) - (K.F p).logNormalizer a - (K.F p).kl a b := by
  have h1 := h.regular p hp
  have h3 := h.sub
  obtain ⟨G, M, MS, μ, ok, dom, dirs, closed⟩ := S
  have := h1.conjugate a b
  simp only [ExpFam.kl, ExpFam.klWith, h3] at this ⊢
  exact this

omit [MachEps] in
theorem surprise {p : K.P} {a : K.N} {g : K.X → ℝ} {χ m : ℝ} : letI := S.ms
    IsDensity S.μ g → HasMean S.μ g (fun x => (K.F p).dot a ((K.F p).stat x)) χ →
    HasMean S.μ g (K.F p).carrier m →
    IsCrossEntropy S.μ g ((K.F p).pdf a) (-χ + (K.F p).logNormalizer a - m) := by
  obtain ⟨G, M, MS, μ, ok, dom, dirs, closed⟩ := S
  exact fun hg h2 h3 => LocallyRegular.surprise hg h2 h3

omit [MachEps] in
theorem mem_dirs (h : S.Lawful) {p : K.P} (hp : S.ok p) {a : K.N} (ha : a ∈ S.dom p) : a ∈ S.dirs := by
  have h1 := h.regular p hp
  obtain ⟨G, M, MS, μ, ok, dom, dirs, closed⟩ := S
  exact h1.mem_dirs a ha

end Spec.Setting.Lawful

section

variable {search : Cls → List Val → Except Err (List Val)} (hs : solve.For search)
  {K : Kind Cls} {S : Setting K} (hK : LibrarySetting solve K S) {rs : List ℕ} {p : List ℕ → K.P}

include hs hK

theorem sameMeans_dot {a : List ℕ → K.N} {f g : List ℕ → K.X → ℝ} (ha : S.Inside rs p a)
    (hf : PdfIs (library search) K rs (K.nat rs p a) f) (h : SameMeans S (library search) rs p f g)
    {i : List ℕ} (hi : inB rs i = true) : letI := S.ms
    ∀ v ∈ S.dirs, HasMean S.μ (g i) (fun x => (K.F (p i)).dot v ((K.F (p i)).stat x))
      ((K.F (p i)).dot v ((K.F (p i)).toExp (a i))) := by
  intro v hv
  refine h a (fun _ => v) (fun i x => (K.F (p i)).dot v ((K.F (p i)).stat x)) (fun _ _ => hv)
    (fun x t ht => statistic_eq hs hK ht) i hi _ ?_
  rw [pdfIs_eq hs hK hf hi]
  exact (library_lawful hK).mean (ha i hi).1 (ha i hi).2 hv

/-- **C96.** The Pythagorean identity: if the statistics have under a density `g` (of any kind) the means
that they have under the density of `a`, then the divergence of `g` from the density of any `b` is the
divergence from the density of `a` plus `a.kl_divergence(b)`.  So `a` is the only best approximation of `g`
in the family. -/
theorem C96_pythagoras {a b : List ℕ → K.N} {f f' g : List ℕ → K.X → ℝ} (ha : S.Inside rs p a)
    (hb : S.Inside rs p b) (hr : EachLeaf RegularVals (K.nat rs p a))
    (hf : PdfIs (library search) K rs (K.nat rs p a) f)
    (hf' : PdfIs (library search) K rs (K.nat rs p b) f') : letI := S.ms
    (∀ i, inB rs i = true → IsDensity S.μ (g i)) → SameMeans S (library search) rs p f g →
    ∃ k, (K.nat rs p a).klN (library search) (K.nat rs p b) = ok (scalars rs k) ∧
      ∀ i, inB rs i = true → ∀ d, IsKL S.μ (g i) (f i) d →
        IsKL S.μ (g i) (f' i) (d + k i) ∧ d ≤ d + k i ∧ (d = d + k i ↔ a i = b i) := by
  intro hg hm
  refine ⟨_, C51_kl_natural (C51_library hs hK.kind) rs p a b (regular_dom hK.kind hr), fun i hi d hd => ?_⟩
  have h := (library_lawful hK).kl (ha i hi).1 (ha i hi).2 (hb i hi).2
  rw [pdfIs_eq hs hK hf hi] at hd
  rw [pdfIs_eq hs hK hf' hi]
  refine ⟨(library_lawful hK).pythagoras (ha i hi).1 (ha i hi).2 (hb i hi).2 (hg i hi)
    (sameMeans_dot hs hK ha hf hm hi) hd, by linarith [h.2.1], ?_⟩
  rw [← h.2.2]
  constructor <;> intro h <;> linarith

/-- **C96.** Maximum entropy: among all densities under which the statistics and the carrier measure have
the same means, the density of `a` has the largest entropy, `a.entropy()`, and it is the only one (up to
sets of measure zero) with this entropy. -/
theorem C96_maximum_entropy {a : List ℕ → K.N} {f g c : List ℕ → K.X → ℝ} (ha : S.Inside rs p a)
    (hr : EachLeaf RegularVals (K.nat rs p a)) (hm : EachLeaf (fun c _ => HasEcm c) (K.nat rs p a))
    (hx : Found K rs p a) (hf : PdfIs (library search) K rs (K.nat rs p a) f)
    (hc : CarrierIs (library search) K rs (K.nat rs p a) c) : letI := S.ms
    (∀ i, inB rs i = true → IsDensity S.μ (g i)) → SameMeans S (library search) rs p f g →
    (∀ i, inB rs i = true → ∀ m, HasMean S.μ (f i) (c i) m → HasMean S.μ (g i) (c i) m) →
    ∃ n, (K.nat rs p a).entropyN (library search) = ok (scalars rs n) ∧
      ∀ i, inB rs i = true → ∀ h, IsCrossEntropy S.μ (g i) (g i) h →
        h ≤ n i ∧ (h = n i ↔ g i =ᵐ[S.μ] f i) := by
  intro hg hs' hc'
  have he := ecm_ent_nat hK.kind hm
  have hO := C51_library hs hK.kind
  refine ⟨_, C51_entropy_natural hO he rs p _ fun i hi => regular_dom hK.kind hr i hi, fun i hi h hh => ?_⟩
  have hL := library_lawful hK
  have hci : c i = (K.F (p i)).carrier := by
    funext x
    obtain ⟨t, ht⟩ := obs_total hK.kind rs fun _ => x
    have := hc _ t ht
    rw [hO.carrier rs p a _ t ht] at this
    exact (ok_scalars_inj this i hi).symm
  have h1 := hL.ecm he _ (ha i hi).1 _ (ha i hi).2 (hx i hi)
  have h2 := hc' i hi _ (by rw [pdfIs_eq hs hK hf hi, hci]; exact h1)
  rw [hci] at h2
  have h3 := Setting.Lawful.surprise (hg i hi)
    (sameMeans_dot hs hK ha hf hs' hi _ (hL.mem_dirs (ha i hi).1 (ha i hi).2)) h2
  have hd := hL.density (ha i hi).1 (ha i hi).2
  rw [pdfIs_eq hs hK hf hi]
  obtain ⟨G, M, MS, μ, ok, dom, dirs, closed⟩ := S
  have h4 : IsKL μ (g i) ((K.F (p i)).pdf (a i)) ((K.F (p i)).entropyN (K.ecm (p i)) (a i) - h) :=
    (h3.sub hh).congr (fun x => by ring) rfl
  have hpos := (K.F (p i)).pdf_pos (a i)
  have h5 := h4.nonneg (hg i hi) hd hpos
  refine ⟨by linarith, ?_⟩
  rw [← h4.eq_zero (hg i hi) hd hpos]
  constructor <;> intro h <;> linarith

/-- **C96.** The identity of three points of `kl_divergence`. -/
theorem C96_three_points {a b c : List ℕ → K.N} (ha : S.Inside rs p a)
    (hra : EachLeaf RegularVals (K.nat rs p a)) (hrb : EachLeaf RegularVals (K.nat rs p b)) :
    ∃ e e' ac ab bc, ∃ d d' d2 d2' : List ℕ → ℝ, (K.nat rs p a).toExp (library search).toExp = .ok e ∧
      (K.nat rs p b).toExp (library search).toExp = .ok e' ∧
      (K.nat rs p a).klN (library search) (K.nat rs p c) = ok (scalars rs ac) ∧
      (K.nat rs p a).klN (library search) (K.nat rs p b) = ok (scalars rs ab) ∧
      (K.nat rs p b).klN (library search) (K.nat rs p c) = ok (scalars rs bc) ∧
      dotCalc (K.nat rs p b) e = ok (scalars rs d) ∧ dotCalc (K.nat rs p c) e = ok (scalars rs d') ∧
      dotCalc (K.nat rs p b) e' = ok (scalars rs d2) ∧ dotCalc (K.nat rs p c) e' = ok (scalars rs d2') ∧
      ∀ i, inB rs i = true → ac i = ab i + bc i + ((d i - d' i) - (d2 i - d2' i)) := by
  have h := C51_library hs hK.kind
  have da := regular_dom hK.kind hra
  have db := regular_dom hK.kind hrb
  refine ⟨_, _, _, _, _, _, _, _, _, h.toExp rs p a da, h.toExp rs p b db, C51_kl_natural h rs p a c da,
    C51_kl_natural h rs p a b da, C51_kl_natural h rs p b c db, h.dotCalc _ _ _ _ _, h.dotCalc _ _ _ _ _,
    h.dotCalc _ _ _ _ _, h.dotCalc _ _ _ _ _, fun i hi => ?_⟩
  have hL := library_lawful hK
  have h1 := hL.conjugate (ha i hi).1 (a i) (c i)
  have h2 := hL.conjugate (ha i hi).1 (a i) (b i)
  have h3 := hL.conjugate (ha i hi).1 (b i) (c i)
  linarith

/-- **C96.** `to_exp` is strictly monotone: the pairing of the difference of natural parameters with the
difference of expectation parameters is the sum of the two divergences, which is positive for different
parameters. -/
theorem C96_monotone {a b : List ℕ → K.N} (ha : S.Inside rs p a) (hb : S.Inside rs p b)
    (hra : EachLeaf RegularVals (K.nat rs p a)) (hrb : EachLeaf RegularVals (K.nat rs p b)) :
    ∃ e e' ab ba, ∃ d d' d2 d2' : List ℕ → ℝ, (K.nat rs p a).toExp (library search).toExp = .ok e ∧
      (K.nat rs p b).toExp (library search).toExp = .ok e' ∧
      (K.nat rs p a).klN (library search) (K.nat rs p b) = ok (scalars rs ab) ∧
      (K.nat rs p b).klN (library search) (K.nat rs p a) = ok (scalars rs ba) ∧
      dotCalc (K.nat rs p a) e = ok (scalars rs d) ∧ dotCalc (K.nat rs p b) e = ok (scalars rs d') ∧
      dotCalc (K.nat rs p a) e' = ok (scalars rs d2) ∧ dotCalc (K.nat rs p b) e' = ok (scalars rs d2') ∧
      ∀ i, inB rs i = true → (d i - d' i) - (d2 i - d2' i) = ab i + ba i ∧
        (a i ≠ b i → 0 < (d i - d' i) - (d2 i - d2' i)) := by
  have h := C51_library hs hK.kind
  have da := regular_dom hK.kind hra
  have db := regular_dom hK.kind hrb
  refine ⟨_, _, _, _, _, _, _, _, h.toExp rs p a da, h.toExp rs p b db, C51_kl_natural h rs p a b da,
    C51_kl_natural h rs p b a db, h.dotCalc _ _ _ _ _, h.dotCalc _ _ _ _ _,
    h.dotCalc _ _ _ _ _, h.dotCalc _ _ _ _ _, fun i hi => ?_⟩
  have hL := library_lawful hK
  have h1 := hL.conjugate (ha i hi).1 (a i) (b i)
  have h2 := hL.conjugate (hb i hi).1 (b i) (a i)
  have k1 := hL.kl (ha i hi).1 (ha i hi).2 (hb i hi).2
  have k2 := hL.kl (ha i hi).1 (hb i hi).2 (ha i hi).2
  have e : ((K.F (p i)).dot (a i) ((K.F (p i)).toExp (a i)) - (K.F (p i)).dot (b i) ((K.F (p i)).toExp (a i))) -
      ((K.F (p i)).dot (a i) ((K.F (p i)).toExp (b i)) - (K.F (p i)).dot (b i) ((K.F (p i)).toExp (b i))) =
      (K.F (p i)).kl (a i) (b i) + (K.F (p i)).kl (b i) (a i) := by linarith
  refine ⟨e, fun hne => ?_⟩
  have := lt_of_le_of_ne k1.2.1 fun h => hne (k1.2.2.1 h.symm)
  change 0 < ((K.F (p i)).dot _ _ - _) - _
  linarith [k2.2.1]

/-- **C96.** The negative entropy, corrected by the expected carrier measure, is the convex conjugate of
`log_normalizer`: with `e = a.to_exp()`, the largest value of `⟨b, e⟩ - b.log_normalizer()` over all valid `b` is
`-a.entropy() - e.expected_carrier_measure()`, and it is attained at `b = a` only. -/
theorem C96_conjugate {a b : List ℕ → K.N} (ha : S.Inside rs p a) (hb : S.Inside rs p b)
    (hr : EachLeaf RegularVals (K.nat rs p a)) (hm : EachLeaf (fun c _ => HasEcm c) (K.nat rs p a)) :
    ∃ e, ∃ n m d l : List ℕ → ℝ, (K.nat rs p a).toExp (library search).toExp = .ok e ∧
      (K.nat rs p a).entropyN (library search) = ok (scalars rs n) ∧
      e.ecm (library search) = ok (scalars rs m) ∧
      dotCalc (K.nat rs p b) e = ok (scalars rs d) ∧
      (K.nat rs p b).logNormalizer (library search) = ok (scalars rs l) ∧
      ∀ i, inB rs i = true → d i - l i ≤ -n i - m i ∧ (d i - l i = -n i - m i ↔ a i = b i) := by
  have h := C51_library hs hK.kind
  have da := regular_dom hK.kind hr
  have he := ecm_ent_nat hK.kind hm
  refine ⟨_, _, _, _, _, h.toExp rs p a da, C51_entropy_natural h he rs p _ da, h.ecm he _ _ _,
    h.dotCalc _ _ _ _ _, h.logNormalizer _ _ _, fun i hi => ?_⟩
  have hL := library_lawful hK
  have h1 := hL.conjugate (ha i hi).1 (a i) (b i)
  have k1 := hL.kl (ha i hi).1 (ha i hi).2 (hb i hi).2
  simp only [ExpFam.entropyN, ExpFam.crossEntropy]
  rw [← k1.2.2]
  refine ⟨by linarith [k1.2.1], ?_, ?_⟩ <;> intro h <;> linarith

end

namespace Samples

/-- The uniform density of the interval from 0 to 2, which has the mean 1. -/
noncomputable def uniform (x : ℝ) : ℝ := if x ≤ 2 then 1 / 2 else 0

omit [MachEps] in
theorem uniform_integral (h : ℝ → ℝ) (hh : Continuous h) :
    Integrable (fun x => h x * uniform x) (volume.restrict (Set.Ioi 0)) ∧
    ∫ x in Set.Ioi 0, h x * uniform x = (∫ x in (0 : ℝ)..2, h x) / 2 := by
  have e : (fun x => h x * uniform x) = (Set.Iic 2).indicator fun x => h x / 2 := by
    funext x
    by_cases hx : x ≤ 2
    · rw [Set.indicator_of_mem (show x ∈ Set.Iic 2 from hx), uniform, if_pos hx]; ring
    · rw [Set.indicator_of_notMem (show x ∉ Set.Iic 2 from hx), uniform, if_neg hx, mul_zero]
  rw [e]
  have e2 : Set.Iic (2 : ℝ) ∩ Set.Ioi 0 = Set.Ioc 0 2 := by
    ext x; simp [and_comm]
  constructor
  · rw [integrable_indicator_iff measurableSet_Iic, IntegrableOn, Measure.restrict_restrict measurableSet_Iic, e2]
    exact ((hh.div_const 2).integrableOn_Icc (a := 0) (b := 2)).mono_set Set.Ioc_subset_Icc_self
  · rw [integral_indicator measurableSet_Iic, Measure.restrict_restrict measurableSet_Iic, e2,
      ← intervalIntegral.integral_of_le (by norm_num), intervalIntegral.integral_div]

omit [MachEps] in
theorem uniform_density : IsDensity (volume.restrict (Set.Ioi 0)) uniform := by
  refine ⟨fun x => by unfold uniform; split_ifs <;> norm_num, ?_⟩
  have := (uniform_integral (fun _ => 1) continuous_const).2
  simpa using this

omit [MachEps] in
theorem uniform_mean (y : ℝ) : HasMean (volume.restrict (Set.Ioi 0)) uniform
    (fun x => exponential.dot y (exponential.stat x)) (exponential.dot y (exponential.toExp (-1))) := by
  have h := uniform_integral (fun x => exponential.dot y x) (by unfold exponential; fun_prop)
  refine ⟨h.1, h.2.trans ?_⟩
  simp only [exponential]
  rw [intervalIntegral.integral_const_mul, integral_id]
  norm_num

omit [MachEps] in
theorem uniform_entropy : IsCrossEntropy (volume.restrict (Set.Ioi 0)) uniform uniform (Real.log 2) := by
  have h := uniform_integral (fun _ => Real.log 2) continuous_const
  have e : (fun x => -Real.log (uniform x) * uniform x) = fun x => Real.log 2 * uniform x := by
    funext x
    unfold uniform
    split_ifs <;> simp
  refine ⟨e ▸ h.1, ?_⟩
  refine (congrArg (fun u => ∫ x in Set.Ioi 0, u x) e).trans (h.2.trans ?_)
  simp

theorem uniform_means {search : Cls → List Val → Except Err (List Val)} (hs : solve.For search)
    {f : List ℕ → ℝ → ℝ}
    (hf : PdfIs (library search) (Simple.exponential.kind solve) []
      ((Simple.exponential.kind solve).nat [] (fun _ => ()) fun _ => (-1 : ℝ)) f) :
    SameMeans (Simple.exponential.setting solve) (library search) [] (fun _ => ()) f fun _ => uniform := by
  intro q v s hv h i hi m hm
  have hK : LibrarySetting solve _ (Simple.exponential.setting solve) := .simple .exponential
  rw [statisticIs_eq hs hK h hi] at hm ⊢
  rw [pdfIs_eq hs hK hf hi] at hm
  have hm : HasMean (volume.restrict (Set.Ioi 0)) (exponential.pdf (-1 : ℝ))
    (fun x => exponential.dot (v i) (exponential.stat x)) m := hm
  have hu := hm.unique ((library_lawful hK).mean (p := ()) trivial (q := (-1 : ℝ)) (show (-1 : ℝ) < 0 by norm_num)
    (hv i hi))
  rw [hu]
  exact uniform_mean (v i)

end Samples

/-- Non-vacuity of `C96_pythagoras`: the uniform density from 0 to 2 is further from all other exponential
distributions than from the one with its mean. -/
example {search : Cls → List Val → Except Err (List Val)} (hs : solve.For search) (d : ℝ)
    (hd : IsKL (volume.restrict (Set.Ioi 0)) Samples.uniform (exponential.pdf (-1)) d) :
    ∃ k, 0 < k ∧ IsKL (volume.restrict (Set.Ioi 0)) Samples.uniform (exponential.pdf (-2)) (d + k) := by
  have hK : LibrarySetting solve _ (Simple.exponential.setting solve) := .simple .exponential
  have ha : ∀ q < (0 : ℝ), (Simple.exponential.setting solve).Inside [] (fun _ => ()) fun _ => q :=
    fun q h i _ => ⟨trivial, h⟩
  obtain ⟨f, hf, -⟩ := C68_pdf hs hK (ha (-1) (by norm_num))
  obtain ⟨f', hf', -⟩ := C68_pdf hs hK (ha (-2) (by norm_num))
  have hr : EachLeaf RegularVals ((Simple.exponential.kind solve).nat [] (fun _ => ()) fun _ => (-1 : ℝ)) := by
    intro l hl
    rw [List.mem_singleton.1 hl]
    exact trivial
  obtain ⟨k, -, h⟩ := C96_pythagoras (g := fun _ => Samples.uniform) hs hK (ha (-1) (by norm_num))
    (ha (-2) (by norm_num)) hr hf hf' (fun _ _ => Samples.uniform_density) (Samples.uniform_means hs hf)
  obtain ⟨h1, h2, h3⟩ := h [] rfl d (by rw [pdfIs_eq hs hK hf rfl]; exact hd)
  rw [pdfIs_eq hs hK hf' rfl] at h1
  have hne : (-1 : ℝ) ≠ -2 := by norm_num
  have hk : k [] ≠ 0 := fun h0 => hne (h3.1 (by rw [h0, add_zero]))
  exact ⟨k [], lt_of_le_of_ne (by linarith) hk.symm, h1⟩

/-- Non-vacuity of `C96_three_points`, `C96_monotone` and `C96_conjugate`. -/
example : (Simple.exponential.setting solve).Inside [2] (fun _ => ()) (fun i => (-(i.headD 0 : ℝ) - 1 : ℝ)) ∧
    EachLeaf RegularVals ((Simple.exponential.kind solve).nat [2] (fun _ => ()) fun i => (-(i.headD 0 : ℝ) - 1 : ℝ)) ∧
    EachLeaf (fun c _ => HasEcm c)
      ((Simple.exponential.kind solve).nat [2] (fun _ => ()) fun i => (-(i.headD 0 : ℝ) - 1 : ℝ)) := by
  refine ⟨fun i _ => ⟨trivial, show -(i.headD 0 : ℝ) - 1 < 0 by
    have : (0 : ℝ) ≤ (i.headD 0 : ℕ) := Nat.cast_nonneg _
    linarith⟩, fun l hl => ?_, fun l hl => ?_⟩ <;>
  · rw [List.mem_singleton.1 hl]
    exact trivial

/-- Non-vacuity of `C96_maximum_entropy`: the uniform distribution from 0 to 2 has less entropy than the
exponential distribution with the same mean. -/
example {search : Cls → List Val → Except Err (List Val)} (hs : solve.For search) :
    ∃ n, ((Simple.exponential.kind solve).nat [] (fun _ => ()) fun _ => (-1 : ℝ)).entropyN (library search) =
      Calc.ok (scalars [] n) ∧ Real.log 2 ≤ n [] := by
  have hK : LibrarySetting solve _ (Simple.exponential.setting solve) := .simple .exponential
  have ha : (Simple.exponential.setting solve).Inside [] (fun _ => ()) fun _ => (-1 : ℝ) :=
    fun i _ => ⟨trivial, show (-1 : ℝ) < 0 by norm_num⟩
  obtain ⟨f, hf, -⟩ := C68_pdf hs hK ha
  have hO := C51_library hs hK.kind
  have hr : EachLeaf RegularVals ((Simple.exponential.kind solve).nat [] (fun _ => ()) fun _ => (-1 : ℝ)) := by
    intro l hl
    have hl : l ∈ [Dist.mk Cls.exponentialNP (layS [] (fun _ => ()) fun _ => (-1 : ℝ)) .nil] := hl
    rw [List.mem_singleton.1 hl]
    exact trivial
  have hm : EachLeaf (fun c _ => HasEcm c) ((Simple.exponential.kind solve).nat [] (fun _ => ()) fun _ => (-1 : ℝ)) := by
    intro l hl
    have hl : l ∈ [Dist.mk Cls.exponentialNP (layS [] (fun _ => ()) fun _ => (-1 : ℝ)) .nil] := hl
    rw [List.mem_singleton.1 hl]
    exact trivial
  have hc : ∀ (f : ℝ → ℝ) m, HasMean (volume.restrict (Set.Ioi 0)) f (fun _ => 0) m →
      HasMean (volume.restrict (Set.Ioi 0)) Samples.uniform (fun _ => 0) m := fun f m h => by
    rw [← h.2]
    refine ⟨?_, ?_⟩ <;> simp
  obtain ⟨n, h1, h2⟩ := C96_maximum_entropy (g := fun _ => Samples.uniform) hs hK ha hr hm
    (C68_found hK ha (.inl trivial)) hf (fun x t ht => hO.carrier [] _ _ x t ht)
    (fun _ _ => Samples.uniform_density) (Samples.uniform_means hs hf) fun i _ m h => hc (f i) m h
  exact ⟨n, h1, (h2 [] rfl _ Samples.uniform_entropy).1⟩

end Efax
