import Verif.Lemmas.Total
import Verif.Lemmas.Lawful
import Verif.Lemmas.Objects
import Verif.Props.Library
import Verif.Props.Families.Discrete
import Verif.Props.Families.Positive
import Verif.Props.Families.Normal
import Verif.Props.Families.Multivariate
import Verif.Props.Families.Simplex
import Verif.Props.Families.ComplexNormal
import Verif.Props.Families.VonMises
import Verif.Props.Families.Inverse

/-!
# C68: the laws of exponential families hold for all distributions, simple and joint, and all batches
-/

namespace Efax

open MeasureTheory Spec Set

variable [MachEps] {solve : Solver}

set_option linter.overlappingInstances false in
/-- The setting of a simple distribution is lawful if its family is regular. -/
theorem Spec.Setting.Lawful.simple {C P N E X : Type} [AddCommGroup N] [Module ℝ N]
    [MeasurableSpace X] {c c' : C} {nat : Layout P N} {exp : Layout P E}
    {obs : List ℕ → (List ℕ → X) → Val → Prop} {F : P → ExpFam N E X} {toNat : P → E → N}
    {ecm : P → E → ℝ} {ent : Prop} {d : P → N → Prop} {e : P → E → Prop} {μ : Measure X}
    {dom : Set N} {dirs : Submodule ℝ N} {ok : P → Prop} {closed : Prop} [SigmaFinite μ]
    (h0 : ∀ p, ok p → dom.Nonempty) (hr : ∀ p, ok p → LocallyRegular (F p) μ dom dirs)
    (hm : ∀ p, ok p → Minimal (F p) μ dirs)
    (he : ent → ∀ p, ok p → ∀ q ∈ dom, toNat p ((F p).toExp q) = q →
      HasMean μ ((F p).pdf q) (F p).carrier (ecm p ((F p).toExp q)))
    (hi : closed → ∀ p, ok p → ∀ q ∈ dom, toNat p ((F p).toExp q) = q) :
    (Setting.simple μ dom dirs ok closed :
      Setting (Kind.simple c c' nat exp obs F toNat ecm ent d e)).Lawful where
  sub _ _ := rfl
  sigma := inferInstanceAs (SigmaFinite μ)
  nonempty := h0
  regular := hr
  minimal := hm
  ecm := he
  inv := hi

instance categories_finite (d : ℕ) : IsFiniteMeasure (categories d) := by
  unfold categories; infer_instance

open scoped ComplexOrder in
theorem simple_lawful : (s : Simple) → (s.setting solve).Lawful
  | .bernoulli => .simple (fun _ _ => ⟨0, trivial⟩) (fun _ _ => bernoulli_regular.1)
      (fun _ _ => bernoulli_minimal) (fun _ _ _ q _ _ => C36_bernoulli q)
      (fun _ _ _ q h => (C31_bernoulli.1 q h).2)
  | .beta => .simple (fun _ _ => ⟨0, fun _ => by norm_num⟩) (fun _ _ => beta_regular.1)
      (fun _ _ => beta_minimal) (fun _ _ _ _ h _ => C36_beta h) (fun h => h.elim)
  | .chi => .simple (fun _ _ => ⟨0, by norm_num⟩) (fun _ _ => chi_regular.1) (fun _ _ => chi_minimal)
      (fun _ _ _ _ h e => C36_chi h _ e) (fun h => h.elim)
  | .chiSquare => .simple (fun _ _ => ⟨0, by norm_num⟩) (fun _ _ => chiSquare_regular.1)
      (fun _ _ => chiSquare_minimal) (fun _ _ _ _ h e => C36_chi_square h _ e)
      (fun h => h.elim)
  | .cmvCircular d => .simple
      (fun _ _ => ⟨-1, by
        show (- -1 : Matrix (Fin d) (Fin d) ℂ).PosDef
        rw [neg_neg]; exact Matrix.PosDef.one⟩)
      (fun _ _ => (cmvCircular_regular d).1) (fun _ _ => cmvCircular_minimal d)
      (fun _ _ _ _ h _ => C36_cmv_circular h) (fun _ _ _ q h => (C31_cmv_circular.1 q h).2)
  | .cmvUnit d => .simple (fun _ _ => ⟨0, trivial⟩) (fun _ _ => (cmvUnit_regular d).1)
      (fun _ _ => cmvUnit_minimal d) (fun _ _ _ q _ _ => C36_cmv_unit q)
      (fun _ _ _ q h => (C31_cmv_unit.1 q h).2)
  | .complexNormal => .simple (fun _ _ => ⟨((0 : ℂ), (-1 : ℝ), (0 : ℂ)), by simp [complexNormalDom]⟩)
      (fun _ _ => complexNormal_regular.1) (fun _ _ => complexNormal_minimal)
      (fun _ _ _ _ h _ => C36_complex_normal h) (fun _ _ _ q h => (C31_complex_normal.1 q h).2)
  | .complexUnit => .simple (fun _ _ => ⟨0, trivial⟩) (fun _ _ => complexUnit_regular.1)
      (fun _ _ => complexUnit_minimal) (fun _ _ _ q _ _ => C36_complex_unit q)
      (fun _ _ _ q h => (C31_complex_unit.1 q h).2)
  | .dirichlet d => .simple (fun _ _ => ⟨0, fun _ => by norm_num⟩) (fun _ _ => (dirichlet_regular d).1)
      (fun _ h => by
        obtain ⟨d, rfl⟩ := Nat.exists_eq_succ_of_ne_zero (ne_of_gt h)
        exact dirichlet_minimal d)
      (fun _ _ _ _ h _ => C36_dirichlet h)
      (fun h => h.elim)
  | .exponential => .simple (fun _ _ => ⟨-1, by norm_num⟩) (fun _ _ => exponential_regular.1)
      (fun _ _ => exponential_minimal) (fun _ _ _ _ h _ => C36_exponential h)
      (fun _ _ _ q h => (C31_exponential.1 q h).2)
  | .gamma => .simple (fun _ _ => ⟨(-1, 0), by norm_num [gammaDom]⟩) (fun _ _ => gamma_regular.1)
      (fun _ _ => gamma_minimal) (fun _ _ _ _ h _ => C36_gamma h) (fun h => h.elim)
  | .genDirichlet d => .simple
      (fun _ _ => ⟨0, fun _ => by norm_num, fun i => by
        have : (0 : ℝ) ≤ ∑ j : Fin d, if i < j then (0 : ℝ) + 1 else 0 :=
          Finset.sum_nonneg fun j _ => by split <;> norm_num
        simp only [Prod.snd_zero, Prod.fst_zero, Pi.zero_apply, ite_self, Finset.sum_const_zero]
        linarith⟩)
      (fun _ _ => (genDirichlet_regular d).1) (fun _ _ => genDirichlet_minimal d)
      (fun _ _ _ _ h _ => C36_gen_dirichlet h) (fun h => h.elim)
  | .geometric => .simple (fun _ _ => ⟨-1, by norm_num⟩) (fun _ _ => geometric_regular.1)
      (fun _ _ => geometric_minimal) (fun _ _ _ _ h _ => C36_geometric h)
      (fun _ _ _ q h => (C31_geometric.1 q h).2)
  | .logarithmic => .simple (fun _ _ => ⟨-1, by norm_num⟩) (fun _ _ => logarithmic_regular.1)
      (fun _ _ => logarithmic_minimal) (fun h => h.elim) (fun h => h.elim)
  | .multinomial d => .simple (fun _ _ => ⟨0, trivial⟩) (fun _ _ => (multinomial_regular d).1)
      (fun _ _ => multinomial_minimal d) (fun _ _ _ q _ _ => C36_multinomial q)
      (fun _ _ _ q h => ((C31_multinomial d).1 q h).2)
  | .mvNormal d => .simple
      (fun _ _ => ⟨(0, -1), by
        show (- -1 : Matrix (Fin d) (Fin d) ℝ).PosDef
        rw [neg_neg]; exact Matrix.PosDef.one⟩)
      (fun _ _ => (mvNormal_regular d).1) (fun _ _ => mvNormal_minimal d)
      (fun _ _ _ _ h _ => C36_mv_normal h) (fun _ _ _ q h => (C31_mv_normal.1 q h).2)
  | .mvDiagonal d => .simple (fun _ _ => ⟨(0, fun _ => -1), fun _ => by norm_num⟩)
      (fun _ _ => (mvDiagonal_regular d).1) (fun _ _ => mvDiagonal_minimal d)
      (fun _ _ _ _ h _ => C36_mv_diagonal h) (fun _ _ _ q h => (C31_mv_diagonal.1 q h).2)
  | .mvFixed d => .simple (fun _ _ => ⟨0, trivial⟩) (fun _ h => (mvFixed_regular d h).1)
      (fun v _ => mvFixed_minimal d v) (fun _ _ h q _ _ => C36_mv_fixed h q)
      (fun _ _ hv q h => ((C31_mv_fixed hv).1 q h).2)
  | .mvIsotropic d => .simple (fun _ _ => ⟨(0, -1), by norm_num [mvIsotropicDom]⟩)
      (fun _ h => by
        obtain ⟨d, rfl⟩ := Nat.exists_eq_succ_of_ne_zero (ne_of_gt h)
        exact (mvIsotropic_regular d).1)
      (fun _ h => by
        obtain ⟨d, rfl⟩ := Nat.exists_eq_succ_of_ne_zero (ne_of_gt h)
        exact mvIsotropic_minimal d)
      (fun _ _ h q hq _ => by
        obtain ⟨d, rfl⟩ := Nat.exists_eq_succ_of_ne_zero (ne_of_gt h)
        exact C36_mv_isotropic hq)
      (fun _ _ h q hq => by
        obtain ⟨d, rfl⟩ := Nat.exists_eq_succ_of_ne_zero (ne_of_gt h)
        exact (C31_mv_isotropic.1 q hq).2)
  | .mvUnit d => .simple (fun _ _ => ⟨0, trivial⟩) (fun _ _ => (mvUnit_regular d).1)
      (fun _ _ => mvUnit_minimal d) (fun _ _ _ q _ _ => C36_mv_unit q)
      (fun _ _ _ q h => (C31_mv_unit.1 q h).2)
  | .negativeBinomial => .simple (fun _ _ => ⟨-1, by norm_num⟩)
      (fun _ h => (negativeBinomial_regular h).1) (fun r _ => negativeBinomial_minimal r)
      (fun h => h.elim) (fun _ _ hr q h => ((C31_negative_binomial hr).1 q h).2)
  | .normal => .simple (fun _ _ => ⟨(0, -1), by norm_num [normalDom]⟩) (fun _ _ => normal_regular.1)
      (fun _ _ => normal_minimal) (fun _ _ _ _ h _ => C36_normal h)
      (fun _ _ _ q h => (C31_normal.1 q h).2)
  | .unitNormal => .simple (fun _ _ => ⟨0, trivial⟩) (fun _ _ => unitNormal_regular.1)
      (fun _ _ => unitNormal_minimal) (fun _ _ _ q _ _ => C36_unit_normal q)
      (fun _ _ _ q h => (C31_unit_normal.1 q h).2)
  | .poisson => .simple (fun _ _ => ⟨0, trivial⟩) (fun _ _ => poisson_regular.1)
      (fun _ _ => poisson_minimal) (fun h => h.elim) (fun _ _ _ q h => (C31_poisson.1 q h).2)
  | .rayleigh => .simple (fun _ _ => ⟨-1, by norm_num⟩) (fun _ _ => rayleigh_regular.1)
      (fun _ _ => rayleigh_minimal) (fun _ _ _ _ h _ => C36_rayleigh h)
      (fun _ _ _ q h => (C31_rayleigh.1 q h).2)
  | .vonMisesFisher d => .simple
      (fun _ h => by
        obtain ⟨d, rfl⟩ := Nat.exists_eq_succ_of_ne_zero (ne_of_gt h)
        exact exists_ne _)
      (fun _ h => by
        obtain ⟨d, rfl⟩ := Nat.exists_eq_succ_of_ne_zero (ne_of_gt h)
        exact vmf_locallyRegular)
      (fun _ h => by
        obtain ⟨d, rfl⟩ := Nat.exists_eq_succ_of_ne_zero (ne_of_gt h)
        exact vmf_minimal)
      (fun _ _ h q hq _ => by
        obtain ⟨d, rfl⟩ := Nat.exists_eq_succ_of_ne_zero (ne_of_gt h)
        exact C36_von_mises_fisher q hq)
      (fun h => h.elim)
  | .weibull => .simple (fun _ _ => ⟨-1, by norm_num⟩) (fun _ h => (weibull_regular h).1)
      (fun _ h => weibull_minimal h) (fun _ _ hk _ h _ => C36_weibull hk h)
      (fun _ k _ q h => ((C31_weibull k).1 q h).2)

theorem library_lawful {K : Kind Cls} {S : Setting K} (h : LibrarySetting solve K S) :
    S.Lawful := by
  induction h with
  | simple s => exact simple_lawful s
  | joint h0 hn hS ih => exact .joint (.ofList _ ih)

section

open Calc

variable {search : Cls → List Val → Except Err (List Val)} (hs : solve.For search)
  {K : Kind Cls} {S : Setting K} (hK : LibrarySetting solve K S) {rs : List ℕ} {p : List ℕ → K.P}

include hs hK

theorem pdfIs_eq {q : List ℕ → K.N} {f : List ℕ → K.X → ℝ}
    (h : PdfIs (library search) K rs (K.nat rs p q) f) {i : List ℕ} (hi : inB rs i = true) :
    f i = (K.F (p i)).pdf (q i) := by
  funext x
  obtain ⟨t, ht⟩ := obs_total hK.kind rs fun _ => x
  have := h _ t ht
  rw [C51_pdf (C51_library hs hK.kind) rs p q _ t ht] at this
  exact (ok_scalars_inj this i hi).symm

theorem statistic_eq {q v : List ℕ → K.N} {x : List ℕ → K.X} {t : Tree Val} (ht : K.obs rs x t) :
    ∃ est w, createEstimatorFromNatural (K.nat rs p q) = .ok est ∧
      est.sufficientStatistics (library search).stat t = .ok w ∧
      dotCalc (K.nat rs p v) w =
        ok (scalars rs fun i => (K.F (p i)).dot (v i) ((K.F (p i)).stat (x i))) := by
  have h := C51_library hs hK.kind
  obtain ⟨est, he⟩ := h.estimator rs p q
  obtain ⟨w, h1, h2⟩ := h.stat rs p q x t ht
  have h3 := (C25_estimator_from_natural (h.wfN _ _ _) he (h.distinct _ _ _ ht)).2 h1
  refine ⟨est, w, he, h3, dotCalc_eq (h.wfN _ _ _) (h2.wf (h.wfE _ _ _))
    (h2.dotMatch (h.dotMatch _ _ _ _ _)) fun i hi => ?_⟩
  rw [h2.treeDot]
  exact h.dot _ _ _ _ _ i hi

theorem statisticIs_eq {q v : List ℕ → K.N} {s : List ℕ → K.X → ℝ}
    (h : StatisticIs (library search) K rs (K.nat rs p q) (K.nat rs p v) s) {i : List ℕ}
    (hi : inB rs i = true) : s i = fun x => (K.F (p i)).dot (v i) ((K.F (p i)).stat x) := by
  funext x
  obtain ⟨t, ht⟩ := obs_total hK.kind rs fun _ => x
  obtain ⟨est, w, h1, h2, h3⟩ := h _ t ht
  obtain ⟨est', w', h1', h2', h3'⟩ := statistic_eq hs hK (p := p) (q := q) (v := v) ht
  obtain rfl : est = est' := by rw [h1] at h1'; injection h1'
  obtain rfl : w = w' := by rw [h2] at h2'; injection h2'
  rw [h3] at h3'
  exact ok_scalars_inj h3' i hi

/-- **C68.** `pdf` computes probability densities: for every entry of the batch, the density integrates
to one with respect to the reference measure (the product of the reference measures, for joint
distributions). -/
theorem C68_pdf {q : List ℕ → K.N} (hq : S.Inside rs p q) : letI := S.ms
    ∃ f, PdfIs (library search) K rs (K.nat rs p q) f ∧ ∀ i, inB rs i = true → IsDensity S.μ (f i) :=
  ⟨fun i => (K.F (p i)).pdf (q i), fun x t ht => C51_pdf (C51_library hs hK.kind) rs p q x t ht,
    fun i hi => (library_lawful hK).density (hq i hi).1 (hq i hi).2⟩

/-- **C68.** `to_exp()` computes the expectations of the sufficient statistics. -/
theorem C68_to_exp {q v : List ℕ → K.N} {f : List ℕ → K.X → ℝ} (hq : S.Inside rs p q)
    (hr : EachLeaf RegularVals (K.nat rs p q)) (hv : ∀ i, inB rs i = true → v i ∈ S.dirs)
    (hf : PdfIs (library search) K rs (K.nat rs p q) f) : letI := S.ms
    ∃ e s m, (K.nat rs p q).toExp (library search).toExp = .ok e ∧
      StatisticIs (library search) K rs (K.nat rs p q) (K.nat rs p v) s ∧
      dotCalc (K.nat rs p v) e = ok (scalars rs m) ∧
      ∀ i, inB rs i = true → HasMean S.μ (f i) (s i) (m i) := by
  have h := C51_library hs hK.kind
  refine ⟨_, fun i x => (K.F (p i)).dot (v i) ((K.F (p i)).stat x), _,
    h.toExp rs p q (regular_dom hK.kind hr), fun x t ht => statistic_eq hs hK ht,
    h.dotCalc _ _ _ _ _, fun i hi => ?_⟩
  rw [pdfIs_eq hs hK hf hi]
  exact (library_lawful hK).mean (hq i hi).1 (hq i hi).2 (hv i hi)

/-- **C68.** `kl_divergence` computes the Kullback-Leibler divergence; it is not negative, and it is
zero for equal parameters only. -/
theorem C68_kl {a b : List ℕ → K.N} {f g : List ℕ → K.X → ℝ} (ha : S.Inside rs p a)
    (hb : S.Inside rs p b) (hr : EachLeaf RegularVals (K.nat rs p a))
    (hf : PdfIs (library search) K rs (K.nat rs p a) f)
    (hg : PdfIs (library search) K rs (K.nat rs p b) g) : letI := S.ms
    ∃ k, (K.nat rs p a).klN (library search) (K.nat rs p b) = ok (scalars rs k) ∧
      ∀ i, inB rs i = true → IsKL S.μ (f i) (g i) (k i) ∧ 0 ≤ k i ∧ (k i = 0 ↔ a i = b i) := by
  refine ⟨_, C51_kl_natural (C51_library hs hK.kind) rs p a b (regular_dom hK.kind hr), fun i hi => ?_⟩
  rw [pdfIs_eq hs hK hf hi, pdfIs_eq hs hK hg hi]
  exact (library_lawful hK).kl (ha i hi).1 (ha i hi).2 (hb i hi).2

/-- **C68.** The same for the expectation parameters, whether they convert themselves to natural
parameters or the natural parameters are passed. -/
theorem C68_kl_expectation {a b : List ℕ → K.N} {f g : List ℕ → K.X → ℝ} (ha : S.Inside rs p a)
    (hb : S.Inside rs p b) (hr : EachLeaf RegularVals (K.nat rs p a))
    (hf : PdfIs (library search) K rs (K.nat rs p a) f)
    (hg : PdfIs (library search) K rs (K.nat rs p b) g) : letI := S.ms
    ∃ e k, (K.nat rs p a).toExp (library search).toExp = .ok e ∧
      e.klE (library search) (K.nat rs p b) (some (K.nat rs p a)) = ok (scalars rs k) ∧
      (Found K rs p a → EachLeaf SearchableVals e →
        e.klE (library search) (K.nat rs p b) = ok (scalars rs k)) ∧
      ∀ i, inB rs i = true → IsKL S.μ (f i) (g i) (k i) ∧ 0 ≤ k i ∧ (k i = 0 ↔ a i = b i) := by
  have h := C51_library hs hK.kind
  refine ⟨_, _, h.toExp rs p a (regular_dom hK.kind hr), C51_kl_with h rs p _ a b, fun hx he => ?_,
    fun i hi => ?_⟩
  · rw [C51_kl_expectation h rs p _ b (searchable_dom hK.kind he)]
    refine ok_ofFn_congr fun i hi => ?_
    rw [ExpFam.klE, hx i hi]
  · rw [pdfIs_eq hs hK hf hi, pdfIs_eq hs hK hg hi]
    exact (library_lawful hK).kl (ha i hi).1 (ha i hi).2 (hb i hi).2

/-- **C68.** `cross_entropy` and `entropy` compute the cross entropy and the entropy of the densities;
their difference is the Kullback-Leibler divergence. -/
theorem C68_entropy {a b : List ℕ → K.N} {f g : List ℕ → K.X → ℝ}
    (ha : S.Inside rs p a) (hb : S.Inside rs p b) (hr : EachLeaf RegularVals (K.nat rs p a))
    (hm : EachLeaf (fun c _ => HasEcm c) (K.nat rs p a)) (hx : Found K rs p a)
    (hf : PdfIs (library search) K rs (K.nat rs p a) f)
    (hg : PdfIs (library search) K rs (K.nat rs p b) g) : letI := S.ms
    ∃ e c n k, (K.nat rs p a).toExp (library search).toExp = .ok e ∧
      e.crossEntropy (library search) (K.nat rs p b) = ok (scalars rs c) ∧
      (K.nat rs p a).entropyN (library search) = ok (scalars rs n) ∧
      (EachLeaf SearchableVals e → e.entropyE (library search) = ok (scalars rs n)) ∧
      (K.nat rs p a).klN (library search) (K.nat rs p b) = ok (scalars rs k) ∧
      ∀ i, inB rs i = true → IsCrossEntropy S.μ (f i) (g i) (c i) ∧ IsCrossEntropy S.μ (f i) (f i) (n i) ∧
        c i - n i = k i := by
  have h := C51_library hs hK.kind
  have he := ecm_ent_nat hK.kind hm
  have hd := regular_dom hK.kind hr
  refine ⟨_, _, _, _, h.toExp rs p a hd, C51_cross_entropy h he rs p _ b, C51_entropy_natural h he rs p a hd,
    fun hq => ?_, C51_kl_natural h rs p a b hd, fun i hi => ?_⟩
  · rw [C51_entropy_expectation h he rs p _ (searchable_dom hK.kind hq)]
    refine ok_ofFn_congr fun i hi => ?_
    rw [ExpFam.entropyE, hx i hi]
    rfl
  · rw [pdfIs_eq hs hK hf hi, pdfIs_eq hs hK hg hi]
    have := (library_lawful hK).entropy he (ha i hi).1 (ha i hi).2 (hx i hi)
    exact ⟨(this.2 _ (hb i hi).2).1, this.1, (this.2 _ (hb i hi).2).2⟩

omit hs in
/-- **C68.** `to_nat()` finds the natural parameters: always, for classes that do not search; for the
others, if the search ends at valid natural parameters with the given expectation parameters. -/
theorem C68_found {q : List ℕ → K.N} (hq : S.Inside rs p q)
    (h : S.closed ∨ ∃ q' : List ℕ → K.N, S.Inside rs p q' ∧ ∀ i, inB rs i = true →
      K.toNat (p i) ((K.F (p i)).toExp (q i)) = q' i ∧
      (K.F (p i)).toExp (q' i) = (K.F (p i)).toExp (q i)) : Found K rs p q := by
  intro i hi
  rcases h with h | ⟨q', h1, h2⟩
  · exact (library_lawful hK).inv h _ (hq i hi).1 _ (hq i hi).2
  · rw [(h2 i hi).1]
    exact (library_lawful hK).inj (hq i hi).1 (h1 i hi).2 (hq i hi).2 (h2 i hi).2

/-- **C68.** `to_nat()` undoes `to_exp()`, if it finds the natural parameters. -/
theorem C68_to_nat {q : List ℕ → K.N} (hx : Found K rs p q) (hr : EachLeaf RegularVals (K.nat rs p q)) :
    ∃ e, (K.nat rs p q).toExp (library search).toExp = .ok e ∧ (EachLeaf SearchableVals e →
      ∃ q', e.toNat (library search).toNat = .ok (K.nat rs p q') ∧ ∀ i, inB rs i = true → q' i = q i) := by
  have h := C51_library hs hK.kind
  exact ⟨_, h.toExp rs p q (regular_dom hK.kind hr), fun he => ⟨_, h.toNat rs p _ (searchable_dom hK.kind he),
    fun i hi => hx i hi⟩⟩

/-- **C68.** The expectation parameters are the gradient of `log_normalizer`. -/
theorem C68_gradient {q v : List ℕ → K.N} (hq : S.Inside rs p q)
    (hr : EachLeaf RegularVals (K.nat rs p q)) (hv : ∀ i, inB rs i = true → v i ∈ S.dirs) :
    ∃ e m, ∃ l : ℝ → List ℕ → ℝ, (K.nat rs p q).toExp (library search).toExp = .ok e ∧
      dotCalc (K.nat rs p v) e = ok (scalars rs m) ∧
      (∀ t : ℝ, (K.nat rs p fun i => S.line (q i) (v i) t).logNormalizer (library search) =
        ok (scalars rs (l t))) ∧
      ∀ i, inB rs i = true → HasDerivAt (fun t => l t i) (m i) 0 := by
  have h := C51_library hs hK.kind
  exact ⟨_, _, _, h.toExp rs p q (regular_dom hK.kind hr), h.dotCalc _ _ _ _ _,
    fun t => h.logNormalizer _ _ _, fun i hi =>
    (library_lawful hK).gradient (hq i hi).1 (hq i hi).2 (hv i hi)⟩

/-- **C68.** The second derivatives of `log_normalizer` are the covariances of the sufficient
statistics. -/
theorem C68_fisher {q u v : List ℕ → K.N} {f : List ℕ → K.X → ℝ} (hq : S.Inside rs p q)
    (hu : ∀ i, inB rs i = true → u i ∈ S.dirs) (hv : ∀ i, inB rs i = true → v i ∈ S.dirs)
    (hf : PdfIs (library search) K rs (K.nat rs p q) f) : letI := S.ms
    ∃ s s', ∃ l : ℝ → ℝ → List ℕ → ℝ, StatisticIs (library search) K rs (K.nat rs p q) (K.nat rs p u) s ∧
      StatisticIs (library search) K rs (K.nat rs p q) (K.nat rs p v) s' ∧
      (∀ t r : ℝ, (K.nat rs p fun i => S.line (S.line (q i) (v i) t) (u i) r).logNormalizer
        (library search) = ok (scalars rs (l t r))) ∧
      ∀ i, inB rs i = true → ∃ c, HasCov S.μ (f i) (s i) (s' i) c ∧
        HasDerivAt (fun t => deriv (fun r => l t r i) 0) c 0 := by
  have h := C51_library hs hK.kind
  refine ⟨fun i x => (K.F (p i)).dot (u i) ((K.F (p i)).stat x),
    fun i x => (K.F (p i)).dot (v i) ((K.F (p i)).stat x), _,
    fun x t ht => statistic_eq hs hK ht, fun x t ht => statistic_eq hs hK ht,
    fun t r => h.logNormalizer _ _ _, fun i hi => ?_⟩
  rw [pdfIs_eq hs hK hf hi]
  exact (library_lawful hK).fisher (hq i hi).1 (hq i hi).2 (hu i hi) (hv i hi)

end

theorem settings_exist : (l : List (String × Kind Cls)) →
    (∀ nk ∈ l, ∃ S, LibrarySetting solve nk.2 S) →
    ∃ l', partsOf l' = l ∧ ∀ s ∈ l', LibrarySetting solve s.2.1 s.2.2
  | [], _ => ⟨[], rfl, by simp⟩
  | (n, K) :: l, h => by
      obtain ⟨S, hS⟩ := h (n, K) List.mem_cons_self
      obtain ⟨l', rfl, hl⟩ := settings_exist l fun nk hn => h nk (List.mem_cons_of_mem _ hn)
      exact ⟨(n, ⟨K, S⟩) :: l', rfl, by simpa using ⟨hS, fun a b h => hl _ h⟩⟩

/-- **C68.** Every kind of distributions has a setting. -/
theorem C68_every {K : Kind Cls} (h : LibraryKind solve K) : ∃ S, LibrarySetting solve K S := by
  induction h with
  | simple s => exact ⟨_, .simple s⟩
  | joint h0 hn hl ih =>
    obtain ⟨l', rfl, h⟩ := settings_exist _ ih
    exact ⟨_, .joint (by rintro rfl; exact h0 rfl) (by simpa [partsOf, Function.comp_def] using hn) h⟩

namespace Samples

/-- A Poisson and an exponential variable. -/
noncomputable def inner (solve : Solver) : List (String × Σ K : Kind Cls, Setting K) :=
  [("n", ⟨_, Simple.poisson.setting solve⟩), ("t", ⟨_, Simple.exponential.setting solve⟩)]

/-- A normal variable and a nested joint distribution. -/
noncomputable def outer (solve : Solver) : List (String × Σ K : Kind Cls, Setting K) :=
  [("x", ⟨_, Simple.normal.setting solve⟩), ("y", ⟨_, .joint .jointN .jointE (.ofList (inner solve))⟩)]

theorem inner_setting : LibrarySetting solve _ (.joint .jointN .jointE (.ofList (inner solve))) := by
  refine .joint (by simp [inner]) (by simp [inner]) fun s hs => ?_
  simp only [inner, List.mem_cons, List.not_mem_nil, or_false] at hs
  rcases hs with rfl | rfl
  · exact .simple .poisson
  · exact .simple .exponential

theorem outer_setting : LibrarySetting solve _ (.joint .jointN .jointE (.ofList (outer solve))) := by
  refine .joint (by simp [outer]) (by simp [outer]) fun s hs => ?_
  simp only [outer, List.mem_cons, List.not_mem_nil, or_false] at hs
  rcases hs with rfl | rfl
  · exact .simple .normal
  · exact inner_setting

/-- Parameters of the nested joint distribution. -/
def point (a : ℝ) : (ℝ × ℝ) × ((ℝ × ℝ × Unit) × Unit) := ((a, -1), (a, -1, ()), ())

theorem point_inside (rs : List ℕ) (a : List ℕ → ℝ) :
    (Setting.joint .jointN .jointE (Settings.ofList (outer solve))).Inside rs
      (fun _ => ((), ((), (), ()), ())) fun i => point (a i) := fun i _ =>
  ⟨⟨trivial, ⟨trivial, trivial, trivial⟩, trivial⟩,
    ⟨show (-1 : ℝ) < 0 by norm_num, ⟨trivial, show (-1 : ℝ) < 0 by norm_num, trivial⟩, trivial⟩⟩

theorem point_regular (rs : List ℕ) (a : List ℕ → ℝ) :
    EachLeaf RegularVals ((Kind.joint .jointN .jointE (.ofList (partsOf (outer solve)))).nat rs
      (fun _ => ((), ((), (), ()), ())) fun i => point (a i)) := by
  intro l hl
  have e : leaves ((Kind.joint .jointN .jointE (.ofList (partsOf (outer solve)))).nat rs
      (fun _ => ((), ((), (), ()), ())) fun i => point (a i)) =
      [.mk .normalNP (laySS rs (fun _ => ()) fun i => (a i, -1)) .nil,
        .mk .poissonNP (layS rs (fun _ => ()) a) .nil,
        .mk .exponentialNP (layS rs (fun _ => ()) fun _ => -1) .nil] := rfl
  rw [e] at hl
  simp only [List.mem_cons, List.not_mem_nil, or_false] at hl
  rcases hl with rfl | rfl | rfl <;> exact trivial

end Samples

/-- Non-vacuity of C68: a batch of nested joint distributions. -/
example {search : Cls → List Val → Except Err (List Val)} (hs : solve.For search) :
    let K := Kind.joint .jointN .jointE (.ofList (partsOf (Samples.outer solve)))
    let S : Setting K := Setting.joint .jointN .jointE (Settings.ofList (Samples.outer solve))
    letI := S.ms
    ∃ f, PdfIs (library search) K [3] (K.nat [3] (fun _ => ((), ((), (), ()), ()))
      fun i => Samples.point (i.headD 0)) f ∧ IsDensity S.μ (f [1]) := by
  intro K S
  obtain ⟨f, h1, h2⟩ := C68_pdf hs Samples.outer_setting (Samples.point_inside [3] fun i => (i.headD 0 : ℝ))
  exact ⟨f, h1, h2 [1] rfl⟩

/-- Non-vacuity of C68: the divergence of two batches of nested joint distributions. -/
example {search : Cls → List Val → Except Err (List Val)} (hs : solve.For search) :
    let K := Kind.joint .jointN .jointE (.ofList (partsOf (Samples.outer solve)))
    ∃ k, (K.nat [3] (fun _ => ((), ((), (), ()), ())) fun i => Samples.point (i.headD 0)).klN
      (library search) (K.nat [3] (fun _ => ((), ((), (), ()), ())) fun _ => Samples.point 1) =
        Calc.ok (scalars [3] k) ∧ k [1] = 0 ∧ 0 < k [2] := by
  intro K
  have h1 := Samples.point_inside (solve := solve) [3] fun i => (i.headD 0 : ℝ)
  have h2 := Samples.point_inside (solve := solve) [3] fun _ => 1
  obtain ⟨f, hf, _⟩ := C68_pdf hs Samples.outer_setting h1
  obtain ⟨g, hg, _⟩ := C68_pdf hs Samples.outer_setting h2
  obtain ⟨k, hk, h⟩ := C68_kl hs Samples.outer_setting h1 h2 (Samples.point_regular _ _) hf hg
  refine ⟨k, hk, (h [1] rfl).2.2.2 ?_,
    lt_of_le_of_ne (h [2] rfl).2.1 fun e => ?_⟩
  · exact congrArg Samples.point (by norm_num)
  · have := congrArg (fun z : (ℝ × ℝ) × ((ℝ × ℝ × Unit) × Unit) => z.1.1) ((h [2] rfl).2.2.1 e.symm)
    norm_num [Samples.point] at this

/-- Non-vacuity of C68: conversion back to natural parameters. -/
example {search : Cls → List Val → Except Err (List Val)} (hs : solve.For search) :
    let K := Kind.joint .jointN .jointE (.ofList (partsOf (Samples.outer solve)))
    ∃ e, (K.nat [3] (fun _ => ((), ((), (), ()), ())) fun i => Samples.point (i.headD 0)).toExp
      (library search).toExp = .ok e := by
  intro K
  obtain ⟨e, h, _⟩ := C68_to_nat hs Samples.outer_setting
    (C68_found Samples.outer_setting (Samples.point_inside [3] fun i => (i.headD 0 : ℝ))
      (.inl ⟨trivial, ⟨trivial, trivial, trivial⟩, trivial⟩)) (Samples.point_regular _ _)
  exact ⟨e, h⟩

/-- Non-vacuity of C68: entropies of normal distributions. -/
example {search : Cls → List Val → Except Err (List Val)} (hs : solve.For search) :
    ∃ n, ((Simple.normal.kind solve).nat [3] (fun _ => ()) fun i => ((i.headD 0 : ℝ), (-1 : ℝ))).entropyN
      (library search) = Calc.ok (scalars [3] n) := by
  have h1 : (Simple.normal.setting solve).Inside [3] (fun _ => ()) fun i => ((i.headD 0 : ℝ), (-1 : ℝ)) :=
    fun i _ => ⟨trivial, show (-1 : ℝ) < 0 by norm_num⟩
  have hl : ∀ P : Cls → List Val → Prop, (∀ v, P .normalNP v) → EachLeaf P
      ((Simple.normal.kind solve).nat [3] (fun _ => ()) fun i => ((i.headD 0 : ℝ), (-1 : ℝ))) := by
    intro P hP l h
    rw [List.mem_singleton.1 h]
    exact hP _
  obtain ⟨f, hf, _⟩ := C68_pdf hs (.simple .normal) h1
  obtain ⟨_, _, n, _, _, _, h, _⟩ := C68_entropy hs (.simple .normal) h1 h1 (hl _ fun _ => trivial)
    (hl _ fun _ => trivial) (C68_found (.simple .normal) h1 (.inl trivial)) hf hf
  exact ⟨n, h⟩

end Efax
