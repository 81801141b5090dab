import Verif.Lemmas.Gradients
import Verif.Spec.EntropyGradient

/-! # The gradient of the entropy -/

namespace Efax

open MeasureTheory Spec Filter Topology

namespace Spec.LocallyRegular

variable {N E X : Type} [AddCommGroup N] [Module ℝ N] [MeasurableSpace X] {F : ExpFam N E X}
  {μ : Measure X} {dom : Set N} {dirs : Submodule ℝ N} (R : LocallyRegular F μ dom dirs)

include R

/-- Like `deriv_moment`, for a quantity that is only integrable. -/
theorem deriv_moment_integrable {η v : N} (h : η ∈ dom) (hv : v ∈ dirs) (U : X → ℝ)
    (hU : ∀ᶠ t : ℝ in 𝓝 0, Integrable U (law F μ (η + t • v))) :
    Integrable (fun x => U x * F.dot v (F.stat x)) (law F μ η) ∧
    HasDerivAt (fun t : ℝ => ∫ x, U x * Real.exp (t * F.dot v (F.stat x)) ∂law F μ η)
      (∫ x, U x * F.dot v (F.stat x) ∂law F μ η) 0 := by
  haveI := R.isProbability h
  obtain ⟨δ, hδ, hball⟩ := Metric.eventually_nhds_iff.1 (hU.and (R.is_open η h v hv))
  set ε := δ / 2 with hε
  have he : 0 < ε := by positivity
  have hp := hball (y := ε) (by rw [dist_zero_right, Real.norm_of_nonneg he.le]; linarith)
  have hm := hball (y := -ε) (by rw [dist_zero_right, norm_neg, Real.norm_of_nonneg he.le]; linarith)
  have h0 := hball (y := 0) (by simpa using hδ)
  rw [zero_smul, add_zero] at h0
  have hV := R.memLp2 h hv
  have i1 : Integrable (fun x => U x * Real.exp (ε * F.dot v (F.stat x))) (law F μ η) :=
    (R.integrable_shift h hp.2 _).1 hp.1
  have i2 : Integrable (fun x => U x * Real.exp (-ε * F.dot v (F.stat x))) (law F μ η) :=
    (R.integrable_shift h hm.2 _).1 hm.1
  have hVm := hV.aestronglyMeasurable
  have hUm := h0.1.aestronglyMeasurable
  have key := hasDerivAt_integral_of_dominated_loc_of_deriv_le (μ := law F μ η) (x₀ := (0 : ℝ))
    (s := Metric.ball 0 (ε / 2))
    (F := fun t x => U x * Real.exp (t * F.dot v (F.stat x)))
    (F' := fun t x => U x * (F.dot v (F.stat x) * Real.exp (t * F.dot v (F.stat x))))
    (bound := fun x => 2 / ε * (‖U x * Real.exp (ε * F.dot v (F.stat x))‖ +
      ‖U x * Real.exp (-ε * F.dot v (F.stat x))‖))
    (Metric.ball_mem_nhds _ (by positivity))
    (Filter.Eventually.of_forall fun t => hUm.mul
      (Real.continuous_exp.comp_aestronglyMeasurable (hVm.const_mul t)))
    (by simpa using h0.1)
    (hUm.mul (hVm.mul (Real.continuous_exp.comp_aestronglyMeasurable (hVm.const_mul 0))))
    (Filter.Eventually.of_forall fun x t ht => ?_)
    ((i1.norm.add i2.norm).const_mul _)
    (Filter.Eventually.of_forall fun x t _ => ?_)
  · exact ⟨by simpa using key.1, by simpa using key.2⟩
  · rw [Metric.mem_ball, dist_zero_right, Real.norm_eq_abs] at ht
    generalize F.dot v (F.stat x) = y
    simp only [norm_mul, Real.norm_eq_abs, Real.abs_exp]
    rw [← mul_add, mul_left_comm (2 / ε)]
    refine mul_le_mul_of_nonneg_left ?_ (abs_nonneg (U x))
    have a1 : t * y ≤ ε / 2 * |y| := (le_abs_self _).trans (by rw [abs_mul]; gcongr)
    have a2 : |y| ≤ 2 / ε * Real.exp (ε / 2 * |y|) := by
      have := Real.add_one_le_exp (ε / 2 * |y|)
      rw [div_mul_eq_mul_div, le_div_iff₀ he]
      linarith
    have a3 : Real.exp (ε * |y|) ≤ Real.exp (ε * y) + Real.exp (-ε * y) := by
      rcases abs_cases y with ⟨e, -⟩ | ⟨e, -⟩ <;> rw [e]
      · linarith [Real.exp_pos (-ε * y)]
      · rw [mul_neg, ← neg_mul]; linarith [Real.exp_pos (ε * y)]
    calc |y| * Real.exp (t * y) ≤ 2 / ε * Real.exp (ε / 2 * |y|) * Real.exp (ε / 2 * |y|) := by
          gcongr
      _ = 2 / ε * Real.exp (ε * |y|) := by rw [mul_assoc, ← Real.exp_add]; ring_nf
      _ ≤ _ := by gcongr
  · have := ((hasDerivAt_id t).mul_const (F.dot v (F.stat x))).exp.const_mul (U x)
    simp only [id, one_mul] at this
    rw [mul_comm (F.dot v (F.stat x))]
    exact this

/-- The derivative of the expectation of any integrable quantity is its covariance with the statistic. -/
theorem deriv_mean_integrable {η v : N} (h : η ∈ dom) (hv : v ∈ dirs) (U : X → ℝ) (m : ℝ → ℝ)
    (hm : ∀ᶠ t : ℝ in 𝓝 0, HasMean μ (F.pdf (η + t • v)) U (m t)) :
    ∃ c, HasCov μ (F.pdf η) U (fun x => F.dot v (F.stat x)) c ∧ HasDerivAt m c 0 := by
  haveI := R.isProbability h
  have hd := R.is_open η h v hv
  obtain ⟨hUV, h1⟩ := R.deriv_moment_integrable h hv U (by
    filter_upwards [hm, hd] with t ht hd
    exact ((R.hasMean_iff hd _ _).1 ht).1)
  have hm0 : HasMean μ (F.pdf η) U (m 0) := by simpa using hm.self_of_nhds
  have hUe := ((R.hasMean_iff h _ _).1 hm0).2
  have hUVm : HasMean μ (F.pdf η) (fun x => U x * F.dot v (F.stat x))
      (∫ x, U x * F.dot v (F.stat x) ∂law F μ η) := (R.hasMean_iff h _ _).2 ⟨hUV, rfl⟩
  refine ⟨∫ x, U x * F.dot v (F.stat x) ∂law F μ η - m 0 * F.dot v (F.toExp η),
    ⟨m 0, F.dot v (F.toExp η), hm0, R.mean_dot h hv, ?_⟩, ?_⟩
  · exact (((hUVm.sub ((R.mean_dot h hv).const_mul (m 0))).sub
      (hm0.const_mul (F.dot v (F.toExp η)))).add
      (HasMean.const (R.density η h) (m 0 * F.dot v (F.toExp η)))).congr
      (fun x => by ring) (by ring)
  · have h2 : HasDerivAt (fun t : ℝ => Real.exp (F.logNormalizer η - F.logNormalizer (η + t • v)))
        (-(F.dot v (F.toExp η))) 0 := by
      have := ((R.gradient η h v hv).const_sub (F.logNormalizer η)).exp
      simpa using this
    have h3 := h1.mul h2
    have h4 : m =ᶠ[𝓝 0]
        ((fun t => ∫ x, U x * Real.exp (t * F.dot v (F.stat x)) ∂law F μ η) * fun t =>
          Real.exp (F.logNormalizer η - F.logNormalizer (η + t • v))) := by
      filter_upwards [hd, hm] with t ht hm
      simp only [Pi.mul_apply]
      rw [R.integral_shift h ht, mul_right_comm, ← Real.exp_add, ((R.hasMean_iff ht _ _).1 hm).2]
      simp
    refine (h3.congr_of_eventuallyEq h4).congr_deriv ?_
    simp [hUe]
    ring

/-- The derivative of the entropy is the covariance of the information with the statistic. -/
theorem deriv_entropy {η v : N} (h : η ∈ dom) (hv : v ∈ dirs) {ecm : E → ℝ}
    (hc : ∀ᶠ t : ℝ in 𝓝 0, HasMean μ (F.pdf (η + t • v)) F.carrier (ecm (F.toExp (η + t • v)))) :
    ∃ c, HasCov μ (F.pdf η) (fun x => -Real.log (F.pdf η x)) (fun x => F.dot v (F.stat x)) c ∧
      HasDerivAt (fun t : ℝ => F.entropyN ecm (η + t • v)) c 0 := by
  obtain ⟨c, h1, h2⟩ := R.deriv_mean_integrable h hv (fun x => -Real.log (F.pdf η x))
    (fun t => F.crossEntropy ecm (F.toExp (η + t • v)) η) (by
      filter_upwards [hc, R.is_open η h v hv] with t ht hd
      refine (((HasMean.const (R.density _ hd) (F.logNormalizer η)).sub
        (R.mean_dot hd (R.mem_dirs η h))).sub ht).congr (fun x => ?_) ?_
      · rw [F.log_pdf, ExpFam.logPdf]
        ring
      · rw [ExpFam.crossEntropy]
        ring)
  refine ⟨c, h1, ?_⟩
  obtain ⟨c', -, hd'⟩ := R.deriv_toExp h hv hv
  have h3 : HasDerivAt (fun t : ℝ => t * F.dot v (F.toExp (η + t • v))) (F.dot v (F.toExp η)) 0 := by
    exact ((hasDerivAt_id (0 : ℝ)).fun_mul hd').congr_deriv (by simp)
  refine (((h2.sub h3).add (R.gradient η h v hv)).sub_const (F.logNormalizer η)).congr_deriv
    (by ring) |>.congr_of_eventuallyEq (Eventually.of_forall fun t => ?_)
  simp only [ExpFam.entropyN, ExpFam.crossEntropy, R.dot_add, Pi.sub_apply, Pi.add_apply]
  ring

end Spec.LocallyRegular

/-- The expected carrier measure is that of the family, for all parameters of the domain. -/
def Spec.Setting.Carried {C : Type} {K : Kind C} (S : Setting K) : Prop :=
  K.ent → ∀ p, S.ok p → ∀ q ∈ S.dom p,
    @HasMean _ S.ms S.μ ((K.F p).pdf q) (K.F p).carrier (K.ecm p ((K.F p).toExp q))

/-- `Carried` for parts. -/
def Spec.Settings.Carried {C : Type} {R : Parts C} (S : Settings R) : Prop :=
  R.ent → ∀ p, S.ok p → ∀ q ∈ S.dom p,
    @HasMean _ S.ms S.μ ((R.F p).pdf q) (R.F p).carrier (R.ecm p ((R.F p).toExp q))

theorem Spec.Settings.Carried.ofList {C : Type} : (l : List (String × Σ K : Kind C, Setting K)) →
    (∀ s ∈ l, s.2.2.Lawful) → (∀ s ∈ l, s.2.2.Carried) → (Settings.ofList l).Carried
  | [], _, _ => fun _ _ _ q _ => HasMean.const (unitFam_regular.density q trivial) 0
  | s :: l, hl, h => by
    have hS := hl s List.mem_cons_self
    have hT := Settings.Lawful.ofList l fun s' h' => hl s' (List.mem_cons_of_mem _ h')
    have hC := h s List.mem_cons_self
    have hD := ofList l (fun s' h' => hl s' (List.mem_cons_of_mem _ h')) fun s' h' => h s' (List.mem_cons_of_mem _ h')
    change (Settings.cons s.1 s.2.2 (Settings.ofList l)).Carried
    generalize Settings.ofList l = T at hT hD
    obtain ⟨n, K, S⟩ := s
    dsimp only at hS hC ⊢
    obtain ⟨G, M, MS, μ, ok, dom, dirs, closed⟩ := S
    obtain ⟨G', M', MS', μ', ok', dom', dirs', closed'⟩ := T
    have s1 : SigmaFinite μ := hS.sigma
    have s2 : SigmaFinite μ' := hT.sigma
    intro hc p h q hq
    have h1 := (hC hc.1 p.1 h.1 q.1 hq.1).fst ((hT.regular _ h.2).density _ hq.2)
    have h2 := (hD hc.2 p.2 h.2 q.2 hq.2).snd ((hS.regular _ h.1).density _ hq.1)
    have e := (h1.add h2)
    rw [← funext (prodFam_pdf (K.F p.1) ((Parts.ofList (partsOf l)).F p.2) q)] at e
    exact e

variable [MachEps] {solve : Solver}

theorem simple_carried (s : Simple) (h1 : s ≠ .chi) (h2 : s ≠ .chiSquare) : (s.setting solve).Carried := by
  cases s with
  | chi => exact absurd rfl h1
  | chiSquare => exact absurd rfl h2
  | bernoulli => exact fun _ _ _ q _ => C36_bernoulli q
  | beta => exact fun _ _ _ _ h => C36_beta h
  | cmvCircular d => exact fun _ _ _ _ h => C36_cmv_circular h
  | cmvUnit d => exact fun _ _ _ q _ => C36_cmv_unit q
  | complexNormal => exact fun _ _ _ _ h => C36_complex_normal h
  | complexUnit => exact fun _ _ _ q _ => C36_complex_unit q
  | dirichlet d => exact fun _ _ _ _ h => C36_dirichlet h
  | exponential => exact fun _ _ _ _ h => C36_exponential h
  | gamma => exact fun _ _ _ _ h => C36_gamma h
  | genDirichlet d => exact fun _ _ _ _ h => C36_gen_dirichlet h
  | geometric => exact fun _ _ _ _ h => C36_geometric h
  | logarithmic => exact fun h => h.elim
  | multinomial d => exact fun _ _ _ q _ => C36_multinomial q
  | mvNormal d => exact fun _ _ _ _ h => C36_mv_normal h
  | mvDiagonal d => exact fun _ _ _ _ h => C36_mv_diagonal h
  | mvFixed d => exact fun _ _ h q _ => C36_mv_fixed h q
  | mvIsotropic d =>
    intro _ _ h q hq
    obtain ⟨d, rfl⟩ := Nat.exists_eq_succ_of_ne_zero (ne_of_gt h)
    exact C36_mv_isotropic hq
  | mvUnit d => exact fun _ _ _ q _ => C36_mv_unit q
  | negativeBinomial => exact fun h => h.elim
  | normal => exact fun _ _ _ _ h => C36_normal h
  | unitNormal => exact fun _ _ _ q _ => C36_unit_normal q
  | poisson => exact fun h => h.elim
  | rayleigh => exact fun _ _ _ _ h => C36_rayleigh h
  | vonMisesFisher d =>
    intro _ _ h q hq
    obtain ⟨d, rfl⟩ := Nat.exists_eq_succ_of_ne_zero (ne_of_gt h)
    exact C36_von_mises_fisher q hq
  | weibull => exact fun _ _ hk _ h => C36_weibull hk h

theorem direct_library {K : Kind Cls} {S : Setting K} (h : DirectSetting solve K S) :
    LibrarySetting solve K S := by
  induction h with
  | simple s _ _ => exact .simple s
  | joint h0 hn _ ih => exact .joint h0 hn ih

theorem direct_carried {K : Kind Cls} {S : Setting K} (h : DirectSetting solve K S) : S.Carried := by
  induction h with
  | simple s h1 h2 => exact simple_carried s h1 h2
  | @joint l h0 hn hS ih =>
    exact Settings.Carried.ofList l (fun s hs => library_lawful (direct_library (hS s hs))) ih

/-- Objects with an entropy do not clamp their parameters. -/
theorem ent_dom {K : Kind Cls} (hK : LibraryKind solve K) (h : K.ent) (p : K.P) (q : K.N) : K.dom p q := by
  induction hK with
  | simple s =>
    cases s
    case logarithmic => exact h.elim
    all_goals trivial
  | @joint l _ _ _ ih =>
    clear * - h ih
    induction l with
    | nil => trivial
    | cons nk l ih' =>
      exact ⟨ih nk List.mem_cons_self h.1 _ _, ih' (fun nk hm => ih nk (List.mem_cons_of_mem _ hm)) h.2 _ _⟩

namespace Spec.Setting.Lawful

variable {C : Type} {K : Kind C} {S : Setting K}

theorem deriv_entropy (h : S.Lawful) (he : K.ent) {p : K.P} (hp : S.ok p) {q v : K.N} (hq : q ∈ S.dom p)
    (hv : v ∈ S.dirs)
    (hx : S.Carried ∨ ∀ᶠ t in 𝓝 (0 : ℝ), K.toNat p ((K.F p).toExp (S.line q v t)) = S.line q v t) :
    letI := S.ms
    ∃ c, HasCov S.μ ((K.F p).pdf q) (fun x => -Real.log ((K.F p).pdf q x))
        (fun x => (K.F p).dot v ((K.F p).stat x)) c ∧
      HasDerivAt (fun t => (K.F p).entropyN (K.ecm p) (S.line q v t)) c 0 := by
  have h1 := h.regular p hp
  have h2 := h.ecm he p hp
  obtain ⟨G, M, MS, μ, ok, dom, dirs, closed⟩ := S
  refine h1.deriv_entropy hq hv ?_
  rcases hx with hx | hx
  · filter_upwards [h1.is_open q hq v hv] with t hd
    exact hx he p hp _ hd
  · filter_upwards [hx, h1.is_open q hq v hv] with t ht hd
    exact h2 _ hd ht

end Spec.Setting.Lawful

end Efax
