import Verif.Lemmas.Inverse
import Verif.Lemmas.Lawful
import Verif.Props.Analysis

/-! # Derivatives of divergences, for all kinds of distributions -/

namespace Efax

open MeasureTheory Spec Filter Topology

section

variable {C : Type}

/-- The natural parameters vary in finitely many dimensions, and the domain is open. -/
structure Spec.Setting.Open {K : Kind C} (S : Setting K) : Prop where
  fg : @Submodule.FG _ _ _ (_) S.mod S.dirs
  isOpen : ∀ p, S.ok p → @FinitelyOpen _ S.grp S.mod (S.dom p) S.dirs

/-- `Open` for parts. -/
structure Spec.Settings.Open {R : Parts C} (S : Settings R) : Prop where
  fg : @Submodule.FG _ _ _ (_) S.mod S.dirs
  isOpen : ∀ p, S.ok p → @FinitelyOpen _ S.grp S.mod (S.dom p) S.dirs

theorem Spec.Settings.Open.nil : (Settings.nil : Settings (.nil : Parts C)).Open where
  fg := (inferInstance : Module.Finite ℝ Unit).fg_top
  isOpen _ _ _ _ _ _ _ := ⟨1, one_pos, fun _ _ => trivial⟩

theorem Spec.Settings.Open.cons {n : String} {K : Kind C} {R : Parts C} {S : Setting K}
    {T : Settings R} (hS : S.Open) (hT : T.Open) : (Settings.cons n S T).Open := by
  obtain ⟨G, M, MS, μ, ok, dom, dirs, closed⟩ := S
  obtain ⟨G', M', MS', μ', ok', dom', dirs', closed'⟩ := T
  exact ⟨Submodule.FG.prod hS.fg hT.fg, fun p h => (hS.isOpen _ h.1).prod (hT.isOpen _ h.2)⟩

theorem Spec.Settings.Open.ofList : (l : List (String × Σ K : Kind C, Setting K)) →
    (∀ s ∈ l, s.2.2.Open) → (Settings.ofList l).Open
  | [], _ => .nil
  | s :: l, h => .cons (h s List.mem_cons_self) (ofList l fun s' h' => h s' (List.mem_cons_of_mem _ h'))

theorem Spec.Setting.Open.joint {c c' : C} {R : Parts C} {T : Settings R} (h : T.Open) :
    (Setting.joint c c' T).Open := ⟨h.1, h.2⟩

set_option linter.overlappingInstances false in
theorem Spec.Setting.Open.simple {P N E X : Type} [AddCommGroup N] [Module ℝ N] [Module.Finite ℝ N]
    [MeasurableSpace X] {c c' : C} {nat : Layout P N} {exp : Layout P E}
    {obs : List ℕ → (List ℕ → X) → Val → Prop} {F : P → ExpFam N E X} {toNat : P → E → N}
    {ecm : P → E → ℝ} {ent : Prop} {d : P → N → Prop} {e : P → E → Prop} {μ : Measure X}
    {dom : Set N} {dirs : Submodule ℝ N} {ok : P → Prop} {closed : Prop}
    (ho : ∀ p, ok p → FinitelyOpen dom dirs) :
    (Setting.simple μ dom dirs ok closed :
      Setting (Kind.simple c c' nat exp obs F toNat ecm ent d e)).Open where
  fg := IsNoetherian.noetherian dirs
  isOpen := ho

end

theorem finitelyOpen_ne_zero {V : Type} [NormedAddCommGroup V] [NormedSpace ℝ V] :
    FinitelyOpen {q : V | q ≠ 0} ⊤ := by
  intro q hq n b _
  have h0 : 0 < ‖q‖ := norm_pos_iff.2 hq
  set B := ∑ k, ‖b k‖ with hB
  have hB0 : 0 ≤ B := Finset.sum_nonneg fun _ _ => norm_nonneg _
  refine ⟨‖q‖ / (2 * (B + 1)), by positivity, fun c hc h => ?_⟩
  have h1 : q = -∑ k, c k • b k := eq_neg_of_add_eq_zero_left h
  have h2 : ‖q‖ ≤ ‖q‖ / (2 * (B + 1)) * B := by
    calc ‖q‖ = ‖∑ k, c k • b k‖ := (congrArg norm h1).trans (norm_neg _)
      _ ≤ ∑ k, ‖c k • b k‖ := norm_sum_le _ _
      _ ≤ ∑ k, ‖q‖ / (2 * (B + 1)) * ‖b k‖ := Finset.sum_le_sum fun k _ => by
          rw [norm_smul]; gcongr; exact hc k
      _ = ‖q‖ / (2 * (B + 1)) * B := by rw [← Finset.mul_sum]
  have h3 : ‖q‖ / (2 * (B + 1)) * B < ‖q‖ := by
    have e : ‖q‖ / (2 * (B + 1)) * B = ‖q‖ * (B / (2 * (B + 1))) := by ring
    have : B / (2 * (B + 1)) < 1 := by rw [div_lt_one (by positivity)]; linarith
    rw [e]; nlinarith
  linarith

variable [MachEps] {solve : Solver}

theorem simple_open : (s : Simple) → (s.setting solve).Open
  | .bernoulli => .simple fun _ _ => bernoulli_regular.finitelyOpen
  | .beta => .simple fun _ _ => beta_regular.finitelyOpen
  | .chi => .simple fun _ _ => chi_regular.finitelyOpen
  | .chiSquare => .simple fun _ _ => chiSquare_regular.finitelyOpen
  | .cmvCircular d => .simple fun _ _ => (cmvCircular_regular d).finitelyOpen
  | .cmvUnit d => .simple fun _ _ => (cmvUnit_regular d).finitelyOpen
  | .complexNormal => .simple fun _ _ => complexNormal_regular.finitelyOpen
  | .complexUnit => .simple fun _ _ => complexUnit_regular.finitelyOpen
  | .dirichlet d => .simple fun _ _ => (dirichlet_regular d).finitelyOpen
  | .exponential => .simple fun _ _ => exponential_regular.finitelyOpen
  | .gamma => .simple fun _ _ => gamma_regular.finitelyOpen
  | .genDirichlet d => .simple fun _ _ => (genDirichlet_regular d).finitelyOpen
  | .geometric => .simple fun _ _ => geometric_regular.finitelyOpen
  | .logarithmic => .simple fun _ _ => logarithmic_regular.finitelyOpen
  | .multinomial d => .simple fun _ _ => (multinomial_regular d).finitelyOpen
  | .mvNormal d => .simple fun _ _ => (mvNormal_regular d).finitelyOpen
  | .mvDiagonal d => .simple fun _ _ => (mvDiagonal_regular d).finitelyOpen
  | .mvFixed d => .simple fun _ h => (mvFixed_regular d h).finitelyOpen
  | .mvIsotropic d => .simple fun _ h => by
      obtain ⟨d, rfl⟩ := Nat.exists_eq_succ_of_ne_zero (ne_of_gt h)
      exact (mvIsotropic_regular d).finitelyOpen
  | .mvUnit d => .simple fun _ _ => (mvUnit_regular d).finitelyOpen
  | .negativeBinomial => .simple fun _ h => (negativeBinomial_regular h).finitelyOpen
  | .normal => .simple fun _ _ => normal_regular.finitelyOpen
  | .unitNormal => .simple fun _ _ => unitNormal_regular.finitelyOpen
  | .poisson => .simple fun _ _ => poisson_regular.finitelyOpen
  | .rayleigh => .simple fun _ _ => rayleigh_regular.finitelyOpen
  | .vonMisesFisher d => .simple fun _ _ => finitelyOpen_ne_zero
  | .weibull => .simple fun _ h => (weibull_regular h).finitelyOpen

theorem library_open {K : Kind Cls} {S : Setting K} (h : LibrarySetting solve K S) : S.Open := by
  induction h with
  | simple s => exact simple_open s
  | joint h0 hn hS ih => exact .joint (.ofList _ ih)

namespace Spec.Setting.Lawful

variable {C : Type} {K : Kind C} {S : Setting K}

theorem kl_eq (h : S.Lawful) {p : K.P} (a b : K.N) :
    (K.F p).kl a b = @ExpFam.kl _ _ _ (K.F p) S.grp.toSub a b := by
  simp only [ExpFam.kl, ExpFam.klWith]
  rw [h.sub]
  rfl

theorem line_sub (h : S.Lawful) (b w : K.N) : S.line b w 1 - b = w := by
  have h2 := h.sub (S.line b w 1) b
  obtain ⟨G, M, MS, μ, ok, dom, dirs, closed⟩ := S
  rw [h2]
  simp only [Setting.line, one_smul]
  exact @add_sub_cancel_left _ G _ _

theorem dot_line (h : S.Lawful) {p : K.P} (hp : S.ok p) (q v : K.N) (t : ℝ) (χ : K.E) :
    (K.F p).dot (S.line q v t) χ = (K.F p).dot q χ + t * (K.F p).dot v χ := by
  have h := h.regular p hp
  obtain ⟨G, M, MS, μ, ok, dom, dirs, closed⟩ := S
  exact h.dot_add q v t χ

theorem dot_sub (h : S.Lawful) {p : K.P} (hp : S.ok p) (a b : K.N) (χ : K.E) :
    (K.F p).dot (a - b) χ = (K.F p).dot a χ - (K.F p).dot b χ := by
  have h1 := h.regular p hp
  have h2 := h.sub a b
  obtain ⟨G, M, MS, μ, ok, dom, dirs, closed⟩ := S
  rw [h2]
  exact h1.dot_sub a b χ

/-- The gradient of the cross entropy with respect to the prediction. -/
theorem deriv_crossEntropy (h : S.Lawful) {p : K.P} (hp : S.ok p) {q v : K.N} (hq : q ∈ S.dom p)
    (hv : v ∈ S.dirs) (ecm : K.E → ℝ) (χ : K.E) :
    HasDerivAt (fun t => (K.F p).crossEntropy ecm χ (S.line q v t))
      ((K.F p).dot v ((K.F p).toExp q) - (K.F p).dot v χ) 0 := by
  have h1 := h.gradient hp hq hv
  have h2 : HasDerivAt (fun t : ℝ => -(K.F p).dot (S.line q v t) χ) (-(K.F p).dot v χ) 0 := by
    simp only [h.dot_line hp]
    exact (((hasDerivAt_id (0 : ℝ)).mul_const ((K.F p).dot v χ)).const_add
      ((K.F p).dot q χ)).fun_neg.congr_deriv (by simp)
  exact ((h2.add h1).sub_const (ecm χ)).congr_deriv (by ring)

/-- The gradient of the divergence with respect to the prediction. -/
theorem deriv_klWith (h : S.Lawful) {p : K.P} (hp : S.ok p) {q v : K.N} (hq : q ∈ S.dom p)
    (hv : v ∈ S.dirs) (χ : K.E) (a : K.N) :
    HasDerivAt (fun t => (K.F p).klWith χ a (S.line q v t))
      ((K.F p).dot v ((K.F p).toExp q) - (K.F p).dot v χ) 0 := by
  have h1 := h.gradient hp hq hv
  have h2 : HasDerivAt (fun t : ℝ => (K.F p).dot (a - S.line q v t) χ) (-(K.F p).dot v χ) 0 := by
    simp only [h.dot_sub hp, h.dot_line hp]
    exact ((((hasDerivAt_id (0 : ℝ)).mul_const ((K.F p).dot v χ)).const_add
      ((K.F p).dot q χ)).const_sub ((K.F p).dot a χ)).congr_deriv (by simp)
  exact ((h2.add h1).sub_const _).congr_deriv (by ring)

/-- The gradient of the divergence with respect to the observed distribution. -/
theorem deriv_kl_left (h : S.Lawful) {p : K.P} (hp : S.ok p) {a b v : K.N} (ha : a ∈ S.dom p)
    (hb : b ∈ S.dom p) (hv : v ∈ S.dirs) : letI := S.ms
    ∃ c, HasCov S.μ ((K.F p).pdf a) (fun x => (K.F p).dot (a - b) ((K.F p).stat x))
        (fun x => (K.F p).dot v ((K.F p).stat x)) c ∧
      HasDerivAt (fun t => (K.F p).kl (S.line a v t) b) c 0 := by
  have hkl := h.kl_eq (p := p)
  have h1 := h.regular p hp
  have h2 := h.sub a b
  obtain ⟨G, M, MS, μ, ok, dom, dirs, closed⟩ := S
  rw [h2]
  obtain ⟨c, hc, hd⟩ := h1.deriv_toExp ha (h1.sub_mem b hb a ha) hv
  obtain ⟨c', -, hd'⟩ := h1.deriv_toExp ha hv hv
  refine ⟨c, hc, ?_⟩
  have h3 : HasDerivAt (fun t : ℝ => t * (K.F p).dot v ((K.F p).toExp (a + t • v)))
      ((K.F p).dot v ((K.F p).toExp a)) 0 := by
    exact ((hasDerivAt_id (0 : ℝ)).fun_mul hd').congr_deriv (by simp)
  have h4 := ((hd.add h3).add_const ((K.F p).logNormalizer b)).sub (h1.gradient a ha v hv)
  refine (h4.congr_deriv (by ring)).congr_of_eventuallyEq (Eventually.of_forall fun t => ?_)
  have e : (K.F p).kl (a + t • v) b = (K.F p).dot a ((K.F p).toExp (a + t • v)) -
      (K.F p).dot b ((K.F p).toExp (a + t • v)) +
      t * (K.F p).dot v ((K.F p).toExp (a + t • v)) + (K.F p).logNormalizer b -
      (K.F p).logNormalizer (a + t • v) := by
    rw [hkl, ExpFam.kl, ExpFam.klWith, h1.dot_sub, h1.dot_add]
    ring
  rw [← h1.dot_sub] at e
  exact e

/-- The divergence from the start of a curve has the derivative zero. -/
theorem deriv_kl_curve (h : S.Lawful) (ho : S.Open) {p : K.P} (hp : S.ok p) {q : ℝ → K.N}
    (hq : ∀ t, q t ∈ S.dom p)
    (hd : ∀ v ∈ S.dirs, DifferentiableAt ℝ (fun t => (K.F p).dot v ((K.F p).toExp (q t))) 0) :
    HasDerivAt (fun t => (K.F p).kl (q t) (q 0)) 0 0 := by
  have hkl := h.kl_eq (p := p)
  have h1 := h.regular p hp
  have h2 := h.minimal p hp
  have h3 := ho.isOpen p hp
  have h4 := ho.fg
  obtain ⟨G, M, MS, μ, ok, dom, dirs, closed⟩ := S
  simp only [hkl]
  exact h1.deriv_kl_curve h2 h3 h4 (hq 0) (Eventually.of_forall hq) hd

/-- Convergence of the expectation parameters implies convergence of the natural parameters. -/
theorem tendsto (h : S.Lawful) (ho : S.Open) {p : K.P} (hp : S.ok p) {ι : Type} {l : Filter ι}
    {a : ι → K.N} {q : K.N} (hq : q ∈ S.dom p) (ha : ∀ j, a j ∈ S.dom p)
    (hd : ∀ v ∈ S.dirs, Tendsto (fun j => (K.F p).dot v ((K.F p).toExp (a j))) l
      (𝓝 ((K.F p).dot v ((K.F p).toExp q)))) : letI := S.grp
    letI := S.mod
    ∀ f : K.N →ₗ[ℝ] ℝ, Tendsto (fun j => f (a j)) l (𝓝 (f q)) := by
  have h1 := h.regular p hp
  have h2 := h.minimal p hp
  have h3 := ho.isOpen p hp
  have h4 := ho.fg
  obtain ⟨G, M, MS, μ, ok, dom, dirs, closed⟩ := S
  exact h1.tendsto h2 h3 h4 hq ha hd

end Spec.Setting.Lawful

end Efax
