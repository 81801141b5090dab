import Verif.Model.Families.Simplex
import Verif.Lemmas.Simplex
import Verif.Lemmas.Families
import Verif.Lemmas.Special
import Mathlib.Analysis.Calculus.FDeriv.Pi

/-!
# Dirichlet, beta and generalized Dirichlet families are regular
-/

namespace Efax

open MeasureTheory Spec Set

theorem csum_eq {k : ℕ} (x : Fin k → ℝ) (i : Fin k) : csum x i = ∑ j ∈ Finset.Iic i, x j := by
  rw [csum, ← Finset.sum_filter]
  congr 1
  ext j
  simp

theorem sum_Iio_eq {k : ℕ} (x : Fin k → ℝ) (i : Fin k) :
    ∑ j ∈ Finset.Iio i, x j = ∑ j, if j < i then x j else 0 := by
  rw [← Finset.sum_filter]
  congr 1
  ext j
  simp

theorem genDirichlet_alpha {k : ℕ} (q : (Fin k → ℝ) × (Fin k → ℝ)) (i : Fin k) :
    (genDirichletAlphaBeta q).1 i = q.1 i + 1 := rfl

theorem genDirichlet_beta {k : ℕ} (q : (Fin k → ℝ) × (Fin k → ℝ)) (i : Fin k) :
    (genDirichletAlphaBeta q).2 i = betaArg q.1 q.2 0 i := by
  simp only [genDirichletAlphaBeta, betaArg, add_zero]
  rw [← csum_eq (fun j => q.2 j.rev), csum, sum_Iio_eq (fun j => q.1 j.rev + 1)]
  have h1 : (∑ j : Fin k, if j ≤ i.rev then q.2 j.rev else 0) = ∑ j, if i ≤ j then q.2 j else 0 := by
    rw [← Equiv.sum_comp Fin.revPerm]
    refine Finset.sum_congr rfl fun j _ => ?_
    simp [Fin.rev_le_rev]
  have h2 : (∑ j : Fin k, if j < i.rev then q.1 j.rev + 1 else 0) =
      ∑ j, if i < j then q.1 j + 1 else 0 := by
    rw [← Equiv.sum_comp Fin.revPerm]
    refine Finset.sum_congr rfl fun j _ => ?_
    simp [Fin.rev_lt_rev]
  rw [h1, h2]

theorem genDirichletDom_beta {k : ℕ} {q : (Fin k → ℝ) × (Fin k → ℝ)} (h : q ∈ genDirichletDom k)
    (i : Fin k) : 0 < betaArg q.1 q.2 0 i := by
  rw [betaArg, add_zero]
  exact h.2 i

theorem log_prob_beta {a b : ℝ} (ha : 0 < a) (hb : 0 < b) :
    Real.log (ProbabilityTheory.beta a b) = betaln a b := by
  have h1 := Real.Gamma_pos_of_pos ha
  have h2 := Real.Gamma_pos_of_pos hb
  have h3 := Real.Gamma_pos_of_pos (add_pos ha hb)
  rw [ProbabilityTheory.beta, Real.log_div (by positivity) h3.ne', Real.log_mul h1.ne' h2.ne']
  rfl

theorem csum_lt {k : ℕ} {x : Fin k → ℝ} (hx : x ∈ simplex k) (i : Fin k) : csum x i < 1 := by
  refine lt_of_le_of_lt ?_ hx.2
  rw [csum]
  refine Finset.sum_le_sum fun j _ => ?_
  split
  · exact le_rfl
  · exact (hx.1 j).le

theorem genDirichlet_dot_stat {k : ℕ} (q : (Fin k → ℝ) × (Fin k → ℝ)) (x : Fin k → ℝ) :
    (genDirichlet k).dot q ((genDirichlet k).stat x) = logWeight q.1 q.2 0 x := by
  simp only [genDirichlet, logWeight, log1p, ← sub_eq_add_neg, ← csum_eq, zero_mul, add_zero]
  rw [← Finset.sum_add_distrib]

/-- A density on the simplex. -/
theorem density_simplex {k : ℕ} {f : (Fin k → ℝ) → ℝ} {p g : Fin k → ℝ} {e A : ℝ}
    (hp : ∀ i, -1 < p i) (hb : ∀ i, 0 < betaArg p g e i)
    (hA : Real.exp A = ∏ i, ProbabilityTheory.beta (p i + 1) (betaArg p g e i))
    (hf : ∀ x, f x = Real.exp (logWeight p g e x - A)) :
    IsDensity (volume.restrict (simplex k)) f := by
  refine ⟨fun x => by rw [hf]; exact (Real.exp_pos _).le, ?_⟩
  have e1 : ∀ x, f x = Real.exp (-A) * Real.exp (logWeight p g e x) := fun x => by
    rw [hf, ← Real.exp_add]
    congr 1
    ring
  have hm : Measurable fun x => Real.exp (logWeight p g e x) :=
    Real.measurable_exp.comp (measurable_logWeight p g e)
  simp only [e1]
  rw [integral_const_mul, integral_eq_lintegral_of_nonneg_ae
    (Filter.Eventually.of_forall fun x => (Real.exp_pos _).le) hm.aestronglyMeasurable,
    lintegral_simplex p g e hp hb, ← hA, ENNReal.toReal_ofReal (Real.exp_pos _).le, ← Real.exp_add,
    neg_add_cancel, Real.exp_zero]

theorem genDirichlet_density {k : ℕ} {q : (Fin k → ℝ) × (Fin k → ℝ)} (h : q ∈ genDirichletDom k) :
    IsDensity (volume.restrict (simplex k)) ((genDirichlet k).pdf q) := by
  refine density_simplex h.1 (genDirichletDom_beta h) (A := (genDirichlet k).logNormalizer q) ?_ ?_
  · simp only [genDirichlet]
    rw [Real.exp_sum]
    refine Finset.prod_congr rfl fun i _ => ?_
    rw [genDirichlet_alpha, genDirichlet_beta, ← log_prob_beta (by linarith [h.1 i])
      (genDirichletDom_beta h i), Real.exp_log (ProbabilityTheory.beta_pos (by linarith [h.1 i])
      (genDirichletDom_beta h i))]
  · intro x
    rw [ExpFam.pdf, ExpFam.logPdf, genDirichlet_dot_stat]
    simp [genDirichlet]

theorem isOpen_genDirichletDom (k : ℕ) : IsOpen (genDirichletDom k) := by
  have : genDirichletDom k = (⋂ i, {q | -1 < q.1 i}) ∩ ⋂ i, {q : (Fin k → ℝ) × (Fin k → ℝ) |
      0 < (∑ j, if i ≤ j then q.2 j else 0) + (∑ j, if i < j then q.1 j + 1 else 0) + 1} := by
    ext
    simp [genDirichletDom]
  rw [this]
  have h2 : ∀ i j : Fin k, Continuous fun q : (Fin k → ℝ) × (Fin k → ℝ) =>
      if i ≤ j then q.2 j else 0 := by
    intro i j
    split <;> fun_prop
  have h1 : ∀ i j : Fin k, Continuous fun q : (Fin k → ℝ) × (Fin k → ℝ) =>
      if i < j then q.1 j + 1 else 0 := by
    intro i j
    split <;> fun_prop
  refine (isOpen_iInter_of_finite fun i => isOpen_lt continuous_const (by fun_prop)).inter
    (isOpen_iInter_of_finite fun i => isOpen_lt continuous_const ?_)
  exact ((continuous_finset_sum _ fun j _ => h2 i j).add
    (continuous_finset_sum _ fun j _ => h1 i j)).add continuous_const

theorem convex_genDirichletDom (k : ℕ) : Convex ℝ (genDirichletDom k) := by
  intro x hx y hy a b ha hb hab
  have pos : ∀ s t : ℝ, 0 < s → 0 < t → 0 < a * s + b * t := by
    intro s t hs ht
    rcases ha.lt_or_eq with h | h
    · have := mul_pos h hs
      have := mul_nonneg hb ht.le
      linarith
    · have hb1 : b = 1 := by linarith
      rw [← h, hb1]
      linarith
  refine ⟨fun i => ?_, fun i => ?_⟩
  · have := pos (x.1 i + 1) (y.1 i + 1) (by linarith [hx.1 i]) (by linarith [hy.1 i])
    simp only [Prod.fst_add, Prod.smul_fst, Pi.add_apply, Pi.smul_apply, smul_eq_mul]
    nlinarith
  · have := pos _ _ (hx.2 i) (hy.2 i)
    convert this using 1
    simp only [Prod.fst_add, Prod.smul_fst, Pi.add_apply, Pi.smul_apply, smul_eq_mul, Prod.snd_add,
      Prod.smul_snd, mul_add, Finset.mul_sum, mul_ite, mul_zero, mul_one]
    have e1 : (∑ j, if i ≤ j then a * x.2 j + b * y.2 j else 0) =
        (∑ j, if i ≤ j then a * x.2 j else 0) + ∑ j, if i ≤ j then b * y.2 j else 0 := by
      rw [← Finset.sum_add_distrib]
      exact Finset.sum_congr rfl fun j _ => by split <;> simp
    have e2 : (∑ j, if i < j then a * x.1 j + b * y.1 j + 1 else 0) =
        (∑ j, if i < j then a * x.1 j + a else 0) + ∑ j, if i < j then b * y.1 j + b else 0 := by
      rw [← Finset.sum_add_distrib]
      refine Finset.sum_congr rfl fun j _ => ?_
      split
      · linarith
      · simp
    rw [e1, e2]
    linarith

/-- A family with an open domain, from directional derivatives. -/
theorem Spec.Regular.of_deriv {N E X : Type} [NormedAddCommGroup N] [NormedSpace ℝ N]
    [MeasurableSpace X] {F : ExpFam N E X} {μ : Measure X} {dom : Set N}
    (hdot : ∀ η v (t : ℝ) w, F.dot (η + t • v) w = F.dot η w + t * F.dot v w)
    (hopen : IsOpen dom) (hconv : Convex ℝ dom)
    (hdens : ∀ η ∈ dom, IsDensity μ (F.pdf η))
    (hgrad : ∀ η ∈ dom, ∀ v, HasDerivAt (fun t : ℝ => F.logNormalizer (η + t • v))
      (F.dot v (F.toExp η)) 0) : Regular F μ dom ⊤ where
  dot_add := hdot
  convex := hconv
  is_open η h v _ := by
    have hc : ContinuousAt (fun t : ℝ => η + t • v) 0 := by fun_prop
    refine hc.eventually_mem ?_
    simpa using hopen.mem_nhds h
  mem_dirs _ _ := Submodule.mem_top
  density := hdens
  gradient η h v _ := hgrad η h v

/-- `gammaln` along a line. -/
theorem hasDerivAt_gammaln_line {a : ℝ} (ha : 0 < a) (v : ℝ) :
    HasDerivAt (fun t : ℝ => gammaln (a + t * v)) (digamma a * v) 0 := by
  have h1 : HasDerivAt (fun t : ℝ => a + t * v) v 0 := by
    simpa using ((hasDerivAt_id (0 : ℝ)).mul_const v).const_add a
  have h2 : HasDerivAt gammaln (digamma a) (a + 0 * v) := by
    simpa using hasDerivAt_gammaln ha
  exact HasDerivAt.comp (h₂ := gammaln) (h := fun t : ℝ => a + t * v) (0 : ℝ) h2 h1

theorem hasDerivAt_of_eq {f g : ℝ → ℝ} {f' g' x : ℝ} (h : HasDerivAt f f' x) (e : ∀ t, g t = f t)
    (e' : g' = f') : HasDerivAt g g' x := by
  rw [e', funext e]
  exact h

theorem hasDerivAt_betaln_line {a b : ℝ} (ha : 0 < a) (hb : 0 < b) (v w : ℝ) :
    HasDerivAt (fun t : ℝ => betaln (a + t * v) (b + t * w))
      ((digamma a - digamma (a + b)) * v + (digamma b - digamma (a + b)) * w) 0 := by
  have := ((hasDerivAt_gammaln_line ha v).add (hasDerivAt_gammaln_line hb w)).sub
    (hasDerivAt_gammaln_line (add_pos ha hb) (v + w))
  refine hasDerivAt_of_eq this (fun t => ?_) (by ring)
  simp only [betaln, Pi.add_apply, Pi.sub_apply]
  rw [show a + t * v + (b + t * w) = a + b + t * (v + w) by ring]

theorem betaArg_line {k : ℕ} (q v : (Fin k → ℝ) × (Fin k → ℝ)) (t : ℝ) (i : Fin k) :
    betaArg (q + t • v).1 (q + t • v).2 0 i = betaArg q.1 q.2 0 i +
      t * ((∑ j, if i ≤ j then v.2 j else 0) + ∑ j, if i < j then v.1 j else 0) := by
  simp only [betaArg, Prod.fst_add, Prod.smul_fst, Pi.add_apply, Pi.smul_apply, smul_eq_mul,
    Prod.snd_add, Prod.smul_snd, mul_add, Finset.mul_sum]
  have e1 : (∑ j, if i ≤ j then q.2 j + t * v.2 j else 0) =
      (∑ j, if i ≤ j then q.2 j else 0) + ∑ j, t * if i ≤ j then v.2 j else 0 := by
    rw [← Finset.sum_add_distrib]
    exact Finset.sum_congr rfl fun j _ => by split <;> simp
  have e2 : (∑ j, if i < j then q.1 j + t * v.1 j + 1 else 0) =
      (∑ j, if i < j then q.1 j + 1 else 0) + ∑ j, t * if i < j then v.1 j else 0 := by
    rw [← Finset.sum_add_distrib]
    refine Finset.sum_congr rfl fun j _ => ?_
    split
    · ring
    · simp
  rw [e1, e2]
  ring

theorem gradient_sums {k : ℕ} (v w a b : Fin k → ℝ) :
    ∑ i, v i * (a i + ∑ j ∈ Finset.Iio i, b j) + ∑ i, w i * ∑ j ∈ Finset.Iic i, b j =
      ∑ i, (a i * v i + b i * ((∑ j, if i ≤ j then w j else 0) + ∑ j, if i < j then v j else 0)) := by
  have e1 : ∑ i, w i * ∑ j ∈ Finset.Iic i, b j = ∑ i, b i * ∑ j, if i ≤ j then w j else 0 := by
    simp only [← csum_eq, csum, Finset.mul_sum]
    rw [Finset.sum_comm]
    refine Finset.sum_congr rfl fun i _ => Finset.sum_congr rfl fun j _ => ?_
    split
    · ring
    · simp
  have e2 : ∑ i, v i * ∑ j ∈ Finset.Iio i, b j = ∑ i, b i * ∑ j, if i < j then v j else 0 := by
    simp only [sum_Iio_eq, Finset.mul_sum]
    rw [Finset.sum_comm]
    refine Finset.sum_congr rfl fun i _ => Finset.sum_congr rfl fun j _ => ?_
    split
    · ring
    · simp
  simp only [mul_add, Finset.sum_add_distrib, e1, e2]
  simp only [mul_comm (a _)]
  ring

theorem genDirichlet_gradient {k : ℕ} {q : (Fin k → ℝ) × (Fin k → ℝ)} (h : q ∈ genDirichletDom k)
    (v : (Fin k → ℝ) × (Fin k → ℝ)) :
    HasDerivAt (fun t : ℝ => (genDirichlet k).logNormalizer (q + t • v))
      ((genDirichlet k).dot v ((genDirichlet k).toExp q)) 0 := by
  have hs := HasDerivAt.fun_sum (u := Finset.univ) fun i (_ : i ∈ Finset.univ) =>
    hasDerivAt_betaln_line (show 0 < q.1 i + 1 by linarith [h.1 i]) (genDirichletDom_beta h i)
      (v.1 i) ((∑ j, if i ≤ j then v.2 j else 0) + ∑ j, if i < j then v.1 j else 0)
  refine hasDerivAt_of_eq hs (fun t => ?_) ?_
  · simp only [genDirichlet]
    refine Finset.sum_congr rfl fun i _ => ?_
    rw [genDirichlet_alpha, genDirichlet_beta, betaArg_line]
    congr 1
    simp only [Prod.fst_add, Prod.smul_fst, Pi.add_apply, Pi.smul_apply, smul_eq_mul]
    ring
  · simp only [genDirichlet, genDirichletToExp, genDirichlet_alpha, genDirichlet_beta]
    exact gradient_sums _ _ _ _

theorem genDirichlet_regular (k : ℕ) :
    Regular (genDirichlet k) (volume.restrict (simplex k)) (genDirichletDom k) ⊤ := by
  refine .of_deriv ?_ (isOpen_genDirichletDom k) (convex_genDirichletDom k)
    (fun η h => genDirichlet_density h) fun η h v => genDirichlet_gradient h v
  intro η v t w
  simp only [genDirichlet, Prod.fst_add, Prod.smul_fst, Pi.add_apply, Pi.smul_apply, smul_eq_mul,
    Prod.snd_add, Prod.smul_snd, add_mul, Finset.sum_add_distrib, mul_add, Finset.mul_sum]
  simp only [mul_assoc]
  ring

theorem const_of_logs {r v w c : ℝ} (hr : 0 < r)
    (h : ∀ t, 0 < t → t < r → v * Real.log t + w * Real.log (r - t) = c) : v = 0 ∧ w = 0 := by
  have h2 := h (r / 2) (by linarith) (by linarith)
  have h1 := h (r / 4) (by linarith) (by linarith)
  have h3 := h (3 * r / 4) (by linarith) (by linarith)
  rw [show r - r / 2 = r / 2 by ring] at h2
  rw [show r - r / 4 = 3 * r / 4 by ring] at h1
  rw [show r - 3 * r / 4 = r / 4 by ring] at h3
  have l1 : Real.log (r / 4) < Real.log (3 * r / 4) := Real.log_lt_log (by linarith) (by linarith)
  have l2 : Real.log (r / 4) + Real.log (3 * r / 4) < Real.log (r / 2) + Real.log (r / 2) := by
    rw [← Real.log_mul (by positivity) (by positivity),
      ← Real.log_mul (by positivity) (by positivity)]
    exact Real.log_lt_log (by positivity) (by nlinarith)
  have e1 : (v - w) * (Real.log (r / 4) - Real.log (3 * r / 4)) = 0 := by linarith
  have hvw : v = w := by
    rcases mul_eq_zero.1 e1 with h | h
    · linarith
    · linarith
  subst hvw
  have e2 : v * (Real.log (r / 4) + Real.log (3 * r / 4) -
      (Real.log (r / 2) + Real.log (r / 2))) = 0 := by linarith
  have : v = 0 := by
    rcases mul_eq_zero.1 e2 with h | h
    · exact h
    · linarith
  exact ⟨this, this⟩

theorem nonempty_simplex (k : ℕ) : (simplex k).Nonempty := by
  refine ⟨fun _ => 1 / (k + 1), fun i => by positivity, ?_⟩
  rw [Finset.sum_const, Finset.card_univ, Fintype.card_fin, nsmul_eq_mul, mul_one_div,
    div_lt_one (by positivity)]
  linarith

theorem logWeight_const {k : ℕ} : ∀ (v w : Fin k → ℝ) (c : ℝ),
    (∀ x ∈ simplex k, logWeight v w 0 x = c) → v = 0 ∧ w = 0 := by
  induction k with
  | zero => intro v w c _; exact ⟨Subsingleton.elim _ _, Subsingleton.elim _ _⟩
  | succ k ih =>
    intro v w c h
    obtain ⟨v, a, rfl⟩ : ∃ v' a, v = Fin.snoc (α := fun _ => ℝ) v' a :=
      ⟨Fin.init v, v (Fin.last k), (Fin.snoc_init_self v).symm⟩
    obtain ⟨w, b, rfl⟩ : ∃ w' b, w = Fin.snoc (α := fun _ => ℝ) w' b :=
      ⟨Fin.init w, w (Fin.last k), (Fin.snoc_init_self w).symm⟩
    have h' : ∀ y ∈ simplex k, ∀ t, 0 < t → t < 1 - ∑ i, y i →
        logWeight v w 0 y + (a * Real.log t + b * Real.log (1 - ∑ i, y i - t)) = c := by
      intro y hy t h1 h2
      have := h _ ((snoc_mem_simplex y t).2 ⟨hy, h1, h2⟩)
      rwa [logWeight_snoc, add_zero] at this
    obtain ⟨y, hy⟩ := nonempty_simplex k
    obtain ⟨ha, hb⟩ := const_of_logs (v := a) (w := b) (r := 1 - ∑ i, y i) (c := c - logWeight v w 0 y)
      (by linarith [hy.2]) fun t h1 h2 => by linarith [h' y hy t h1 h2]
    subst ha hb
    obtain ⟨hv, hw⟩ := ih v w c fun z hz => by
      have := hz.2
      simpa using h' z hz ((1 - ∑ i, z i) / 2) (by linarith) (by linarith)
    subst hv hw
    constructor <;>
    · funext i
      refine Fin.lastCases ?_ (fun j => ?_) i <;> simp

theorem continuousOn_logWeight {k : ℕ} (p g : Fin k → ℝ) (e : ℝ) :
    ContinuousOn (logWeight p g e) (simplex k) := by
  have hc : ∀ i : Fin k, Continuous fun x : Fin k → ℝ => csum x i := by
    intro i
    refine continuous_finset_sum _ fun j _ => ?_
    split <;> fun_prop
  refine ContinuousOn.add (continuousOn_finset_sum _ fun i _ => ?_) ?_
  · refine (continuousOn_const.mul (ContinuousOn.log (by fun_prop) fun x hx => (hx.1 i).ne')).add
      (continuousOn_const.mul (ContinuousOn.log ?_ fun x hx => ?_))
    · exact (continuous_const.sub (hc i)).continuousOn
    · have := csum_lt hx i
      linarith
  · refine continuousOn_const.mul (ContinuousOn.log (by fun_prop) fun x hx => ?_)
    have := hx.2
    linarith

theorem genDirichlet_minimal (k : ℕ) :
    Minimal (genDirichlet k) (volume.restrict (simplex k)) ⊤ := by
  intro v _ c h
  simp only [genDirichlet_dot_stat] at h
  have := logWeight_const v.1 v.2 c (ae_open (isOpen_simplex k) (continuousOn_logWeight _ _ _) h)
  exact Prod.ext this.1 this.2

/-! ### Dirichlet -/

theorem exp_gammaln {a : ℝ} (h : 0 < a) : Real.exp (gammaln a) = Real.Gamma a :=
  Real.exp_log (Real.Gamma_pos_of_pos h)

theorem prod_beta {k : ℕ} : ∀ (p : Fin k → ℝ) (e : ℝ), (∀ i, -1 < p i) → -1 < e →
    ∏ i, ProbabilityTheory.beta (p i + 1) (betaArg p 0 e i) =
      (∏ i, Real.Gamma (p i + 1)) * Real.Gamma (e + 1) / Real.Gamma (∑ i, (p i + 1) + (e + 1)) := by
  induction k with
  | zero =>
    intro p e _ he
    have := (Real.Gamma_pos_of_pos (show 0 < e + 1 by linarith)).ne'
    simp [this]
  | succ k ih =>
    intro p e hp he
    obtain ⟨p, a, rfl⟩ : ∃ p' a, p = Fin.snoc (α := fun _ => ℝ) p' a :=
      ⟨Fin.init p, p (Fin.last k), (Fin.snoc_init_self p).symm⟩
    have ha : -1 < a := by simpa using hp (Fin.last k)
    have hp' : ∀ i, -1 < p i := fun i => by simpa using hp i.castSucc
    have h0 : (0 : Fin (k + 1) → ℝ) = Fin.snoc (α := fun _ => ℝ) (0 : Fin k → ℝ) 0 := by
      funext i
      refine Fin.lastCases ?_ (fun j => ?_) i <;> simp
    rw [h0, Fin.prod_univ_castSucc, Fin.prod_univ_castSucc, Fin.sum_univ_castSucc]
    simp only [betaArg_snoc_castSucc, betaArg_snoc_last, Fin.snoc_castSucc, Fin.snoc_last, zero_add]
    rw [ih p (a + e + 1) hp' (by linarith), ProbabilityTheory.beta,
      show a + e + 1 + 1 = a + 1 + (e + 1) by ring,
      show ∑ i, (p i + 1) + (a + 1) + (e + 1) = ∑ i, (p i + 1) + (a + 1 + (e + 1)) by ring]
    have h1 := (Real.Gamma_pos_of_pos (show 0 < a + 1 + (e + 1) by linarith)).ne'
    have h2 := (Real.Gamma_pos_of_pos (show 0 < ∑ i, (p i + 1) + (a + 1 + (e + 1)) by
      have := Finset.sum_nonneg fun i (_ : i ∈ Finset.univ) =>
        (show 0 ≤ p i + 1 by linarith [hp' i])
      linarith)).ne'
    field_simp

theorem isOpen_dirichletDom (n : ℕ) : IsOpen (dirichletDom n) := by
  have : dirichletDom n = ⋂ i, {q | -1 < q i} := by ext; simp [dirichletDom]
  rw [this]
  exact isOpen_iInter_of_finite fun i => isOpen_lt continuous_const (by fun_prop)

theorem convex_dirichletDom (n : ℕ) : Convex ℝ (dirichletDom n) := by
  have : dirichletDom n = Set.pi univ fun _ => Ioi (-1) := by ext; simp [dirichletDom]
  rw [this]
  exact convex_pi fun i _ => convex_Ioi (-1)

theorem dirichletDom_sum {n : ℕ} {q : Fin (n + 1) → ℝ} (h : q ∈ dirichletDom (n + 1)) :
    0 < ∑ i, q i + ((n + 1 : ℕ) : ℝ) := by
  have h1 : 0 < ∑ i, (q i + 1) :=
    Finset.sum_pos (fun i _ => by linarith [h i]) ⟨0, Finset.mem_univ 0⟩
  rw [Finset.sum_add_distrib] at h1
  simpa using h1

theorem exp_dirichletLogNormalizer {n : ℕ} {q : Fin (n + 1) → ℝ} (h : q ∈ dirichletDom (n + 1)) :
    Real.exp (dirichletLogNormalizer q) =
      (∏ i, Real.Gamma (q i + 1)) / Real.Gamma (∑ i, q i + ((n + 1 : ℕ) : ℝ)) := by
  rw [dirichletLogNormalizer, Real.exp_sub, Real.exp_sum, exp_gammaln (dirichletDom_sum h)]
  congr 1
  exact Finset.prod_congr rfl fun i _ => exp_gammaln (by linarith [h i])

theorem dirichlet_dot_stat {d : ℕ} (q : Fin (d + 1) → ℝ) (x : Fin d → ℝ) :
    (dirichlet d).dot q ((dirichlet d).stat x) =
      logWeight (fun i => q i.castSucc) 0 (q (Fin.last d)) x := by
  simp [dirichlet, logWeight, Fin.sum_univ_castSucc]

theorem dirichlet_density {d : ℕ} {q : Fin (d + 1) → ℝ} (h : q ∈ dirichletDom (d + 1)) :
    IsDensity (volume.restrict (simplex d)) ((dirichlet d).pdf q) := by
  have hb : ∀ i, 0 < betaArg (fun i : Fin d => q i.castSucc) 0 (q (Fin.last d)) i := by
    intro i
    have h1 : 0 ≤ ∑ j : Fin d, if i < j then q j.castSucc + 1 else 0 :=
      Finset.sum_nonneg fun j _ => by
        split
        · linarith [h j.castSucc]
        · exact le_rfl
    have := h (Fin.last d)
    simp only [betaArg, Pi.zero_apply, ite_self, Finset.sum_const_zero, zero_add]
    linarith
  refine density_simplex (fun i => h i.castSucc) hb (A := (dirichlet d).logNormalizer q) ?_ ?_
  · rw [prod_beta _ _ (fun i => h i.castSucc) (h _)]
    simp only [dirichlet]
    rw [exp_dirichletLogNormalizer h, Fin.prod_univ_castSucc]
    congr 2
    rw [Fin.sum_univ_castSucc, Finset.sum_add_distrib]
    push_cast
    simp
    ring
  · intro x
    rw [ExpFam.pdf, ExpFam.logPdf, dirichlet_dot_stat]
    simp [dirichlet]

theorem dirichlet_gradient {n : ℕ} {q : Fin (n + 1) → ℝ} (h : q ∈ dirichletDom (n + 1))
    (v : Fin (n + 1) → ℝ) :
    HasDerivAt (fun t : ℝ => dirichletLogNormalizer (q + t • v))
      (∑ i, v i * dirichletExpHelper q i) 0 := by
  have h1 := HasDerivAt.fun_sum (u := Finset.univ) fun i (_ : i ∈ Finset.univ) =>
    hasDerivAt_gammaln_line (show 0 < q i + 1 by linarith [h i]) (v i)
  refine hasDerivAt_of_eq (h1.sub (hasDerivAt_gammaln_line (dirichletDom_sum h) (∑ i, v i)))
    (fun t => ?_) ?_
  · simp only [dirichletLogNormalizer, Pi.sub_apply, Pi.add_apply, Pi.smul_apply, smul_eq_mul,
      Finset.sum_add_distrib, Finset.mul_sum]
    congr 1
    · exact Finset.sum_congr rfl fun i _ => by congr 1; ring
    · congr 1; ring
  · simp only [dirichletExpHelper, mul_sub, Finset.sum_sub_distrib, Finset.mul_sum]
    congr 1 <;> exact Finset.sum_congr rfl fun i _ => mul_comm _ _

theorem dirichlet_regular (d : ℕ) :
    Regular (dirichlet d) (volume.restrict (simplex d)) (dirichletDom (d + 1)) ⊤ := by
  refine .of_deriv ?_ (isOpen_dirichletDom _) (convex_dirichletDom _)
    (fun η h => dirichlet_density h) fun η h v => dirichlet_gradient h v
  intro η v t w
  simp only [dirichlet, Pi.add_apply, Pi.smul_apply, smul_eq_mul, add_mul, Finset.sum_add_distrib,
    Finset.mul_sum, mul_assoc]

/-- With at least two shape parameters, they are identifiable. -/
theorem dirichlet_minimal (d : ℕ) :
    Minimal (dirichlet (d + 1)) (volume.restrict (simplex (d + 1))) ⊤ := by
  intro v _ c h
  simp only [dirichlet_dot_stat] at h
  have hall := ae_open (isOpen_simplex _) (continuousOn_logWeight _ _ _) h
  have := logWeight_const (fun i : Fin (d + 1) => v i.castSucc)
    (Fin.snoc (α := fun _ => ℝ) (0 : Fin d → ℝ) (v (Fin.last (d + 1)))) c fun x hx => by
      rw [← hall x hx]
      obtain ⟨x, a, rfl⟩ : ∃ x' a, x = Fin.snoc (α := fun _ => ℝ) x' a :=
        ⟨Fin.init x, x (Fin.last d), (Fin.snoc_init_self x).symm⟩
      simp only [logWeight, Fin.sum_univ_castSucc, Fin.snoc_castSucc, Fin.snoc_last, csum_snoc_last,
        Pi.zero_apply]
      ring
  funext i
  refine Fin.lastCases ?_ (fun j => ?_) i
  · simpa using congrFun this.2 (Fin.last d)
  · exact congrFun this.1 j

/-! ### Beta -/

theorem beta_density {q : Fin 2 → ℝ} (h : q ∈ dirichletDom 2) :
    IsDensity (volume.restrict (Ioo 0 1)) (beta.pdf q) := by
  refine ⟨fun x => (beta.pdf_pos q x).le, ?_⟩
  have e1 : ∀ x ∈ Ioo (0 : ℝ) 1, beta.pdf q x =
      Real.exp (-dirichletLogNormalizer q) * (x ^ q 0 * (1 - x) ^ q 1) := by
    intro x hx
    have h1 : 0 < 1 - x := by linarith [hx.2]
    rw [Real.rpow_def_of_pos hx.1, Real.rpow_def_of_pos h1, ← Real.exp_add, ← Real.exp_add,
      ExpFam.pdf, ExpFam.logPdf]
    simp only [beta, Fin.sum_univ_two, Matrix.cons_val_zero, Matrix.cons_val_one, log1p,
      ← sub_eq_add_neg]
    congr 1
    ring
  rw [setIntegral_congr_fun measurableSet_Ioo e1, integral_const_mul,
    integral_eq_lintegral_of_nonneg_ae, lintegral_beta_scaled (h 0) (h 1) one_pos]
  · have hB := ProbabilityTheory.beta_pos (show 0 < q 0 + 1 by linarith [h 0])
      (show 0 < q 1 + 1 by linarith [h 1])
    rw [Real.one_rpow, one_mul, ENNReal.toReal_ofReal hB.le, Real.exp_neg,
      exp_dirichletLogNormalizer h, ProbabilityTheory.beta, Fin.sum_univ_two, Fin.prod_univ_two]
    have h3 := (Real.Gamma_pos_of_pos (show 0 < q 0 + 1 by linarith [h 0])).ne'
    have h4 := (Real.Gamma_pos_of_pos (show 0 < q 1 + 1 by linarith [h 1])).ne'
    have h5 := (Real.Gamma_pos_of_pos (show 0 < q 0 + 1 + (q 1 + 1) by
      linarith [h 0, h 1])).ne'
    have h6 : q 0 + q 1 + ((1 + 1 : ℕ) : ℝ) = q 0 + 1 + (q 1 + 1) := by push_cast; ring
    rw [h6]
    field_simp
  · refine (ae_restrict_iff' measurableSet_Ioo).2 (Filter.Eventually.of_forall fun x hx => ?_)
    have h1 : 0 < 1 - x := by linarith [hx.2]
    have h0 : 0 < x := hx.1
    exact (mul_pos (Real.rpow_pos_of_pos h0 _) (Real.rpow_pos_of_pos h1 _)).le
  · exact Measurable.aestronglyMeasurable (by fun_prop)

theorem beta_regular : Regular beta (volume.restrict (Ioo 0 1)) (dirichletDom 2) ⊤ := by
  refine .of_deriv ?_ (isOpen_dirichletDom _) (convex_dirichletDom _)
    (fun η h => beta_density h) fun η h v => dirichlet_gradient h v
  intro η v t w
  simp only [beta, Pi.add_apply, Pi.smul_apply, smul_eq_mul, add_mul, Finset.sum_add_distrib,
    Finset.mul_sum, mul_assoc]

theorem beta_minimal : Minimal beta (volume.restrict (Ioo 0 1)) ⊤ := by
  intro v _ c h
  have hc : ContinuousOn (fun x => beta.dot v (beta.stat x)) (Ioo 0 1) := by
    simp only [beta, Fin.sum_univ_two, Matrix.cons_val_zero, Matrix.cons_val_one, log1p,
      ← sub_eq_add_neg]
    refine (continuousOn_const.mul (ContinuousOn.log (by fun_prop) fun x hx => hx.1.ne')).add
      (continuousOn_const.mul (ContinuousOn.log (by fun_prop) fun x hx => ?_))
    have := hx.2
    linarith
  have hall := ae_open isOpen_Ioo hc h
  have := const_of_logs (v := v 0) (w := v 1) (c := c) one_pos fun t h0 h1 => by
    rw [← hall t ⟨h0, h1⟩]
    simp [beta, log1p, sub_eq_add_neg]
  funext i
  fin_cases i
  · exact this.1
  · exact this.2

end Efax
