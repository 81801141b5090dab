import Verif.Model.Examples.Optimization
import Verif.Lemmas.Slots
import Verif.Lemmas.Special
import Verif.Lemmas.Kind2
import Verif.Props.Batch.Kinds
import Verif.Props.Batches
import Mathlib.Analysis.Calculus.MeanValue

/-! # Lemmas for the example `examples/optimization.py` -/

namespace Efax

open Calc Spec

theorem sumBox_nonneg {rs : List ℕ} {g : List ℕ → ℝ} (h : ∀ i, inB rs i = true → 0 ≤ g i) :
    0 ≤ sumBox rs g := by
  induction rs generalizing g with
  | nil => exact h [] rfl
  | cons n rs ih =>
    refine Finset.sum_nonneg fun k hk => ih fun i hi => h _ ?_
    simp [inB, Finset.mem_range.1 hk, hi]

theorem sumBox_mul (rs : List ℕ) (c : ℝ) (g : List ℕ → ℝ) :
    sumBox rs (fun i => c * g i) = c * sumBox rs g := by
  induction rs generalizing g with
  | nil => rfl
  | cons n rs ih => simp only [sumBox, ih, Finset.mul_sum]

theorem sumBox_le {rs : List ℕ} {g h : List ℕ → ℝ} (e : ∀ i, inB rs i = true → g i ≤ h i) :
    sumBox rs g ≤ sumBox rs h := by
  have h1 := sumBox_nonneg (rs := rs) (g := fun i => h i + -1 * g i) fun i hi => by linarith [e i hi]
  rw [sumBox_add, sumBox_mul] at h1
  linarith

theorem le_sumBox {rs : List ℕ} {g : List ℕ → ℝ} (h : ∀ i, inB rs i = true → 0 ≤ g i) {i : List ℕ}
    (hi : inB rs i = true) : g i ≤ sumBox rs g := by
  rw [← sumBox_single hi (g i)]
  refine sumBox_le fun j hj => ?_
  split
  · next e => rw [e]
  · exact h j hj

/-! ### One entry -/

/-- The cross entropy of a Bernoulli distribution with probability `p` relative to log-odds `q`. -/
noncomputable def bernoulliLoss (p q : ℝ) : ℝ := -(q * p) + logaddexp q 0 - 0

theorem bernoulliLoss_deriv (p q : ℝ) : HasDerivAt (bernoulliLoss p) (expit q - p) q := by
  have h := (((hasDerivAt_id q).mul_const p).fun_neg.add (hasDerivAt_logaddexp_zero q)).sub_const 0
  exact h.congr_deriv (by ring)

theorem hasDerivAt_expit (q : ℝ) : HasDerivAt expit (expit q * (1 - expit q)) q := by
  have h0 := Real.exp_pos q
  have h : HasDerivAt (fun x => Real.exp x / (Real.exp x + 1))
      ((Real.exp q * (Real.exp q + 1) - Real.exp q * Real.exp q) / (Real.exp q + 1) ^ 2) q :=
    (Real.hasDerivAt_exp q).div ((Real.hasDerivAt_exp q).add_const 1) (by positivity)
  have e : expit = fun x => Real.exp x / (Real.exp x + 1) := funext expit_eq
  rw [one_sub_expit_eq, expit_eq, e]
  refine h.congr_deriv ?_
  field_simp
  ring

theorem expit_lipschitz (a b : ℝ) : |expit a - expit b| ≤ |a - b| := by
  have h := Convex.norm_image_sub_le_of_norm_hasDerivWithin_le (f := expit) (s := Set.univ)
    (f' := fun q => expit q * (1 - expit q)) (C := 1) (x := b) (y := a)
    (fun x _ => (hasDerivAt_expit x).hasDerivWithinAt) (fun x _ => ?_) convex_univ trivial trivial
  · simpa using h
  · have h1 := expit_pos x
    have h2 := expit_lt_one x
    rw [Real.norm_eq_abs, abs_of_nonneg (by nlinarith)]
    nlinarith

theorem bernoulliLoss_convex (p a b : ℝ) : bernoulliLoss p b + (expit b - p) * (a - b) ≤ bernoulliLoss p a := by
  have hm : Monotone expit := monotone_of_deriv_nonneg (fun x => (hasDerivAt_expit x).differentiableAt)
    fun x => by
      rw [(hasDerivAt_expit x).deriv]
      have h1 := expit_pos x
      have h2 := expit_lt_one x
      nlinarith
  rcases lt_trichotomy a b with h | rfl | h
  · obtain ⟨c, hc, e⟩ := exists_hasDerivAt_eq_slope (bernoulliLoss p) (fun q => expit q - p) h
      (fun x _ => (bernoulliLoss_deriv p x).continuousAt.continuousWithinAt)
      fun x _ => bernoulliLoss_deriv p x
    rw [eq_div_iff (by linarith)] at e
    have := hm hc.2.le
    nlinarith
  · simp
  · obtain ⟨c, hc, e⟩ := exists_hasDerivAt_eq_slope (bernoulliLoss p) (fun q => expit q - p) h
      (fun x _ => (bernoulliLoss_deriv p x).continuousAt.continuousWithinAt)
      fun x _ => bernoulliLoss_deriv p x
    rw [eq_div_iff (by linarith)] at e
    have := hm hc.1.le
    nlinarith

theorem bernoulliLoss_nonneg {p : ℝ} (h0 : 0 ≤ p) (h1 : p ≤ 1) (q : ℝ) : 0 ≤ bernoulliLoss p q := by
  have h2 : q ≤ logaddexp q 0 := by
    rw [logaddexp]
    calc q = Real.log (Real.exp q) := (Real.log_exp q).symm
      _ ≤ _ := Real.log_le_log (Real.exp_pos q) (by linarith [Real.exp_pos 0])
  have h3 : 0 ≤ logaddexp q 0 := by
    rw [logaddexp, Real.exp_zero]
    exact Real.log_nonneg (by linarith [Real.exp_pos q])
  rw [bernoulliLoss]
  nlinarith

/-- One step of the gradient descent. -/
theorem bernoulliLoss_step (p q : ℝ) {η : ℝ} (h0 : 0 ≤ η) :
    bernoulliLoss p (q - η * (expit q - p)) ≤ bernoulliLoss p q - η * (1 - η) * (expit q - p) ^ 2 := by
  set g := expit q - p with hg
  have h1 := bernoulliLoss_convex p q (q - η * g)
  have h2 := expit_lipschitz (q - η * g) q
  have e : |q - η * g - q| = η * |g| := by
    rw [show q - η * g - q = -(η * g) by ring, abs_neg, abs_mul, abs_of_nonneg h0]
  rw [e] at h2
  have h3 : -(η * |g| * |g|) ≤ (expit (q - η * g) - expit q) * g := by
    have := (abs_le.1 ((abs_mul (expit (q - η * g) - expit q) g).le.trans
      (mul_le_mul_of_nonneg_right h2 (abs_nonneg g)))).1
    exact this
  rw [mul_assoc, abs_mul_abs_self] at h3
  have h4 : (expit (q - η * g) - p) * (q - (q - η * g)) =
      η * ((expit (q - η * g) - expit q) * g + g * g) := by rw [hg]; ring
  rw [h4] at h1
  nlinarith [mul_le_mul_of_nonneg_left h3 h0]

/-! ### Arrays -/

variable [MachEps] {solve : Solver} {search : Cls → List Val → Except Err (List Val)}

/-- A batch of Bernoulli distributions with given log-odds. -/
def bernoulliNat (rs : List ℕ) (q : List ℕ → ℝ) : Dist Cls := .mk .bernoulliNP [.real (scalars rs q)] .nil

/-- A batch of Bernoulli distributions with given probabilities. -/
def bernoulliExp (rs : List ℕ) (p : List ℕ → ℝ) : Dist Cls := .mk .bernoulliEP [.real (scalars rs p)] .nil

theorem bernoulli_loss (hs : solve.For search) (rs : List ℕ) (p q : List ℕ → ℝ) :
    crossEntropyLoss (library search) (bernoulliExp rs p) (bernoulliNat rs q) =
      .ok (sumBox rs fun i => bernoulliLoss (p i) (q i)) := by
  have h := C51_cross_entropy (simple_bernoulli hs) trivial rs (fun _ => ()) p q
  have h : (bernoulliExp rs p).crossEntropy (library search) (bernoulliNat rs q) =
    ok (scalars rs fun i => bernoulliLoss (p i) (q i)) := h
  rw [crossEntropyLoss, sumAll, h]
  exact congrArg Except.ok (sumBox_congr fun i hi => Arr.ofFn_get hi)

theorem bernoulli_gce (hs : solve.For search) (rs : List ℕ) (p q : List ℕ → ℝ) :
    gce (library search) (bernoulliExp rs p) (bernoulliNat rs q) =
      .ok (bernoulliNat rs fun i => expit (q i) - p i) := by
  simp only [gce, bernoulli_loss hs, Bind.bind, Except.bind]
  refine congrArg Except.ok ?_
  simp only [bernoulliNat, Dist.cotangent, Subs.cotangent, List.mapIdx_cons, List.mapIdx_nil,
    Val.cotangent]
  congr 3
  refine Arr.ext rfl fun i hi => ?_
  have hi : inB rs i = true := hi
  simp only [scalars, Arr.ofFn_rshape, Arr.ofFn_get hi]
  have e : ∀ t : ℝ, lossValue (crossEntropyLoss (library search) (bernoulliExp rs p)
      ((Dist.mk .bernoulliNP [.real (Arr.ofFn rs q)] .nil).nudge 0 i (t * 1) [])) =
      sumBox rs fun j => bernoulliLoss (p j) (Function.update q i (q i + t) j) := fun t => by
    have h1 : (Dist.mk Cls.bernoulliNP [.real (Arr.ofFn rs q)] .nil).nudge 0 i (t * 1) [] =
        bernoulliNat rs (Function.update q i (q i + t)) := by
      have := nudge_scalars rs i t q
      simp only [scalars] at this
      simp only [Dist.nudge, List.modify_zero_cons, this, bernoulliNat, scalars]
    rw [h1, bernoulli_loss hs]
    rfl
  simp only [e]
  have h2 : HasDerivAt (fun t : ℝ => sumBox rs (fun j => if j = i then 0 else bernoulliLoss (p j) (q j)) +
      bernoulliLoss (p i) (q i + t)) (expit (q i) - p i) 0 := by
    have h3 := (bernoulliLoss_deriv (p i) (q i + 0)).comp_const_add (q i) 0
    exact (h3.congr_deriv (by rw [add_zero])).const_add _
  rw [← h2.deriv]
  congr 1
  funext t
  exact sumBox_update hi q _ fun j => bernoulliLoss (p j)

theorem bernoulli_body (hs : solve.For search) (rs : List ℕ) (p q : List ℕ → ℝ) :
    bodyFun (library search) (bernoulliExp rs p) (bernoulliNat rs q) =
      .ok (bernoulliNat rs fun i => q i - 1e-4 * (expit (q i) - p i)) := by
  simp only [bodyFun, bernoulli_gce hs, Bind.bind, Except.bind]
  have h : applyStep [.real (scalars rs q), .real (scalars rs fun i => expit (q i) - p i)] =
      .ok (.real (scalars rs fun i => q i - 1e-4 * (expit (q i) - p i))) := by
    have : (ok (scalars rs q) - const 1e-4 * ok (scalars rs fun i => expit (q i) - p i) : Calc ℝ) =
        ok (scalars rs fun i => q i - 1e-4 * (expit (q i) - p i)) := by
      calc_simp
    rw [applyStep, this]
    rfl
  have e : paramMap applyStep (bernoulliNat rs q) [bernoulliNat rs fun i => expit (q i) - p i] =
      (applyStep [.real (scalars rs q), .real (scalars rs fun i => expit (q i) - p i)]).bind fun v =>
        .ok (.mk .bernoulliNP [v] .nil) := by
    have h1 : starmapStrict applyStep (parameters (bernoulliNat rs q) (some false)).values
        ([bernoulliNat rs fun i => expit (q i) - p i].map fun y => (parameters y (some false)).values) =
        .ok [.real (scalars rs fun i => q i - 1e-4 * (expit (q i) - p i))] := by
      have e1 : ∀ f, (parameters (bernoulliNat rs f) (some false)).values = [.real (scalars rs f)] := fun _ => rfl
      simp [e1, starmapStrict, h, Bind.bind, Except.bind]
    rw [paramMap, h1, h]
    rfl
  rw [e, h]
  rfl

theorem bernoulli_cond (hs : solve.For search) (rs : List ℕ) (p q : List ℕ → ℝ) :
    condFun (library search) (bernoulliExp rs p) (bernoulliNat rs q) =
      .ok (decide (1e-6 < sumBox rs fun i => (expit (q i) - p i) ^ 2)) := by
  simp only [condFun, bernoulli_gce hs, Bind.bind, Except.bind]
  have h : dotCalc (bernoulliNat rs fun i => expit (q i) - p i) (bernoulliNat rs fun i => expit (q i) - p i) =
      ok (scalars rs fun i => (expit (q i) - p i) ^ 2) := by
    have hK := simple_bernoulli hs
    refine dotCalc_eq (hK.wfN rs (fun _ => ()) _) (hK.wfN rs (fun _ => ()) _)
      ⟨.cons ⟨rfl, rfl, [], rfl, rfl⟩ .nil, trivial⟩ fun i hi => ?_
    rw [sq]
    exact (add_zero _).trans ((add_zero _).trans (valDot_scalars rs i hi _ _))
  rw [sumAll, h]
  refine congrArg (fun z : ℝ => Except.ok (decide (1e-6 < z))) (sumBox_congr fun i hi => Arr.ofFn_get hi)

end Efax
