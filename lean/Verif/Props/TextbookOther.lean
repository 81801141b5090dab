import Verif.Spec.Textbook
import Verif.Lemmas.Families.Simplex
import Verif.Props.Families.VonMises

/-!
# The densities of the generalized Dirichlet and von Mises-Fisher families are the textbook ones (C57)
-/

namespace Efax

open Spec

theorem sum_Iio_castSucc {k : ℕ} (y : Fin k → ℝ) (t : ℝ) (i : Fin k) :
    ∑ j ∈ Finset.Iio i.castSucc, (Fin.snoc (α := fun _ => ℝ) y t : Fin (k + 1) → ℝ) j =
      ∑ j ∈ Finset.Iio i, y j := by
  have : ¬ Fin.last k < i.castSucc := (Fin.castSucc_lt_last i).not_gt
  rw [sum_Iio_eq, sum_Iio_eq, Fin.sum_univ_castSucc]
  simp [this]

theorem sum_Iio_last {k : ℕ} (y : Fin k → ℝ) (t : ℝ) :
    ∑ j ∈ Finset.Iio (Fin.last k), (Fin.snoc (α := fun _ => ℝ) y t : Fin (k + 1) → ℝ) j = ∑ j, y j := by
  rw [sum_Iio_eq, Fin.sum_univ_castSucc]
  simp [Fin.castSucc_lt_last]

/-- The weight of a point of the simplex, as a product over the pieces of the stick. -/
theorem stick_product {k : ℕ} (p g : Fin k → ℝ) (e : ℝ) (hp : ∀ i, -1 < p i)
    (hb : ∀ i, 0 < betaArg p g e i) {x : Fin k → ℝ} (hx : x ∈ simplex k) :
    Real.exp (logWeight p g e x) = (∏ i, ProbabilityTheory.beta (p i + 1) (betaArg p g e i)) *
      Textbook.genDirichlet (fun i => p i + 1) (betaArg p g e) x := by
  induction k generalizing e with
  | zero => simp [logWeight, Textbook.genDirichlet]
  | succ k ih =>
    obtain ⟨p, a, rfl⟩ : ∃ p' a, p = Fin.snoc (α := fun _ => ℝ) p' a :=
      ⟨Fin.init p, p (Fin.last k), (Fin.snoc_init_self p).symm⟩
    obtain ⟨g, c, rfl⟩ : ∃ g' c, g = Fin.snoc (α := fun _ => ℝ) g' c :=
      ⟨Fin.init g, g (Fin.last k), (Fin.snoc_init_self g).symm⟩
    obtain ⟨y, t, rfl⟩ : ∃ y t, x = Fin.snoc (α := fun _ => ℝ) y t :=
      ⟨Fin.init x, x (Fin.last k), (Fin.snoc_init_self x).symm⟩
    have ha : -1 < a := by simpa using hp (Fin.last k)
    have hc : 0 < c + e + 1 := by
      have := hb (Fin.last k)
      rwa [betaArg_snoc_last] at this
    have hp' : ∀ i, -1 < p i := fun i => by simpa using hp i.castSucc
    have hb' : ∀ i, 0 < betaArg p g (a + (c + e) + 1) i := fun i => by
      rw [← betaArg_snoc_castSucc]; exact hb i.castSucc
    obtain ⟨hy, ht0, ht1⟩ := (snoc_mem_simplex y t).1 hx
    have hr : 0 < 1 - ∑ i, y i := by linarith [hy.2]
    have h := ih p g (a + (c + e) + 1) hp' hb' hy
    have hw : logWeight p g (a + (c + e) + 1) y =
        logWeight p g 0 y + (a + (c + e) + 1) * Real.log (1 - ∑ i, y i) := by
      rw [logWeight, logWeight]
      ring
    have h1 : 0 < 1 - ∑ i, y i - t := by linarith
    have h2 : 1 - t / (1 - ∑ i, y i) = (1 - ∑ i, y i - t) / (1 - ∑ i, y i) := by field_simp
    have hlast : (∏ i, ProbabilityTheory.beta (p i + 1) (betaArg p g (a + (c + e) + 1) i)) *
        Textbook.genDirichlet (fun i => p i + 1) (betaArg p g (a + (c + e) + 1)) y *
        (t ^ a * (1 - ∑ i, y i - t) ^ (c + e) / (1 - ∑ i, y i) ^ (a + (c + e) + 1)) =
        Real.exp (logWeight (Fin.snoc (α := fun _ => ℝ) p a) (Fin.snoc (α := fun _ => ℝ) g c) e
          (Fin.snoc (α := fun _ => ℝ) y t)) := by
      rw [← h, logWeight_snoc, hw, Real.rpow_def_of_pos ht0, Real.rpow_def_of_pos h1,
        Real.rpow_def_of_pos hr, ← Real.exp_add, ← Real.exp_sub, ← Real.exp_add]
      congr 1
      ring
    rw [← hlast, Textbook.genDirichlet, Textbook.genDirichlet, Fin.prod_univ_castSucc,
      Fin.prod_univ_castSucc (n := k)]
    simp only [betaArg_snoc_castSucc, betaArg_snoc_last, Fin.snoc_castSucc, Fin.snoc_last,
      sum_Iio_castSucc, sum_Iio_last]
    rw [Textbook.beta, h2, Real.div_rpow ht0.le hr.le, Real.div_rpow h1.le hr.le, ProbabilityTheory.beta,
      add_sub_cancel_right, add_sub_cancel_right, Real.rpow_add hr, Real.rpow_add hr, Real.rpow_one]
    have g1 := Real.Gamma_pos_of_pos (show 0 < a + 1 by linarith)
    have g2 := Real.Gamma_pos_of_pos hc
    have g3 := Real.Gamma_pos_of_pos (show 0 < a + 1 + (c + e + 1) by linarith)
    have r1 := Real.rpow_pos_of_pos hr a
    have r2 := Real.rpow_pos_of_pos hr (c + e)
    field_simp

/-- Generalized Dirichlet, as a stick that is broken piece by piece. -/
theorem C57_gen_dirichlet (k : ℕ) {q : (Fin k → ℝ) × (Fin k → ℝ)} (hq : q ∈ genDirichletDom k)
    {x : Fin k → ℝ} (hx : x ∈ simplex k) :
    (genDirichlet k).pdf q x =
      Textbook.genDirichlet (genDirichletAlphaBeta q).1 (genDirichletAlphaBeta q).2 x := by
  have hb := genDirichletDom_beta hq
  have e : (genDirichletAlphaBeta q).2 = betaArg q.1 q.2 0 := funext (genDirichlet_beta q)
  have hB : ∀ i, 0 < ProbabilityTheory.beta (q.1 i + 1) (betaArg q.1 q.2 0 i) := fun i =>
    ProbabilityTheory.beta_pos (by linarith [hq.1 i]) (hb i)
  have hn : Real.exp ((genDirichlet k).logNormalizer q) =
      ∏ i, ProbabilityTheory.beta (q.1 i + 1) (betaArg q.1 q.2 0 i) := by
    simp only [genDirichlet]
    rw [Real.exp_sum]
    refine Finset.prod_congr rfl fun i _ => ?_
    rw [genDirichlet_alpha, genDirichlet_beta, ← log_prob_beta (by linarith [hq.1 i]) (hb i),
      Real.exp_log (hB i)]
  have hc : (genDirichlet k).carrier x = 0 := rfl
  rw [ExpFam.pdf, ExpFam.logPdf, genDirichlet_dot_stat, hc, add_zero, Real.exp_sub, hn,
    stick_product _ _ _ hq.1 hb hx, e, mul_div_cancel_left₀ _ (Finset.prod_pos fun i _ => hB i).ne']
  rfl

-- One third of a stick, with uniform fractions.
example : (genDirichlet 1).pdf (fun _ => 0, fun _ => 0) (fun _ => 1 / 3) = 1 := by
  rw [C57_gen_dirichlet 1 ⟨by norm_num, fun i => by simp; positivity⟩ ⟨by norm_num, by norm_num⟩]
  have e : (genDirichletAlphaBeta (k := 1) (fun _ => 0, fun _ => 0)).2 = fun _ => 1 := by
    funext i
    rw [genDirichlet_beta, betaArg, Subsingleton.elim i 0]
    simp
  rw [e]
  simp [Textbook.genDirichlet, genDirichletAlphaBeta, Textbook.beta]
  rw [one_add_one_eq_two, Real.Gamma_two]

/-- Any number of dimensions. -/
theorem C57_von_mises_fisher (n : ℕ) {q : EuclideanSpace ℝ (Fin (n + 1))} (hq : q ≠ 0)
    (x : Metric.sphere (0 : EuclideanSpace ℝ (Fin (n + 1))) 1) :
    (vonMisesFisher (n + 1)).pdf q x =
      Textbook.vonMisesFisher (fun i => q i / vmfKappa q) (vmfKappa q) (fun i => x.1 i) := by
  have hk : 0 < ‖q‖ := norm_pos_iff.2 hq
  have hI : 0 < besselI (((n + 1 : ℕ) : ℝ) * 0.5 - 1) ‖q‖ := besselI_pos (by
    have : (0 : ℝ) < ((n + 1 : ℕ) : ℝ) * 0.5 := by positivity
    linarith) hk
  simp only [ExpFam.pdf, ExpFam.logPdf, Textbook.vonMisesFisher, vmfKappa]
  rw [show ((n + 1 : ℕ) : ℝ) / 2 = ((n + 1 : ℕ) : ℝ) * 0.5 by ring]
  rw [Real.rpow_def_of_pos hk, Real.rpow_def_of_pos (by positivity)]
  simp only [vonMisesFisher, logIve, dotProduct]
  rw [Real.log_mul hI.ne' (Real.exp_pos _).ne', Real.log_exp, Finset.mul_sum]
  have e : ∀ i, ‖q‖ * (q i / ‖q‖ * x.1 i) = q i * x.1 i := fun i => by field_simp
  simp only [e]
  generalize (((n + 1 : ℕ) : ℝ) * 0.5) = r at *
  generalize ∑ i, q i * x.1 i = s
  rw [show s - (‖q‖ - (r - 1) * Real.log ‖q‖ + r * Real.log (2 * Real.pi) +
    (Real.log (besselI (r - 1) ‖q‖) + -‖q‖)) + 0 = Real.log ‖q‖ * (r - 1) + s -
      (Real.log (2 * Real.pi) * r + Real.log (besselI (r - 1) ‖q‖)) by ring, Real.exp_sub, Real.exp_add,
    Real.exp_add, Real.exp_log hI]
  ring

example (x : Metric.sphere (0 : EuclideanSpace ℝ (Fin 3)) 1) :
    (vonMisesFisher 3).pdf (EuclideanSpace.single 1 1) x =
      Textbook.vonMisesFisher (fun i => (EuclideanSpace.single 1 1 : EuclideanSpace ℝ (Fin 3)) i / 1) 1
        (fun i => x.1 i) := by
  have hn : vmfKappa (EuclideanSpace.single 1 1 : EuclideanSpace ℝ (Fin 3)) = 1 := by simp [vmfKappa]
  have := C57_von_mises_fisher 2 (q := EuclideanSpace.single 1 1)
    (norm_ne_zero_iff.1 (by rw [show ‖_‖ = (1 : ℝ) from hn]; norm_num)) x
  rwa [hn] at this

/-- In two dimensions, as a density of the angle. -/
theorem C57_von_mises {q : EuclideanSpace ℝ (Fin 2)} (hq : q ≠ 0) {κ m : ℝ}
    (h : vmfToKappaAngle q = some (κ, m)) (x : Metric.sphere (0 : EuclideanSpace ℝ (Fin 2)) 1) (t : ℝ)
    (h0 : x.1 0 = Real.cos t) (h1 : x.1 1 = Real.sin t) :
    (vonMisesFisher 2).pdf q x = Textbook.vonMises κ m t := by
  obtain ⟨κ', m', h', -, -, -, e0, e1, -⟩ := C54_kappa_angle q
  rw [h] at h'
  obtain ⟨rfl, rfl⟩ := Prod.mk.inj (Option.some.inj h')
  have hκ : ‖q‖ = κ := by
    rw [vmfToKappaAngle, dif_pos rfl] at h
    exact (Prod.mk.inj (Option.some.inj h)).1
  have := C57_von_mises_fisher 1 hq x
  rw [this, Textbook.vonMisesFisher, Textbook.vonMises, vmfKappa, hκ]
  have hk : 0 < κ := hκ ▸ norm_pos_iff.2 hq
  have hd : κ * ((fun i : Fin (1 + 1) => q i / κ) ⬝ᵥ fun i => x.1 i) = κ * Real.cos (t - m) := by
    have e : ((fun i : Fin (1 + 1) => q i / κ) ⬝ᵥ fun i => x.1 i) = q 0 / κ * x.1 0 + q 1 / κ * x.1 1 :=
      Fin.sum_univ_two _
    rw [e, h0, h1, e0, e1, Real.cos_sub]
    field_simp
  rw [hd]
  norm_num
  ring

-- The density at the opposite of the mean direction, with concentration 2.
example (x : Metric.sphere (0 : EuclideanSpace ℝ (Fin 2)) 1) (h0 : x.1 0 = -1) (h1 : x.1 1 = 0) :
    (vonMisesFisher 2).pdf (EuclideanSpace.single 0 2) x = Textbook.vonMises 2 0 Real.pi := by
  have hn : ‖(EuclideanSpace.single 0 2 : EuclideanSpace ℝ (Fin 2))‖ = 2 := by simp
  refine C57_von_mises (norm_ne_zero_iff.1 (by rw [hn]; norm_num)) ?_ x Real.pi (by rw [h0, Real.cos_pi])
    (by rw [h1, Real.sin_pi])
  rw [vmfToKappaAngle, dif_pos rfl]
  simp only [vmfKappa, hn]
  norm_num
  exact Complex.arg_ofReal_of_nonneg (x := 2) (by norm_num)

end Efax
