import Verif.Props.TestMatch
import Verif.Props.ClosedForm
import Verif.Props.Reach

/-!
# The tests of Kullback-Leibler divergences pass (C81)
-/

namespace Efax

open Spec Tests ClassTable Calc

variable [MachEps] {solve : Solver} {search : Cls → List Val → Except Err (List Val)} {g : Rng}

omit [MachEps] in
theorem matMul_matrices {d : ℕ} (rs : List ℕ) (a b : List ℕ → Matrix (Fin d) (Fin d) ℝ) :
    matMul (ok (matrices rs a)) (ok (matrices rs b)) = ok (matrices rs fun i => a i * b i) := by
  simp only [matMul, bind_ok, matrices_rshape, and_self, if_true]
  refine ofFn_matrices fun r c i hi => ?_
  change ∑ k ∈ Finset.range d, (matrices rs a).get (k :: r.val :: i) * (matrices rs b).get (c.val :: k :: i) = _
  rw [Finset.sum_range, Matrix.mul_apply]
  exact Finset.sum_congr rfl fun k _ => by rw [Calc.matrices_get a r k hi, Calc.matrices_get b k c hi]

omit [MachEps] in
theorem traceLast_matrices {d : ℕ} (rs : List ℕ) (a : List ℕ → Matrix (Fin d) (Fin d) ℝ) :
    traceLast (ok (matrices rs a)) = ok (scalars rs fun i => (a i).trace) := by
  simp only [traceLast, bind_ok, matrices_rshape, min_self]
  refine ok_ofFn_congr fun i hi => ?_
  rw [Finset.sum_range, Matrix.trace]
  exact Finset.sum_congr rfl fun k _ => by rw [Calc.matrices_get a k k hi, Matrix.diag_apply]

omit [MachEps] in
theorem bind_eq {α β : Type} {m : Except Err α} {a : α} {f : α → Except Err β} (h : m = .ok a) :
    (m >>= f) = f a := by
  rw [h]
  rfl

theorem check_bind {β : Type} {c : Prop} {f : Unit → Except Err β} (h : c) : (check c >>= f) = f () :=
  bind_eq (check_ok h)

/-- What `prelude` returns. -/
theorem kl_prelude (hs : solve.For search) {info : TestInfo} (hi : Sound info) (hf : Shallow info)
    {f : _ → _ → _ → ℝ} (h : KLIs (library search) (settingOf solve info).2 f)
    (hp : Subsingleton (List ℕ → (settingOf solve info).1.P))
    (hg : InRange g) (hz : NeverZero g) (hq : Generic g) (hc : Cooperative solve info g [2, 3]) (s : g.State) :
    ∃ p a b s', klPrelude (library search) info g s = .ok ((settingOf solve info).1.exp [2, 3] p
        (fun i => ((settingOf solve info).1.F (p i)).toExp (a i)), (settingOf solve info).1.nat [2, 3] p b,
        scalars [2, 3] fun i => f (p i) (a i) (b i), s') ∧
      (settingOf solve info).2.Inside [2, 3] p a ∧ (settingOf solve info).2.Inside [2, 3] p b ∧
      ((settingOf solve info).1.nat [2, 3] p b).toExp (library search).toExp =
        .ok ((settingOf solve info).1.exp [2, 3] p fun i => ((settingOf solve info).1.F (p i)).toExp (b i)) ∧
      ((settingOf solve info).1.exp [2, 3] p fun i => ((settingOf solve info).1.F (p i)).toExp (a i)).toNat
        (library search).toNat = .ok ((settingOf solve info).1.nat [2, 3] p a) := by
  have hS := sound_library (solve := solve) info hi
  have hO := C51_library hs hS.kind
  obtain ⟨p, a, s', h1, h2⟩ := C76_test_parameters (solve := solve) hi hf hg hz hq [2, 3] s
  obtain ⟨p', b, s'', h3, h4⟩ := C76_test_parameters (solve := solve) hi hf hg hz hq [2, 3] s'
  obtain rfl := Subsingleton.elim p p'
  obtain ⟨hr, he, hx⟩ := hc s s' p a h1 h2
  obtain ⟨hr', -, -⟩ := hc s' s'' p b h3 h4
  obtain ⟨-, e, h5, h6⟩ := h [2, 3] p a b h2 h4 hr
  obtain rfl := Except.ok.inj ((hO.toExp [2, 3] p a (regular_dom hS.kind hr)).symm.trans h5)
  have h7 := C76_test_expectation hs hi h1 hr
  refine ⟨p, a, b, s'', ?_, h2, h4, hO.toExp [2, 3] p b (regular_dom hS.kind hr'), ?_⟩
  · simp only [klPrelude, h7, h3, Bind.bind, Except.bind, show (Dist.klE (library search) _ _).run =
      .ok (scalars [2, 3] _) from h6 hx he]
  · have h8 := hO.toNat [2, 3] p _ (searchable_dom hS.kind he)
    rwa [natural_congr hS.kind (q' := a) hx] at h8

omit [MachEps] in
theorem normal_kl_formula (rs : List ℕ) (x y : List ℕ → ℝ × ℝ) :
    scipyNormalKl (.real (scalars rs fun i => (x i).1)) (.real (scalars rs fun i => (x i).2))
      (.real (scalars rs fun i => (y i).1)) (.real (scalars rs fun i => (y i).2)) =
      ok (scalars rs fun i => Textbook.KL.normal (x i).1 (normalVariance (x i)) (y i).1 (normalVariance (y i))) := by
  change (0.5 * ((ok _ - square (ok _)) / (ok _ - square (ok _)) + square (ok _ - ok _) / (ok _ - square (ok _)) -
    1.0 + log ((ok _ - square (ok _)) / (ok _ - square (ok _)))) : Calc ℝ) = ok _
  calc_simp
  refine congrArg _ (scalars_congr fun i _ => ?_)
  simp only [Textbook.KL.normal, normalVariance]
  norm_num

omit [MachEps] in
theorem mvn_kl_formula {d : ℕ} (rs : List ℕ) (x y : List ℕ → (Fin d → ℝ) × Matrix (Fin d) (Fin d) ℝ) :
    scipyMvnKl d (.real (vectors rs fun i => (x i).1)) (.real (matrices rs fun i => (x i).2))
      (.real (vectors rs fun i => (y i).1)) (.real (matrices rs fun i => (y i).2)) =
      ok (scalars rs fun i => Textbook.KL.mvNormal (x i).1 (mvNormalVariance (x i)) (y i).1
        (mvNormalVariance (y i))) := by
  simp only [scipyMvnKl, Methods.mvVariance, Val.toR]
  change (0.5 * (traceLast (matMul (inv (ok _ - outer (ok _) (ok _))) (ok _ - outer (ok _) (ok _))) +
    sumLast ((ok _ - ok _) * matVec (inv (ok _ - outer (ok _) (ok _))) (ok _ - ok _)) - const (d : ℝ) +
    log (det (ok _ - outer (ok _) (ok _)) / det (ok _ - outer (ok _) (ok _)))) : Calc ℝ) = ok _
  calc_simp
  rw [matMul_matrices, traceLast_matrices]
  calc_simp
  refine congrArg _ (scalars_congr fun i _ => ?_)
  simp only [Textbook.KL.mvNormal, mvNormalVariance, Fintype.card_fin]
  simp only [star_trivial]
  rfl

omit [MachEps] in
theorem gamma_kl_formula (rs : List ℕ) (x y : List ℕ → ℝ × ℝ) :
    scipyGammaKl (.real (scalars rs fun i => (x i).1)) (.real (scalars rs fun i => (x i).2))
      (.real (scalars rs fun i => (y i).1)) (.real (scalars rs fun i => (y i).2)) =
      ok (scalars rs fun i => Textbook.KL.gamma ((x i).2 + 1) (-1 / (x i).1) ((y i).2 + 1) (-1 / (y i).1)) := by
  change ((-1.0 / ok _ - -1.0 / ok _) / (-1.0 / ok _) * (ok _ + 1.0) + (ok _ + 1.0 : Calc ℝ).map gammaln -
    (ok _ + 1.0 : Calc ℝ).map gammaln + (ok _ + 1.0) * log (-1.0 / ok _) - (ok _ + 1.0) * log (-1.0 / ok _) +
    (ok _ + 1.0 - (ok _ + 1.0)) * (log (-1.0 / ok _) + (ok _ + 1.0 : Calc ℝ).map digamma) : Calc ℝ) = ok _
  calc_simp
  refine congrArg _ (scalars_congr fun i _ => ?_)
  simp only [Textbook.KL.gamma, gammaln]
  norm_num

/-- **C81.** `test_normal_kl` passes with exact arithmetic, for every generic random stream. -/
theorem C81_normal_kl (hs : solve.For search) (hg : InRange g) (hz : NeverZero g) (hq : Generic g) (s : g.State) :
    ∃ s', testNormalKl (library search) g s = .ok s' := by
  have hi : Sound (.simple .normal 1) := rfl
  obtain ⟨p, a, b, s', h1, -, -, h2, -⟩ := kl_prelude (info := .simple .normal 1) hs hi trivial
    (C74_normal_kl hs) (inferInstanceAs (Subsingleton (List ℕ → Unit))) hg hz hq
    (cooperative_closed hi trivial _) s
  refine ⟨s', ?_⟩
  refine (bind_eq h1).trans ((check_bind ?_).trans ((check_bind ?_).trans ((bind_eq h2).trans ?_)))
  · rfl
  · rfl
  exact (bind_eq (m := Calc.run _) (normal_kl_formula [2, 3] (fun i => Efax.normal.toExp (a i)) fun i => Efax.normal.toExp (b i))).trans (check_bind rfl)

/-- **C81.** `test_mvn_kl` passes with exact arithmetic, for every generic random stream. -/
theorem C81_mvn_kl (hs : solve.For search) (hg : InRange g) (hz : NeverZero g) (hq : Generic g) (s : g.State) :
    ∃ s', testMvnKl (library search) g s = .ok s' := by
  have hi : Sound (.simple .mvNormal 4) := show 1 ≤ 4 by decide
  obtain ⟨p, a, b, s', h1, -, -, h2, -⟩ := kl_prelude (info := .simple .mvNormal 4) hs hi trivial
    (C74_mv_normal_kl 4 hs) (inferInstanceAs (Subsingleton (List ℕ → Unit))) hg hz hq
    (cooperative_closed hi trivial _) s
  refine ⟨s', ?_⟩
  refine (bind_eq h1).trans ((check_bind ?_).trans ((check_bind ?_).trans ((bind_eq h2).trans ?_)))
  · rfl
  · rfl
  refine (bind_eq (a := 4) rfl).trans ?_
  exact (bind_eq (m := Calc.run _) (mvn_kl_formula [2, 3] (fun i => (Efax.mvNormal 4).toExp (a i)) fun i =>
    (Efax.mvNormal 4).toExp (b i))).trans (check_bind rfl)

/-- **C81.** `test_gamma_kl` passes with exact arithmetic, for every generic random stream, if the searches
find what they search for. -/
theorem C81_gamma_kl (hs : solve.For search) (hg : InRange g) (hz : NeverZero g) (hq : Generic g)
    (hc : Cooperative solve (.simple .gamma 1) g [2, 3]) (s : g.State) :
    ∃ s', testGammaKl (library search) g s = .ok s' := by
  have hi : Sound (.simple .gamma 1) := rfl
  obtain ⟨p, a, b, s', h1, -, -, -, h2⟩ := kl_prelude (info := .simple .gamma 1) hs hi trivial
    (C74_gamma_kl hs) (inferInstanceAs (Subsingleton (List ℕ → Unit))) hg hz hq hc s
  refine ⟨s', ?_⟩
  refine (bind_eq h1).trans ((check_bind ?_).trans ((check_bind ?_).trans ((bind_eq h2).trans ?_)))
  · rfl
  · rfl
  exact (bind_eq (m := Calc.run _) (gamma_kl_formula [2, 3] a b)).trans (check_bind rfl)

/-- Non-vacuity of C81: a generator that meets all conditions, and a minimizer that finds the parameters of gamma
distributions. -/
example : (∀ s, ∃ s', testNormalKl (library (searchFor exactMinimizer)) Samples.diagonal s = .ok s') ∧
    (∀ s, ∃ s', testMvnKl (library (searchFor exactMinimizer)) Samples.diagonal s = .ok s') ∧
    ∀ s, ∃ s', testGammaKl (library (searchFor exactMinimizer)) Samples.diagonal s = .ok s' :=
  ⟨C81_normal_kl (C51_search exactMinimizer_returns) Samples.diagonal_inRange Samples.diagonal_neverZero
      Samples.diagonal_generic,
    C81_mvn_kl (C51_search exactMinimizer_returns) Samples.diagonal_inRange Samples.diagonal_neverZero
      Samples.diagonal_generic,
    C81_gamma_kl (C51_search exactMinimizer_returns) Samples.diagonal_inRange Samples.diagonal_neverZero
      Samples.diagonal_generic (Samples.gamma_cooperative _)⟩

end Efax
