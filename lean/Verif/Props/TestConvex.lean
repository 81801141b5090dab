import Verif.Props.TestConversion
import Verif.Props.FisherJoint
import Mathlib.Analysis.Matrix.Spectrum
import Mathlib.LinearAlgebra.Matrix.Charpoly.Eigs

/-!
# The test of the convexity of the Fisher information passes (C80)
-/

namespace Efax

open Spec Tests ClassTable Calc

variable [MachEps] {solve : Solver} {search : Cls → List Val → Except Err (List Val)} {g : Rng}

omit [MachEps] in
/-- The complex eigenvalues of a positive definite real matrix are positive. -/
theorem posDef_spectrum {n : ℕ} {M : Matrix (Fin n) (Fin n) ℝ} (h : M.PosDef) {z : ℂ}
    (hz : z ∈ spectrum ℂ (M.map fun x : ℝ => (x : ℂ))) : 0 < z.re := by
  rw [Matrix.mem_spectrum_iff_isRoot_charpoly] at hz
  have e : (M.map fun x : ℝ => (x : ℂ)).charpoly = M.charpoly.map Complex.ofRealHom :=
    (Matrix.charpoly_map M Complex.ofRealHom)
  rw [e, h.isHermitian.charpoly_eq, Polynomial.map_prod, Polynomial.IsRoot, Polynomial.eval_prod,
    Finset.prod_eq_zero_iff] at hz
  obtain ⟨i, _, hi⟩ := hz
  have : z = (h.isHermitian.eigenvalues i : ℂ) := by
    simpa [sub_eq_zero] using hi
  rw [this]
  exact h.eigenvalues_pos i

mutual
/-- `to_exp()` is exact near all parameters, except those of the logarithmic distribution. -/
theorem exactNear : (info : TestInfo) → Everywhere (· ≠ .logarithmic) info → ∀ p q,
    (settingOf solve info).2.ExactNear p q
  | .simple s n, h, p, q => by
    refine C77_exact_near.1 (familyOf s n) ?_ p q
    cases s <;> first | exact absurd rfl h | simp [familyOf]
  | .joint infos, h, p, q => exactNears infos h p q
theorem exactNears : (infos : TestInfos) → Everywheres (· ≠ .logarithmic) infos → ∀ p q,
    (Setting.joint Cls.jointN Cls.jointE (Settings.ofList (settingsOf solve infos))).ExactNear p q
  | .nil, _, p, q => (C77_exact_near (solve := solve)).2.2.2.1 p q
  | .cons name info rest, h, p, q => ((C77_exact_near (solve := solve)).2.2.2.2 name _ _ _ p.1 q.1 p.2 q.2).2
      ⟨exactNear info h.1 p.1 q.1, exactNears rest h.2 p.2 q.2⟩
end

/-- **C80.** `test_fisher_information_is_convex` passes if `to_exp()` is exact near the parameters. -/
theorem C80_convex (hs : solve.For search) {info : TestInfo} (hi : Sound info) (hf : Shallow info) (hg : InRange g)
    (hz : NeverZero g) (hq : Generic g) (s : g.State)
    (hx : ∀ s' p q, info.natParameters g [2, 3] s = .ok ((settingOf solve info).1.nat [2, 3] p q, s') →
      (settingOf solve info).2.Inside [2, 3] p q → (settingOf solve info).2.InsideNear [2, 3] p q) :
    ∃ s', testConvex (library search) info g s = .ok s' := by
  obtain ⟨p, q, s', h1, h2⟩ := C76_test_parameters (solve := solve) hi hf hg hz hq [2, 3] s
  obtain ⟨n, u, _, h3⟩ := C77_fisher hs (sound_library (solve := solve) info hi)
  obtain ⟨M, h4, _, h5⟩ := h3 [2, 3] p q (hx s' p q h1 h2)
  refine ⟨s', ?_⟩
  have h6 : (det (ok (matrices [2, 3] M))).run = .ok (scalars [2, 3] fun i => (M i).det) :=
    det_matrices [2, 3] M
  simp only [testConvex, h1, h4, h6, Bind.bind, Except.bind]
  rw [check_ok, check_ok, check_ok]
  · intro i hi
    have hi : inB [2, 3] i = true := hi
    rw [show (scalars [2, 3] fun i => (M i).det).get i = (M i).det from Arr.ofFn_get hi]
    exact (h5 i hi).1.det_pos.le
  · rfl
  · refine ⟨n, rfl, fun i hi z hz => .inl (posDef_spectrum (h5 i hi).1 ?_)⟩
    have e : (Matrix.of fun r c : Fin n => ((matrices [2, 3] M).get (c.1 :: r.1 :: i) : ℂ)) =
        (M i).map fun x : ℝ => (x : ℂ) := by
      ext r c
      simp only [Matrix.of_apply, Matrix.map_apply]
      rw [Calc.matrices_get M r c hi]
    rwa [← e]

/-- **C80.** For descriptions without logarithmic distributions there is no such condition. -/
theorem C80_convex_exact (hs : solve.For search) {info : TestInfo} (hi : Sound info) (hf : Shallow info)
    (hl : Everywhere (· ≠ .logarithmic) info) (hg : InRange g) (hz : NeverZero g) (hq : Generic g) (s : g.State) :
    ∃ s', testConvex (library search) info g s = .ok s' :=
  C80_convex hs hi hf hg hz hq s fun _ p q _ h i hi => ⟨(h i hi).1, (h i hi).2, exactNear info hl _ _⟩

/-- Non-vacuity of C80: a joint distribution that has to be searched, with Hermitian matrices. -/
example : ∃ g : Rng, InRange g ∧ NeverZero g ∧ Generic g ∧ ∃ info : TestInfo, Sound info ∧ Shallow info ∧
    ∀ s, ∃ s', testConvex (library (searchFor zeroMinimizer)) info g s = .ok s' := by
  have h0 : Sound (.joint (.cons "m" (.simple .cmvCircular 3) (.cons "v" (.simple .vonMisesFisher 4)
      (.cons "w" (.simple .weibull 1) .nil)))) :=
    ⟨⟨_, _, _, rfl⟩, by decide, show 1 ≤ 3 by norm_num, show 2 ≤ 4 by norm_num, rfl, trivial⟩
  have h1 : Everywhere (· ≠ .logarithmic) (.joint (.cons "m" (.simple .cmvCircular 3)
      (.cons "v" (.simple .vonMisesFisher 4) (.cons "w" (.simple .weibull 1) .nil)))) :=
    ⟨SimpleInfo.noConfusion, SimpleInfo.noConfusion, SimpleInfo.noConfusion, trivial⟩
  exact ⟨_, Samples.diagonal_inRange, Samples.diagonal_neverZero, Samples.diagonal_generic, _, h0, trivial,
    C80_convex_exact (C51_search zeroMinimizer_returns) h0 trivial h1 Samples.diagonal_inRange
      Samples.diagonal_neverZero Samples.diagonal_generic⟩

end Efax
