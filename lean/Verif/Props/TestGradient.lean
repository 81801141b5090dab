import Verif.Lemmas.GradientLn
import Verif.Props.Estimation

/-!
# The gradient of `log_normalizer` is the expectation parameters, entry by entry (C83)
-/

namespace Efax

open Spec Tests ClassTable Calc

variable [MachEps] {solve : Solver} {search : Cls → List Val → Except Err (List Val)} {g : Rng}

/-- The cotangent reinterpreted as expectation parameters has their variable parameters. -/
theorem twin_reinterpret {e G : Dist Cls} (he : WF e) (hG : WF G) {infos : List (Info Cls)}
    (hi : infos.map Info.strip = e.skel []) (h : Twin e G) :
    ∃ r, reinterpret infos G = .ok r ∧ parameters r (some false) = parameters e (some false) :=
  ⟨_, reinterpret_ok he hG hi h.parallel, by
    rw [parameters, h.withVals, parameters]⟩

/-- **C83.** The vector-Jacobian products of `log_normalizer` without and with the custom rule, at a cotangent `ct`:
the derivatives of `Σᵢ ctᵢ log_normalizerᵢ` with respect to every entry of every array of a distribution, also those that
leave the symmetric or Hermitian matrices.  They hold `ct` times the expectation parameters: reinterpreted by the
structure of `to_exp()`, they are the variable parameters of an object with `⟨v, χᵢ⟩ = ctᵢ ⟨v, to_exp(q)ᵢ⟩`. -/
theorem C83_cotangent (hs : solve.For search) {K : Kind Cls} {S : Setting K} (hS : LibrarySetting solve K S)
    {rs : List ℕ} {p : List ℕ → K.P} {q : List ℕ → K.N} (hq : S.Inside rs p q)
    (hr : EachLeaf RegularVals (K.nat rs p q)) :
    ∃ a pull pull' e infos, originalVjp (library search) (K.nat rs p q) = .ok (a, pull) ∧
      optimizedVjp (library search) (K.nat rs p q) = .ok (a, pull') ∧
      (K.nat rs p q).toExp (library search).toExp = .ok e ∧ infosOf e = .ok infos ∧
      ∀ ct : Arr ℝ, ct.rshape = rs → ∃ χ r r', (∀ i, inB rs i = true → ∀ v, (K.F (p i)).dot v (χ i) =
          ct.get i * (K.F (p i)).dot v ((K.F (p i)).toExp (q i))) ∧
        reinterpret infos (pull ct) = .ok r ∧
        parameters r (some false) = parameters (K.exp rs p χ) (some false) ∧
        reinterpret infos (pull' ct) = .ok r' ∧
        parameters r' (some false) = parameters (K.exp rs p χ) (some false) ∧
        parameters (pull ct) (some false) = parameters (pull' ct) (some false) := by
  have hO := C51_library hs hS.kind
  have hd := regular_dom hS.kind hr
  obtain ⟨pull, h1, h2⟩ := originalVjp_eq hs hS hq
  obtain ⟨pull', k1, k2⟩ := optimizedVjp_eq hs hS hd
  obtain ⟨infos, hi⟩ := (library_indexed hs hS.kind).infosE rs p (fun i => (K.F (p i)).toExp (q i)) []
  refine ⟨_, pull, pull', _, infos, h1, k1, hO.toExp rs p q hd, hi, fun ct hc => ?_⟩
  choose χ hχ using fun i => (graded_library hS).scale (ct.get i) ((K.F (p i)).toExp (q i))
  obtain ⟨e1, e2, e3⟩ := h2 ct χ hc fun i _ v => hχ i (p i) v
  obtain ⟨f1, f2, f3⟩ := k2 ct χ hc fun i _ v => hχ i (p i) v
  have hk : infos.map Info.strip = (K.exp rs p χ).skel [] :=
    (infosOf_skel hi).trans (Dist.skel_same ((library_collects (search := search) hS.kind).same rs p _ χ))
  obtain ⟨r, h5, h6⟩ := twin_reinterpret (hO.wfE _ _ _) e2 hk e3
  obtain ⟨r', k5, k6⟩ := twin_reinterpret (hO.wfE _ _ _) f2 hk f3
  refine ⟨χ, r, r', fun i _ v => hχ i (p i) v, h5, h6, k5, k6, ?_⟩
  rw [parameters, Twin.both [] (e1.symm.trans f1) e3 f3, parameters]

/-- **C83.** At the cotangent of ones, that of `grad`, they are the expectation parameters. -/
theorem C83_gradient (hs : solve.For search) {K : Kind Cls} {S : Setting K} (hS : LibrarySetting solve K S)
    {rs : List ℕ} {p : List ℕ → K.P} {q : List ℕ → K.N} (hq : S.Inside rs p q)
    (hr : EachLeaf RegularVals (K.nat rs p q)) :
    ∃ a pull pull' e infos r r', originalVjp (library search) (K.nat rs p q) = .ok (a, pull) ∧
      optimizedVjp (library search) (K.nat rs p q) = .ok (a, pull') ∧
      (K.nat rs p q).toExp (library search).toExp = .ok e ∧ infosOf e = .ok infos ∧
      reinterpret infos (pull (Arr.full rs 1)) = .ok r ∧ parameters r (some false) = parameters e (some false) ∧
      reinterpret infos (pull' (Arr.full rs 1)) = .ok r' ∧ parameters r' (some false) = parameters e (some false) ∧
      parameters (pull (Arr.full rs 1)) (some false) = parameters (pull' (Arr.full rs 1)) (some false) := by
  have hO := C51_library hs hS.kind
  have hd := regular_dom hS.kind hr
  have h0 : ∀ i, inB rs i = true → ∀ v, (K.F (p i)).dot v ((K.F (p i)).toExp (q i)) =
      (Arr.full rs (1 : ℝ)).get i * (K.F (p i)).dot v ((K.F (p i)).toExp (q i)) := fun i hi v =>
    ((congrArg (· * _) (Arr.ofFn_get hi)).trans (one_mul _)).symm
  obtain ⟨pull, h1, h2⟩ := originalVjp_eq hs hS hq
  obtain ⟨pull', k1, k2⟩ := optimizedVjp_eq hs hS hd
  obtain ⟨h2, h3, h4⟩ := h2 _ _ rfl h0
  obtain ⟨k2, k3, k4⟩ := k2 _ _ rfl h0
  obtain ⟨infos, hi⟩ := (library_indexed hs hS.kind).infosE rs p (fun i => (K.F (p i)).toExp (q i)) []
  obtain ⟨r, h5, h6⟩ := twin_reinterpret (hO.wfE _ _ _) h3 (infosOf_skel hi) h4
  obtain ⟨r', k5, k6⟩ := twin_reinterpret (hO.wfE _ _ _) k3 (infosOf_skel hi) k4
  refine ⟨_, pull, pull', _, infos, r, r', h1, k1, hO.toExp rs p q hd, hi, h5, h6, k5, k6, ?_⟩
  rw [parameters, Twin.both [] (h2.symm.trans k2) h4 k4, parameters]

/-- **C83.** The derivative with respect to one entry of the matrix of a multivariate normal distribution, without
its mirror image, is one entry of the second moment: not twice the entry, as for symmetric perturbations. -/
theorem C83_normal_entry {d : ℕ} {q : (Fin d → ℝ) × Matrix (Fin d) (Fin d) ℝ} (hq : q ∈ mvNormalDom d) (i j : Fin d) :
    HasDerivAt (fun t : ℝ => (mvNormal d).logNormalizer (q.1, q.2 + t • Matrix.single i j 1))
      (((mvNormal d).toExp q).2 i j) 0 := by
  have h := mvNormal_gradient_all (v := (0, Matrix.single i j 1)) hq
  have h1 : (mvNormal d).dot (0, Matrix.single i j 1) ((mvNormal d).toExp q) = ((mvNormal d).toExp q).2 i j := by
    simp [mvNormal, Matrix.single_apply, ite_and, -Matrix.sub_apply]
  rw [h1] at h
  exact h.congr_of_eventuallyEq (Filter.Eventually.of_forall fun t =>
    congrArg (mvNormal d).logNormalizer (Prod.ext (by simp) (by simp)))

example : ((0 : Fin 2 → ℝ), (-1 : Matrix (Fin 2) (Fin 2) ℝ)) ∈ mvNormalDom 2 := by
  simpa [mvNormalDom] using Matrix.PosDef.one

/-- **C83.** With exact arithmetic, `test_gradient_log_normalizer_primals` passes, for all random streams. -/
theorem C83_primals (hs : solve.For search) {info : TestInfo} (hi : Sound info) (hf : Shallow info)
    (hg : InRange g) (hz : NeverZero g) (hq : Generic g) (hc : Between solve info g []) (s : g.State) :
    ∃ s', testPrimals (library search) info g s = .ok s' := by
  obtain ⟨p, q, s₁, h1, -⟩ := C76_test_parameters (solve := solve) hi hf hg hz hq [] s
  have hS := sound_library (solve := solve) info hi
  have hbody : ∀ s, ∃ s', primalsBody (library search) info g s = .ok s' := by
    intro s
    obtain ⟨p, q, s', h1, h2⟩ := C76_test_parameters (solve := solve) hi hf hg hz hq [] s
    obtain ⟨a, pull, pull', e, infos, r, r', k1, k2, k3, k4, k5, k6, k7, k8, -⟩ :=
      C83_gradient hs hS h2 (hc s s' p q h1 h2)
    have ha : a.rshape = [] := by
      obtain ⟨_, h, -⟩ := originalVjp_eq hs hS h2
      cases Except.ok.inj (h.symm.trans k1)
      rfl
    refine ⟨s', ?_⟩
    simp only [primalsBody, h1, k1, k2, k3, k4, k5, k7, gradOf, ha, if_true, Bind.bind, Except.bind]
    rw [check_ok k6.symm]
    simp only [check_ok k8.symm]
  obtain ⟨s', h⟩ := times_ok hbody 20 s₁
  exact ⟨s', by simp only [testPrimals, h1, Bind.bind, Except.bind, h]⟩

/-- **C83.** With exact arithmetic, `test_gradient_log_normalizer_vjp` passes, for all random streams. -/
theorem C83_vjp (hs : solve.For search) {info : TestInfo} (hi : Sound info) (hf : Shallow info)
    (hg : InRange g) (hz : NeverZero g) (hq : Generic g) (hc : Between solve info g []) (s : g.State) :
    ∃ s', testVjp (library search) info g s = .ok s' := by
  obtain ⟨p, q, s₁, h1, -⟩ := C76_test_parameters (solve := solve) hi hf hg hz hq [] s
  have hS := sound_library (solve := solve) info hi
  have hO := C51_library hs hS.kind
  have hbody : ∀ s, ∃ s', vjpBody (library search) info g s = .ok s' := by
    intro s
    obtain ⟨p, q, s', h1, h2⟩ := C76_test_parameters (solve := solve) hi hf hg hz hq [] s
    obtain ⟨a, pull, pull', e, infos, r, r', k1, k2, -, -, -, -, -, -, k9⟩ :=
      C83_gradient hs hS h2 (hc s s' p q h1 h2)
    obtain ⟨_, h, -⟩ := originalVjp_eq hs hS h2
    cases Except.ok.inj (h.symm.trans k1)
    obtain ⟨l, hl, -⟩ := hO.infos [] p q []
    have h3 := unitTangent_eq (hO.wfN [] p q) hl
    have h8 := hO.logNormalizer [] p q
    refine ⟨s', ?_⟩
    simp only [vjpBody, h1, h3, k1, k2, originalJvp, h8, Bind.bind, Except.bind, Calc.run, Calc.ok]
    simp only [check_ok trivial, check_ok k9]
  obtain ⟨s', h⟩ := times_ok hbody 20 s₁
  exact ⟨s', by simp only [testVjp, h1, Bind.bind, Except.bind, h]⟩

/-- **C83.** For descriptions of distributions that do not search there is no condition on the search. -/
theorem C83_closed (hs : solve.For search) {info : TestInfo} (hi : Sound info) (hf : Shallow info)
    (h : (settingOf solve info).2.closed) (hg : InRange g) (hz : NeverZero g) (hq : Generic g) (s : g.State) :
    (∃ s', testPrimals (library search) info g s = .ok s') ∧ ∃ s', testVjp (library search) info g s = .ok s' :=
  have hc : Between solve info g [] := fun s s' p q h1 h2 => (cooperative_closed hi h [] s s' p q h1 h2).1
  ⟨C83_primals hs hi hf hg hz hq hc s, C83_vjp hs hi hf hg hz hq hc s⟩

/-- Non-vacuity of C83: a joint distribution that meets all conditions. -/
example : ∀ s, (∃ s', testPrimals (library (searchFor zeroMinimizer)) Samples.plainInfo Samples.diagonal s = .ok s') ∧
    ∃ s', testVjp (library (searchFor zeroMinimizer)) Samples.plainInfo Samples.diagonal s = .ok s' :=
  C83_closed (C51_search zeroMinimizer_returns) Samples.plain_sound trivial Samples.plain_closed
    Samples.diagonal_inRange Samples.diagonal_neverZero Samples.diagonal_generic

end Efax
