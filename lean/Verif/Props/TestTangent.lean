import Verif.Lemmas.Tangent
import Verif.Props.TestConversion
import Verif.Props.Analysis

/-!
# The test of the derivative of `log_normalizer` passes (C80)
-/

namespace Efax

open Spec Tests ClassTable Calc

variable [MachEps] {solve : Solver} {search : Cls → List Val → Except Err (List Val)} {g : Rng}

/-- The dot product of parameters does not depend on the fixed parameters. -/
theorem dot_fixed {K : Kind Cls} (hK : LibraryKind solve K) (p p' : K.P) (q : K.N) (χ : K.E) :
    (K.F p).dot q χ = (K.F p').dot q χ := by
  induction hK with
  | simple s => cases s <;> rfl
  | @joint l _ _ _ ih =>
    change ((Parts.ofList l).F p).dot q χ = ((Parts.ofList l).F p').dot q χ
    clear * - ih
    induction l with
    | nil => rfl
    | cons nk l ih' =>
      exact congrArg₂ (· + ·) (ih nk List.mem_cons_self p.1 p'.1 q.1 χ.1)
        (ih' (fun nk hm => ih nk (List.mem_cons_of_mem _ hm)) p.2 p'.2 q.2 χ.2)

/-- **C80.** With exact derivatives, `test_gradient_log_normalizer_jvp` passes: the custom rule for the
derivative of `log_normalizer` and the derivative agree on the tangent of ones. -/
theorem C80_jvp (hs : solve.For search) {info : TestInfo} (hi : Sound info) (hf : Shallow info)
    (hg : InRange g) (hz : NeverZero g) (hq : Generic g) (hc : Between solve info g []) (s : g.State) :
    ∃ s', testJvp (library search) info g s = .ok s' := by
  obtain ⟨p, q, s₁, h1, -⟩ := C76_test_parameters (solve := solve) hi hf hg hz hq [] s
  have hS := sound_library (solve := solve) info hi
  have hO := C51_library hs hS.kind
  obtain ⟨p₀, v, hv, ht, ha⟩ := unital_library hS
  have hbody : ∀ s, ∃ s', jvpBody (library search) info g s = .ok s' := by
    intro s
    obtain ⟨p, q, s', h1, h2⟩ := C76_test_parameters (solve := solve) hi hf hg hz hq [] s
    have hr := hc s s' p q h1 h2
    obtain ⟨l, hl, -⟩ := hO.infos [] p q []
    have h3 : unitTangent ((settingOf solve info).1.nat [] p q) = _ := unitTangent_eq (hO.wfN _ _ _) hl
    rw [ht] at h3
    have h4 := hO.toExp [] p q (regular_dom hS.kind hr)
    have h5 := hO.dotCalc [] (fun _ => p₀) p (fun _ => v) fun i =>
      ((settingOf solve info).1.F (p i)).toExp (q i)
    have h6 := ((library_lawful hS).gradient (h2 [] rfl).1 (h2 [] rfl).2 hv).deriv
    have h7 := fun t => hO.logNormalizer [] p fun i => (settingOf solve info).2.line (q i) v t
    have h8 := hO.logNormalizer [] p q
    have h9 : (fun t : ℝ => scalarOf (Dist.logNormalizer (library search) (along t
        ((settingOf solve info).1.nat [] p q) ((settingOf solve info).1.nat [] (fun _ => p₀) fun _ => v)))) =
        fun t => ((settingOf solve info).1.F (p [])).logNormalizer ((settingOf solve info).2.line (q []) v t) :=
      funext fun t => by rw [ha, h7]; rfl
    refine ⟨s', ?_⟩
    simp only [jvpBody, h1, h3, originalJvp, optimizedJvp, h8, h4, h5, h9, Bind.bind, Except.bind, Calc.run]
    have h10 : deriv (fun t => ((settingOf solve info).1.F (p [])).logNormalizer
        ((settingOf solve info).2.line (q []) v t)) 0 =
        scalarOf (ok (scalars [] fun i => ((settingOf solve info).1.F p₀).dot v
          (((settingOf solve info).1.F (p i)).toExp (q i)))) :=
      h6.trans (dot_fixed hS.kind _ _ _ _)
    simp only [ok, check_ok trivial] at h10 ⊢
    rw [check_ok h10]
  obtain ⟨s', h⟩ := times_ok hbody 20 s₁
  exact ⟨s', by simp only [testJvp, h1, Bind.bind, Except.bind, h]⟩

/-- **C80.** For descriptions of distributions that do not search there is no such condition. -/
theorem C80_jvp_closed (hs : solve.For search) {info : TestInfo} (hi : Sound info) (hf : Shallow info)
    (h : (settingOf solve info).2.closed) (hg : InRange g) (hz : NeverZero g) (hq : Generic g) (s : g.State) :
    ∃ s', testJvp (library search) info g s = .ok s' :=
  C80_jvp hs hi hf hg hz hq (fun s s' p q h1 h2 => (cooperative_closed hi h [] s s' p q h1 h2).1) s

/-- Non-vacuity of C80: a joint distribution that meets all conditions. -/
example : ∀ s, ∃ s', testJvp (library (searchFor zeroMinimizer)) Samples.plainInfo Samples.diagonal s = .ok s' :=
  C80_jvp_closed (C51_search zeroMinimizer_returns) Samples.plain_sound trivial Samples.plain_closed
    Samples.diagonal_inRange Samples.diagonal_neverZero Samples.diagonal_generic

end Efax
