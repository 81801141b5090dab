import Verif.Model.Examples.MaximumLikelihood
import Verif.Props.Consistent
import Verif.Lemmas.Digamma

/-!
# The steps of `examples/maximum_likelihood_estimation.py`
-/

namespace Efax

open MeasureTheory ProbabilityTheory Spec Calc Set

variable [MachEps] {solve : Solver} {search : Cls → List Val → Except Err (List Val)}

/-- The statistics of an array of observations of one Dirichlet distribution. -/
theorem dirichlet_stat {d : ℕ} {rs : List ℕ} {x : List ℕ → Fin d → ℝ} {v : Val} (h : HoldsV rs x v) :
    Methods.dirichletNP.stat v [] = .ok (layV (d + 1) rs (fun _ => ()) fun i => (dirichlet d).stat (x i)) := by
  simp only [Methods.dirichletNP, show v.toR = _ from h]
  calc_simp
  vals_simp
  simp only [append_one]
  rfl

theorem dirichlet_statistics {d : ℕ} {rs : List ℕ} {x : List ℕ → Fin d → ℝ} {v : Val} (h : HoldsV rs x v) :
    ∃ est, createSimpleEstimator Cls.dirichletEP [] = .ok est ∧
      est.sufficientStatistics (library search).stat (.leaf v) =
        .ok (.mk .dirichletEP (layV (d + 1) rs (fun _ => ()) fun i => (dirichlet d).stat (x i)) .nil) := by
  have he : createSimpleEstimator Cls.dirichletEP [] = .ok ⟨[⟨[], .dirichletEP, 0, []⟩], []⟩ := rfl
  refine ⟨_, he, (C25_simple_estimator rfl he).2 ⟨[], .nil, ?_, rfl⟩⟩
  have hc : ClassTable.expCls Cls.dirichletNP = some .dirichletEP := rfl
  simp only [Library.stat, library, Cls.natMethods, hc, dirichlet_stat h]
  rfl

theorem dirichlet_mean (hs : solve.For search) {d n : ℕ} (hn : 0 < n) (f : List ℕ → Fin (d + 1) → ℝ) :
    ∃ χ : Fin (d + 1) → ℝ, paramMean (.mk Cls.dirichletEP (layV (d + 1) [n] (fun _ => ()) f) .nil) (some [0]) =
      .ok (.mk .dirichletEP (layV (d + 1) [] (fun _ => ()) fun _ => χ) .nil) := by
  obtain ⟨m, h1, s, b, h2, h3, h4, h5, -⟩ := Val.mean_first (v := .real (vectors [n] f)) (s := [d + 1]) (b := [n])
    rfl (by simpa using hn)
  obtain ⟨A, rfl⟩ : ∃ A, m = .real A := by
    simp only [Val.mean] at h1
    cases h : Arr.mean (fun x1 x2 => x1 * x2) (some (firstAxes [n].length)) (vectors [n] f) with
    | error e => rw [h] at h1; cases h1
    | ok A => rw [h] at h1; exact ⟨A, (Except.ok.inj h1).symm⟩
  have hA : A.rshape = [d + 1] := by
    have h6 : [d + 1, n] = s ++ b := h4
    obtain ⟨rfl, -⟩ := List.append_inj' (show [d + 1] ++ [n] = s ++ b from h6) (by simp [h2])
    exact h5
  have hv : A = vectors [] fun _ (k : Fin (d + 1)) => A.get [k.val] := by
    refine Arr.ext hA fun i hi => ?_
    rw [hA] at hi
    match i, hi with
    | [], hi => simp [inB] at hi
    | _ :: _ :: _, hi => simp [inB] at hi
    | [k], hi =>
      have hk : k < d + 1 := by simpa [inB] using hi
      exact (Efax.vectors_get [] [] rfl (fun _ (k : Fin (d + 1)) => A.get [k.val]) hk).symm
  have h1' : Val.mean (some [0]) (.real (vectors [n] f)) = .ok (.real A) := h1
  refine ⟨fun k => A.get [k.val], ?_⟩
  simp only [layV, ← hv]
  have hK : LibraryKind solve ((Simple.dirichlet d).kind solve) := .simple (.dirichlet d)
  have h := C51_library hs hK
  obtain ⟨l, hl⟩ := (library_indexed hs hK).infosE [n] (fun _ => ()) f []
  have hr : TreeRel (fun v m => v.mean (some [0]) = .ok m) (.mk Cls.dirichletEP [.real (vectors [n] f)] .nil)
      (.mk .dirichletEP [.real A] .nil) := ⟨rfl, .cons h1' .nil, trivial⟩
  have hw : WF (.mk Cls.dirichletEP [.real (vectors [n] f)] .nil) := h.wfE [n] (fun _ => ()) f
  exact hr.mean hw (hr.wf' hw) hl

end Efax
