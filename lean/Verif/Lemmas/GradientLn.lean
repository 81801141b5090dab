import Verif.Lemmas.AllDirections
import Verif.Model.Tests.Bodies3
import Verif.Props.TestTangent

/-! # The gradient of the log-normalizer with respect to every entry of the parameters -/

namespace Efax

open Spec Tests ClassTable Calc

variable [MachEps] {solve : Solver} {search : Cls → List Val → Except Err (List Val)}

theorem Spec.Setting.line_zero {K : Kind Cls} (S : Setting K) (e : K.N) : S.line S.zero e 1 = e := by
  letI := S.grp
  letI := S.mod
  have h : ∀ e : K.N, (0 : K.N) + (1 : ℝ) • e = e := by simp
  exact h e

theorem weigh_scalars {ct : Arr ℝ} {rs : List ℕ} (hc : ct.rshape = rs) (f : List ℕ → ℝ) :
    weigh ct (.ok (scalars rs f)) = sumBox rs fun i => ct.get i * f i := by
  subst hc
  refine sumBox_congr fun i hi => ?_
  have hi : inB ct.rshape i = true := hi
  change ct.get i * (Arr.ofFn ct.rshape f).get i = ct.get i * f i
  rw [Arr.ofFn_get hi]

/-- The cotangents without the custom rule. -/
theorem originalVjp_eq (hs : solve.For search) {K : Kind Cls} {S : Setting K} (hS : LibrarySetting solve K S)
    {rs : List ℕ} {p : List ℕ → K.P} {q : List ℕ → K.N} (hq : S.Inside rs p q) :
    ∃ pull, originalVjp (library search) (K.nat rs p q) =
      .ok (scalars rs fun i => (K.F (p i)).logNormalizer (q i), pull) ∧
      ∀ ct χ, ct.rshape = rs → (∀ i, inB rs i = true → ∀ e, (K.F (p i)).dot e (χ i) =
        ct.get i * (K.F (p i)).dot e ((K.F (p i)).toExp (q i))) →
      SameTree (K.nat rs p q) (pull ct) ∧ WF (pull ct) ∧ Twin (K.exp rs p χ) (pull ct) := by
  have hO := C51_library hs hS.kind
  refine ⟨_, by simp only [originalVjp, hO.logNormalizer, Calc.run, Bind.bind, Except.bind, Calc.ok]; rfl,
    fun ct χ hc hχ => ⟨(cotangent_same _ _ (hO.wfN _ _ _)).1, (cotangent_same _ _ (hO.wfN _ _ _)).2,
    (graded_library hS).grad rs p q _ _ fun path k j z i e hi he => ?_⟩⟩
  have h1 : ∀ t : ℝ, weigh ct (((K.nat rs p q).nudge k j (t * z) path).logNormalizer (library search)) =
      sumBox rs (fun j => if j = i then 0 else ct.get j * (K.F (p j)).logNormalizer (q j)) +
        ct.get i * (K.F (p i)).logNormalizer (S.line (q i) e t) := fun t => by
    rw [he t p q, hO.logNormalizer]
    exact (weigh_scalars hc _).trans
      (sumBox_update hi q (S.line (q i) e t) fun j x => ct.get j * (K.F (p j)).logNormalizer x)
  simp only [h1]
  rw [deriv_const_add, hχ i hi]
  exact ((allDirections_library hS (p i) (q i) e (hq i hi).1 (hq i hi).2).const_mul _).deriv

/-- The cotangents with the custom rule. -/
theorem optimizedVjp_eq (hs : solve.For search) {K : Kind Cls} {S : Setting K} (hS : LibrarySetting solve K S)
    {rs : List ℕ} {p : List ℕ → K.P} {q : List ℕ → K.N} (hr : ∀ i, inB rs i = true → K.dom (p i) (q i)) :
    ∃ pull, optimizedVjp (library search) (K.nat rs p q) =
      .ok (scalars rs fun i => (K.F (p i)).logNormalizer (q i), pull) ∧
      ∀ ct χ, ct.rshape = rs → (∀ i, inB rs i = true → ∀ e, (K.F (p i)).dot e (χ i) =
        ct.get i * (K.F (p i)).dot e ((K.F (p i)).toExp (q i))) →
      SameTree (K.nat rs p q) (pull ct) ∧ WF (pull ct) ∧ Twin (K.exp rs p χ) (pull ct) := by
  have hO := C51_library hs hS.kind
  have hG := graded_library hS
  have h1 := hO.toExp rs p q hr
  refine ⟨_, by simp only [optimizedVjp, hO.logNormalizer, h1, Calc.run, Bind.bind, Except.bind, Calc.ok]; rfl,
    fun ct χ hc hχ => ⟨(cotangent_same _ _ (hO.wfN _ _ _)).1, (cotangent_same _ _ (hO.wfN _ _ _)).2,
    hG.grad rs p q _ _ fun path k j z i e hi he => ?_⟩⟩
  obtain ⟨p', u, h2, h3⟩ := hG.zero rs p q
  have h4 := he 1 p' u
  rw [Complex.ofReal_one, one_mul] at h4
  rw [zeroTangent, h2, h4, hO.dotCalc]
  refine (weigh_scalars hc _).trans ?_
  have h5 : sumBox rs (fun j => ct.get j * (K.F (p' j)).dot (Function.update u i (S.line (u i) e 1) j)
      ((K.F (p j)).toExp (q j))) = _ := sumBox_update hi u (S.line (u i) e 1) fun j x => ct.get j *
        (K.F (p' j)).dot x ((K.F (p j)).toExp (q j))
  refine h5.trans ?_
  rw [h3 i hi, S.line_zero, dot_fixed hS.kind (p' i) (p i), hχ i hi]
  refine (congrArg (· + _) ?_).trans (zero_add _)
  refine (sumBox_congr fun j hj => ?_).trans (sumBox_zero rs)
  split_ifs with hji
  · rfl
  · rw [h3 j hj, hG.dot, mul_zero]

end Efax
