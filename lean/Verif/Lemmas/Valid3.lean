import Verif.Lemmas.Valid2

/-!
# Valid objects are well formed and definite
-/

namespace Efax

open Spec ClassTable

open scoped ComplexOrder

variable [MachEps] {solve : Solver} {rs : List ℕ}

theorem valid_wf_parts : (l : List (String × Σ K : Kind Cls, Setting K)) →
    (∀ s ∈ l, ∀ p q, WF (s.2.1.nat rs p q)) → ∀ p q,
      WFs ((Parts.ofList (partsOf l)).nat rs p q) ∧ ((Parts.ofList (partsOf l)).nat rs p q).names = l.map Prod.fst
  | [], _, _, _ => ⟨trivial, rfl⟩
  | s :: l, h, p, q =>
    have := valid_wf_parts l (fun t ht => h t (by simp [ht])) (fun i => (p i).2) (fun i => (q i).2)
    ⟨⟨h s (by simp) _ _, this.1⟩, congrArg (s.1 :: ·) this.2⟩

theorem nat_wf {K : Kind Cls} {S : Setting K} (hS : LibrarySetting solve K S) :
    ∀ p q, WF (K.nat rs p q) := by
  induction hS with
  | simple s =>
    intro p q
    cases s <;> exact ⟨rfl, by simp [Simple.kind, Kind.simple, isJoint, Cls.isJoint], List.nodup_nil, trivial⟩
  | joint h0 hn hS ih =>
    intro p q
    obtain ⟨h1, h2⟩ := valid_wf_parts _ ih p q
    refine ⟨rfl, ?_, by rw [h2]; exact hn, h1⟩
    refine ⟨fun _ h => ?_, fun _ => rfl⟩
    have h : (Parts.ofList (partsOf _)).nat rs p q = .nil := h
    rw [h] at h2
    exact h0 (List.map_eq_nil_iff.1 h2.symm)

theorem definite_parts : (l : List (String × Σ K : Kind Cls, Setting K)) →
    (∀ s ∈ l, ∀ p q, s.2.2.Inside rs p q → AllDefinite rs (s.2.1.nat rs p q)) → ∀ p q,
      (∀ i, inB rs i = true → (Settings.ofList l).ok (p i) ∧ q i ∈ (Settings.ofList l).dom (p i)) →
      AllDefinites rs ((Parts.ofList (partsOf l)).nat rs p q)
  | [], _, _, _, _ => trivial
  | s :: l, h, p, q, hi =>
    ⟨h s (by simp) (fun i => (p i).1) (fun i => (q i).1) (fun i h => ⟨(hi i h).1.1, (hi i h).2.1⟩),
      definite_parts l (fun t ht => h t (by simp [ht])) (fun i => (p i).2) (fun i => (q i).2)
        fun i h => ⟨(hi i h).1.2, (hi i h).2.2⟩⟩

theorem nat_definite {K : Kind Cls} {S : Setting K} (hS : LibrarySetting solve K S) :
    ∀ p q, S.Inside rs p q → AllDefinite rs (K.nat rs p q) := by
  induction hS with
  | simple s =>
    intro p q hi
    match s with
    | .vonMisesFisher n =>
      refine ⟨?_, trivial⟩
      intro i hi'
      have h0 := (hi i hi').2
      by_contra hc
      push Not at hc
      refine h0 ?_
      ext k
      exact (vectors_get rs i hi' (fun i => WithLp.ofLp (q i)) k.2).symm.trans (hc k.1 k.2)
    | .mvNormal n =>
      refine ⟨?_, trivial⟩
      intro i hi'
      have h2 : (Matrix.of fun (k c : Fin n) => (matrices rs fun i => (q i).2).get (c.1 :: k.1 :: i)) = (q i).2 := by
        ext k c
        exact matrices_get rs i hi' (fun i => (q i).2) k.2 c.2
      exact h2 ▸ (hi i hi').2
    | .cmvCircular n =>
      refine ⟨?_, trivial⟩
      intro i hi'
      have h2 : (Matrix.of fun (k c : Fin n) => (matrices rs q).get (c.1 :: k.1 :: i)) = q i := by
        ext k c
        exact matrices_get rs i hi' q k.2 c.2
      exact h2 ▸ (hi i hi').2
    | .bernoulli | .beta | .chi | .chiSquare | .cmvUnit _ | .complexNormal | .complexUnit | .dirichlet _
    | .exponential | .gamma | .genDirichlet _ | .geometric | .logarithmic | .multinomial _ | .mvDiagonal _
    | .mvFixed _ | .mvIsotropic _ | .mvUnit _ | .negativeBinomial | .normal | .unitNormal | .poisson
    | .rayleigh | .weibull => exact ⟨trivial, trivial⟩
  | joint h0 hn hS ih =>
    intro p q hi
    exact ⟨trivial, definite_parts _ ih p q hi⟩

end Efax
