import Verif.Lemmas.Combine

/-!
# `parameter_map` of sums of expectation parameters
-/

namespace Efax

open Spec Calc ClassTable

variable [MachEps] {solve : Solver}

/-- The pairing with the third parameters is the sum of the pairing with the first and `t` times that with the second. -/
def PairsAdd {N E X : Type} (F : ExpFam N E X) (t : ℝ) (x y z : E) : Prop :=
  ∀ v, F.dot v z = F.dot v x + t * F.dot v y

theorem simple_averaged (s : Simple) (t : ℝ) (rs : List ℕ) (p p' : List ℕ → (s.kind solve).P)
    (a b : List ℕ → (s.kind solve).E) :
    ∃ (χ : List ℕ → (s.kind solve).E) (c : Cls) (vs ws us : List Val),
      (s.kind solve).exp rs p a = .mk c vs .nil ∧ (s.kind solve).exp rs p' b = .mk c ws .nil ∧
      (s.kind solve).exp rs p χ = .mk c us .nil ∧ Added t (fields c) vs ws us ∧
      ∀ i, PairsAdd ((s.kind solve).F (p i)) t (a i) (b i) (χ i) := by
  cases s
  case bernoulli | chi | chiSquare | exponential | geometric | logarithmic | unitNormal | poisson | rayleigh =>
    change List ℕ → ℝ at a b
    refine ⟨(fun i => (a i : ℝ) + t • (b i : ℝ) : List ℕ → ℝ), _, _, _, _, rfl, rfl, rfl,
      .var rfl (addScaled_scalars t rs _ _) .nil, fun i v => ?_⟩
    change ℝ at v
    show (v : ℝ) * ((a i : ℝ) + t * (b i : ℝ)) = (v : ℝ) * (a i : ℝ) + t * ((v : ℝ) * (b i : ℝ))
    ring
  case negativeBinomial =>
    change List ℕ → ℝ at a b
    refine ⟨(fun i => (a i : ℝ) + t • (b i : ℝ) : List ℕ → ℝ), _, _, _, _, rfl, rfl, rfl,
      .var rfl (addScaled_scalars t rs _ _) (.fixed rfl .nil), fun i v => ?_⟩
    change ℝ at v
    show (v : ℝ) * ((a i : ℝ) + t * (b i : ℝ)) = (v : ℝ) * (a i : ℝ) + t * ((v : ℝ) * (b i : ℝ))
    ring
  case weibull =>
    change List ℕ → ℝ at a b
    refine ⟨(fun i => (a i : ℝ) + t • (b i : ℝ) : List ℕ → ℝ), _, _, _, _, rfl, rfl, rfl,
      .fixed rfl (.var rfl (addScaled_scalars t rs _ _) .nil), fun i v => ?_⟩
    change ℝ at v
    show (v : ℝ) * ((a i : ℝ) + t * (b i : ℝ)) = (v : ℝ) * (a i : ℝ) + t * ((v : ℝ) * (b i : ℝ))
    ring
  case normal | gamma =>
    change List ℕ → ℝ × ℝ at a b
    refine ⟨(fun i => (a i : ℝ × ℝ) + t • (b i : ℝ × ℝ) : List ℕ → ℝ × ℝ), _, _, _, _, rfl, rfl, rfl,
      .var rfl (addScaled_scalars t rs _ _) (.var rfl (addScaled_scalars t rs _ _) .nil), fun i v => ?_⟩
    obtain ⟨v1, v2⟩ := v
    show v1 * ((a i).1 + t * (b i).1) + v2 * ((a i).2 + t * (b i).2) =
      v1 * (a i).1 + v2 * (a i).2 + t * (v1 * (b i).1 + v2 * (b i).2)
    ring
  case beta =>
    change List ℕ → Fin 2 → ℝ at a b
    refine ⟨(fun i => (a i : Fin 2 → ℝ) + t • (b i : Fin 2 → ℝ) : List ℕ → Fin 2 → ℝ), _, _, _, _, rfl, rfl, rfl,
      .var rfl (addScaled_vectors t rs _ _) .nil, fun i v => ?_⟩
    show ∑ k, v k * (a i k + t * b i k) = ∑ k, v k * a i k + t * ∑ k, v k * b i k
    rw [Finset.mul_sum, ← Finset.sum_add_distrib]
    exact Finset.sum_congr rfl fun k _ => by ring
  case dirichlet d | multinomial d =>
    change List ℕ → Fin (d + 1) → ℝ at a b
    refine ⟨(fun i => (a i : Fin (d + 1) → ℝ) + t • (b i : Fin (d + 1) → ℝ) : List ℕ → Fin (d + 1) → ℝ), _, _, _, _,
      rfl, rfl, rfl, .var rfl (addScaled_vectors t rs _ _) .nil, fun i v => ?_⟩
    show ∑ k, v k * (a i k + t * b i k) = ∑ k, v k * a i k + t * ∑ k, v k * b i k
    rw [Finset.mul_sum, ← Finset.sum_add_distrib]
    exact Finset.sum_congr rfl fun k _ => by ring
  case mvUnit d =>
    change List ℕ → Fin d → ℝ at a b
    refine ⟨(fun i => (a i : Fin d → ℝ) + t • (b i : Fin d → ℝ) : List ℕ → Fin d → ℝ), _, _, _, _, rfl, rfl, rfl,
      .var rfl (addScaled_vectors t rs _ _) .nil, fun i v => ?_⟩
    show ∑ k, v k * (a i k + t * b i k) = ∑ k, v k * a i k + t * ∑ k, v k * b i k
    rw [Finset.mul_sum, ← Finset.sum_add_distrib]
    exact Finset.sum_congr rfl fun k _ => by ring
  case vonMisesFisher d =>
    change List ℕ → EuclideanSpace ℝ (Fin d) at a b
    refine ⟨(fun i => (a i : EuclideanSpace ℝ (Fin d)) + t • (b i : EuclideanSpace ℝ (Fin d)) :
      List ℕ → EuclideanSpace ℝ (Fin d)), _, _, _, _, rfl, rfl, rfl,
      .var rfl (addScaled_vectors t rs _ _) .nil, fun i v => ?_⟩
    change EuclideanSpace ℝ (Fin d) at v
    show ∑ k, v k * (a i k + t * b i k) = ∑ k, v k * a i k + t * ∑ k, v k * b i k
    rw [Finset.mul_sum, ← Finset.sum_add_distrib]
    exact Finset.sum_congr rfl fun k _ => by ring
  case mvFixed d =>
    change List ℕ → Fin d → ℝ at a b
    refine ⟨(fun i => (a i : Fin d → ℝ) + t • (b i : Fin d → ℝ) : List ℕ → Fin d → ℝ), _, _, _, _, rfl, rfl, rfl,
      .var rfl (addScaled_vectors t rs _ _) (.fixed rfl .nil), fun i v => ?_⟩
    show ∑ k, v k * (a i k + t * b i k) = ∑ k, v k * a i k + t * ∑ k, v k * b i k
    rw [Finset.mul_sum, ← Finset.sum_add_distrib]
    exact Finset.sum_congr rfl fun k _ => by ring
  case genDirichlet d | mvDiagonal d =>
    change List ℕ → (Fin d → ℝ) × (Fin d → ℝ) at a b
    refine ⟨(fun i => (a i : (Fin d → ℝ) × (Fin d → ℝ)) + t • (b i : (Fin d → ℝ) × (Fin d → ℝ)) :
      List ℕ → (Fin d → ℝ) × (Fin d → ℝ)), _, _, _, _, rfl, rfl, rfl,
      .var rfl (addScaled_vectors t rs _ _) (.var rfl (addScaled_vectors t rs _ _) .nil), fun i v => ?_⟩
    obtain ⟨v1, v2⟩ := v
    show ∑ k, v1 k * ((a i).1 k + t * (b i).1 k) + ∑ k, v2 k * ((a i).2 k + t * (b i).2 k) =
      ∑ k, v1 k * (a i).1 k + ∑ k, v2 k * (a i).2 k + t * (∑ k, v1 k * (b i).1 k + ∑ k, v2 k * (b i).2 k)
    simp only [mul_add, Finset.mul_sum, Finset.sum_add_distrib, mul_left_comm]
    ring
  case mvIsotropic d =>
    change List ℕ → (Fin d → ℝ) × ℝ at a b
    refine ⟨(fun i => (a i : (Fin d → ℝ) × ℝ) + t • (b i : (Fin d → ℝ) × ℝ) : List ℕ → (Fin d → ℝ) × ℝ), _, _, _, _,
      rfl, rfl, rfl, .var rfl (addScaled_vectors t rs _ _) (.var rfl (addScaled_scalars t rs _ _) .nil),
      fun i v => ?_⟩
    obtain ⟨v1, v2⟩ := v
    show ∑ k, v1 k * ((a i).1 k + t * (b i).1 k) + v2 * ((a i).2 + t * (b i).2) =
      ∑ k, v1 k * (a i).1 k + v2 * (a i).2 + t * (∑ k, v1 k * (b i).1 k + v2 * (b i).2)
    simp only [mul_add, Finset.mul_sum, Finset.sum_add_distrib, mul_left_comm]
    ring
  case mvNormal d =>
    change List ℕ → (Fin d → ℝ) × Matrix (Fin d) (Fin d) ℝ at a b
    refine ⟨(fun i => (a i : (Fin d → ℝ) × Matrix (Fin d) (Fin d) ℝ) +
      t • (b i : (Fin d → ℝ) × Matrix (Fin d) (Fin d) ℝ) : List ℕ → (Fin d → ℝ) × Matrix (Fin d) (Fin d) ℝ),
      _, _, _, _, rfl, rfl, rfl,
      .var rfl (addScaled_vectors t rs _ _) (.var rfl (addScaled_matrices t rs _ _) .nil), fun i v => ?_⟩
    obtain ⟨v1, v2⟩ := v
    show ∑ k, v1 k * ((a i).1 k + t * (b i).1 k) + ∑ k, ∑ l, v2 k l * ((a i).2 k l + t * (b i).2 k l) =
      ∑ k, v1 k * (a i).1 k + ∑ k, ∑ l, v2 k l * (a i).2 k l +
        t * (∑ k, v1 k * (b i).1 k + ∑ k, ∑ l, v2 k l * (b i).2 k l)
    simp only [mul_add, Finset.mul_sum, Finset.sum_add_distrib, mul_left_comm]
    ring
  case complexUnit =>
    change List ℕ → ℂ at a b
    refine ⟨(fun i => (a i : ℂ) + t • (b i : ℂ) : List ℕ → ℂ), _, _, _, _, rfl, rfl, rfl,
      .var rfl (addScaled_complex t rs _ _) .nil, fun i v => ?_⟩
    change ℂ at v
    show ((v : ℂ) * ((a i : ℂ) + t • (b i : ℂ))).re = ((v : ℂ) * (a i : ℂ)).re + t * ((v : ℂ) * (b i : ℂ)).re
    rw [mul_add, mul_smul_comm, Complex.add_re, Complex.smul_re, smul_eq_mul]
  case complexNormal =>
    change List ℕ → ℂ × ℝ × ℂ at a b
    refine ⟨(fun i => (a i : ℂ × ℝ × ℂ) + t • (b i : ℂ × ℝ × ℂ) : List ℕ → ℂ × ℝ × ℂ), _, _, _, _, rfl, rfl, rfl,
      .var rfl (addScaled_complex t rs _ _) (.var rfl (addScaled_scalars t rs _ _)
        (.var rfl (addScaled_complex t rs _ _) .nil)), fun i v => ?_⟩
    obtain ⟨v1, v2, v3⟩ := v
    show (v1 * ((a i).1 + t • (b i).1)).re + v2 * ((a i).2.1 + t * (b i).2.1) + (v3 * ((a i).2.2 + t • (b i).2.2)).re =
      (v1 * (a i).1).re + v2 * (a i).2.1 + (v3 * (a i).2.2).re +
        t * ((v1 * (b i).1).re + v2 * (b i).2.1 + (v3 * (b i).2.2).re)
    rw [mul_add, mul_smul_comm, Complex.add_re, Complex.smul_re, smul_eq_mul, mul_add v3, mul_smul_comm,
      Complex.add_re, Complex.smul_re, smul_eq_mul]
    ring
  case cmvUnit d =>
    change List ℕ → Fin d → ℂ at a b
    refine ⟨(fun i => (a i : Fin d → ℂ) + t • (b i : Fin d → ℂ) : List ℕ → Fin d → ℂ), _, _, _, _, rfl, rfl, rfl,
      .var rfl (addScaled_complex_vectors t rs _ _) .nil, fun i v => ?_⟩
    show (∑ k, v k * (a i k + t • b i k)).re = (∑ k, v k * a i k).re + t * (∑ k, v k * b i k).re
    simp only [Complex.re_sum, mul_add, mul_smul_comm, Complex.add_re, Complex.smul_re, smul_eq_mul,
      Finset.sum_add_distrib, Finset.mul_sum]
  case cmvCircular d =>
    change List ℕ → Matrix (Fin d) (Fin d) ℂ at a b
    refine ⟨(fun i => (a i : Matrix (Fin d) (Fin d) ℂ) + t • (b i : Matrix (Fin d) (Fin d) ℂ) :
      List ℕ → Matrix (Fin d) (Fin d) ℂ), _, _, _, _, rfl, rfl, rfl,
      .var rfl (addScaled_complex_matrices t rs _ _) .nil, fun i v => ?_⟩
    show (∑ k, ∑ l, v k l * (a i k l + t • b i k l)).re =
      (∑ k, ∑ l, v k l * a i k l).re + t * (∑ k, ∑ l, v k l * b i k l).re
    simp only [Complex.re_sum, mul_add, mul_smul_comm, Complex.add_re, Complex.smul_re, smul_eq_mul,
      Finset.sum_add_distrib, Finset.mul_sum]

theorem library_averaged {K : Kind Cls} (hK : LibraryKind solve K) (t : ℝ) (rs : List ℕ)
    (p p' : List ℕ → K.P) (a b : List ℕ → K.E) : ∃ χ : List ℕ → K.E,
      TreeAdded t (K.exp rs p a) (K.exp rs p' b) (K.exp rs p χ) ∧ ∀ i, PairsAdd (K.F (p i)) t (a i) (b i) (χ i) := by
  induction hK with
  | simple s =>
    obtain ⟨χ, c, vs, ws, us, h1, h2, h3, h4, h5⟩ := simple_averaged s t rs p p' a b
    refine ⟨χ, ?_, h5⟩
    rw [h1, h2, h3]
    intro k f v h
    cases h with
    | here hf hv =>
      obtain ⟨w, r, e1, e2, e3, e4⟩ := h4.get hf hv
      exact ⟨w, r, .here hf e1, .here hf e2, e3, e4⟩
    | sub hm => cases hm
  | @joint l _ _ _ ih =>
    have key : ∃ χ : List ℕ → (Parts.ofList l).E, (∀ n d k f v, (n, d) ∈ ((Parts.ofList l).exp rs p a).toList →
        ParamAt d k f v →
        ∃ d' d'' w r, (n, d') ∈ ((Parts.ofList l).exp rs p' b).toList ∧
          (n, d'') ∈ ((Parts.ofList l).exp rs p χ).toList ∧
          ParamAt d' k f w ∧ ParamAt d'' k f r ∧ (f.fixed = true → r = v) ∧
          (f.fixed = false → addScaled t [v, w] = .ok r)) ∧
        ∀ i, PairsAdd ((Parts.ofList l).F (p i)) t (a i) (b i) (χ i) := by
      clear * - ih
      induction l with
      | nil => exact ⟨fun _ => (), fun n d k f v h => (by cases h), fun i v => (by ring : (0 : ℝ) = 0 + t * 0)⟩
      | cons nk l ih' =>
        obtain ⟨χ1, h1, h2⟩ := ih nk List.mem_cons_self (fun i => (p i).1) (fun i => (p' i).1)
          (fun i => (a i).1) (fun i => (b i).1)
        obtain ⟨χ2, h3, h4⟩ := ih' (fun s hs => ih s (List.mem_cons_of_mem _ hs))
            (fun i => (p i).2) (fun i => (p' i).2) (fun i => (a i).2) (fun i => (b i).2)
        refine ⟨fun i => (χ1 i, χ2 i), fun n d k f v h hp => ?_, fun i v => ?_⟩
        · rcases List.mem_cons.1 h with e | h
          · obtain ⟨rfl, rfl⟩ := Prod.mk.inj e
            obtain ⟨w, r, e1, e2, e3, e4⟩ := h1 k f v hp
            exact ⟨_, _, w, r, List.mem_cons_self, List.mem_cons_self, e1, e2, e3, e4⟩
          · obtain ⟨d', d'', w, r, m1, m2, e⟩ := h3 n d k f v h hp
            exact ⟨d', d'', w, r, List.mem_cons_of_mem _ m1, List.mem_cons_of_mem _ m2, e⟩
        · have e1 := h2 i v.1
          have e2 := h4 i v.2
          show (nk.2.F (p i).1).dot v.1 (χ1 i) + ((Parts.ofList l).F (p i).2).dot v.2 (χ2 i) =
            (nk.2.F (p i).1).dot v.1 (a i).1 + ((Parts.ofList l).F (p i).2).dot v.2 (a i).2 +
              t * ((nk.2.F (p i).1).dot v.1 (b i).1 + ((Parts.ofList l).F (p i).2).dot v.2 (b i).2)
          rw [e1, e2]
          ring
    obtain ⟨χ, k1, k2⟩ := key
    refine ⟨χ, fun k f v h => ?_, k2⟩
    cases h with
    | here hf => cases hf
    | sub hm hp =>
      obtain ⟨d', d'', w, r, m1, m2, e1, e2, e3⟩ := k1 _ _ _ _ _ hm hp
      exact ⟨w, r, .sub m1 e1, .sub m2 e2, e3⟩

end Efax
