import Verif.Model.Tests.Bodies5
import Verif.Props.TestMatch
import Verif.Props.EverySampler
import Verif.Props.SampleEstimate

/-!
# Lemmas: the samples of `tests/test_sampling.py`
-/

namespace Efax

open Spec Tests ClassTable Calc

variable [MachEps] {solve : Solver} {search : Cls → List Val → Except Err (List Val)} {Key : Type}
  {rng : Random Key} {e : ℝ} {key : Key} {ss : List ℕ}

/-! ### Clamping keeps the kind of array -/

omit [MachEps] in
theorem clamp_real {s : Support} {a : Arr ℝ} (h : a.rshape ≠ []) :
    ∃ b : Arr ℝ, s.clamp e (.real a) = .ok (.real b) ∧ b.rshape = a.rshape := by
  have key : ∀ r : Ring, ∃ b : Arr ℝ, (Except.ok (r.clamp e (.real a)) : Except Err Val) = .ok (.real b) ∧
      b.rshape = a.rshape := by
    intro r
    cases r <;> exact ⟨_, rfl, rfl⟩
  cases s with
  | simplex r =>
    obtain ⟨n, rs, hr⟩ := List.exists_cons_of_ne_nil h
    refine ⟨_, by simp only [Support.clamp, Support.simplexClamp, hr]; rfl, ?_⟩
    rw [hr]; rfl
  | _ => exact key _

omit [MachEps] in
theorem clamp_scalar_real {r : Ring} {a : Arr ℝ} :
    ∃ b : Arr ℝ, (Support.scalar r).clamp e (.real a) = .ok (.real b) ∧ b.rshape = a.rshape := by
  cases r <;> exact ⟨_, rfl, rfl⟩

omit [MachEps] in
theorem holdsR_real {rs : List ℕ} {a : Arr ℝ} (h : a.rshape = rs) : ∃ x, HoldsR rs x (.real a) :=
  ⟨a.get, congrArg ok (Arr.ext (by simpa [scalars, Arr.ofFn] using h) fun i hi => by
    subst h
    rw [scalars, Arr.ofFn_get hi])⟩

omit [MachEps] in
theorem holdsV_real {d : ℕ} {rs : List ℕ} {a : Arr ℝ} (h : a.rshape = d :: rs) :
    ∃ x : List ℕ → Fin d → ℝ, HoldsV rs x (.real a) :=
  ⟨fun i k => a.get (k.1 :: i), congrArg ok (Arr.ext (by simpa [vectors, Arr.ofFn] using h) fun i hi => by
    rw [h] at hi
    obtain ⟨k, i, rfl, hk, hi⟩ := inB_cons_elim hi
    exact (vectors_get rs i hi (fun i (k : Fin d) => a.get (k.1 :: i)) hk).symm)⟩

/-! ### Simple distributions -/

theorem clampedSample_of {c : Cls} {vals : List Val} {s : Support} {v w : Val} (h1 : Cls.isSamplable c = true)
    (h2 : Cls.sample search rng c vals key (some ss) = .ok v) (h3 : Cls.domainSupport c = some s)
    (h4 : s.clamp e v = .ok w) : clampedSample search rng e key ss (.mk c vals .nil) = .ok w := by
  have h2 : Dist.sample search rng (some ss) (.mk c vals .nil) key = .ok v := h2
  simp only [clampedSample, Dist.cls, check_ok h1, h2, h3, h4, Bind.bind, Except.bind]

section

variable {c : Cls} {vals : List Val} {rs' : List ℕ} (h1 : Cls.isSamplable c = true)

include h1

theorem sampled_outR {y : List ℕ → ℝ} {r : Ring}
    (h2 : Cls.sample search rng c vals key (some ss) = .ok (outR rs' y))
    (h3 : Cls.domainSupport c = some (.scalar r)) :
    ∃ x v, clampedSample search rng e key ss (.mk c vals .nil) = .ok v ∧ HoldsR rs' x v := by
  obtain ⟨b, h4, h5⟩ := clamp_scalar_real (e := e) (r := r) (a := scalars rs' y)
  obtain ⟨x, hx⟩ := holdsR_real h5
  exact ⟨x, _, clampedSample_of h1 h2 h3 h4, hx⟩

theorem sampled_outV {d : ℕ} {y : List ℕ → Fin d → ℝ} {s : Support}
    (h2 : Cls.sample search rng c vals key (some ss) = .ok (outV rs' y))
    (h3 : Cls.domainSupport c = some s) :
    ∃ (x : List ℕ → Fin d → ℝ) (v : Val), clampedSample search rng e key ss (.mk c vals .nil) = .ok v ∧
      HoldsV rs' x v := by
  obtain ⟨b, h4, h5⟩ := clamp_real (e := e) (s := s) (a := vectors rs' y) (by simp [vectors, Arr.ofFn])
  obtain ⟨x, hx⟩ := holdsV_real (d := d) (rs := rs') h5
  exact ⟨x, _, clampedSample_of h1 h2 h3 h4, hx⟩

theorem sampled_same {v : Val} {r : Ring} (hv : ∀ a, v ≠ .real a) {s : Support}
    (hs : s = .scalar r ∨ s = .vector r)
    (h2 : Cls.sample search rng c vals key (some ss) = .ok v) (h3 : Cls.domainSupport c = some s) :
    clampedSample search rng e key ss (.mk c vals .nil) = .ok v := by
  refine clampedSample_of h1 h2 h3 ?_
  rcases hs with rfl | rfl <;> cases v <;> cases r <;> first | rfl | exact absurd rfl (hv _)

theorem sampled_outB {y : List ℕ → Bool} {r : Ring}
    (h2 : Cls.sample search rng c vals key (some ss) = .ok (outB rs' y))
    (h3 : Cls.domainSupport c = some (.scalar r)) :
    ∃ (x : List ℕ → Bool) (v : Val), clampedSample search rng e key ss (.mk c vals .nil) = .ok v ∧
      HoldsR rs' (fun i => ofBool (x i)) v :=
  ⟨y, _, sampled_same h1 (by simp [outB]) (.inl rfl) h2 h3, holds_outB rs' y⟩

theorem sampled_outN {y : List ℕ → ℕ} {r : Ring}
    (h2 : Cls.sample search rng c vals key (some ss) = .ok (outN rs' y))
    (h3 : Cls.domainSupport c = some (.scalar r)) :
    ∃ (x : List ℕ → ℕ) (v : Val), clampedSample search rng e key ss (.mk c vals .nil) = .ok v ∧
      HoldsR rs' (fun i => (x i : ℝ)) v :=
  ⟨y, _, sampled_same h1 (by simp [outN]) (.inl rfl) h2 h3, holds_outN rs' y⟩

theorem sampled_outC {y : List ℕ → ℂ} {r : Ring}
    (h2 : Cls.sample search rng c vals key (some ss) = .ok (outC rs' y))
    (h3 : Cls.domainSupport c = some (.scalar r)) :
    ∃ (x : List ℕ → ℂ) (v : Val), clampedSample search rng e key ss (.mk c vals .nil) = .ok v ∧
      HoldsC rs' x v :=
  ⟨y, _, sampled_same h1 (by simp [outC]) (.inl rfl) h2 h3, rfl⟩

theorem sampled_outCV {d : ℕ} {y : List ℕ → Fin d → ℂ} {r : Ring}
    (h2 : Cls.sample search rng c vals key (some ss) = .ok (outCV rs' y))
    (h3 : Cls.domainSupport c = some (.vector r)) :
    ∃ (x : List ℕ → Fin d → ℂ) (v : Val), clampedSample search rng e key ss (.mk c vals .nil) = .ok v ∧
      HoldsCV rs' x v :=
  ⟨y, _, sampled_same h1 (by simp [outCV]) (.inr rfl) h2 h3, rfl⟩

end

/-- The sample of a batch of natural parameters of a simple family. -/
theorem sampled_nat (rs : List ℕ) (s : Simple) (p : List ℕ → (s.kind solve).P) (q : List ℕ → (s.kind solve).N)
    (h : Cls.isSamplable ((s.kind solve).nat rs p q).cls = true) :
    ∃ x v, clampedSample search rng e key ss ((s.kind solve).nat rs p q) = .ok v ∧
      (s.kind solve).obs (rs ++ ss) x (.leaf v) := by
  have wrap : ∀ {X : Type} {o : (List ℕ → X) → Val → Prop} {D : Dist Cls},
      (∃ x v, clampedSample search rng e key ss D = .ok v ∧ o x v) →
      ∃ x v, clampedSample search rng e key ss D = .ok v ∧ ∃ w, Tree.leaf v = .leaf w ∧ o x w :=
    fun ⟨x, v, h1, h2⟩ => ⟨x, v, h1, v, rfl, h2⟩
  cases s
  case bernoulli => exact wrap (sampled_outB h (C62_bernoulli rng key (some ss) rs p q fun _ _ => trivial) rfl)
  case beta => exact wrap (sampled_outR h (C62_beta rng key (some ss) rs p q fun _ _ => trivial) rfl)
  case chi => cases h
  case chiSquare => exact wrap (sampled_outR h (C62_chi_square rng key (some ss) rs p q fun _ _ => trivial) rfl)
  case cmvCircular d => exact wrap (sampled_outCV h (C62_cmv_circular d rng key (some ss) rs p q fun _ _ => trivial) rfl)
  case cmvUnit d => exact wrap (sampled_outCV h (C62_cmv_unit d rng key (some ss) rs p q fun _ _ => trivial) rfl)
  case complexNormal => exact wrap (sampled_outC h (C62_complex_normal rng key (some ss) rs p q fun _ _ => trivial) rfl)
  case complexUnit => exact wrap (sampled_outC h (C62_complex_unit rng key (some ss) rs p q fun _ _ => trivial) rfl)
  case dirichlet d => exact wrap (sampled_outV h (C62_dirichlet d rng key (some ss) rs p q fun _ _ => trivial) rfl)
  case exponential => exact wrap (sampled_outR h (C62_exponential rng key (some ss) rs p q fun _ _ => trivial) rfl)
  case gamma => exact wrap (sampled_outR h (C62_gamma rng key (some ss) rs p q fun _ _ => trivial) rfl)
  case genDirichlet d => cases h
  case geometric => exact wrap (sampled_outN h (C62_geometric rng key (some ss) rs p q fun _ _ => trivial) rfl)
  case logarithmic => cases h
  case multinomial d => exact wrap (sampled_outV h (C62_multinomial d rng key (some ss) rs p q fun _ _ => trivial) rfl)
  case mvNormal d => cases h
  case mvDiagonal d => exact wrap (sampled_outV h (C62_mv_diagonal d rng key (some ss) rs p q fun _ _ => trivial) rfl)
  case mvFixed d => exact wrap (sampled_outV h (C62_mv_fixed d rng key (some ss) rs p q fun _ _ => trivial) rfl)
  case mvIsotropic d => exact wrap (sampled_outV h (C62_mv_isotropic d rng key (some ss) rs p q fun _ _ => trivial) rfl)
  case mvUnit d => exact wrap (sampled_outV h (C62_mv_unit d rng key (some ss) rs p q fun _ _ => trivial) rfl)
  case negativeBinomial => exact wrap (sampled_outN h (C62_negative_binomial rng key (some ss) rs p q fun _ _ => trivial) rfl)
  case normal => exact wrap (sampled_outR h (C62_normal rng key (some ss) rs p q fun _ _ => trivial) rfl)
  case unitNormal => exact wrap (sampled_outR h (C62_unit_normal rng key (some ss) rs p q fun _ _ => trivial) rfl)
  case poisson => exact wrap (sampled_outN h (C62_poisson rng key (some ss) rs p q fun _ _ => trivial) rfl)
  case rayleigh => exact wrap (sampled_outR h (C62_rayleigh rng key (some ss) rs p q fun _ _ => trivial) rfl)
  case vonMisesFisher d => cases h
  case weibull => exact wrap (sampled_outR h (C62_weibull rng key (some ss) rs p q fun _ _ => trivial) rfl)

/-- The sample of a batch of expectation parameters of a simple family. -/
theorem sampled_exp (hs : solve.For search) (rs : List ℕ) (s : Simple) (p : List ℕ → (s.kind solve).P)
    (q : List ℕ → (s.kind solve).E) (hd : ∀ i, inB rs i = true → (s.kind solve).domE (p i) (q i))
    (h : Cls.isSamplable ((s.kind solve).exp rs p q).cls = true) :
    ∃ x v, clampedSample search rng e key ss ((s.kind solve).exp rs p q) = .ok v ∧
      (s.kind solve).obs (rs ++ ss) x (.leaf v) := by
  have wrap : ∀ {X : Type} {o : (List ℕ → X) → Val → Prop} {D : Dist Cls},
      (∃ x v, clampedSample search rng e key ss D = .ok v ∧ o x v) →
      ∃ x v, clampedSample search rng e key ss D = .ok v ∧ ∃ w, Tree.leaf v = .leaf w ∧ o x w :=
    fun ⟨x, v, h1, h2⟩ => ⟨x, v, h1, v, rfl, h2⟩
  cases s
  case bernoulli => exact wrap (sampled_outB h (C62_bernoulli_exp rng key (some ss) rs p q fun _ _ => trivial) rfl)
  case beta => exact wrap (sampled_outR h (C62_beta_exp hs rng key (some ss) rs p q hd) rfl)
  case chi => cases h
  case chiSquare => exact wrap (sampled_outR h (C62_chi_square_exp hs rng key (some ss) rs p q fun _ _ => trivial) rfl)
  case cmvCircular d => exact wrap (sampled_outCV h (C62_cmv_circular_exp d rng key (some ss) rs p q fun _ _ => trivial) rfl)
  case cmvUnit d => exact wrap (sampled_outCV h (C62_cmv_unit_exp d rng key (some ss) rs p q fun _ _ => trivial) rfl)
  case complexNormal => exact wrap (sampled_outC h (C62_complex_normal_exp rng key (some ss) rs p q fun _ _ => trivial) rfl)
  case complexUnit => exact wrap (sampled_outC h (C62_complex_unit_exp rng key (some ss) rs p q fun _ _ => trivial) rfl)
  case dirichlet d => exact wrap (sampled_outV h (C62_dirichlet_exp hs d rng key (some ss) rs p q hd) rfl)
  case exponential => exact wrap (sampled_outR h (C62_exponential_exp rng key (some ss) rs p q fun _ _ => trivial) rfl)
  case gamma => exact wrap (sampled_outR h (C62_gamma_exp hs rng key (some ss) rs p q hd) rfl)
  case genDirichlet d => cases h
  case geometric => exact wrap (sampled_outN h (C62_geometric_exp rng key (some ss) rs p q fun _ _ => trivial) rfl)
  case logarithmic => cases h
  case multinomial d => exact wrap (sampled_outV h (C62_multinomial_exp _ d rng key (some ss) rs p q fun _ _ => trivial) rfl)
  case mvNormal d => exact wrap (sampled_outV h (C62_mv_normal_exp d rng key (some ss) rs p q fun _ _ => trivial) rfl)
  case mvDiagonal d => exact wrap (sampled_outV h (C62_mv_diagonal_exp d rng key (some ss) rs p q fun _ _ => trivial) rfl)
  case mvFixed d => exact wrap (sampled_outV h (C62_mv_fixed_exp d rng key (some ss) rs p q fun _ _ => trivial) rfl)
  case mvIsotropic d => exact wrap (sampled_outV h (C62_mv_isotropic_exp d rng key (some ss) rs p q fun _ _ => trivial) rfl)
  case mvUnit d => exact wrap (sampled_outV h (C62_mv_unit_exp _ d rng key (some ss) rs p q fun _ _ => trivial) rfl)
  case negativeBinomial => exact wrap (sampled_outN h (C62_negative_binomial_exp rng key (some ss) rs p q fun _ _ => trivial) rfl)
  case normal => exact wrap (sampled_outR h (C62_normal_exp rng key (some ss) rs p q fun _ _ => trivial) rfl)
  case unitNormal => exact wrap (sampled_outR h (C62_unit_normal_exp _ rng key (some ss) rs p q fun _ _ => trivial) rfl)
  case poisson => exact wrap (sampled_outN h (C62_poisson_exp rng key (some ss) rs p q fun _ _ => trivial) rfl)
  case rayleigh => exact wrap (sampled_outR h (C62_rayleigh_exp rng key (some ss) rs p q fun _ _ => trivial) rfl)
  case vonMisesFisher d => cases h
  case weibull => exact wrap (sampled_outR h (C62_weibull_exp rng key (some ss) rs p q fun _ _ => trivial) rfl)

end Efax
