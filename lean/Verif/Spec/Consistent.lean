import Verif.Spec.SampleEstimate

/-!
# Specification: maximum likelihood estimates from many samples
-/

namespace Efax.Spec

open MeasureTheory Calc

variable [MachEps] {K : Type}

/-- Among all distributions of the kind, those with the natural parameters `a` make the observations `t`
most likely: for every entry of the batch `rs`, the sum of `log_pdf` over the axes `ss` of the observations
is larger for `a` than for all other parameters. -/
def MostLikely (L : Library Cls) (D : Kind Cls) (S : Setting D) (rs ss : List ℕ) (p : List ℕ → D.P)
    (t : Tree Val) (a : List ℕ → D.N) : Prop :=
  S.Inside rs p a ∧ ∃ l, (D.nat rs p a).logPdf L t = ok (scalars (rs ++ ss) l) ∧
    ∀ b, S.Inside rs p b → ∃ l', (D.nat rs p b).logPdf L t = ok (scalars (rs ++ ss) l') ∧
      ∀ i, inB rs i = true → b i ≠ a i → ∑ j ∈ box ss, l' (i ++ j) < ∑ j ∈ box ss, l (i ++ j)

/-- The samples determine the distributions: if enough of them are drawn, then with a probability near 1
there are natural parameters `a` that make the samples most likely, they are near those of the
distributions, in every coordinate `f`, and the recipe of `Estimates` finds them: its result has the same
components (dot products with directions `v`) as the expectation parameters of `a`. -/
def SamplesIdentify (L : Library Cls) (D : Kind Cls) (S : Setting D) {N : Type}
    (sample : Random K → Sampler K) (lay : Layout D.P N) (nat : D.P → N → D.N) (exp : D.P → N → D.E)
    (dom : D.P → N → Prop) : Prop :=
  ∀ (Ω : Type) (_ : MeasurableSpace Ω) (P : Measure Ω) (I : IdealRandom K P) (key : K)
    (rs : List ℕ) (p : List ℕ → D.P) (q : List ℕ → N), (∀ i, inB rs i = true → dom (p i) (q i)) →
    letI := S.grp
    letI := S.mod
    ∀ (f : D.N →ₗ[ℝ] ℝ) (ε δ : ℝ), 0 < ε → 0 < δ → ∃ n₀ : ℕ, ∀ ss : List ℕ, (∀ n ∈ ss, 0 < n) →
      n₀ ≤ ss.prod → ∃ x : Ω → Val,
        (∀ ω, sample (I.rng ω) (lay rs p q) key (some ss) = .ok (x ω)) ∧
        P {ω | ¬ ∃ a m, MostLikely L D S rs ss p (.leaf (x ω)) a ∧
          Estimates L (D.exp rs p fun i => exp (p i) (q i)) ss.length (.leaf (x ω)) m ∧
          (∀ v : List ℕ → D.N, (∀ i, inB rs i = true → v i ∈ S.dirs) →
            dotCalc (D.nat rs p v) m = dotCalc (D.nat rs p v) (D.exp rs p fun i => (D.F (p i)).toExp (a i))) ∧
          ∀ i, inB rs i = true → |f (a i) - f (nat (p i) (q i))| < ε} ≤ ENNReal.ofReal δ

end Efax.Spec
