import Verif.Model.ExpFam
import Verif.Model.Special
import Mathlib.Order.Interval.Finset.Fin

/-!
# Dirichlet, beta and generalized Dirichlet families

One distribution (no batch axes), real arithmetic.
-/

namespace Efax

/-- `DirichletCommonNP.log_normalizer` (dirichlet_common.py 36-40). -/
noncomputable def dirichletLogNormalizer {n : ℕ} (q : Fin n → ℝ) : ℝ :=
  ∑ i, gammaln (q i + 1) - gammaln (∑ i, q i + n)

/-- `DirichletCommonNP._exp_helper` (dirichlet_common.py 52-54). -/
noncomputable def dirichletExpHelper {n : ℕ} (q : Fin n → ℝ) (i : Fin n) : ℝ :=
  digamma (q i + 1) - digamma (∑ j, q j + n)

/-- The Dirichlet family with `d + 1` shape parameters; an observation has `d` entries
(dirichlet.py 29-42). -/
noncomputable def dirichlet (d : ℕ) : ExpFam (Fin (d + 1) → ℝ) (Fin (d + 1) → ℝ) (Fin d → ℝ) where
  dot q p := ∑ i, q i * p i
  logNormalizer q := dirichletLogNormalizer q
  toExp q := dirichletExpHelper q
  stat x := Fin.snoc (α := fun _ => ℝ) (fun i => Real.log (x i)) (Real.log (1 - ∑ i, x i))
  carrier _ := 0

/-- `DirichletCommonEP.expected_carrier_measure` (dirichlet_common.py 73-75). -/
def dirichletEcm {n : ℕ} (_ : Fin n → ℝ) : ℝ := 0

/-- The beta family (beta.py 35-47); an observation is a number. -/
noncomputable def beta : ExpFam (Fin 2 → ℝ) (Fin 2 → ℝ) ℝ where
  dot q p := ∑ i, q i * p i
  logNormalizer q := dirichletLogNormalizer q
  toExp q := dirichletExpHelper q
  stat x := ![Real.log x, log1p (-x)]
  carrier _ := 0

/-- `jax.scipy.special.betaln`. -/
noncomputable def betaln (a b : ℝ) : ℝ := gammaln a + gammaln b - gammaln (a + b)

/-- `GeneralizedDirichletNP.alpha_beta` (gen_dirichlet.py 83-90).  `Fin.rev` is `[..., ::-1]`;
`jnp.cumulative_sum` is the sum over `Finset.Iic`, and with `include_initial=True` followed by
`[..., :-1]` the sum over `Finset.Iio`. -/
noncomputable def genDirichletAlphaBeta {k : ℕ} (q : (Fin k → ℝ) × (Fin k → ℝ)) :
    (Fin k → ℝ) × (Fin k → ℝ) :=
  let alpha : Fin k → ℝ := fun i => q.1 i + 1
  let csAlpha : Fin k → ℝ := fun i => ∑ j ∈ Finset.Iio i, alpha j.rev
  let csGamma : Fin k → ℝ := fun i => ∑ j ∈ Finset.Iic i, q.2 j.rev
  (alpha, fun i => csGamma i.rev + csAlpha i.rev + 1)

/-- `GeneralizedDirichletNP.to_exp` (gen_dirichlet.py 51-65). -/
noncomputable def genDirichletToExp {k : ℕ} (q : (Fin k → ℝ) × (Fin k → ℝ)) :
    (Fin k → ℝ) × (Fin k → ℝ) :=
  let alpha := (genDirichletAlphaBeta q).1
  let beta := (genDirichletAlphaBeta q).2
  let betaBar : Fin k → ℝ := fun i => digamma (beta i) - digamma (alpha i + beta i)
  (fun i => digamma (alpha i) - digamma (alpha i + beta i) + ∑ j ∈ Finset.Iio i, betaBar j,
    fun i => ∑ j ∈ Finset.Iic i, betaBar j)

/-- The generalized Dirichlet family (gen_dirichlet.py 46-77). -/
noncomputable def genDirichlet (k : ℕ) :
    ExpFam ((Fin k → ℝ) × (Fin k → ℝ)) ((Fin k → ℝ) × (Fin k → ℝ)) (Fin k → ℝ) where
  dot q p := ∑ i, q.1 i * p.1 i + ∑ i, q.2 i * p.2 i
  logNormalizer q :=
    ∑ i, betaln ((genDirichletAlphaBeta q).1 i) ((genDirichletAlphaBeta q).2 i)
  toExp q := genDirichletToExp q
  stat x := (fun i => Real.log (x i), fun i => log1p (-∑ j ∈ Finset.Iic i, x j))
  carrier _ := 0

/-- `GeneralizedDirichletEP.expected_carrier_measure` (gen_dirichlet.py 128-130). -/
def genDirichletEcm {k : ℕ} (_ : (Fin k → ℝ) × (Fin k → ℝ)) : ℝ := 0

/-- `GeneralizedDirichletEP.search_to_natural` (gen_dirichlet.py 120-126). -/
noncomputable def genDirichletSearchToNatural {k : ℕ} (s : Fin (k + k) → ℝ) :
    (Fin k → ℝ) × (Fin k → ℝ) :=
  (fun i => softplus (s (Fin.castAdd k i)) - 1, fun i => softplus (s (Fin.natAdd k i)))

end Efax
