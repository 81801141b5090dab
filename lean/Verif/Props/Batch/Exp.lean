import Verif.Props.Batch.Scalar
import Verif.Props.Batch.Positive
import Verif.Props.Batch.Normal
import Verif.Props.Batch.Simplex

/-! # C51: expectation classes without a closed form, variance parametrizations, probabilities -/

namespace Efax

open Calc Spec Val

/-! ### Closed forms without an expected carrier measure -/

theorem C51_poisson_exp (search : List Val → Except Err (List Val)) (rs : List ℕ) (p : List ℕ → Unit)
    (χ : List ℕ → ℝ) : Methods.poissonEP.shape (layS rs p χ) = .ok rs ∧
      Methods.poissonEP.toNat search (layS rs p χ) = .ok (layS rs p fun i => poissonToNat (χ i)) := by
  refine ⟨rfl, ?_⟩
  simp only [Methods.poissonEP, layS, toR_real]
  calc_simp
  rfl

theorem C51_negative_binomial_exp (search : List Val → Except Err (List Val)) (rs : List ℕ)
    (r : List ℕ → ℕ) (χ : List ℕ → ℝ) :
    Methods.negativeBinomialEP.shape (laySFixedInt rs r χ) = .ok rs ∧
      Methods.negativeBinomialEP.toNat search (laySFixedInt rs r χ) =
        .ok (laySFixedInt rs r fun i => negativeBinomialToNat (r i) (χ i)) := by
  refine ⟨rfl, ?_⟩
  simp only [Methods.negativeBinomialEP, Methods.nbLogNotP, laySFixedInt, toR_real, toR_int_scalars,
    Int.cast_natCast]
  calc_simp
  rfl

/-! ### The logarithmic class -/

theorem finite_scalars (rs : List ℕ) (f : List ℕ → Option EReal) (g : List ℕ → ℝ)
    (h : ∀ i, inB rs i = true → f i = some (g i : EReal)) :
    finite (ok (scalars rs f)) = ok (scalars rs g) := by
  have hg : ∀ i, inB rs i = true → (scalars rs f).get i = some (g i : EReal) := fun i hi => by
    rw [scalars, Arr.ofFn_get hi, h i hi]
  simp only [finite, bind_ok]
  rw [if_pos fun i hi => ⟨g i, hg i hi⟩]
  refine congrArg ok (Arr.ext rfl fun i hi => ?_)
  have hi : inB rs i = true := hi
  rw [Arr.map_get (show inB (scalars rs f).rshape i = true from hi), hg i hi, scalars, Arr.ofFn_get hi]
  simp

theorem C51_logarithmic : Refines Methods.logarithmicNP layS layS noFixed
    (fun rs (x : List ℕ → ℕ) => HoldsR rs fun i => (x i : ℝ) + 1) (fun _ => logarithmic)
    (fun _ q => logProbabilityFloor ≤ q ∧ q ≤ logProbabilityCeiling) where
  shape _ _ _ := rfl
  logNormalizer rs p q := by
    simp only [Methods.logarithmicNP, layS, toR_real]
    calc_simp
    rfl
  toExp rs p q hd := by
    simp only [Methods.logarithmicNP, layS, toR_real, whereE]
    calc_simp
    rw [finite_scalars rs _ (fun i => logarithmicQuotient (q i)) fun i hi => by
      simp [not_lt.2 (hd i hi).1, not_lt.2 (hd i hi).2, logarithmicQuotient]]
    rfl
  carrier rs p q x v h := by
    simp only [Methods.logarithmicNP, show v.toR = _ from h]
    calc_simp
    rfl
  stat rs p x v h := ⟨_, rfl, by simp only [List.map, toC_of_toR h]; rfl⟩

/-- `LogarithmicEP.to_nat` on a batch of means above one is the result of the search. -/
theorem C51_logarithmic_exp {search : List Val → Except Err (List Val)} {solve : ℝ → ℝ}
    {m : ℝ} (hm : 1 ≤ m) (hs : Solves search layS layS (fun _ => solve) fun _ χ => m < χ)
    (rs : List ℕ) (p : List ℕ → Unit) (χ : List ℕ → ℝ) (h : ∀ i, inB rs i = true → m < χ i) :
    Methods.logarithmicEP.shape (layS rs p χ) = .ok rs ∧
      Methods.logarithmicEP.toNat search (layS rs p χ) = .ok (layS rs p fun i => solve (χ i)) := by
  refine ⟨rfl, ?_⟩
  have hs := hs rs p χ h
  have h := fun i hi => hm.trans_lt (h i hi)
  simp only [Methods.logarithmicEP, layS, toR_real, whereE] at hs ⊢
  simp only [hs, Bind.bind, Except.bind, toR_real]
  calc_simp
  rw [finite_scalars rs _ (fun i => solve (χ i)) fun i hi => by
    simp [(h i hi).not_gt, (h i hi).ne']]
  rfl

/-! ### Conversion by search -/

theorem C51_gamma_exp : RefinesS Methods.gammaEP laySS laySS fun _ _ => gammaEcm where
  shape _ _ _ := rfl
  toNat _ _ _ h := h
  ecm _ _ _ rs p χ := by
    simp only [Methods.gammaEP, laySS, toR_real]
    calc_simp
    rfl

theorem C51_chi_square_exp :
    RefinesS Methods.chiSquareEP layS layS (fun solve p => chiSquareEcm (solve p)) True where
  shape _ _ _ := rfl
  toNat _ _ _ h := h
  ecm search solve h rs p χ := by
    have h := h trivial rs p χ fun _ _ => trivial
    simp only [Methods.chiSquareEP, layS, toR_real] at h ⊢
    simp only [h, toR_real]
    calc_simp
    rfl

theorem C51_chi_exp : RefinesS Methods.chiEP layS layS (fun solve p => chiEcm (solve p)) True where
  shape _ _ _ := rfl
  toNat _ _ _ h := h
  ecm search solve h rs p χ := by
    have h := h trivial rs p χ fun _ _ => trivial
    simp only [Methods.chiEP, Methods.chiSquareEP, layS, toR_real] at h ⊢
    simp only [h, toR_real]
    calc_simp
    rfl

theorem C51_dirichlet_exp (n : ℕ) :
    RefinesS Methods.dirichletEP (layV n) (layV n) fun _ _ => dirichletEcm where
  shape _ _ _ := rfl
  toNat _ _ _ h := h
  ecm _ _ _ rs p χ := by
    simp only [Methods.dirichletEP, layV, toR_real]
    calc_simp
    rfl

theorem C51_gen_dirichlet_exp (d : ℕ) :
    RefinesS Methods.genDirichletEP (layVV d) (layVV d) fun _ _ => genDirichletEcm where
  shape _ _ _ := rfl
  toNat _ _ _ h := h
  ecm _ _ _ rs p χ := by
    simp only [Methods.genDirichletEP, layVV, toR_real]
    calc_simp
    rfl

theorem C51_von_mises_exp (d : ℕ) :
    RefinesS Methods.vonMisesFisherEP (layE d) (layE d) fun _ _ => vonMisesFisherEcm where
  shape _ _ _ := rfl
  toNat _ _ _ h := h
  ecm _ _ _ rs p χ := by
    simp only [Methods.vonMisesFisherEP, layE, toR_real]
    calc_simp
    rfl

/-! ### Variance parametrizations -/

/-- `GammaNP.to_var` and `GammaVP.to_nat` on batches. -/
theorem C51_gamma_var (rs : List ℕ) (p : List ℕ → Unit) (q : List ℕ → ℝ × ℝ) :
    Methods.gammaToVar (laySS rs p q) = .ok (laySS rs p fun i => gammaToVar (q i)) ∧
      Methods.gammaVarToNat (laySS rs p q) = .ok (laySS rs p fun i => gammaVarToNat (q i)) := by
  constructor <;>
  · simp only [Methods.gammaToVar, Methods.gammaVarToNat, laySS, toR_real]
    calc_simp
    rfl

/-- The conversions to and from `NormalVP` on batches. -/
theorem C51_normal_var (rs : List ℕ) (p : List ℕ → Unit) (w : List ℕ → ℝ × ℝ) :
    Methods.normalVPShape (laySS rs p w) = .ok rs ∧
      Methods.normalToVar (laySS rs p w) = .ok (laySS rs p fun i => normalToVar (w i)) ∧
      Methods.normalVarToExp (laySS rs p w) = .ok (laySS rs p fun i => normalVarToExp (w i)) ∧
      Methods.normalVarToNat (laySS rs p w) = .ok (laySS rs p fun i => normalVarToNat (w i)) := by
  refine ⟨rfl, ?_, ?_, ?_⟩ <;>
  · simp only [Methods.normalToVar, Methods.normalVariance, Methods.normalVarToExp,
      Methods.normalVarToNat, laySS, toR_real]
    calc_simp
    rfl

/-- The conversions to and from `MultivariateDiagonalNormalVP` on batches. -/
theorem C51_mv_diagonal_var (d : ℕ) (rs : List ℕ) (p : List ℕ → Unit)
    (w : List ℕ → (Fin d → ℝ) × (Fin d → ℝ)) :
    Methods.diagonalVPShape (layVV d rs p w) = .ok rs ∧
      Methods.diagonalToVar (layVV d rs p w) = .ok (layVV d rs p fun i => mvDiagonalToVar (w i)) ∧
      Methods.diagonalVarToExp (layVV d rs p w) =
        .ok (layVV d rs p fun i => mvDiagonalVarToExp (w i)) ∧
      Methods.diagonalVarToNat (layVV d rs p w) =
        .ok (layVV d rs p fun i => mvDiagonalVarToNat (w i)) := by
  refine ⟨rfl, ?_, ?_, ?_⟩ <;>
  · simp only [Methods.diagonalToVar, Methods.diagonalVariance, Methods.diagonalVarToExp,
      Methods.diagonalVarToNat, layVV, toR_real]
    calc_simp
    rfl

/-- The conversions to and from `MultivariateNormalVP` on batches. -/
theorem C51_mv_normal_var (d : ℕ) (rs : List ℕ) (p : List ℕ → Unit)
    (w : List ℕ → (Fin d → ℝ) × Matrix (Fin d) (Fin d) ℝ) :
    Methods.mvVPShape (layVM d rs p w) = .ok rs ∧
      Methods.mvToVar (layVM d rs p w) = .ok (layVM d rs p fun i => mvNormalToVar (w i)) ∧
      Methods.mvVarToExp (layVM d rs p w) = .ok (layVM d rs p fun i => mvNormalVarToExp (w i)) := by
  refine ⟨rfl, ?_, ?_⟩ <;>
  · simp only [Methods.mvToVar, Methods.mvVariance, Methods.mvVarToExp, layVM, toR_real]
    calc_simp
    rfl

/-! ### Probabilities -/

/-- `BernoulliNP.nat_to_probability` and `nat_to_surprisal` on batches. -/
theorem C51_bernoulli_probability (rs : List ℕ) (q : List ℕ → ℝ) :
    Methods.bernoulliProbability (.real (scalars rs q)) =
      ok (vectors rs fun i => bernoulliProbability (q i)) ∧
    Methods.bernoulliSurprisal (.real (scalars rs q)) =
      ok (vectors rs fun i => bernoulliSurprisal (q i)) := by
  have h : Methods.bernoulliProbability (.real (scalars rs q)) =
      ok (vectors rs fun i => bernoulliProbability (q i)) := by
    simp only [Methods.bernoulliProbability, toR_real]
    calc_simp
    rfl
  refine ⟨h, ?_⟩
  simp only [Methods.bernoulliSurprisal, h]
  calc_simp
  rfl

/-- `MultinomialNP.nat_to_probability` and `nat_to_surprisal` on batches. -/
theorem C51_multinomial_probability (d : ℕ) (rs : List ℕ) (q : List ℕ → Fin (d + 1) → ℝ) :
    Methods.multinomialProbability (.real (vectors rs q)) =
      ok (vectors rs fun i => multinomialProbability (q i)) ∧
    Methods.multinomialSurprisal (.real (vectors rs q)) =
      ok (vectors rs fun i => multinomialSurprisal (q i)) := by
  have h : Methods.multinomialProbability (.real (vectors rs q)) =
      ok (vectors rs fun i => multinomialProbability (q i)) := by
    simp only [Methods.multinomialProbability, Methods.qMinusMaxQ, Methods.logScaledA, Methods.maxQ,
      toR_real]
    calc_simp
    simp only [append_one]
    rfl
  refine ⟨h, ?_⟩
  simp only [Methods.multinomialSurprisal, h]
  calc_simp
  rfl

end Efax
