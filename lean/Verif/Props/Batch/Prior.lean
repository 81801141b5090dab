import Verif.Lemmas.Refines
import Verif.Props.Batch.Simplex
import Verif.Model.Families.Conjugate
import Verif.Model.Methods.Prior
import Verif.Spec.Prior

/-! # C64: conjugate priors of batches -/

namespace Efax

open Calc Spec Val

theorem Calc.ones_vectors {d : ℕ} (rs : List ℕ) (f : List ℕ → Fin d → ℝ) :
    Calc.ones 1 (ok (vectors rs f)) = ok (scalars rs fun _ => 1) := rfl

/-- **C64.** -/
theorem C64_bernoulli : RefinesPrior Methods.bernoulliPrior layS countS (layV 2)
    fun _ => bernoulliPrior := fun rs p χ n => by
  simp only [Methods.bernoulliPrior, layS, countS, toR_real]
  calc_simp
  have e : (fun i k => n i * (![χ i, 1 - χ i] : Fin 2 → ℝ) k) = fun i => bernoulliPrior (χ i) (n i) := by
    funext i k
    fin_cases k <;> rfl
  rw [e]
  rfl

/-- **C64.** -/
theorem C64_poisson : RefinesPrior Methods.poissonPrior layS countS laySS
    fun _ => poissonPrior := fun rs p χ n => by
  simp only [Methods.poissonPrior, layS, countS, toR_real]
  calc_simp
  rfl

/-- **C64.** -/
theorem C64_exponential : RefinesPrior Methods.exponentialPrior layS countS laySS
    fun _ => exponentialPrior := fun rs p χ n => by
  simp only [Methods.exponentialPrior, layS, countS, toR_real]
  calc_simp
  rfl

/-- **C64.** -/
theorem C64_multinomial (d : ℕ) : RefinesPrior Methods.multinomialPrior (layV (d + 1)) countS
    (layV (d + 2)) fun _ => multinomialPrior := fun rs p χ n => by
  simp only [Methods.multinomialPrior, layV, countS, toR_real]
  calc_simp
  simp only [append_one]
  rfl

/-- **C64.** -/
theorem C64_unit_normal : RefinesPrior Methods.unitNormalPrior layS countS laySS
    fun _ => unitNormalPrior := fun rs p χ n => by
  simp only [Methods.unitNormalPrior, layS, countS, toR_real]
  calc_simp
  rfl

/-- **C64.** -/
theorem C64_mv_unit (d : ℕ) : RefinesPrior Methods.mvUnitPrior (layV d) countS (layVS d)
    fun _ => mvUnitPrior := fun rs p χ n => by
  simp only [Methods.mvUnitPrior, layV, countS, toR_real, Calc.ones_vectors]
  calc_simp
  rfl

/-- **C64.** -/
theorem C64_mv_unit_general (d : ℕ) : RefinesPrior Methods.mvUnitGeneralPrior (layV d) countV (layVV d)
    fun _ => mvUnitGeneralPrior := fun rs p χ n => by
  simp only [Methods.mvUnitGeneralPrior, layV, countV, toR_real]
  calc_simp
  rfl

/-- **C64.** -/
theorem C64_mv_fixed (d : ℕ) : RefinesPrior Methods.mvFixedPrior (layVFixed d) countS (layVS d)
    mvFixedPrior := fun rs p χ n => by
  simp only [Methods.mvFixedPrior, layVFixed, countS, toR_real]
  calc_simp
  rfl

/-- **C64.** -/
theorem C64_mv_fixed_general (d : ℕ) : RefinesPrior Methods.mvFixedGeneralPrior (layVFixed d) countV
    (layVV d) mvFixedGeneralPrior := fun rs p χ n => by
  simp only [Methods.mvFixedGeneralPrior, layVFixed, countV, toR_real]
  calc_simp
  rfl

/-- **C64.** The prior observation is the expectation parameter, which is where the prior has an
observation. -/
theorem C64_observation {rs : List ℕ} :
    (∀ χ, ∃ v, Methods.priorObservation (layS rs (fun _ => ()) χ) = .ok v ∧ HoldsR rs χ v) ∧
    (∀ (d : ℕ) χ, ∃ v, Methods.priorObservation (layV d rs (fun _ => ()) χ) = .ok v ∧ HoldsV rs χ v) ∧
    ∀ (d : ℕ) p χ, ∃ v, Methods.priorObservation (layVFixed d rs p χ) = .ok v ∧ HoldsV rs χ v :=
  ⟨fun _ => ⟨_, rfl, rfl⟩, fun _ _ => ⟨_, rfl, rfl⟩, fun _ _ _ => ⟨_, rfl, rfl⟩⟩

/-! ### The generalized prior of the multinomial distribution -/

theorem Calc.bin_mismatch {m n : ℕ} (h : m ≠ n) (hm : m ≠ 1) (hn : n ≠ 1) (f : ℝ → ℝ → ℝ) (rs : List ℕ)
    (a : List ℕ → Fin m → ℝ) (b : List ℕ → Fin n → ℝ) :
    bin f (ok (vectors rs a)) (ok (vectors rs b)) = fail .valueError := by
  simp only [bin, bind_ok, vectors_rshape, bcast, bcast_self, Bind.bind, Except.bind, if_neg h, if_neg hm,
    if_neg hn]

/-- **C64.** With the documented shape of the counts, the generalized prior of a batch of multinomial
distributions with at least two parameters raises, whatever the batch shape. -/
theorem C64_multinomial_general_raises (d : ℕ) (rs : List ℕ) (χ n : List ℕ → Fin (d + 2) → ℝ) :
    Methods.multinomialGeneralPrior (layV (d + 2) rs (fun _ => ()) χ) (countV rs n) =
      .error .valueError := by
  simp only [Methods.multinomialGeneralPrior, layV, countV, toR_real]
  calc_simp
  rw [Calc.bin_mismatch (by omega) (by omega) (by omega)]
  rfl

theorem Calc.rollZero_vectors {d : ℕ} (rs : List ℕ) (a : List ℕ → Fin (d + 1) → ℝ) :
    rollZero (ok (vectors rs a)) =
      ok (vectors rs fun i (k : Fin (d + 1)) => if h : k.val + 1 < d + 1 then a i ⟨k.val + 1, h⟩ else 0) := by
  simp only [rollZero, bind_ok, vectors_rshape]
  refine ofFn_vectors fun k i hi => ?_
  change (if k.val + 1 < d + 1 then (vectors rs a).get ((k.val + 1) :: i) else 0) = _
  split_ifs with h
  · rw [vectors_get a h hi]
  · rfl

theorem Calc.diffAppend_vectors {d : ℕ} (c : ℝ) (rs : List ℕ) (a : List ℕ → Fin d → ℝ) :
    diffAppend c (ok (vectors rs a)) = ok (vectors rs fun i k =>
      (if h : k.val + 1 < d then a i ⟨k.val + 1, h⟩ else c) - a i k) := by
  simp only [diffAppend, bind_ok, vectors_rshape]
  refine ofFn_vectors fun k i hi => ?_
  change (if k.val + 1 < d then (vectors rs a).get ((k.val + 1) :: i) else c) -
    (vectors rs a).get (k.val :: i) = _
  rw [vectors_get a k.2 hi]
  split_ifs with h
  · rw [vectors_get a h hi]
  · rfl

/-- **C64.** With one parameter, it returns generalized Dirichlet distributions with one coordinate too
many. -/
theorem C64_multinomial_general_one (rs : List ℕ) (χ n : List ℕ → Fin 1 → ℝ) :
    Methods.multinomialGeneralPrior (layV 1 rs (fun _ => ()) χ) (countV rs n) =
      .ok (layVV 2 rs (fun _ => ()) fun i =>
        (![n i 0 * χ i 0 - 1, n i 0 * (1 - χ i 0) - 1],
          ![n i 0 * (1 - 2 * χ i 0) - n i 0 * (1 - χ i 0), n i 0 * χ i 0 - 1])) := by
  simp only [Methods.multinomialGeneralPrior, layV, countV, toR_real]
  calc_simp
  simp only [append_one, Calc.rollZero_vectors, Calc.diffAppend_vectors]
  calc_simp
  show Except.ok (layVV 2 rs (fun _ => ()) fun i => (_, _)) = _
  congr 2
  funext i
  refine Prod.ext (funext fun k => ?_) (funext fun k => ?_) <;> fin_cases k <;>
    simp [Fin.snoc] <;> ring

/-- Non-vacuity: the prior of a batch of three Poisson distributions. -/
example : Methods.poissonPrior (layS [3] (fun _ => ()) fun i => i.sum) (countS [3] fun _ => 2) =
    .ok (laySS [3] (fun _ => ()) fun i => (-2, 2 * i.sum)) := C64_poisson [3] (fun _ => ()) _ _

end Efax
