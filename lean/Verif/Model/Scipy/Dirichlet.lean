import Verif.Model.Err
import Verif.Model.Primitives
import Mathlib.Analysis.SpecialFunctions.Gamma.Basic

/-!
# Replacements for `scipy.stats`: Dirichlet distributions

`efax/_src/scipy_replacement/dirichlet.py`, for one distribution: the arrays have the one axis that every
formula of the file runs along (`axis=-1`).
-/

namespace Efax.Scipy

open MeasureTheory

variable {k : ℕ}

/-- `scipy.special.beta`. -/
noncomputable def beta (a b : ℝ) : ℝ := Real.Gamma a * Real.Gamma b / Real.Gamma (a + b)

/-- `np.roll(x, -1, axis=-1)`, with the last entry set to zero (dirichlet.py 68-69). -/
def rollZero (x : Fin k → ℝ) (i : Fin k) : ℝ :=
  if i.val + 1 = k then 0 else x ⟨(i.val + 1) % k, Nat.mod_lt _ i.pos⟩

/-- `np.diff(x, append=1.0)` (dirichlet.py 70). -/
def diffAppend (x : Fin k → ℝ) (i : Fin k) : ℝ :=
  let appended : Fin (k + 1) → ℝ := Fin.snoc (α := fun _ => ℝ) x 1
  appended i.succ - appended i.castSucc

/-- `ScipyGeneralizedDirichlet.pdf` (dirichlet.py 67-73). -/
noncomputable def genDirichletPdf (alpha b x : Fin k → ℝ) : ℝ :=
  let alphaRoll := rollZero alpha
  let gamma : Fin k → ℝ := fun i => -diffAppend b i - alphaRoll i
  let csX : Fin k → ℝ := fun i => ∑ j ∈ Finset.Iic i, x j
  ∏ i, x i ^ (alpha i - 1) * (1 - csX i) ^ gamma i / beta (alpha i) (b i)

/-- The loop of `ScipyGeneralizedDirichlet.rvs` (dirichlet.py 82-85): the first entries of `beta_samples`
after as many iterations, and `q`. -/
def stickLoop : {k : ℕ} → (Fin k → ℝ) → (Fin k → ℝ) × ℝ
  | 0, samples => (samples, 0)
  | _ + 1, samples =>
    let before := stickLoop (Fin.init samples)
    let sample := samples (Fin.last _) * (1 - before.2)
    (Fin.snoc (α := fun _ => ℝ) before.1 sample, before.2 + sample)

/-- The law of one draw of `ScipyGeneralizedDirichlet.rvs` (dirichlet.py 75-86): independent beta
variables, then the loop. -/
noncomputable def genDirichletRvs (alpha b : Fin k → ℝ) : Measure (Fin k → ℝ) :=
  (Measure.pi fun i => randomBeta (alpha i) (b i)).map fun samples => (stickLoop samples).1

/-- `ScipyGeneralizedDirichlet.entropy` (dirichlet.py 88-89). -/
def genDirichletEntropy (_alpha _b : Fin k → ℝ) : Except Err ℝ := .error .runtimeError

open Classical in
/-- `ScipyDirichlet.pdf` at one point (dirichlet.py 52-57, 33-36), and the formula and the checks of
`scipy.stats.dirichlet` to which it leads.  `np.isclose` is equality. -/
noncomputable def dirichletPdf (alpha x : Fin k → ℝ) : Except Err ℝ :=
  if ∑ i, x i ≠ 1 then .error .valueError
  else if (∃ i, alpha i ≤ 0) ∨ ∃ i, x i < 0 then .error .valueError
  else
    let lnB := ∑ i, Real.log (Real.Gamma (alpha i)) - Real.log (Real.Gamma (∑ i, alpha i))
    .ok (Real.exp (-lnB + ∑ i, (alpha i - 1) * Real.log (x i)))

end Efax.Scipy
