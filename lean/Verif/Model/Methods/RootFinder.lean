import Verif.Model.Methods.ExpToNat
import Verif.Model.Families.VonMises

/-!
# The default minimizers of the conversion by search
(`efax/_src/mixins/exp_to_nat/optimistix.py`, `exp_to_nat.py`)
-/

namespace Efax

open Calc Val

variable [MachEps]

open Classical in
/-- `search_gradient` (exp_to_nat.py 82-96) and its overrides in `GammaEP` (gamma.py 127-131) and
`VonMisesFisherEP` (von_mises.py 135-139), for an array of search vectors.  The method of
`LogarithmicEP` is the inherited one; it has its own line because `to_exp` may return infinity
(logarithmic.py 45-52), which the root finder accepts. -/
noncomputable def searchGradientVals : Cls → List Val → Arr ℝ → Calc EReal
  | .gammaEP, [mean, mean_log], s =>
    let shape := (at_ 0 (s : Calc ℝ)).map softplus
    let log_mean_minus_mean_log := log mean.toR - mean_log.toR
    (log_mean_minus_mean_log - log shape + shape.map digamma).newaxis.map fun r : ℝ => (r : EReal)
  | .vonMisesFisherEP, [mean], s =>
    let kappa := (s : Calc ℝ).map softplus
    let mu := norm mean.toR
    (bin vmfAK (dim mean.toR) kappa - mu).map fun r : ℝ => (r : EReal)
  | .logarithmicEP, [chi], s => do
    match ← searchToNaturalVals .logarithmicEP [chi] s with
    | [a] =>
      let q := a.toR
      let probability := exp q
      let quotient := probability / (q.map expm1 * (-probability).map log1p)
      let search_chi := whereE (· < logProbabilityFloor) q (const (1 : EReal))
        (whereE (· > logProbabilityCeiling) q (const (⊤ : EReal))
          (quotient.map fun r : ℝ => (r : EReal)))
      search_chi.newaxis - (chi.toR.map fun r : ℝ => (r : EReal)).newaxis
    | _ => fail .typeError
  | c, v, s => do
    let n ← searchToNaturalVals c v s
    match (Cls.natCls c).bind Cls.natMethods with
    | none => fail .typeError
    | some m =>
      let e ← m.toExp n
      let (_, self_flat) ← flatten (.mk c v .nil) false
      let (_, search_flat) ← flatten (.mk c e .nil) false
      ((search_flat : Calc ℝ) - (self_flat : Calc ℝ)).map fun r : ℝ => (r : EReal)

/-- `initial_search_parameters` (exp_to_nat.py 61-67) and its overrides in `GammaEP`
(gamma.py 135-142) and `VonMisesFisherEP` (von_mises.py 119-126). -/
noncomputable def initialSearchVals : Cls → List Val → Calc ℝ
  | .gammaEP, [mean, mean_log] =>
    let d := log mean.toR - mean_log.toR
    let initial_shape := (3 - d + (square (d - 3) + 24 * d).map Real.sqrt) / (12 * d)
    (finite (initial_shape.map fun r => (invSoftplus? r).map Real.toEReal)).newaxis
  | .vonMisesFisherEP, [mean] =>
    let mu := norm mean.toR
    let kappa := (mu * dim mean.toR - mu.map fun m => m ^ 3) / (1 - square mu)
    (finite (whereE (· = (1 : ℝ)) mu (const (some (⊤ : EReal)))
      (kappa.map fun r => (invSoftplus? r).map Real.toEReal))).newaxis
  | c, v => do
    let (_, flattened) ← flatten (.mk c v .nil) true
    ok (Arr.ofFn flattened.rshape fun _ => 0)

/-- `ExpToNat.__post_init__` (exp_to_nat.py 35-45): whether the bisection is chosen. -/
noncomputable def choosesBisection (c : Cls) (v : List Val) : Except Err Bool := do
  let initial ← initialSearchVals c v
  let n ← initial.lastDim
  .ok (decide (¬ n > 1))

open Classical in
/-- `OptimistixRootFinder.solve` with `send_lower_and_upper=True` (optimistix.py 25-49).
`find f lower upper` is `optx.root_find` with the bisection solver (57-61): an arbitrary function.
(The function is traced once, so it raises for all numbers or for none.) -/
noncomputable def bisectionSolve (find : (ℝ → EReal) → ℝ → ℝ → ℝ) (c : Cls) (v : List Val) :
    Except Err (Arr ℝ) := do
  let initial ← initialSearchVals c v
  if initial.rshape ≠ [1] then .error .assertionError else
  let x := initial.get [0]
  if ∀ y, ∃ r, searchGradientVals c v (Arr.ofFn [1] fun _ => y) = .ok r ∧ r.rshape = [1] then
    .ok (Arr.ofFn [1] fun _ => find (fun y =>
      match searchGradientVals c v (Arr.ofFn [1] fun _ => y) with
      | .ok r => r.get [0]
      | .error _ => 0) (x - 1) (x + 1))
  else .error .typeError

open Classical in
/-- `OptimistixRootFinder.solve` with `send_lower_and_upper=False` (optimistix.py 25-49).
`minimize f initial` is `optx.root_find` with the Adam minimiser (52-54): an arbitrary function. -/
noncomputable def adamSolve (minimize : (Arr ℝ → Calc EReal) → Arr ℝ → Arr ℝ) (c : Cls)
    (v : List Val) : Except Err (Arr ℝ) := do
  let initial ← initialSearchVals c v
  .ok (minimize (searchGradientVals c v) initial)

/-- `self.minimizer.solve` with the minimizer that `__post_init__` has chosen. -/
noncomputable def defaultSolve (minimize : (Arr ℝ → Calc EReal) → Arr ℝ → Arr ℝ)
    (find : (ℝ → EReal) → ℝ → ℝ → ℝ) (c : Cls) (v : List Val) : Except Err (Arr ℝ) := do
  if ← choosesBisection c v then bisectionSolve find c v else adamSolve minimize c v

end Efax
