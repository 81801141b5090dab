import Verif.Model.Methods.Table
import Verif.Model.Search

/-!
# Conversion from expectation to natural parameters by search, on batches
(`efax/_src/mixins/exp_to_nat/exp_to_nat.py`)
-/

namespace Efax

open Calc Val

/-- The row (last axis) of an array at a batch index. -/
def Arr.row {α : Type} [Inhabited α] (a : Arr α) (i : List ℕ) : Arr α :=
  Arr.ofFn (a.rshape.take 1) fun k => a.get (k ++ i)

open Classical in
/-- `vmap` over all axes but the last (exp_to_nat.py 56-58: one `vmap` per batch axis), of a function
that maps a row to an array of `m` numbers.  If the function raises for a row, or returns an array of
another shape, the result is an error. -/
noncomputable def vmapRows (m : ℕ) (f : Arr ℝ → Except Err (Arr ℝ)) (a : Arr ℝ) :
    Except Err (Arr ℝ) :=
  match a.rshape with
  | [] => .error .valueError
  | _ :: rs =>
    if ∀ i, inB rs i = true → ∃ r, f (a.row i) = .ok r ∧ r.rshape = [m] then
      .ok (Arr.ofFn (m :: rs) fun
        | k :: i => match f (a.row i) with
          | .ok r => r.get [k]
          | .error _ => default
        | [] => default)
    else .error .nonFinite

/-- The length of a search vector for flattened parameters of length `n`: `initial_search_parameters`
has shape `(*self.shape, n)` (exp_to_nat.py 61-67), and `(*self.shape, 1)` for `GammaEP`
(gamma.py 135-142) and `VonMisesFisherEP` (von_mises.py 119-126). -/
def searchLength : Cls → ℕ → ℕ
  | .gammaEP, _ | .vonMisesFisherEP, _ => 1
  | _, n => n

variable [MachEps]

/-- `search_to_natural` (exp_to_nat.py 69-80) and its overrides in `GammaEP` (gamma.py 121-125),
`GeneralizedDirichletEP` (gen_dirichlet.py 120-126) and `VonMisesFisherEP` (von_mises.py 128-133): the
natural parameters for an array of search vectors. -/
noncomputable def searchToNaturalVals : Cls → List Val → Arr ℝ → Except Err (List Val)
  | .gammaEP, [mean, _], s =>
    let shape := (at_ 0 (s : Calc ℝ)).map softplus
    let rate := shape / mean.toR
    vals [ofR (-rate), ofR (shape - 1)]
  | .genDirichletEP, [mean_log_probability, mlcp], s => do
    let n ← Cls.dimensions .genDirichletEP [mean_log_probability, mlcp]
    let positive := (s : Calc ℝ).map softplus
    vals [ofR (positive.take n - 1), ofR (positive.drop n)]
  | .vonMisesFisherEP, [mean], s =>
    let kappa := (s : Calc ℝ).map softplus
    let mu := (norm mean.toR).newaxis
    vals [ofR (mean.toR * (kappa / mu))]
  | c, v, s => do
    let n ← (Dist.mk c v .nil).searchToNatural s
    .ok n.vals

/-- `ExpToNat.to_nat` (exp_to_nat.py 46-59).  `minimizer c x` is `self.minimizer.solve(x)` for an
unbatched distribution of class `c` with the parameters `x`: an arbitrary function, since the root
finder is called with `throw=False` and returns whatever it has reached. -/
noncomputable def expToNat (minimizer : Cls → List Val → Arr ℝ) (c : Cls) (v : List Val) :
    Except Err (List Val) := do
  let (fl, y) ← flatten (.mk c v .nil) true
  let n ← y.lastDim
  let s ← vmapRows (searchLength c n) (fun row => do
    let x ← fl.unflatten row
    .ok (minimizer c x.vals)) y
  searchToNaturalVals c v s

/-- The conversion by search of every class that has one: that of `ChiEP` is the conversion of the
chi-square distribution with the same parameter (chi.py 91-97,
mixins/transformed_parametrization.py 82-89). -/
noncomputable def searchFor (minimizer : Cls → List Val → Arr ℝ) : Cls → List Val → Except Err (List Val)
  | .chiEP => expToNat minimizer .chiSquareEP
  | c => expToNat minimizer c

end Efax
