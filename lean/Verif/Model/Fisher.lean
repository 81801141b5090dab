import Verif.Model.Methods.Tree
import Verif.Model.Structure
import Mathlib.Analysis.Calculus.Deriv.Basic

/-!
# The Fisher information (`efax/_src/natural_parametrization.py` 26-36, 111-154, 175-189)
-/

namespace Efax

open ClassTable Calc

variable {C : Type} [ClassTable C]

/-- `_flat_log_normalizer(flattened_parameters, flattener)` (natural_parametrization.py 175-181). -/
noncomputable def flatLogNormalizer (L : Library C) (fl : Flattener C) (y : Arr ℝ) :
    Except Err (Arr ℝ) := do
  let q ← fl.unflatten y
  q.logNormalizer L

/-- The number held by an array of shape `()`. -/
def scalarOf : Except Err (Arr ℝ) → ℝ
  | .ok a => a.get []
  | .error _ => 0

/-- The vector `y` with `t` added to entry `k`. -/
def Arr.nudge (y : Arr ℝ) (k : ℕ) (t : ℝ) : Arr ℝ :=
  Arr.ofFn y.rshape fun i => if i = [k] then y.get i + t else y.get i

/-- The vector of length `n` whose entry `k` is one and whose other entries are zero. -/
def Arr.basis (n k : ℕ) : Arr ℝ := Arr.ofFn [n] fun i => if i = [k] then 1 else 0

/-- Entry `k` of `grad(self._flat_log_normalizer)(y, fl)` (natural_parametrization.py 175-181, 186).

`log_normalizer` carries a custom rule of differentiation (`log_normalizer_jvp`, 26-36, 47): automatic
differentiation does not look into `log_normalizer`, but takes as derivative in the direction `q_dot`
the value of `parameter_dot_product(q_dot, self.to_exp())`.  (The joint distributions, which sum the
log-normalizers of their parts, inherit the rule.)  `unflatten` without the plane map is linear in `y`;
so the direction that belongs to entry `k` is the distribution unflattened from the basis vector, the
fixed parameters of which `parameter_dot_product` does not read.  `grad` raises `TypeError` if the value
is not a scalar. -/
noncomputable def flatGradient (L : Library C) (fl : Flattener C) (y : Arr ℝ) (n k : ℕ) :
    Except Err (Arr ℝ) := do
  let v ← flatLogNormalizer L fl y
  if v.rshape ≠ [] then .error .typeError else
  let q ← fl.unflatten y
  let qDot ← fl.unflatten (Arr.basis n k)
  paramDot qDot (← q.toExp L.toExp)

/-- `jacfwd(grad(self._flat_log_normalizer))(y, fl)` for a vector `y` (natural_parametrization.py 186):
row `i`, column `j` is the derivative with respect to entry `j` of entry `i` of the gradient.  The
gradient is that of the custom rule; the derivative of `to_exp`, which has no custom rule, is modelled
by the mathematical derivative. -/
noncomputable def flatHessian (L : Library C) (fl : Flattener C) (y : Arr ℝ) : Except Err (Arr ℝ) := do
  let n ← y.lastDim
  let _ ← (List.range n).mapM fun k => flatGradient L fl y n k
  .ok (Arr.ofFn [n, n] fun
    | [j, i] => deriv (fun t : ℝ => scalarOf (flatGradient L fl (y.nudge j t) n i)) 0
    | _ => 0)

open Classical in
/-- One `vmap` per axis of the batch (natural_parametrization.py 187-189) of a function that returns an
`n` by `n` matrix for the arguments at an index.  If the function raises for some index, or returns an
array of another shape, the result is an error. -/
noncomputable def vmapMatrix (n : ℕ) (rs : List ℕ) (f : List ℕ → Except Err (Arr ℝ)) :
    Except Err (Arr ℝ) :=
  if ∀ i, inB rs i = true → ∃ r, f i = .ok r ∧ r.rshape = [n, n] then
    .ok (Arr.ofFn (n :: n :: rs) fun
      | c :: r :: i => match f i with
        | .ok a => a.get [c, r]
        | .error _ => default
      | _ => default)
  else .error .nonFinite

/-- The flattener at an index of the batch: `vmap` maps over the arrays of its arguments, and those of
a flattener are its fixed parameters (structure.py 218-232). -/
def Flattener.at (fl : Flattener C) (i : List ℕ) : Except Err (Flattener C) := do
  let fixed ← fl.fixedParameters.mapM fun kv => do .ok (kv.1, ← kv.2.index i.reverse)
  .ok { fl with fixedParameters := fixed }

/-- `_fisher_information_matrix()` (natural_parametrization.py 183-189). -/
noncomputable def fisherMatrix (L : Library C) (p : Dist C) : Except Err (Arr ℝ) := do
  let (fl, y) ← flatten p false
  let n ← y.lastDim
  let rs ← p.shape L
  vmapMatrix n rs fun i => do
    flatHessian L (← fl.at i) (← y.index i.reverse)

/-- `jnp.diagonal(a)`: the diagonal of the first two axes, which becomes the last axis. -/
def Arr.diagonal (a : Arr ℝ) : Except Err (Arr ℝ) :=
  match a.rshape.reverse with
  | m :: n :: rest => .ok (Arr.ofFn (min m n :: rest.reverse) fun
      | k :: i => a.get (i ++ [k, k])
      | [] => default)
  | _ => .error .valueError

/-- `fisher_information_diagonal()` (natural_parametrization.py 111-123).  The flat vector of `self`, which
can contain NaN with the plane map, is discarded: only the flattener is used. -/
noncomputable def fisherDiagonal (L : Library C) (p : Dist C) : Except Err (Dist C) := do
  let (fl, _) ← flatten p false
  let m ← fisherMatrix L p
  Flattener.unflatten { fl with mappedToPlane := true } (← m.diagonal)

/-- `jnp.triu(a)`: the entries below the diagonal are replaced by zero. -/
def Arr.triuPart {α : Type} [Inhabited α] [Zero α] (a : Arr α) : Except Err (Arr α) :=
  match a.rshape with
  | _ :: _ :: _ => .ok (Arr.ofFn a.rshape fun
      | c :: r :: i => if r ≤ c then a.get (c :: r :: i) else 0
      | _ => default)
  | _ => .error .valueError

/-- The sum of the entries of one parameter (natural_parametrization.py 137-145); the parameters of
the classes have no Boolean and no integer arrays with axes. -/
def traceOf (s : Support) (v : Val) : Except Err Val :=
  match s.axes, v with
  | 0, v => .ok v
  | 1, .real a => Val.real <$> a.sumLast
  | 1, .complex a => Val.complex <$> a.sumLast
  | 2, .real a => do Val.real <$> (← (← a.triuPart).sumLast).sumLast
  | 2, .complex a => do Val.complex <$> (← (← a.triuPart).sumLast).sumLast
  | _, _ => .error .runtimeError

/-- `fisher_information_trace()` (natural_parametrization.py 125-148): the parameters of the diagonal,
including the fixed ones, are summed. -/
noncomputable def fisherTrace (L : Library C) (p : Dist C) : Except Err (Dist C) := do
  let d ← fisherDiagonal L p
  let infos ← infosOf p
  let final ← (parametersS d none).foldlM (fun acc kv => do
    .ok (Dict.set acc kv.1 (← traceOf kv.2.2 kv.2.1))) (parameters p none)
  assemble infos final

/-- `jeffreys_prior()` (natural_parametrization.py 151-154). -/
noncomputable def jeffreysPrior (L : Library C) (p : Dist C) : Calc ℝ :=
  (Calc.det (fisherMatrix L p : Calc ℝ)).map Real.sqrt

end Efax
