import Verif.Model.Scipy.Dirichlet
import Verif.Model.Scipy.Arrays

/-!
# Replacements for `scipy.stats`: arrays of Dirichlet distributions

`efax/_src/scipy_replacement/dirichlet.py`.
-/

namespace Efax

/-- `np.prod(a, axis=-1)`. -/
noncomputable def Arr.prodLast (a : Arr ℝ) : Except Err (Arr ℝ) :=
  match a.rshape with
  | [] => .error .valueError
  | n :: rs => .ok (Arr.ofFn rs fun i => ∏ k ∈ Finset.range n, a.get (k :: i))

namespace Scipy

variable {G : Type}

/-- `scipy.stats.dirichlet(alpha).entropy()`, as SciPy computes it:
`lnB + (alpha0 - K) * psi(alpha0) - sum((alpha - 1) * psi(alpha))`. -/
noncomputable def dirichletEntropy {k : ℕ} (alpha : Fin k → ℝ) : ℝ :=
  let alpha0 := ∑ i, alpha i
  let lnB := ∑ i, Real.log (Real.Gamma (alpha i)) - Real.log (Real.Gamma alpha0)
  lnB + (alpha0 - k) * digamma alpha0 - ∑ i, (alpha i - 1) * digamma (alpha i)

/-- `ScipyDirichletFixRVsAndPDF` (dirichlet.py 18-36), with the draws of the library.  Observations with
more than two axes, of which SciPy takes the first for the coordinates, are not modelled (an error
here). -/
noncomputable def dirichletFrozen (n : ℕ) (alpha : Fin n → ℝ) (draw : List ℕ → G → Except Err (Arr ℝ × G)) :
    Frozen ℝ G where
  rvs := draw
  pdf x := match x.rshape with
    | [m] => if m = n then densities [] fun j => dirichletPdf alpha fun k => x.get (k.val :: j)
        else .error .valueError
    | [m, r] => if m = n then densities [r] fun j => dirichletPdf alpha fun k => x.get (k.val :: j)
        else .error .valueError
    | _ => .error .valueError
  entropy := .ok (Arr.full [] (dirichletEntropy alpha))

open Classical in
/-- `ScipyDirichlet.__init__` (dirichlet.py 41-49).  `alpha[..., -1]` raises when there are no components;
SciPy raises unless all of them are positive.  The check of the sums in `ScipyDirichlet.pdf` (52-57) is part
of `dirichletPdf`. -/
noncomputable def dirichletNew (alpha : Arr ℝ) (draw : List ℕ → List ℕ → G → Except Err (Arr ℝ × G)) :
    Except Err (Shaped (Frozen ℝ G)) := do
  let n ← alpha.lastDim
  if n = 0 then .error .indexError
  let shape := alpha.rshape.tail.reverse
  (ndindex shape).forM fun i =>
    if ∀ k < n, 0 < alpha.get (k :: i.reverse) then .ok () else .error .valueError
  .ok { shape := shape, rvsShape := [n],
        objects := fun i => dirichletFrozen n (fun k => alpha.get (k.val :: i.reverse)) (draw i) }

/-- `np.roll(alpha, -1, axis=-1)`, with the last entries set to zero (dirichlet.py 68-69). -/
noncomputable def rollZeroArr (alpha : Arr ℝ) : Except Err (Arr ℝ) :=
  match alpha.rshape with
  | [] | 0 :: _ => .error .indexError
  | (n + 1) :: rs => .ok (Arr.ofFn ((n + 1) :: rs) fun i =>
      if i.headD 0 = n then 0 else alpha.get ((i.headD 0 + 1) % (n + 1) :: i.tail))

/-- `np.diff(beta, append=1.0)` (dirichlet.py 70). -/
noncomputable def diffAppendArr (b : Arr ℝ) : Except Err (Arr ℝ) :=
  match b.rshape with
  | [] => .error .valueError
  | n :: rs => .ok (Arr.ofFn (n :: rs) fun i =>
      (if i.headD 0 + 1 < n then b.get ((i.headD 0 + 1) :: i.tail) else 1) - b.get i)

open Calc in
/-- `ScipyGeneralizedDirichlet.pdf` (dirichlet.py 67-73). -/
noncomputable def genDirichletArrPdf (alpha b x : Arr ℝ) : Except Err (Arr ℝ) :=
  let alphaRoll : Calc ℝ := rollZeroArr alpha
  let diff : Calc ℝ := diffAppendArr b
  let gamma := -diff - alphaRoll
  let csX := (ok x).cumsum
  let power := bin (fun u v : ℝ => u ^ v)
  let terms := power (ok x) (ok alpha - 1.0) * power (1.0 - csX) gamma / bin beta (ok alpha) (ok b)
  terms.run >>= Arr.prodLast

end Scipy

end Efax
