import Verif.Model.Tools
import Verif.Model.Calc

/-!
# Replacements for `scipy.stats`: joint distributions

`efax/_src/scipy_replacement/joint.py` and `geometric.py`.
-/

namespace Efax.Scipy

variable {X S G : Type}

/-- The methods of a part of a joint distribution, on observations of any kind `X`; `S` is the type of the
argument `size`. -/
structure Part (X S G : Type) where
  rvs : S → G → Except Err (X × G)
  pdf : X → Except Err (Arr ℝ)
  entropy : Except Err (Arr ℝ)

/-- One term of the product of `ScipyJointDistribution.pdf` (joint.py 20):
`value['sub'].pdf(value['z'])`.  A missing key raises `KeyError`; the field `sub` always holds a part and
the field `z` an observation. -/
def jointTerm (value : Dict String (Part X S G ⊕ X)) : Except Err (Arr ℝ) := do
  match ← value.get "sub", ← value.get "z" with
  | .inl sub, .inr z => sub.pdf z
  | _, _ => .error .typeError

/-- `ScipyJointDistribution.pdf` (joint.py 18-20); `math.prod` starts with 1 and multiplies arrays with
broadcasting. -/
noncomputable def jointPdf (subs : Dict String (Part X S G)) (z : Dict String X) : Except Err (Arr ℝ) :=
  let joined := joinMappings [("sub", subs.map fun kv => (kv.1, (.inl kv.2 : Part X S G ⊕ X))),
    ("z", z.map fun kv => (kv.1, .inr kv.2))]
  (joined.values.foldl (fun (acc : Calc ℝ) value => let term : Calc ℝ := jointTerm value; acc * term) 1).run

/-- `ScipyJointDistribution.rvs` (joint.py 22-27): the parts draw in the order of the dictionary. -/
def jointRvs (size : S) : Dict String (Part X S G) → G → Except Err (Dict String X × G)
  | [], g => .ok ([], g)
  | (name, distribution) :: subs, g => do
    let (x, g) ← distribution.rvs size g
    let (xs, g) ← jointRvs size subs g
    .ok ((name, x) :: xs, g)

/-- `np.sum(arrays, axis=0)` for a list of arrays: they must have one shape, and the sum of no arrays is
zero. -/
noncomputable def sumStack : List (Arr ℝ) → Except Err (Arr ℝ)
  | [] => .ok (Arr.full [] 0)
  | a :: as =>
    if as.all fun b => b.rshape == a.rshape then
      .ok (Arr.ofFn a.rshape fun i => ((a :: as).map fun b => b.get i).sum)
    else .error .valueError

/-- `ScipyJointDistribution.entropy` (joint.py 29-32). -/
noncomputable def jointEntropy (subs : Dict String (Part X S G)) : Except Err (Arr ℝ) := do
  sumStack (← subs.values.mapM fun distribution => distribution.entropy)

/-- `ScipyGeometric.pmf` (geometric.py 18-19) for one distribution: `scipy.stats.geom` counts the trials up
to and including the first success, `(1 - p) ** (k - 1) * p` for `k >= 1`. -/
noncomputable def geometricPmf (p : ℝ) (z : ℤ) : ℝ := if 1 ≤ z then (1 - p) ^ (z - 1) * p else 0

end Efax.Scipy
