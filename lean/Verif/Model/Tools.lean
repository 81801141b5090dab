import Verif.Model.Structure

/-!
# Operations on all parameters of a distribution (`efax/_src/tools.py`)
-/

namespace Efax

open ClassTable

variable {C : Type} [ClassTable C]

/-- Promotion to a complex array, as in arithmetic between arrays of different dtypes. -/
noncomputable def Val.toC : Val → Arr ℂ
  | .real a => a.map fun x : ℝ => (x : ℂ)
  | .complex a => a
  | .bool a => a.map fun b => if b then 1 else 0
  | .int a => a.map fun z : ℤ => (z : ℂ)

/-- `_parameter_dot_product(x, y, n_axes)` (tools.py 83-86): the product, with broadcasting, summed over the
last axes. -/
noncomputable def dotField (x y : Val) (nAxes : ℕ) : Except Err (Arr ℝ) := do
  let rs ← bcast x.rshape y.rshape
  let s ← Arr.sumAxes nAxes (Arr.ofFn rs fun i =>
    x.toC.get (bidx x.rshape i) * y.toC.get (bidx y.rshape i))
  .ok (s.map Complex.re)

/-- `jnp.add` of two arrays, with broadcasting. -/
noncomputable def addArr (a b : Arr ℝ) : Except Err (Arr ℝ) := do
  let rs ← bcast a.rshape b.rshape
  .ok (Arr.ofFn rs fun i => a.get (bidx a.rshape i) + b.get (bidx b.rshape i))

/-- `reduce(jnp.add, values)`; `TypeError` for no values. -/
noncomputable def reduceAdd : List (Arr ℝ) → Except Err (Arr ℝ)
  | [] => .error .typeError
  | a :: as => as.foldlM addArr a

/-- The body of the loop of `parameter_dot_product` (tools.py 26-28). -/
noncomputable def dotPair (xy : (Val × Support) × (Val × Support)) : Except Err (Arr ℝ) :=
  if xy.2.2.axes = xy.1.2.axes then dotField xy.1.1 xy.2.1 xy.1.2.axes
  else .error .assertionError

/-- `parameter_dot_product(x, y)` (tools.py 19-29). -/
noncomputable def paramDot (x y : Dist C) : Except Err (Arr ℝ) := do
  let z ← zipStrict (parametersS x (some false)).values (parametersS y (some false)).values
  reduceAdd (← z.mapM dotPair)

/-- `jnp.mean(value, axis)`; integers and booleans become floating point. -/
noncomputable def Val.mean (axis : Option (List ℤ)) : Val → Except Err Val
  | .real a => .real <$> a.mean (· * ·) axis
  | .complex a => .complex <$> a.mean (fun r z => r * z) axis
  | .bool a => .real <$> (a.map fun b => if b then (1 : ℝ) else 0).mean (· * ·) axis
  | .int a => .real <$> (a.map fun z : ℤ => (z : ℝ)).mean (· * ·) axis

/-- `parameter_mean(x, axis=axis)` (tools.py 35-40); an integer axis is a tuple of length one. -/
noncomputable def paramMean (x : Dist C) (axis : Option (List ℤ)) : Except Err (Dist C) := do
  let infos ← infosOf x
  let q ← (parameters x none).mapM fun kv => do .ok (kv.1, ← kv.2.mean axis)
  assemble infos q

/-- `list(starmap(op, zip(xs, *yss, strict=True)))`: the operation is applied to the items one after
the other, and `ValueError` is raised where one of the iterators ends before another. -/
def starmapStrict {A B : Type} (op : List A → Except Err B) :
    List A → List (List A) → Except Err (List B)
  | [], yss => if yss.all List.isEmpty then .ok [] else .error .valueError
  | x :: xs, yss =>
    if yss.any List.isEmpty then .error .valueError
    else do
      let r ← op (x :: yss.filterMap List.head?)
      let rs ← starmapStrict op xs (yss.map List.tail)
      .ok (r :: rs)

/-- `parameter_map(op, x, *ys)` (tools.py 43-56). -/
def paramMap (op : List Val → Except Err Val) (x : Dist C) (ys : List (Dist C)) :
    Except Err (Dist C) := do
  let paths := (parameters x (some false)).keys
  let vals ← starmapStrict op (parameters x (some false)).values
    (ys.map fun y => (parameters y (some false)).values)
  let operated := Dict.ofList (← zipStrict paths vals)
  let fixed := parameters x (some true)
  assemble (← infosOf x) (Dict.merge fixed operated)

/-- `join_mappings(**field_to_map)` (tools.py 63-75), with the keyword arguments as a list of pairs;
`retval[key][field_name] = value` on a `defaultdict(dict)`. -/
def joinMappings {κ ν : Type} [DecidableEq κ] (fieldToMap : List (String × Dict κ ν)) :
    Dict κ (Dict String ν) :=
  fieldToMap.foldl (fun ret fm =>
    fm.2.foldl (fun ret kv => ret.set kv.1 (((ret.get? kv.1).getD []).set fm.1 kv.2)) ret) []

end Efax
