import Verif.Model.Calc

/-!
# Arrays of distributions

`efax/_src/scipy_replacement/shaped_distribution.py`: an array of `scipy.stats` objects with the methods of
one.  Shapes and indices of the arrays of objects are Python tuples, first axis first (those of `Arr` are
last axis first).
-/

namespace Efax

/-- Can an array of the shape `v` be assigned to a part of the shape `t` (both last axis first)?  NumPy
repeats axes of length one, and drops leading axes of length one. -/
def assignable : List ℕ → List ℕ → Bool
  | _, [] => true
  | [], n :: v => n == 1 && assignable [] v
  | m :: t, n :: v => (n == m || n == 1) && assignable t v

/-- The assignment `a[key] = v` for a tuple `key` of non-negative integers, given in Python order. -/
def Arr.assign {α : Type} [Inhabited α] (a : Arr α) (key : List ℕ) (v : Arr α) : Except Err (Arr α) :=
  let n := a.rshape.length - key.length
  if key.length ≤ a.rshape.length ∧ inB (a.rshape.drop n) key.reverse then
    if assignable (a.rshape.take n) v.rshape then
      .ok (Arr.ofFn a.rshape fun i =>
        if i.drop n = key.reverse then v.get (bidx v.rshape (i.take n)) else a.get i)
    else .error .valueError
  else .error .indexError

/-- The position of an index (last axis first) in the row-major order of the entries of an array. -/
def ravel : List ℕ → List ℕ → ℕ
  | n :: s, k :: i => k + n * ravel s i
  | _, _ => 0

/-- The index (last axis first) at a position of the row-major order. -/
def unravel : List ℕ → ℕ → List ℕ
  | [], _ => []
  | n :: s, k => k % n :: unravel s (k / n)

/-- `np.reshape(a, shape)`. -/
def Arr.reshape {α : Type} [Inhabited α] (a : Arr α) (rs : List ℕ) : Except Err (Arr α) :=
  if a.rshape.prod = rs.prod then .ok (Arr.ofFn rs fun i => a.get (unravel a.rshape (ravel rs i)))
  else .error .valueError

/-- The index in an array at an index of the squeezed one. -/
def unsqueeze : List ℕ → List ℕ → List ℕ
  | [], _ => []
  | n :: s, i => if n = 1 then 0 :: unsqueeze s i else i.headD 0 :: unsqueeze s i.tail

/-- `np.squeeze(a)`: the axes of length one are dropped. -/
def Arr.squeeze {α : Type} [Inhabited α] (a : Arr α) : Arr α :=
  Arr.ofFn (a.rshape.filter (· ≠ 1)) fun i => a.get (unsqueeze a.rshape i)

namespace Scipy

/-- `np.ndindex(*shape)`: the indices in the order of the iteration. -/
def ndindex : List ℕ → List (List ℕ)
  | [] => [[]]
  | n :: s => (List.range n).flatMap fun k => (ndindex s).map (k :: ·)

/-- The methods of a `scipy.stats` object that are used here.  `rvs` reads and advances the generator; its
argument is the tuple `size`. -/
structure Frozen (α G : Type) [Inhabited α] where
  rvs : List ℕ → G → Except Err (Arr α × G)
  pdf : Arr α → Except Err (Arr ℝ)
  entropy : Except Err (Arr ℝ)

/-- `ShapedDistribution.__init__` (shaped_distribution.py 17-28), without the types of the entries. -/
structure Shaped (O : Type) where
  shape : List ℕ
  rvsShape : List ℕ
  objects : List ℕ → O

variable {α G : Type} [Inhabited α]

/-- `for i in np.ndindex(*shape): retval[i] = f(i)`, with an `f` that reads and advances the generator.
The entries of `np.empty` are arbitrary (`default` here). -/
def fillM (shape tail : List ℕ) (f : List ℕ → G → Except Err (Arr α × G)) (g : G) :
    Except Err (Arr α × G) :=
  (ndindex shape).foldlM (fun ret i => do
      let v ← f i ret.2
      let a ← ret.1.assign i v.1
      .ok (a, v.2))
    (Arr.full (shape ++ tail).reverse default, g)

/-- `for i in np.ndindex(*shape): retval[i] = f(i)`. -/
def fill (shape tail : List ℕ) (f : List ℕ → Except Err (Arr α)) : Except Err (Arr α) :=
  (ndindex shape).foldlM (fun ret i => do ret.assign i (← f i)) (Arr.full (shape ++ tail).reverse default)

/-- `size` as a tuple (shaped_distribution.py 33-36): `None`, an integer, or a tuple. -/
def sizeTuple : Option (ℕ ⊕ List ℕ) → List ℕ
  | none => []
  | some (.inl n) => [n]
  | some (.inr t) => t

/-- `ShapedDistribution.rvs` (shaped_distribution.py 30-41). -/
def Shaped.rvs (self : Shaped (Frozen α G)) (size : Option (ℕ ⊕ List ℕ)) (g : G) :
    Except Err (Arr α × G) :=
  let size := sizeTuple size
  fillM self.shape (size ++ self.rvsShape) (fun i => (self.objects i).rvs size) g

/-- `ShapedDistribution.pdf` (shaped_distribution.py 43-50). -/
noncomputable def Shaped.pdf (self : Shaped (Frozen α G)) (x : Arr α) : Except Err (Arr ℝ) :=
  if self.shape = [] then do (self.objects []).pdf (← x.index [])
  else fill self.shape [] fun i => do (self.objects i).pdf (← x.index i)

/-- `ShapedDistribution.entropy` (shaped_distribution.py 52-56). -/
noncomputable def Shaped.entropy (self : Shaped (Frozen α G)) : Except Err (Arr ℝ) :=
  fill self.shape [] fun i => (self.objects i).entropy

/-- `ScipyMultivariateNormalUnvectorized.rvs` (multivariate_normal.py 21-31).  The method of the base class
squeezes its draws, given here by a function of the tuple `size` and the state of the generator, which
have the shape `size + (dimensions,)`. -/
def mvnRvs (dimensions : ℕ) (draw : List ℕ → G → Arr ℝ × G) (size : List ℕ) (g : G) :
    Except Err (Arr ℝ × G) := do
  let retval := draw size g
  let a ← retval.1.squeeze.reshape (size ++ [dimensions]).reverse
  .ok (a, retval.2)

end Scipy

end Efax
