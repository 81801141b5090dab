import Verif.Model.Calc

/-!
# The random primitives on arrays

`jax.random` is outside the repository.  Its functions are deterministic functions of a key: the entry
of the result at an index depends on the key, the shape of the result, the index and the parameters at
this index.  A value of type `Random K` is such a family of functions; `Verif/Model/Primitives` gives
the laws of ideal draws.
-/

namespace Efax

/-- The functions of `jax.random` that efax calls, for keys of type `K`.  The first three arguments of
a primitive are the key, the shape of the result and an index (both last axis first).

* `split key n i`: the key `i` of `jax.random.split(key, n)`;
* `dirichlet` and `categorical` return the whole last axis (for `n + 1` parameters), and the index of a
  category;
* `factor n` is the factorization of a covariance matrix in `jax.random.multivariate_normal`. -/
structure Random (K : Type) where
  split : K → (n : ℕ) → Fin n → K
  normal : K → List ℕ → List ℕ → ℝ
  exponential : K → List ℕ → List ℕ → ℝ
  gamma : K → List ℕ → List ℕ → ℝ → ℝ
  chisquare : K → List ℕ → List ℕ → ℝ → ℝ
  rayleigh : K → List ℕ → List ℕ → ℝ → ℝ
  weibull : K → List ℕ → List ℕ → ℝ → ℝ → ℝ
  beta : K → List ℕ → List ℕ → ℝ → ℝ → ℝ
  bernoulli : K → List ℕ → List ℕ → ℝ → Bool
  poisson : K → List ℕ → List ℕ → ℝ → ℕ
  geometric : K → List ℕ → List ℕ → ℝ → ℕ
  dirichlet : K → List ℕ → List ℕ → (n : ℕ) → (Fin (n + 1) → ℝ) → Fin (n + 1) → ℝ
  categorical : K → List ℕ → List ℕ → (n : ℕ) → (Fin (n + 1) → ℝ) → Fin (n + 1)
  factor : (n : ℕ) → Matrix (Fin n) (Fin n) ℝ → Matrix (Fin n) (Fin n) ℝ

/-- The shape of the result of a primitive with parameters of shape `s`: `s` for `shape=None`, and
otherwise the given shape, to which the parameters must broadcast (`ValueError`, raised by
`_check_shape` of JAX; `weibull_min` would broadcast the result instead). -/
def drawShape (shape : Option (List ℕ)) (s : List ℕ) : Except Err (List ℕ) :=
  match shape with
  | none => .ok s
  | some t =>
    match bcast t s with
    | .error e => .error e
    | .ok r => if r = t then .ok t else .error .valueError

namespace Calc

variable {α β : Type} [Inhabited α] [Inhabited β]

/-- A primitive without parameters: `f(key, shape)`. -/
def drawFree (f : List ℕ → List ℕ → α) (shape : List ℕ) : Calc α := ok (Arr.ofFn shape (f shape))

/-- A primitive with one array of parameters: `f(key, x, shape)`. -/
def draw (f : List ℕ → List ℕ → α → β) (x : Calc α) (shape : Option (List ℕ)) : Calc β :=
  x.bind fun a =>
    match drawShape shape a.rshape with
    | .error e => fail e
    | .ok s => ok (Arr.ofFn s fun i => f s i (a.get (bidx a.rshape i)))

/-- A primitive with two arrays of parameters: `f(key, x, y, shape)`. -/
def draw2 {γ : Type} [Inhabited γ] (f : List ℕ → List ℕ → α → β → γ) (x : Calc α) (y : Calc β)
    (shape : Option (List ℕ)) : Calc γ :=
  draw (fun s i xy => f s i xy.1 xy.2) (bin Prod.mk x y) shape

/-- `jax.random.dirichlet(key, x, shape)`: the last axis of `x` holds the parameters; it must have a
positive length here. -/
def drawDirichlet {K : Type} (rng : Random K) (key : K) (x : Calc ℝ) (shape : Option (List ℕ)) :
    Calc ℝ := x.bind fun a =>
  match a.rshape with
  | (n + 1) :: rs =>
    match drawShape shape rs with
    | .error e => fail e
    | .ok s => ok (Arr.ofFn ((n + 1) :: s) fun
      | k :: i => if h : k < n + 1 then
          rng.dirichlet key s i n (fun j => a.get (j.val :: bidx rs i)) ⟨k, h⟩ else default
      | [] => default)
  | _ => fail .valueError

/-- `jax.random.categorical(key, x, shape=shape)`: the last axis of `x` holds the logits; it must have
a positive length here. -/
def drawCategorical {K : Type} (rng : Random K) (key : K) (x : Calc ℝ) (shape : Option (List ℕ)) :
    Calc ℕ := x.bind fun a =>
  match a.rshape with
  | (n + 1) :: rs =>
    match drawShape shape rs with
    | .error e => fail e
    | .ok s => ok (Arr.ofFn s fun i =>
        (rng.categorical key s i n fun j => a.get (j.val :: bidx rs i)).val)
  | _ => fail .valueError

/-- `jax.nn.one_hot(x, n)`. -/
def oneHot (x : Calc ℕ) (n : ℕ) : Calc ℝ := x.bind fun a =>
  ok (Arr.ofFn (n :: a.rshape) fun
    | k :: i => if a.get i = k then 1 else 0
    | [] => default)

/-- `jax.random.multivariate_normal(key, mean, cov, shape)`: `mean + factor @ normal(key, shape + (n,))`;
`ValueError` if the last axes of `mean` and `cov` do not match or the parameters do not broadcast to
the shape. -/
def drawMultivariateNormal {K : Type} (rng : Random K) (key : K) (mean cov : Calc ℝ)
    (shape : List ℕ) : Calc ℝ := mean.bind fun a => cov.bind fun c =>
  match a.rshape, c.rshape with
  | n :: ms, n₁ :: n₂ :: cs =>
    if n₁ = n ∧ n₂ = n then
      match bcast ms cs >>= drawShape (some shape) with
      | .error e => fail e
      | .ok s => ok (Arr.ofFn (n :: s) fun
        | k :: i => a.get (k :: bidx ms i) + ∑ m ∈ Finset.range n,
            entry (rng.factor n (mat n c (bidx cs i))) k m * rng.normal key (n :: s) (m :: i)
        | [] => default)
    else fail .valueError
  | _, _ => fail .valueError

/-- `a.imag`. -/
def im (x : Calc ℂ) : Calc ℝ := x.map Complex.im

/-- `jnp.sqrt`. -/
noncomputable def sqrt (x : Calc ℝ) : Calc ℝ := x.map Real.sqrt

/-- `jnp.block([[a, b], [c, d]])`, for four arrays of the same shape `(..., n, n)`; other shapes do not
occur. -/
def block (x y z w : Calc α) : Calc α :=
  x.bind fun a => y.bind fun b => z.bind fun c => w.bind fun d =>
    match a.rshape with
    | n :: m :: rs =>
      if n = m ∧ b.rshape = a.rshape ∧ c.rshape = a.rshape ∧ d.rshape = a.rshape then
        ok (Arr.ofFn ((n + n) :: (n + n) :: rs) fun
          | k :: r :: i =>
            if r < n then if k < n then a.get (k :: r :: i) else b.get ((k - n) :: r :: i)
            else if k < n then c.get (k :: (r - n) :: i) else d.get ((k - n) :: (r - n) :: i)
          | _ => default)
      else fail .valueError
    | _ => fail .valueError

/-- `jnp.stack([x, y], axis=-2)`, for arrays with at least one axis; the shapes must agree. -/
def stackRows (x y : Calc α) : Calc α := x.bind fun a => y.bind fun b =>
  match a.rshape with
  | n :: rs =>
    if a.rshape = b.rshape then
      ok (Arr.ofFn (n :: 2 :: rs) fun
        | k :: r :: i => if r = 0 then a.get (k :: i) else b.get (k :: i)
        | _ => default)
    else fail .valueError
  | [] => fail .valueError

end Calc

end Efax
