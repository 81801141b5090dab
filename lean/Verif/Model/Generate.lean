import Verif.Model.Structure

/-!
# Random parameters

`Ring.generate`, `Support.generate` (`efax/_src/parameter.py`) and `Structure.generate_random`
(`efax/_src/structure.py` 103-112).
-/

namespace Efax

open ClassTable

/-- `numpy.random.Generator`: a state, and methods that return an array of the given shape (last axis
first) and the next state.  `normal` has scale one; `binomial` is `binomial(1, 0.5, shape)`.  What
the methods return is not specified here. -/
structure Rng where
  State : Type
  exponential : List ℕ → State → Arr ℝ × State
  uniform : List ℕ → State → Arr ℝ × State
  normal : List ℕ → State → Arr ℝ × State
  binomial : List ℕ → State → Arr ℤ × State

namespace Ring

/-- `RealField.generate` (parameter.py 91-102). -/
noncomputable def realGenerate (mn mx : Option ℝ) (scale : ℝ) (g : Rng) (rs : List ℕ)
    (s : g.State) : Arr ℝ × g.State :=
  match mn, mx with
  | none, some M =>
    let e := g.exponential rs s
    (e.1.map fun x => M - x * scale, e.2)
  | some m, none =>
    let e := g.exponential rs s
    (e.1.map fun x => x * scale + m, e.2)
  | some m, some M =>
    let u := g.uniform rs s
    (u.1.map fun x => m + (M - m) * x, u.2)
  | none, none =>
    let n := g.normal rs s
    (n.1.map fun x => x * scale, n.2)

/-- `ComplexField._unflattened` applied to an array (parameter.py 151-163). -/
noncomputable def complexUnflatArr (mn : Arr ℝ) (mx : Option (Arr ℝ)) (c : Arr ℂ) :
    Except Err Val :=
  if boundsOk mn mx c.rshape then
    Val.complex <$> c.mapE fun i v => complexUnflat (boundAt mn i) (mx.map (boundAt · i)) v
  else .error .valueError

/-- The bounds of the `RealField` built by `IntegralRing.generate` (parameter.py 207-208). -/
noncomputable def integralBounds [MachEps] (mn mx : Option ℤ) : Option ℝ × Option ℝ :=
  (mn.map fun z : ℤ => openMin (z : ℝ), mx.map fun z : ℤ => openMax (z : ℝ))

/-- `Ring.generate` (parameter.py 91-102, 166-167, 184-185, 206-210).  The real part of a complex
number is drawn before its imaginary part. -/
noncomputable def generate [MachEps] (r : Ring) (g : Rng) (rs : List ℕ) (s : g.State) :
    Except Err (Val × g.State) :=
  match r with
  | .real mn mx scale =>
    let e := realGenerate mn mx scale g rs s
    .ok (.real e.1, e.2)
  | .complex mn mx => do
    let x := g.normal rs s
    let y := g.normal rs x.2
    let v ← complexUnflatArr mn mx (Arr.ofFn rs fun i => ⟨x.1.get i, y.1.get i⟩)
    .ok (v, y.2)
  | .boolean =>
    let b := g.binomial rs s
    .ok (.bool (b.1.map fun z => decide (z ≠ 0)), b.2)
  | .integral mn mx =>
    let e := realGenerate (integralBounds mn mx).1 (integralBounds mn mx).2 1 g rs s
    .ok (.int (e.1.map fun x => truncZ (x * 10)), e.2)

end Ring

namespace Support

/-- `m + mt` for arrays of matrices, where `mt` is the transpose of `m`, conjugated by `cj`
(parameter.py 402-404, 411). -/
def plusTranspose {α : Type} [Inhabited α] (add : α → α → α) (cj : α → α) (d : ℕ) (batch : List ℕ)
    (m : Arr α) : Arr α :=
  Arr.ofFn (d :: d :: batch) fun i =>
    match i with
    | k :: l :: j => add (m.get (k :: l :: j)) (cj (m.get (l :: k :: j)))
    | _ => default

/-- `jnp.einsum('...ij,...j,...jk->...ik', m, eig, mt)` (parameter.py 410), where `mt` is the
transpose of `m`, conjugated by `cj` (parameter.py 402-404). -/
noncomputable def sandwich {α : Type} [Inhabited α] [Semiring α] (ofReal : ℝ → α) (cj : α → α)
    (d : ℕ) (batch : List ℕ) (m : Arr α) (eig : Arr ℝ) : Arr α :=
  Arr.ofFn (d :: d :: batch) fun i =>
    match i with
    | k :: l :: j => ∑ n ∈ Finset.range d,
        m.get (n :: l :: j) * ofReal (eig.get (n :: j)) * cj (m.get (n :: k :: j))
    | _ => default

/-- `SymmetricMatrixSupport.generate` (parameter.py 400-411).  `conj` does nothing to arrays that are
not complex; the sum of Boolean arrays is their disjunction. -/
noncomputable def symmetricGenerate [MachEps] (r : Ring) (psd nsd herm : Bool) (g : Rng)
    (batch : List ℕ) (d : ℕ) (s : g.State) : Except Err (Val × g.State) := do
  let (m, s1) ← r.generate g (d :: d :: batch) s
  if nsd || psd then
    match m with
    | .real a =>
      let e := if psd then Ring.realGenerate (some (Ring.openMin 0)) none 1 g (d :: batch) s1
        else Ring.realGenerate none (some (Ring.openMax 0)) 1 g (d :: batch) s1
      .ok (.real (sandwich id id d batch a e.1), e.2)
    | .complex a =>
      let e := if psd then Ring.realGenerate (some (Ring.openMin 0)) none 1 g (d :: batch) s1
        else Ring.realGenerate none (some (Ring.openMax 0)) 1 g (d :: batch) s1
      .ok (.complex (sandwich (fun x => (x : ℂ)) (if herm then star else id) d batch a e.1), e.2)
    | _ => .error .assertionError
  else
    match m with
    | .real a => .ok (.real (plusTranspose (· + ·) id d batch a), s1)
    | .complex a => .ok (.complex (plusTranspose (· + ·) (if herm then star else id) d batch a), s1)
    | .bool a => .ok (.bool (plusTranspose (· || ·) id d batch a), s1)
    | .int a => .ok (.int (plusTranspose (· + ·) id d batch a), s1)

/-- `Support.generate` (parameter.py 279-280, 307-308, 342-343, 400-411).  `CircularBoundedSupport`
inherits the method of `VectorSupport`; `SquareMatrixSupport` inherits the abstract method of
`Support` (247-249). -/
noncomputable def generate [MachEps] (t : Support) (g : Rng) (batch : List ℕ) (d : ℕ)
    (s : g.State) : Except Err (Val × g.State) :=
  match t with
  | .scalar r => r.generate g batch s
  | .vector r => r.generate g (d :: batch) s
  | .circular _ => Ring.realField.generate g (d :: batch) s
  | .simplex _ | .square _ => .error .notImplemented
  | .symmetric r psd nsd herm => symmetricGenerate r psd nsd herm g batch d s

end Support

variable {C : Type} [ClassTable C]

/-- The loop over the parameters of one distribution in `Structure.generate_random` (structure.py
107-111); `kw` is `kwargs`, `ps` is `path_and_values`. -/
noncomputable def generateFields [MachEps] (g : Rng) (batch : List ℕ) (info : Info C) :
    List String → Dict String Val → Dict Path Val → g.State →
      Except Err (Dict Path Val × g.State)
  | [], _, ps, s => .ok (ps, s)
  | n :: ns, kw, ps, s => do
    let t ← adjust info.cls n kw
    let (v, s') ← t.generate g batch info.dims s
    generateFields g batch info ns (kw.set n v) (ps.set (info.path ++ [n]) v) s'

/-- The loop over the distributions in `Structure.generate_random` (structure.py 105-111). -/
noncomputable def generateInfos [MachEps] (g : Rng) (batch : List ℕ) :
    List (Info C) → Dict Path Val → g.State → Except Err (Dict Path Val × g.State)
  | [], ps, s => .ok (ps, s)
  | info :: rest, ps, s => do
    let (ps', s') ← generateFields g batch info (supportOf info.cls none).keys [] ps s
    generateInfos g batch rest ps' s'

/-- `Structure.generate_random(rng, shape)` (structure.py 103-112). -/
noncomputable def generateRandom [MachEps] (infos : List (Info C)) (g : Rng) (batch : List ℕ)
    (s : g.State) : Except Err (Dist C × g.State) := do
  let (ps, s') ← generateInfos g batch infos [] s
  .ok (← assemble infos ps, s')

end Efax
