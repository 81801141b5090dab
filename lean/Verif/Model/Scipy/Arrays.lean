import Verif.Model.Scipy.Shaped
import Verif.Model.Scipy.Normal
import Verif.Model.Special

/-!
# Replacements for `scipy.stats`: arrays of normal and von Mises distributions

The constructors and properties of the subclasses of `ShapedDistribution`.  The types of the entries are
those of the arguments here; the draws of the library for one distribution are functions of the tuple
`size` and the state of the generator.
-/

namespace Efax.Scipy

open Matrix

variable {α G : Type} [Inhabited α]

/-- The entry of an array with no axes, the check of the shapes in
`ScipyComplexNormalUnvectorized.__init__` (complex_normal.py 30-33). -/
def scalarOf (a : Arr α) : Except Err α := if a.rshape = [] then .ok (a.get []) else .error .valueError

/-- The entries of an array with one axis of the given length; `ValueError` for another shape
(complex_multivariate_normal.py 26-28, and the checks of SciPy). -/
def vectorOf (n : ℕ) (a : Arr α) : Except Err (Fin n → α) :=
  if a.rshape = [n] then .ok fun k => a.get [k.val] else .error .valueError

/-- The entries of an array with two axes of the given length; `ValueError` for another shape
(complex_multivariate_normal.py 29-35, and the checks of SciPy). -/
def matrixOf (n : ℕ) (a : Arr α) : Except Err (Matrix (Fin n) (Fin n) α) :=
  if a.rshape = [n, n] then .ok fun r c => a.get [c.val, r.val] else .error .valueError

open Classical in
/-- A density in every entry of an array of the shape `rs` of observations.  SciPy squeezes the result of
multivariate distributions. -/
noncomputable def densities (rs : List ℕ) (f : List ℕ → Except Err ℝ) : Except Err (Arr ℝ) :=
  if ∀ j, inB rs j = true → ∃ p, f j = .ok p then
    .ok (Arr.ofFn rs fun j => (f j).toOption.getD 0).squeeze
  else .error .valueError

/-- A number as an array. -/
def scalarArr (x : Except Err α) : Except Err (Arr α) := do .ok (Arr.full [] (← x))

/-! ### Multivariate normal distributions -/

/-- `ScipyMultivariateNormalUnvectorized` (multivariate_normal.py 15-31). -/
noncomputable def mvnFrozen (n : ℕ) (mean : Fin n → ℝ) (cov : Matrix (Fin n) (Fin n) ℝ)
    (draw : List ℕ → G → Arr ℝ × G) : Frozen ℝ G where
  rvs := mvnRvs n draw
  pdf x := match x.rshape with
    | m :: rs => if m = n then densities rs fun j => mvnPdf mean cov fun k => x.get (k.val :: j)
        else .error .valueError
    | [] => .error .valueError
  entropy := scalarArr (mvnEntropy cov)

/-- The defaults of `ScipyMultivariateNormal.from_mc` (multivariate_normal.py 40-47): `np.zeros(1)`,
`np.zeros(cov.shape[:-1])`, and the identity matrix for each distribution. -/
def fromMcDefaults (mean cov : Option (Arr ℝ)) : Except Err (Arr ℝ × Arr ℝ) := do
  let mean ← match mean, cov with
    | some m, _ => .ok m
    | none, none => .ok (Arr.full [1] 0)
    | none, some c => .ok (Arr.full c.rshape.tail 0)
  let cov ← match cov with
    | some c => .ok c
    | none => do
      let n ← mean.lastDim
      .ok (Arr.ofFn (n :: n :: mean.rshape.tail) fun i => if i[0]? = i[1]? then 1 else 0)
  .ok (mean, cov)

/-- The checks made when the object at one index is made (multivariate_normal.py 53), by SciPy. -/
noncomputable def fromMcCheck (n : ℕ) (mean cov : Arr ℝ) (i : List ℕ) : Except Err Unit := do
  let _ ← (mean.index i).bind (vectorOf n)
  let c ← (cov.index i).bind (matrixOf n)
  let _ ← mvnEntropy c

/-- `ScipyMultivariateNormal.from_mc` (multivariate_normal.py 37-54).  `mean[..., -1]` (48) raises when
there are no components.  SciPy checks the covariance when the object is made. -/
noncomputable def fromMc (mean cov : Option (Arr ℝ)) (draw : List ℕ → List ℕ → G → Arr ℝ × G) :
    Except Err (Shaped (Frozen ℝ G)) := do
  let (mean, cov) ← fromMcDefaults mean cov
  let n ← mean.lastDim
  if n = 0 then .error .indexError
  let shape := mean.rshape.tail.reverse
  (ndindex shape).forM (fromMcCheck n mean cov)
  .ok { shape := shape, rvsShape := [n],
        objects := fun i => mvnFrozen n (fun k => mean.get (k.val :: i.reverse))
          (fun r c => cov.get (c.val :: r.val :: i.reverse)) (draw i) }

/-! ### Complex normal distributions -/

/-- The mean, the variance and the pseudo-variance kept by `ScipyComplexNormalUnvectorized`
(complex_normal.py 21-23). -/
structure ComplexNormalData where
  mean : ℂ
  variance : ℝ
  pseudoVariance : ℂ

/-- `ScipyComplexNormalUnvectorized` (complex_normal.py 35-55). -/
noncomputable def ComplexNormalData.frozen (self : ComplexNormalData) (draw : List ℕ → G → Arr ℝ × G) :
    Frozen ℂ G where
  rvs size g :=
    let xy := draw size g
    .ok (Arr.ofFn size.reverse fun i => (xy.1.get (0 :: i) : ℂ) + Complex.I * (xy.1.get (1 :: i) : ℂ), xy.2)
  pdf z := densities z.rshape fun j => complexNormalPdf self.mean self.variance self.pseudoVariance (z.get j)
  entropy := scalarArr (complexNormalEntropy self.variance self.pseudoVariance)

/-- The shape found by `ScipyComplexNormal.__init__` (complex_normal.py 76-83). -/
def complexNormalShape (mean : Option (Arr ℂ)) (variance : Option (Arr ℝ))
    (pseudoVariance : Option (Arr ℂ)) : Except Err (List ℕ) :=
  match mean, variance, pseudoVariance with
  | some m, _, _ => .ok m.rshape
  | none, some v, _ => .ok v.rshape
  | none, none, some p => .ok p.rshape
  | none, none, none => .error .valueError

/-- The checks made when the object at one index is made (complex_normal.py 97, 27-33). -/
noncomputable def complexNormalCheck (mean : Arr ℂ) (variance : Arr ℝ) (pseudoVariance : Arr ℂ)
    (i : List ℕ) : Except Err Unit := do
  let _ ← (mean.index i).bind scalarOf
  let v ← (variance.index i).bind scalarOf
  let p ← (pseudoVariance.index i).bind scalarOf
  complexNormalInit v p

/-- `ScipyComplexNormal.__init__` (complex_normal.py 72-98). -/
noncomputable def complexNormalNew (mean : Option (Arr ℂ)) (variance : Option (Arr ℝ))
    (pseudoVariance : Option (Arr ℂ)) : Except Err (Shaped ComplexNormalData) := do
  let rs ← complexNormalShape mean variance pseudoVariance
  let mean := mean.getD (Arr.full rs 0)
  let variance := variance.getD (Arr.full rs 1)
  let pseudoVariance := pseudoVariance.getD (Arr.full rs 0)
  (ndindex rs.reverse).forM (complexNormalCheck mean variance pseudoVariance)
  .ok { shape := rs.reverse, rvsShape := [],
        objects := fun i => ⟨mean.get i.reverse, variance.get i.reverse, pseudoVariance.get i.reverse⟩ }

/-- `ScipyComplexNormal.mean` (complex_normal.py 119-124). -/
def complexNormalMeans (self : Shaped ComplexNormalData) : Except Err (Arr ℂ) :=
  fill self.shape [] fun i => .ok (Arr.full [] (self.objects i).mean)

/-- `ScipyComplexNormal.variance` (complex_normal.py 126-131). -/
noncomputable def complexNormalVariances (self : Shaped ComplexNormalData) : Except Err (Arr ℝ) :=
  fill self.shape [] fun i => .ok (Arr.full [] (self.objects i).variance)

/-- `ScipyComplexNormal.pseudo_variance` (complex_normal.py 133-138). -/
def complexNormalPseudoVariances (self : Shaped ComplexNormalData) : Except Err (Arr ℂ) :=
  fill self.shape [] fun i => .ok (Arr.full [] (self.objects i).pseudoVariance)

/-- The object as a `ShapedDistribution`. -/
noncomputable def complexNormalShaped (self : Shaped ComplexNormalData)
    (draw : List ℕ → List ℕ → G → Arr ℝ × G) : Shaped (Frozen ℂ G) :=
  { self with objects := fun i => (self.objects i).frozen (draw i) }

/-- `ScipyComplexNormal.as_multivariate_normal` (complex_normal.py 113-117). -/
noncomputable def complexNormalAsMultivariate (self : Shaped ComplexNormalData)
    (draw : List ℕ → List ℕ → G → Arr ℝ × G) : Shaped (Frozen ℝ G) :=
  { shape := self.shape, rvsShape := self.rvsShape,
    objects := fun i => mvnFrozen 2 (complexNormalMean (self.objects i).mean)
      (complexNormalCov (self.objects i).variance (self.objects i).pseudoVariance) (draw i) }

/-! ### Complex multivariate normal distributions -/

/-- What `ScipyComplexMultivariateNormalUnvectorized` keeps (complex_multivariate_normal.py 22-25). -/
structure ComplexMvNormalData (d : ℕ) where
  mean : Fin d → ℂ
  variance : Matrix (Fin d) (Fin d) ℂ
  pseudoVariance : Matrix (Fin d) (Fin d) ℂ

/-- `ScipyComplexMultivariateNormalUnvectorized` (complex_multivariate_normal.py 46-66). -/
noncomputable def ComplexMvNormalData.frozen {d : ℕ} (self : ComplexMvNormalData d)
    (draw : List ℕ → G → Arr ℝ × G) : Frozen ℂ G where
  rvs size g :=
    let xy := draw size g
    .ok (Arr.ofFn (size ++ [d]).reverse fun i =>
      (xy.1.get i : ℂ) + Complex.I * (xy.1.get ((i.headD 0 + d) :: i.tail) : ℂ), xy.2)
  pdf z := match z.rshape with
    | m :: rs => if m = d then
        densities rs fun j => complexMvNormalPdf self.mean self.variance self.pseudoVariance
          fun k => z.get (k.val :: j)
        else .error .valueError
    | [] => .error .valueError
  entropy := scalarArr (complexMvNormalEntropy self.variance self.pseudoVariance)

/-- The batch shape (last axis first) and the dimension found by
`ScipyComplexMultivariateNormal.__init__` (complex_multivariate_normal.py 91-101). -/
def complexMvNormalDims (mean variance pseudoVariance : Option (Arr ℂ)) : Except Err (List ℕ × ℕ) :=
  match mean, variance, pseudoVariance with
  | some m, _, _ => do .ok (m.rshape.tail, ← m.lastDim)
  | none, some v, _ => do .ok (v.rshape.drop 2, ← v.lastDim)
  | none, none, some p => do .ok (p.rshape.drop 2, ← p.lastDim)
  | none, none, none => .error .valueError

/-- The checks made when the object at one index is made (complex_multivariate_normal.py 115-116,
26-44). -/
noncomputable def complexMvNormalCheck (d : ℕ) (mean variance pseudoVariance : Arr ℂ) (i : List ℕ) :
    Except Err Unit := do
  let _ ← (mean.index i).bind (vectorOf d)
  let v ← (variance.index i).bind (matrixOf d)
  let p ← (pseudoVariance.index i).bind (matrixOf d)
  complexMvNormalInit v p

/-- `ScipyComplexMultivariateNormal.__init__` (complex_multivariate_normal.py 87-117). -/
noncomputable def complexMvNormalNew (mean variance pseudoVariance : Option (Arr ℂ)) :
    Except Err (Σ d, Shaped (ComplexMvNormalData d)) := do
  let (rs, d) ← complexMvNormalDims mean variance pseudoVariance
  let mean := mean.getD (Arr.full (d :: rs) 0)
  let variance := variance.getD (Arr.ofFn (d :: d :: rs) fun i => if i[0]? = i[1]? then 1 else 0)
  let pseudoVariance := pseudoVariance.getD (Arr.full (d :: d :: rs) 0)
  (ndindex rs.reverse).forM (complexMvNormalCheck d mean variance pseudoVariance)
  .ok ⟨d, { shape := rs.reverse, rvsShape := [d],
            objects := fun i => ⟨fun k => mean.get (k.val :: i.reverse),
              fun r c => variance.get (c.val :: r.val :: i.reverse),
              fun r c => pseudoVariance.get (c.val :: r.val :: i.reverse)⟩ }⟩

/-- A vector as an array. -/
def vectorArr {d : ℕ} (v : Fin d → α) : Arr α :=
  Arr.ofFn [d] fun i => if h : i.headD 0 < d then v ⟨_, h⟩ else default

/-- A matrix as an array. -/
def matrixArr {d : ℕ} (m : Matrix (Fin d) (Fin d) α) : Arr α :=
  Arr.ofFn [d, d] fun i =>
    if h : i.headD 0 < d ∧ i.tail.headD 0 < d then m ⟨_, h.2⟩ ⟨_, h.1⟩ else default

/-- `ScipyComplexMultivariateNormal.mean` (complex_multivariate_normal.py 125-130). -/
def complexMvNormalMeans {d : ℕ} (self : Shaped (ComplexMvNormalData d)) : Except Err (Arr ℂ) :=
  fill self.shape self.rvsShape fun i => .ok (vectorArr (self.objects i).mean)

/-- `ScipyComplexMultivariateNormal.variance` (complex_multivariate_normal.py 132-137). -/
def complexMvNormalVariances {d : ℕ} (self : Shaped (ComplexMvNormalData d)) : Except Err (Arr ℂ) :=
  fill self.shape (self.rvsShape ++ self.rvsShape) fun i => .ok (matrixArr (self.objects i).variance)

/-- `ScipyComplexMultivariateNormal.pseudo_variance` (complex_multivariate_normal.py 139-144). -/
def complexMvNormalPseudoVariances {d : ℕ} (self : Shaped (ComplexMvNormalData d)) : Except Err (Arr ℂ) :=
  fill self.shape (self.rvsShape ++ self.rvsShape) fun i => .ok (matrixArr (self.objects i).pseudoVariance)

/-- The object as a `ShapedDistribution`. -/
noncomputable def complexMvNormalShaped {d : ℕ} (self : Shaped (ComplexMvNormalData d))
    (draw : List ℕ → List ℕ → G → Arr ℝ × G) : Shaped (Frozen ℂ G) :=
  { self with objects := fun i => (self.objects i).frozen (draw i) }

/-- `ScipyComplexMultivariateNormal.as_multivariate_normal` (complex_multivariate_normal.py 119-123).  The
first half of the coordinates are the real parts. -/
noncomputable def complexMvNormalAsMultivariate {d : ℕ} (self : Shaped (ComplexMvNormalData d))
    (draw : List ℕ → List ℕ → G → Arr ℝ × G) : Shaped (Frozen ℝ G) :=
  { shape := self.shape, rvsShape := self.rvsShape,
    objects := fun i => mvnFrozen (d + d)
      (fun k => complexMvNormalMean (self.objects i).mean (finSumFinEquiv.symm k))
      (Matrix.of fun k l => complexMvNormalCov (self.objects i).variance (self.objects i).pseudoVariance
        (finSumFinEquiv.symm k) (finSumFinEquiv.symm l)) (draw i) }

/-! ### Von Mises distributions -/

/-- `scipy.stats.vonmises(kappa, loc).pdf(x)`, as SciPy computes it:
`exp(kappa * cosm1(x - loc)) / (2 * pi * i0e(kappa))`. -/
noncomputable def vonMisesPdf (kappa loc x : ℝ) : ℝ :=
  Real.exp (kappa * (Real.cos (x - loc) - 1)) / (2 * Real.pi * (besselI 0 kappa * Real.exp (-|kappa|)))

/-- `ScipyVonMises.__init__` (von_mises.py 14-25), with the draws and the entropy of the library. -/
noncomputable def vonMisesNew (kappa : Arr ℝ) (loc : Option (Arr ℝ))
    (draw : ℝ → ℝ → List ℕ → G → Except Err (Arr ℝ × G)) (entropy : ℝ → ℝ) :
    Except Err (Shaped (Frozen ℝ G)) := do
  let loc := loc.getD (Arr.full kappa.rshape 0)
  let rs ← bcast kappa.rshape loc.rshape
  .ok { shape := rs.reverse, rvsShape := [],
        objects := fun i =>
          let k := kappa.get (bidx kappa.rshape i.reverse)
          let l := loc.get (bidx loc.rshape i.reverse)
          { rvs := draw k l, pdf := fun x => .ok (x.map (vonMisesPdf k l)),
            entropy := .ok (Arr.full [] (entropy k)) } }

open Classical in
/-- `scipy.stats.vonmises_fisher(mu, kappa).pdf(x)`, as SciPy computes it:
`exp(0.5 * (dim - 2) * log(kappa) - halfdim * log(2 * pi) - log(ive(halfdim - 1, kappa)) - kappa + kappa * x @ mu)`
after checking that `mu` and `x` are unit vectors and `kappa` is positive. -/
noncomputable def vonMisesFisherPdf {d : ℕ} (mu : Fin d → ℝ) (kappa : ℝ) (x : Fin d → ℝ) : Except Err ℝ :=
  if mu ⬝ᵥ mu ≠ 1 ∨ kappa ≤ 0 ∨ d < 2 then .error .valueError
  else if x ⬝ᵥ x ≠ 1 then .error .valueError
  else
    let halfdim := 0.5 * (d : ℝ)
    .ok (Real.exp (0.5 * ((d : ℝ) - 2) * Real.log kappa - halfdim * Real.log (2 * Real.pi) -
      Real.log (besselI (halfdim - 1) kappa * Real.exp (-|kappa|)) - kappa + kappa * (x ⬝ᵥ mu)))

/-- `ScipyVonMisesFisher.__init__` (von_mises.py 31-41), with the draws and the entropy of the library.
The checks of SciPy are made when the object is made. -/
noncomputable def vonMisesFisherNew (mu kappa : Arr ℝ)
    (draw : List ℕ → List ℕ → G → Except Err (Arr ℝ × G)) (entropy : ℝ → ℝ) :
    Except Err (Shaped (Frozen ℝ G)) := do
  let d ← mu.lastDim
  if mu.rshape.tail ≠ kappa.rshape then .error .assertionError
  let shape := kappa.rshape.reverse
  (ndindex shape).forM fun i =>
    let m : Fin d → ℝ := fun k => mu.get (k.val :: i.reverse)
    if m ⬝ᵥ m = 1 ∧ 0 < kappa.get i.reverse ∧ 2 ≤ d then .ok () else .error .valueError
  .ok { shape := shape, rvsShape := [d],
        objects := fun i =>
          { rvs := draw i,
            pdf := fun x => match x.rshape with
              | m :: rs => if m = d then
                  densities rs fun j => vonMisesFisherPdf (fun k : Fin d => mu.get (k.val :: i.reverse))
                    (kappa.get i.reverse) fun k => x.get (k.val :: j)
                else .error .valueError
              | [] => .error .valueError
            entropy := .ok (Arr.full [] (entropy (kappa.get i.reverse))) } }

end Efax.Scipy
