import Verif.Spec.Refines
import Verif.Model.Sampling.Samplers
import Verif.Model.Families.Samplers

/-!
# Specification: samples of a batch, entry by entry
-/

namespace Efax.Spec

variable {K : Type}

/-- The random numbers that one entry of an array of shape `t` sees: the primitives whose results have
the further axes `t`, at the index `p` of these axes. -/
def local_ (rng : Random K) (t p : List ℕ) : Random K where
  split := rng.split
  normal key s i := rng.normal key (s ++ t) (i ++ p)
  exponential key s i := rng.exponential key (s ++ t) (i ++ p)
  gamma key s i := rng.gamma key (s ++ t) (i ++ p)
  chisquare key s i := rng.chisquare key (s ++ t) (i ++ p)
  rayleigh key s i := rng.rayleigh key (s ++ t) (i ++ p)
  weibull key s i := rng.weibull key (s ++ t) (i ++ p)
  beta key s i := rng.beta key (s ++ t) (i ++ p)
  bernoulli key s i := rng.bernoulli key (s ++ t) (i ++ p)
  poisson key s i := rng.poisson key (s ++ t) (i ++ p)
  geometric key s i := rng.geometric key (s ++ t) (i ++ p)
  dirichlet key s i := rng.dirichlet key (s ++ t) (i ++ p)
  categorical key s i := rng.categorical key (s ++ t) (i ++ p)
  factor := rng.factor

/-- How one distribution with fixed parameters `p` and variable parameters `q` draws a value. -/
abbrev Draw (K P N Y : Type) := Random K → K → P → N → Y

/-- A sampler, applied to a batch of shape `rs` (last axis first) with the argument `shape`, returns an
array of shape `shape + rs` (in Python's order), in which every entry is a draw from the distribution
of the batch at the trailing indices, with the random numbers of this entry. -/
def Samples {P N Y : Type} (sample : Random K → Sampler K) (lay : Layout P N)
    (out : List ℕ → (List ℕ → Y) → Val) (draw : Draw K P N Y)
    (dom : P → N → Prop := fun _ _ => True) : Prop :=
  ∀ (rng : Random K) (key : K) (shape : Option (List ℕ)) (rs : List ℕ) (p : List ℕ → P)
    (q : List ℕ → N), (∀ i, inB rs i = true → dom (p i) (q i)) →
    sample rng (lay rs p q) key shape = .ok (out (rs ++ shape.getD []) fun j =>
      draw (local_ rng (rs ++ shape.getD []) j) key (p (j.take rs.length)) (q (j.take rs.length)))

/-- A sampler, applied to this batch of shape `rs`, returns an array of shape `shape + rs + event` (in
Python's order), and every entry of it is the sample, without the argument `shape`, of the indexed
distribution, with the random numbers of this entry. -/
def Entrywise (sample : Random K → Sampler K) (event rs : List ℕ) (vals : List Val) : Prop :=
  ∀ (rng : Random K) (key : K) (shape : Option (List ℕ)), ∃ v, sample rng vals key shape = .ok v ∧
    v.rshape = event ++ (rs ++ shape.getD []) ∧
    ∀ j, inB (rs ++ shape.getD []) j = true → ∃ vals' w,
      List.Forall₂ (fun a b => Val.index (j.take rs.length).reverse a = .ok b) vals vals' ∧
      v.index j.reverse = .ok w ∧
      sample (local_ rng (rs ++ shape.getD []) j) vals' key none = .ok w

/-- The classes whose `sample` searches for the natural parameters first, and whose parameters have
bounds. -/
def searches : Cls → Bool
  | .betaEP | .dirichletEP | .gammaEP => true
  | _ => false

/-- An array of real numbers. -/
def outR (rs : List ℕ) (y : List ℕ → ℝ) : Val := .real (scalars rs y)

/-- An array of real vectors. -/
def outV {d : ℕ} (rs : List ℕ) (y : List ℕ → Fin d → ℝ) : Val := .real (vectors rs y)

/-- An array of complex numbers. -/
def outC (rs : List ℕ) (y : List ℕ → ℂ) : Val := .complex (scalars rs y)

/-- An array of complex vectors. -/
def outCV {d : ℕ} (rs : List ℕ) (y : List ℕ → Fin d → ℂ) : Val := .complex (vectors rs y)

/-- A Boolean array. -/
def outB (rs : List ℕ) (y : List ℕ → Bool) : Val := .bool (scalars rs y)

/-- An array of natural numbers. -/
def outN (rs : List ℕ) (y : List ℕ → ℕ) : Val := .int (scalars rs fun i => (y i : ℤ))

/-! ### One draw from one distribution -/

variable (rng : Random K) (key : K)

/-- A success with the given probability. -/
def drawBernoulli (p : ℝ) : Bool := rng.bernoulli key [] [] p

/-- A beta number. -/
noncomputable def drawBeta (q : Fin 2 → ℝ) : ℝ := rng.beta key [] [] (1 + q 0) (1 + q 1)

/-- A chi-square number with `2 (q + 1)` degrees of freedom. -/
noncomputable def drawChiSquare (q : ℝ) : ℝ := rng.chisquare key [] [] ((q + 1) * 2)

/-- A Dirichlet vector without its last entry. -/
noncomputable def drawDirichlet {d : ℕ} (q : Fin (d + 1) → ℝ) (k : Fin d) : ℝ :=
  rng.dirichlet key [] [] d (fun j => 1 + q j) k.castSucc

/-- An exponential number with the rate `-q`. -/
noncomputable def drawExponentialN (q : ℝ) : ℝ := -rng.exponential key [] [] / q

/-- An exponential number with the given mean. -/
noncomputable def drawExponentialE (m : ℝ) : ℝ := rng.exponential key [] [] * m

/-- A gamma number with the rate `-q.1` and the shape `q.2 + 1`. -/
noncomputable def drawGamma (q : ℝ × ℝ) : ℝ := -rng.gamma key [] [] (q.2 + 1) / q.1

/-- A geometric number with the success probability `1 / m`. -/
noncomputable def drawGeometric (m : ℝ) : ℕ := rng.geometric key [] [] (1 / m)

/-- The unit vector of a category. -/
noncomputable def drawMultinomial {d : ℕ} (q : Fin (d + 1) → ℝ) (k : Fin (d + 1)) : ℝ :=
  if rng.categorical key [] [] d q = k then 1 else 0

/-- Standard normal numbers. -/
noncomputable def drawNormals (d : ℕ) (k : Fin d) : ℝ := rng.normal key [d] [k.val]

/-- A normal vector with the given mean and covariance matrix. -/
noncomputable def drawMvNormal {d : ℕ} (w : (Fin d → ℝ) × Matrix (Fin d) (Fin d) ℝ) : Fin d → ℝ :=
  w.1 + (rng.factor d w.2).mulVec (drawNormals rng key d)

/-- A normal vector with independent entries, given the means and the variances. -/
noncomputable def drawDiagonal {d : ℕ} (w : (Fin d → ℝ) × (Fin d → ℝ)) (k : Fin d) : ℝ :=
  drawNormals rng key d k * √(w.2 k) + w.1 k

/-- A normal vector with independent entries of the same variance. -/
noncomputable def drawScaled {d : ℕ} (v : ℝ) (m : Fin d → ℝ) (k : Fin d) : ℝ :=
  drawNormals rng key d k * √v + m k

/-- A normal vector with independent entries of variance one. -/
noncomputable def drawMvUnit {d : ℕ} (m : Fin d → ℝ) (k : Fin d) : ℝ := drawNormals rng key d k + m k

/-- A normal number with the given mean and variance. -/
noncomputable def drawNormal (w : ℝ × ℝ) : ℝ := rng.normal key [] [] * √w.2 + w.1

/-- A normal number with the given mean and variance one. -/
noncomputable def drawUnit (m : ℝ) : ℝ := rng.normal key [] [] + m

/-- A Poisson number with the given mean. -/
noncomputable def drawPoisson (m : ℝ) : ℕ := rng.poisson key [] [] m

/-- A negative binomial number with `r` failures and the given mean: a Poisson number with a gamma
distributed mean, drawn with two keys. -/
noncomputable def drawNegativeBinomial (r : ℕ) (m : ℝ) : ℕ :=
  drawPoisson rng (rng.split key 2 1) (drawGamma rng (rng.split key 2 0) (-r / m, r - 1))

/-- A Rayleigh number with the given scale. -/
noncomputable def drawRayleigh (scale : ℝ) : ℝ := rng.rayleigh key [] [] scale

/-- A Weibull number with the concentration `k` and the scale `χ ^ (1 / k)`. -/
noncomputable def drawWeibull (k χ : ℝ) : ℝ := rng.weibull key [] [] (χ ^ (1 / k)) k

/-- The complex number of a real normal vector whose parts have the given moments. -/
noncomputable def drawComplexNormal (χ : ComplexNormalParams) : ℂ :=
  let z := drawMvNormal rng key (![χ.1.re, χ.1.im], Efax.complexNormalCov χ)
  (z 0 : ℂ) + Complex.I * (z 1 : ℂ)

/-- The complex vector of a real normal vector of twice the length, the real parts first. -/
noncomputable def drawCircular {d : ℕ} (χ : Matrix (Fin d) (Fin d) ℂ) (k : Fin d) : ℂ :=
  let z := drawMvNormal rng key ((fun _ => 0 : Fin (d + d) → ℝ),
    (cmvCircularCov χ).reindex finSumFinEquiv finSumFinEquiv)
  (z (Fin.castAdd d k) : ℂ) + Complex.I * (z (Fin.natAdd d k) : ℂ)

/-- A complex number with equal real and imaginary deviation from the mean. -/
noncomputable def drawComplexUnit (m : ℂ) : ℂ :=
  (rng.normal key [] [] : ℂ) + Complex.I * (rng.normal key [] [] : ℂ) + m

/-- A complex vector with equal real and imaginary deviation from the mean. -/
noncomputable def drawCmvUnit {d : ℕ} (m : Fin d → ℂ) (k : Fin d) : ℂ :=
  (drawNormals rng key d k : ℂ) + Complex.I * (drawNormals rng key d k : ℂ) + m k

end Efax.Spec
