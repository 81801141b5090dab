import Verif.Model.Tests.Bodies

/-!
# The bodies of the tests: comparisons with `scipy.stats`

Continued from `Verif.Model.Tests.Bodies`: equality instead of closeness, shapes with the last axis first.
-/

namespace Efax.Tests

open ClassTable Calc

variable [MachEps]

/-- `test_nat_entropy` (test_match_scipy.py 26-38). -/
noncomputable def testNatEntropy (L : Library Cls) (info : TestInfo) (g : Rng) (s : g.State) :
    Except Err g.State := do
  let (natParameters, s) ← info.natParameters g [13, 7] s
  check (hasEntropyNP natParameters.cls = true)
  let scipyDistribution ← info.natToScipy L natParameters
  let myEntropy ← (natParameters.entropyN L).run
  let scipyEntropy ← scipyDistribution.entropy
  check (myEntropy = scipyEntropy)
  .ok s

/-- `test_exp_entropy` (test_match_scipy.py 41-57). -/
noncomputable def testExpEntropy (L : Library Cls) (info : TestInfo) (g : Rng) (s : g.State) :
    Except Err g.State := do
  let (expParameters, s) ← info.expParameters L g [13, 7] s
  check (L.hasEntropy expParameters.cls = true)
  let scipyDistribution ← info.expToScipy L expParameters
  let myEntropy ← (expParameters.entropyE L).run
  let scipyEntropy ← scipyDistribution.entropy
  check (myEntropy = scipyEntropy)
  .ok s

mutual
/-- `check_observation_shape(nat_parameters, efax_x)` (test_match_scipy.py 60-76).  `domain_support` of a
class without one is a `NotImplementedError`. -/
noncomputable def checkObservationShape : Dist Cls → Tree Val → Except Err Unit
  | .mk c vals subs, efaxX =>
    if c = .jointN then
      match efaxX with
      | .node x => checkObservationShapes subs x
      | .leaf _ => .error .assertionError
    else
      match efaxX with
      | .node _ => .error .assertionError
      | .leaf v => do
        check (Cls.isJoint c = false)
        let dimensions ← if c.isMultidimensional then c.dimensions vals else .ok 0
        match c.domainSupport with
        | none => .error .notImplemented
        | some support => check (v.rshape = support.rshape dimensions)
/-- The loop over the parts (test_match_scipy.py 66-67). -/
noncomputable def checkObservationShapes : Subs Cls → Forest Val → Except Err Unit
  | .nil, _ => .ok ()
  | .cons name value rest, x => do
    match x.get? name with
    | none => .error .keyError
    | some t =>
      checkObservationShape value t
      checkObservationShapes rest x
end

/-- The body of the loop in `test_pdf` (test_match_scipy.py 82-99), where `draw` is the method `rvs` of the
distributions of `scipy.stats`.  The methods `pdf` and `pmf` are one method of `Oracle`. -/
noncomputable def pdfBody (L : Library Cls) (info : TestInfo) (g : Rng)
    (draw : Oracle → g.State → Tree Val × g.State) (s : g.State) : Except Err g.State := do
  let (natParameters, s) ← info.natParameters g [] s
  let scipyDistribution ← info.natToScipy L natParameters
  let (scipyX, s) := draw scipyDistribution s
  let efaxX ← info.observation scipyX
  checkObservationShape natParameters efaxX
  let efaxDensity ← (natParameters.pdf L efaxX).run
  let scipyDensity ← scipyDistribution.pdf scipyX
  check (efaxDensity = scipyDensity)
  .ok s

/-- `test_pdf` (test_match_scipy.py 79-99). -/
noncomputable def testPdf (L : Library Cls) (info : TestInfo) (g : Rng)
    (draw : Oracle → g.State → Tree Val × g.State) (s : g.State) : Except Err g.State :=
  times (pdfBody L info g draw) 10 s

/-- `prelude` (test_kl.py 20-29). -/
noncomputable def klPrelude (L : Library Cls) (info : TestInfo) (g : Rng) (s : g.State) :
    Except Err (Dist Cls × Dist Cls × Arr ℝ × g.State) := do
  let shape := [2, 3]
  let (x, s) ← info.expParameters L g shape s
  let (y, s) ← info.natParameters g shape s
  let myKl ← (x.klE L y).run
  .ok (x, y, myKl, s)

/-- `scipy_kl` for normal distributions, given the fields of two `NormalEP` (test_kl.py 37-41). -/
noncomputable def scipyNormalKl (xm xs ym ys : Val) : Calc ℝ :=
  let xv := Methods.normalVariance xm xs
  let yv := Methods.normalVariance ym ys
  0.5 * (xv / yv + square (ym.toR - xm.toR) / yv - 1.0 + log (yv / xv))

/-- `test_normal_kl` (test_kl.py 32-43). -/
noncomputable def testNormalKl (L : Library Cls) (g : Rng) (s : g.State) : Except Err g.State := do
  let (x, y, myKl, s) ← klPrelude L (.simple .normal 1) g s
  check (x.cls = .normalEP)
  check (y.cls = .normalNP)
  let y' ← y.toExp L.toExp
  match x.vals, y'.vals with
  | [xm, xs], [ym, ys] =>
    let scipyKl ← (scipyNormalKl xm xs ym ys).run
    check (myKl = scipyKl)
    .ok s
  | _, _ => .error .typeError

/-- `a @ b` for matrices in the last two axes; the batch axes must agree here. -/
def matMul (x y : Calc ℝ) : Calc ℝ := x.bind fun a => y.bind fun b =>
  match a.rshape, b.rshape with
  | n :: m :: rs, l :: n' :: rs' => if n = n' ∧ rs = rs' then
      ok (Arr.ofFn (l :: m :: rs) fun
        | c :: r :: i => ∑ k ∈ Finset.range n, a.get (k :: r :: i) * b.get (c :: k :: i)
        | _ => default)
    else fail .valueError
  | _, _ => fail .valueError

/-- `np.trace(a, axis1=-2, axis2=-1)`. -/
def traceLast (x : Calc ℝ) : Calc ℝ := x.bind fun a =>
  match a.rshape with
  | n :: m :: rs => ok (Arr.ofFn rs fun i => ∑ k ∈ Finset.range (min n m), a.get (k :: k :: i))
  | _ => fail .valueError

/-- `scipy_kl` for multivariate normal distributions, given the fields of two `MultivariateNormalEP`
(test_kl.py 51-59); the `einsum` is the sum of `md * (inv(yv) @ md)`. -/
noncomputable def scipyMvnKl (dimensions : ℕ) (xm xs ym ys : Val) : Calc ℝ :=
  let xv := Methods.mvVariance xm xs
  let yv := Methods.mvVariance ym ys
  let md := ym.toR - xm.toR
  let tq := traceLast (matMul (inv yv) xv)
  let mvm := sumLast (md * matVec (inv yv) md)
  0.5 * (tq + mvm - const (dimensions : ℝ) + log (det yv / det xv))

/-- `test_mvn_kl` (test_kl.py 46-62). -/
noncomputable def testMvnKl (L : Library Cls) (g : Rng) (s : g.State) : Except Err g.State := do
  let (x, y, myKl, s) ← klPrelude L (.simple .mvNormal 4) g s
  check (x.cls = .mvNormalEP)
  check (y.cls = .mvNormalNP)
  let y' ← y.toExp L.toExp
  let dimensions ← x.cls.dimensions x.vals
  match x.vals, y'.vals with
  | [xm, xs], [ym, ys] =>
    let scipyKl ← (scipyMvnKl dimensions xm xs ym ys).run
    check (myKl = scipyKl)
    .ok s
  | _, _ => .error .typeError

/-- `scipy_kl` for gamma distributions, given the fields of two `GammaNP` (test_kl.py 70-77). -/
noncomputable def scipyGammaKl (xr xs yr ys : Val) : Calc ℝ :=
  let xsh := xs.toR + 1.0
  let ysh := ys.toR + 1.0
  let xsc := -1.0 / xr.toR
  let ysc := -1.0 / yr.toR
  (xsc - ysc) / ysc * xsh + ysh.map gammaln - xsh.map gammaln + ysh * log ysc - xsh * log xsc +
    (xsh - ysh) * (log xsc + xsh.map digamma)

/-- `test_gamma_kl` (test_kl.py 65-80). -/
noncomputable def testGammaKl (L : Library Cls) (g : Rng) (s : g.State) : Except Err g.State := do
  let (x, y, myKl, s) ← klPrelude L (.simple .gamma 1) g s
  check (x.cls = .gammaEP)
  check (y.cls = .gammaNP)
  let x' ← x.toNat L.toNat
  match x'.vals, y.vals with
  | [xr, xs], [yr, ys] =>
    let scipyKl ← (scipyGammaKl xr xs yr ys).run
    check (myKl = scipyKl)
    .ok s
  | _, _ => .error .typeError

end Efax.Tests
