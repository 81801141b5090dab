import Verif.Model.Tests.ScipyStats
import Verif.Model.Scipy.DirichletArrays
import Verif.Model.Classes
import Verif.Model.Methods.Tree
import Verif.Model.Methods.Normal
import Verif.Model.Methods.Simplex

/-!
# The descriptions of the distributions in the test-suite

`tests/create_info.py` and `tests/distribution_info.py`: how the tests translate distributions and
observations between efax and `scipy.stats`.
-/

namespace Efax.Tests

open Calc

/-- The subclasses of `DistributionInfo` for simple distributions (create_info.py 33-474). -/
inductive SimpleInfo
  | bernoulli | geometric | poisson | negativeBinomial | logarithmic | normal | unitNormal | mvFixed | mvUnit
  | isotropic | mvDiagonal | mvNormal | complexUnit | complexNormal | cmvUnit | cmvCircular | exponential
  | rayleigh | beta | gamma | dirichlet | genDirichlet | vonMises | vonMisesFisher | chiSquare | chi | weibull

mutual
/-- A `DistributionInfo` (distribution_info.py 19-22): one of the simple ones with its `dimensions`, or
`JointInfo` (create_info.py 477-480) with the dictionary `infos`. -/
inductive TestInfo : Type
  | simple (s : SimpleInfo) (dimensions : ℕ) : TestInfo
  | joint (infos : TestInfos) : TestInfo
/-- The dictionary `infos` of `JointInfo`. -/
inductive TestInfos : Type
  | nil : TestInfos
  | cons (name : String) (info : TestInfo) (rest : TestInfos) : TestInfos
end

/-! ### Replacements for `scipy.stats` as oracles -/

/-- An array of distributions with real observations. -/
noncomputable def shapedOracle (D : Scipy.Shaped (Scipy.Frozen ℝ Empty)) : Oracle :=
  arrayOracle (fun x => do D.pdf (← x.toR.run)) D.entropy

/-- An array of distributions with complex observations. -/
noncomputable def complexOracle (D : Scipy.Shaped (Scipy.Frozen ℂ Empty)) : Oracle :=
  arrayOracle (fun x => D.pdf x.toC) D.entropy

/-- `ScipyMultivariateNormal.from_mc(mean=mean, cov=cov)`. -/
noncomputable def fromMc (mean : Calc ℝ) (cov : Option (Calc ℝ)) : Except Err Oracle := do
  let mean ← mean.run
  let cov ← match cov with
    | some c => do .ok (some (← c.run))
    | none => .ok none
  .ok (shapedOracle (← Scipy.fromMc (some mean) cov fun _ _ g => g.elim))

/-- `ScipyComplexNormal(mean, variance, pseudo_variance)`. -/
noncomputable def complexNormal (mean : Arr ℂ) (variance : Calc ℝ) (pseudoVariance : Calc ℂ) :
    Except Err Oracle := do
  let D ← Scipy.complexNormalNew (some mean) (some (← variance.run)) (some (← pseudoVariance.run))
  .ok (complexOracle (Scipy.complexNormalShaped D fun _ _ g => g.elim))

/-- `ScipyComplexMultivariateNormal(mean, variance)`. -/
noncomputable def complexMvNormal (mean variance : Option (Arr ℂ)) : Except Err Oracle := do
  let ⟨_, D⟩ ← Scipy.complexMvNormalNew mean variance none
  .ok (complexOracle (Scipy.complexMvNormalShaped D fun _ _ g => g.elim))

/-- `scipy.stats.vonmises(kappa).entropy()`, as SciPy computes it:
`-kappa * i1e(kappa) / i0e(kappa) + log(2 * pi * i0e(kappa)) + kappa`. -/
noncomputable def vonMisesEntropy (kappa : ℝ) : ℝ :=
  let i0e := besselI 0 kappa * Real.exp (-|kappa|)
  let i1e := besselI 1 kappa * Real.exp (-|kappa|)
  (-kappa) * i1e / i0e + Real.log (2 * Real.pi * i0e) + kappa

/-- `scipy.stats.vonmises_fisher(mu, kappa).entropy()` in `dim` dimensions, as SciPy computes it:
`-log_norm_factor - kappa * ive(halfdim, kappa) / ive(halfdim - 1, kappa)`. -/
noncomputable def vonMisesFisherEntropy (dim : ℕ) (kappa : ℝ) : ℝ :=
  let halfdim := 0.5 * (dim : ℝ)
  let ive := fun v : ℝ => besselI v kappa * Real.exp (-|kappa|)
  let logNormFactor := 0.5 * ((dim : ℝ) - 2) * Real.log kappa - halfdim * Real.log (2 * Real.pi) -
    Real.log (ive (halfdim - 1)) - kappa
  (-logNormFactor) - kappa * ive halfdim / ive (halfdim - 1)

/-- `ScipyVonMises(kappa, angle)`. -/
noncomputable def vonMises (kappa angle : Calc ℝ) : Except Err Oracle := do
  let D ← Scipy.vonMisesNew (← kappa.run) (some (← angle.run)) (fun _ _ _ g => g.elim) vonMisesEntropy
  .ok (shapedOracle D)

/-- `ScipyVonMisesFisher(mu, kappa)`. -/
noncomputable def vonMisesFisher (mu kappa : Calc ℝ) : Except Err Oracle := do
  let mu ← mu.run
  let D ← Scipy.vonMisesFisherNew mu (← kappa.run) (fun _ _ g => g.elim)
    (vonMisesFisherEntropy (mu.rshape.headD 0))
  .ok (shapedOracle D)

/-- `ScipyDirichlet(alpha)`. -/
noncomputable def dirichlet (alpha : Calc ℝ) : Except Err Oracle := do
  let D ← Scipy.dirichletNew (← alpha.run) fun _ _ g => g.elim
  .ok (shapedOracle D)

/-- `ScipyGeneralizedDirichlet(alpha, beta)`; its `entropy` raises (dirichlet.py 88-89). -/
noncomputable def genDirichlet (alpha beta : Calc ℝ) : Except Err Oracle := do
  let alpha ← alpha.run
  let beta ← beta.run
  .ok (arrayOracle (fun x => do Scipy.genDirichletArrPdf alpha beta (← x.toR.run)) (.error .runtimeError))

/-! ### Arrays -/

/-- The covariances in `MultivariateFixedVarianceNormalInfo` (create_info.py 143-145): identity matrices
times the variances.  `p.shape` is that of the mean without its last axis; if the variances have another
shape, the assignments fail (here always `IndexError`). -/
noncomputable def tileVariance (mean variance : Arr ℝ) : Except Err (Arr ℝ) := do
  let n ← mean.lastDim
  if variance.rshape ≠ mean.rshape.tail then .error .indexError
  .ok (Arr.ofFn (n :: n :: mean.rshape.tail) fun
    | c :: r :: i => (if r = c then 1 else 0) * variance.get i
    | _ => 0)

/-- `np.multiply.outer(v, np.eye(n))` (create_info.py 176-179). -/
noncomputable def outerEye (n : ℕ) (v : Arr ℝ) : Arr ℝ :=
  Arr.ofFn (n :: n :: v.rshape) fun
    | c :: r :: i => v.get i * (if r = c then 1 else 0)
    | _ => 0

/-- `create_diagonal_array(v)` of tjax (create_info.py 196). -/
noncomputable def diagonalArray (v : Arr ℝ) : Except Err (Arr ℝ) := do
  let n ← v.lastDim
  .ok (Arr.ofFn (n :: n :: v.rshape.tail) fun
    | c :: r :: i => if r = c then v.get (r :: i) else 0
    | _ => 0)

/-- `np.tril(v) + np.triu(v.swapaxes(-1, -2), 1)` (create_info.py 215-216). -/
noncomputable def symmetrized (v : Arr ℝ) : Except Err (Arr ℝ) :=
  match v.rshape with
  | m :: n :: rs => if m = n then
      .ok (Arr.ofFn (n :: n :: rs) fun
        | c :: r :: i => (if c ≤ r then v.get (c :: r :: i) else 0) + if r < c then v.get (r :: c :: i) else 0
        | _ => 0)
      else .error .valueError
  | _ => .error .valueError

/-! ### Translation of distributions -/

/-- `exp_to_scipy_distribution` for the values of the parameters, where it is overridden (create_info.py
34-36, 48-52, 68-70, 83-85, 111-113, 125-127, 141-146, 160-162, 174-179, 193-197, 210-217, 230-235,
247-255, 268-270, 284-286, 298-300, 312-314, 463-466). -/
noncomputable def SimpleInfo.expTo (dimensions : ℕ) : SimpleInfo → Option (List Val → Except Err Oracle)
  | bernoulli => some fun
    | [p] => frozen ssBernoulli discreteEntropy p.toR
    | _ => .error .typeError
  | geometric => some fun
    | [m] => frozen ssGeom discreteEntropy (1.0 / (1.0 + m.toR))
    | _ => .error .typeError
  | poisson => some fun
    | [m] => frozen ssPoisson discreteEntropy m.toR
    | _ => .error .typeError
  | negativeBinomial => some fun
    | [m, failures] =>
      frozen ssNbinom discreteEntropy (args2 failures.toR (1.0 / (1.0 + m.toR / failures.toR)))
    | _ => .error .typeError
  | normal => some fun
    | [m, s] => frozen ssNorm continuousEntropy (args2 m.toR ((Methods.normalVariance m s).map Real.sqrt))
    | _ => .error .typeError
  | unitNormal => some fun
    | [m] => frozen ssNorm continuousEntropy (args2 m.toR 1.0)
    | _ => .error .typeError
  | mvFixed => some fun
    | [m, v] => fromMc m.toR (some (m.toR.bind fun m => v.toR.bind fun v => tileVariance m v))
    | _ => .error .typeError
  | mvUnit => some fun
    | [m] => fromMc m.toR none
    | _ => .error .typeError
  | isotropic => some fun
    | [m, s] => fromMc m.toR (some ((Methods.isotropicVariance m s).bind fun v => ok (outerEye dimensions v)))
    | _ => .error .typeError
  | mvDiagonal => some fun
    | [m, s] => fromMc m.toR (some ((Methods.diagonalVariance m s).bind fun v => diagonalArray v))
    | _ => .error .typeError
  | mvNormal => some fun
    | [m, s] => fromMc m.toR (some ((Methods.mvVariance m s).bind fun v => symmetrized v))
    | _ => .error .typeError
  | complexUnit => some fun
    | [m] => Tests.complexNormal m.toC (ok (Arr.full m.toC.rshape 1)) (ok (Arr.full m.toC.rshape 0))
    | _ => .error .typeError
  | complexNormal => some fun
    | [m, s, t] => Tests.complexNormal m.toC (s.toR - absSquare m.toCalcC) (t.toCalcC - square m.toCalcC)
    | _ => .error .typeError
  | cmvUnit => some fun
    | [m] => complexMvNormal (some m.toC) none
    | _ => .error .typeError
  | cmvCircular => some fun
    | [v] => complexMvNormal none (some v.toC)
    | _ => .error .typeError
  | exponential => some fun
    | [m] => frozen ssExpon continuousEntropy (args2 0 m.toR)
    | _ => .error .typeError
  | rayleigh => some fun
    | [x] => frozen ssRayleigh continuousEntropy ((x.toR / 2.0).map Real.sqrt)
    | _ => .error .typeError
  | weibull => some fun
    | [concentration, x] =>
      let scale := bin (fun a b : ℝ => a ^ b) x.toR (1.0 / concentration.toR)
      frozen ssWeibull continuousEntropy (args2 concentration.toR scale)
    | _ => .error .typeError
  | logarithmic | beta | gamma | dirichlet | genDirichlet | vonMises | vonMisesFisher | chiSquare | chi => none

/-- `nat_to_scipy_distribution` for the values of the parameters, where it is overridden (create_info.py
97-99, 329-332, 344-348, 360-362, 379-382, 397-400, 419-423, 435-437, 449-451). -/
noncomputable def SimpleInfo.natTo : SimpleInfo → Option (List Val → Except Err Oracle)
  | logarithmic => some fun
    | [q] => frozen ssLogser discreteEntropy (exp q.toR)
    | _ => .error .typeError
  | beta => some fun
    | [a] =>
      let n1 := a.toR + 1.0
      frozen ssBeta continuousEntropy (args2 (n1.at_ 0) (n1.at_ 1))
    | _ => .error .typeError
  | gamma => some fun
    | [r, s] =>
      let shape := s.toR + 1.0
      let scale := -1.0 / r.toR
      frozen ssGamma continuousEntropy (args2 shape scale)
    | _ => .error .typeError
  | dirichlet => some fun
    | [a] => Tests.dirichlet (a.toR + 1.0)
    | _ => .error .typeError
  | genDirichlet => some fun
    | [a, g] => Tests.genDirichlet (Methods.genDirichletAlphaBeta a g).1 (Methods.genDirichletAlphaBeta a g).2
    | _ => .error .typeError
  | vonMises => some fun
    | [a] => do
      let (kappa, angle) ← Methods.vmfToKappaAngle a
      Tests.vonMises kappa angle
    | _ => .error .typeError
  | vonMisesFisher => some fun
    | [a] =>
      let kappa := Methods.vmfKappa a
      Tests.vonMisesFisher (a.toR / kappa.newaxis) kappa
    | _ => .error .typeError
  | chiSquare => some fun
    | [k] => frozen ssChi2 continuousEntropy ((k.toR + 1.0) * 2.0)
    | _ => .error .typeError
  | chi => some fun
    | [k] => frozen ssChi continuousEntropy ((k.toR + 1.0) * 2.0)
    | _ => .error .typeError
  | _ => none

variable [MachEps]

mutual
/-- `nat_to_scipy_distribution` (distribution_info.py 32-38, create_info.py 482-486): the default converts
to expectation parameters; a joint distribution is translated part by part. -/
noncomputable def TestInfo.natToScipy (L : Library Cls) : TestInfo → Dist Cls → Except Err Oracle
  | .simple s dimensions, q =>
    match s.natTo, s.expTo dimensions with
    | some f, _ => f q.vals
    | none, some g => do g (← q.toExp L.toExp).vals
    | none, none => .error .typeError
  | .joint infos, q => do
    let subs ← TestInfos.natToScipy L infos q.subs.toList
    .ok { rvs := fun size => size.elim
          pdf := fun
            | .node z => Scipy.jointPdf subs z.toList
            | .leaf _ => .error .typeError
          entropy := Scipy.jointEntropy subs }
/-- The dictionary comprehension of `JointInfo.nat_to_scipy_distribution` (create_info.py 484-486). -/
noncomputable def TestInfos.natToScipy (L : Library Cls) : TestInfos → Dict String (Dist Cls) →
    Except Err (Dict String Oracle)
  | .nil, _ => .ok []
  | .cons name info rest, q => do
    let o ← TestInfo.natToScipy L info (← q.get name)
    let os ← TestInfos.natToScipy L rest q
    .ok ((name, o) :: os)
end

/-- `exp_to_scipy_distribution` (distribution_info.py 24-30): the default converts to natural
parameters. -/
noncomputable def TestInfo.expToScipy (L : Library Cls) (info : TestInfo) (p : Dist Cls) :
    Except Err Oracle :=
  match info with
  | .simple s dimensions =>
    match s.expTo dimensions with
    | some f => f p.vals
    | none => do info.natToScipy L (← p.toNat L.toNat)
  | .joint _ => do info.natToScipy L (← p.toNat L.toNat)

/-! ### Translation of observations -/

/-- `scipy_to_exp_family_observation` of the simple infos (distribution_info.py 53-59, create_info.py
54-56, 364-366, 402-407).  The result of `jnp.asarray` has the type of its argument. -/
noncomputable def SimpleInfo.observation : SimpleInfo → Val → Except Err Val
  | geometric, x => Val.ofR (x.toR - 1)
  | dirichlet, x => Val.ofR x.toR.init
  | vonMises, x => Val.ofR (stack2 (x.toR.map Real.cos) (x.toR.map Real.sin))
  | _, x => .ok x

mutual
/-- `scipy_to_exp_family_observation` (create_info.py 488-492 for `JointInfo`).  A nested observation of a
simple distribution is a `TypeError` here. -/
noncomputable def TestInfo.observation : TestInfo → Tree Val → Except Err (Tree Val)
  | .simple s _, .leaf x => .leaf <$> s.observation x
  | .simple _ _, .node _ => .error .typeError
  | .joint infos, .node x => .node <$> TestInfos.observation infos x
  | .joint _, .leaf _ => .error .assertionError
/-- The dictionary comprehension of `JointInfo.scipy_to_exp_family_observation`. -/
noncomputable def TestInfos.observation : TestInfos → Forest Val → Except Err (Forest Val)
  | .nil, _ => .ok .nil
  | .cons name info rest, x => do
    match x.get? name with
    | none => .error .keyError
    | some t =>
      let o ← TestInfo.observation info t
      let os ← TestInfos.observation rest x
      .ok (.cons name o os)
end

/-! ### Structures -/

/-- `nat_class()` (create_info.py, every class). -/
def SimpleInfo.natCls : SimpleInfo → Cls
  | bernoulli => .bernoulliNP
  | geometric => .geometricNP
  | poisson => .poissonNP
  | negativeBinomial => .negativeBinomialNP
  | logarithmic => .logarithmicNP
  | normal => .normalNP
  | unitNormal => .unitNormalNP
  | mvFixed => .fixedVarianceNormalNP
  | mvUnit => .mvUnitNormalNP
  | isotropic => .isotropicNormalNP
  | mvDiagonal => .diagonalNormalNP
  | mvNormal => .mvNormalNP
  | complexUnit => .complexUnitNormalNP
  | complexNormal => .complexNormalNP
  | cmvUnit => .cmvUnitNormalNP
  | cmvCircular => .ccsnNP
  | exponential => .exponentialNP
  | rayleigh => .rayleighNP
  | beta => .betaNP
  | gamma => .gammaNP
  | dirichlet => .dirichletNP
  | genDirichlet => .genDirichletNP
  | vonMises => .vonMisesFisherNP
  | vonMisesFisher => .vonMisesFisherNP
  | chiSquare => .chiSquareNP
  | chi => .chiNP
  | weibull => .weibullNP

/-- `exp_class()` (create_info.py, every class). -/
def SimpleInfo.expCls : SimpleInfo → Cls
  | bernoulli => .bernoulliEP
  | geometric => .geometricEP
  | poisson => .poissonEP
  | negativeBinomial => .negativeBinomialEP
  | logarithmic => .logarithmicEP
  | normal => .normalEP
  | unitNormal => .unitNormalEP
  | mvFixed => .fixedVarianceNormalEP
  | mvUnit => .mvUnitNormalEP
  | isotropic => .isotropicNormalEP
  | mvDiagonal => .diagonalNormalEP
  | mvNormal => .mvNormalEP
  | complexUnit => .complexUnitNormalEP
  | complexNormal => .complexNormalEP
  | cmvUnit => .cmvUnitNormalEP
  | cmvCircular => .ccsnEP
  | exponential => .exponentialEP
  | rayleigh => .rayleighEP
  | beta => .betaEP
  | gamma => .gammaEP
  | dirichlet => .dirichletEP
  | genDirichlet => .genDirichletEP
  | vonMises => .vonMisesFisherEP
  | vonMisesFisher => .vonMisesFisherEP
  | chiSquare => .chiSquareEP
  | chi => .chiEP
  | weibull => .weibullEP

/-- The keys of the dictionary `infos`. -/
def TestInfos.names : TestInfos → List String
  | .nil => []
  | .cons name _ rest => name :: rest.names

mutual
/-- `nat_structure().infos` and `exp_structure().infos` (distribution_info.py 61-65, create_info.py
494-518), where `cls` chooses the class of simple distributions and `joint` is that of joint distributions.
The path of a part is prolonged by its name at the end.  The attribute `dimensions` of `JointInfo` is the
default 1. -/
def TestInfo.structureOf (cls : SimpleInfo → Cls) (joint : Cls) : TestInfo → List (Info Cls)
  | .simple s dimensions => [⟨[], cls s, dimensions, []⟩]
  | .joint infos => TestInfos.structuresOf cls joint infos ++ [⟨[], joint, 1, infos.names⟩]
/-- The loop over the parts. -/
def TestInfos.structuresOf (cls : SimpleInfo → Cls) (joint : Cls) : TestInfos → List (Info Cls)
  | .nil => []
  | .cons name info rest =>
    (TestInfo.structureOf cls joint info).map (fun i => { i with path := i.path ++ [name] }) ++
      TestInfos.structuresOf cls joint rest
end

/-- `nat_structure().infos`. -/
def TestInfo.natStructure : TestInfo → List (Info Cls) := TestInfo.structureOf SimpleInfo.natCls .jointN

/-- `exp_structure().infos`. -/
def TestInfo.expStructure : TestInfo → List (Info Cls) := TestInfo.structureOf SimpleInfo.expCls .jointE

end Efax.Tests
