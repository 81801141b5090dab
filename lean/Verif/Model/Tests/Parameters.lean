import Verif.Model.Tests.Infos
import Verif.Model.Generate

/-!
# The random parameters of the tests
-/

namespace Efax.Tests

/-- `nat_parameter_generator(rng, shape)` (distribution_info.py 48-51). -/
noncomputable def TestInfo.natParameters [MachEps] (info : TestInfo) (g : Rng) (shape : List ℕ) (s : g.State) :
    Except Err (Dist Cls × g.State) :=
  generateRandom info.natStructure g shape s

/-- `exp_parameter_generator(rng, shape)` (distribution_info.py 40-46). -/
noncomputable def TestInfo.expParameters [MachEps] (L : Library Cls) (info : TestInfo) (g : Rng)
    (shape : List ℕ) (s : g.State) : Except Err (Dist Cls × g.State) := do
  let (q, s') ← info.natParameters g shape s
  .ok (← q.toExp L.toExp, s')

end Efax.Tests
