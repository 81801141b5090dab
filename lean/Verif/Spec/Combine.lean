import Verif.Model.Classes
import Verif.Model.Methods.Tree

/-!
# Combining and scaling evidence (C103)
-/

namespace Efax.Spec

open Calc

/-- `lambda x, y: x + t * y`, to be passed to `parameter_map`: the addition and scaling of natural parameters of
which README.rst 82-83 speaks.  The parameters are real or complex numbers. -/
noncomputable def addScaled (t : ℝ) : List Val → Except Err Val
  | [.real x, .real y] => Val.ofR (ok x + const t * ok y)
  | [.complex x, .complex y] => Val.ofC (ok x + const (t : ℂ) * ok y)
  | _ => .error .typeError

/-- The classes whose domain is closed under addition: not those with the powers `x ^ q` for `-1 < q`, and not the von
Mises-Fisher distribution, whose parameters may cancel. -/
def Addable : Cls → Prop
  | .betaNP | .chiNP | .chiSquareNP | .dirichletNP | .gammaNP | .genDirichletNP | .vonMisesFisherNP => False
  | _ => True

/-- The classes whose domain is convex: all but the von Mises-Fisher distribution. -/
def Mixable : Cls → Prop
  | .vonMisesFisherNP => False
  | _ => True

end Efax.Spec
