import Verif.Spec.Setting

/-!
# Straight lines between natural parameters
-/

namespace Efax.Spec

/-- The natural parameters on the line from `a` to `b`. -/
def Setting.between {C : Type} {K : Kind C} (S : Setting K) (a b : K.N) (s : ℝ) : K.N :=
  letI := S.grp
  letI := S.mod
  (1 - s) • a + s • b

/-- `Setting.between` for parts. -/
def Settings.between {C : Type} {R : Parts C} (S : Settings R) (a b : R.N) (s : ℝ) : R.N :=
  letI := S.grp
  letI := S.mod
  (1 - s) • a + s • b

end Efax.Spec
