import Verif.Spec.Estimate
import Verif.Spec.Setting
import Mathlib.MeasureTheory.Constructions.Pi

/-!
# Specification: the best possible unbiased estimation
-/

namespace Efax.Spec

open MeasureTheory Calc

variable [MachEps]

/-- The entry `i` of the batch `d` of distributions has the density `f`, and the expectation of the component of
its sufficient statistics in the direction `v` is `c`. -/
def Component (L : Library Cls) {K : Kind Cls} (S : Setting K) (rs : List ℕ) (d v : Dist Cls) (i : List ℕ)
    (f : K.X → ℝ) (c : ℝ) : Prop :=
  letI := S.ms
  ∃ g s, PdfIs L K rs d g ∧ StatisticIs L K rs d v s ∧ g i = f ∧ HasMean S.μ f (s i) c

/-- `T`, a function of independent observations of the entry `i`, has the expectation `c` under the density
`f` of one observation. -/
def Expects {K : Kind Cls} (S : Setting K) {ι : Type} [Fintype ι] (f : K.X → ℝ) (T : (ι → K.X) → ℝ) (c : ℝ) :
    Prop :=
  letI := S.ms
  HasMean (Measure.pi fun _ : ι => S.μ) (fun y => ∏ j, f (y j)) T c

/-- `T` estimates the expectation of the statistics in the direction `v` without bias, at least for the
parameters `q + t v` near `q`. -/
def Unbiased (L : Library Cls) {K : Kind Cls} (S : Setting K) (rs : List ℕ) (p : List ℕ → K.P)
    (q v : List ℕ → K.N) (i : List ℕ) {ι : Type} [Fintype ι] (T : (ι → K.X) → ℝ) : Prop :=
  ∀ᶠ t in nhds (0 : ℝ), ∃ f c,
    Component L S rs (K.nat rs p fun k => S.line (q k) (v k) t) (K.nat rs p v) i f c ∧ Expects S f T c

/-- The variance of the estimate `T` is `V`. -/
def HasVariance (L : Library Cls) {K : Kind Cls} (S : Setting K) (rs : List ℕ) (p : List ℕ → K.P)
    (q v : List ℕ → K.N) (i : List ℕ) {ι : Type} [Fintype ι] (T : (ι → K.X) → ℝ) (V : ℝ) : Prop :=
  ∃ f c, Component L S rs (K.nat rs p q) (K.nat rs p v) i f c ∧ Expects S f (fun y => (T y - c) ^ 2) V

/-- The component in the direction `v` of what the recipe for maximum likelihood estimation computes for the
entry `i`, from arrays of observations with the axes `ss` before the batch axes, is `T`. -/
def RecipeIs (L : Library Cls) (K : Kind Cls) (rs ss : List ℕ) (p : List ℕ → K.P) (v : List ℕ → K.N)
    (i : List ℕ) (T : (box ss → K.X) → ℝ) : Prop :=
  ∀ (χ : List ℕ → K.E) (x : List ℕ → K.X) (t : Tree Val), K.obs (rs ++ ss) x t →
    ∃ m d, Estimates L (K.exp rs p χ) ss.length t m ∧ dotCalc (K.nat rs p v) m = .ok (scalars rs d) ∧
      d i = T fun j => x (i ++ j)

/-- The log likelihoods of the observations `t` and `t'`, summed over their axes `ss`, differ by a number that
does not depend on the parameters. -/
def Equivalent (L : Library Cls) (K : Kind Cls) (S : Setting K) (rs ss : List ℕ) (p : List ℕ → K.P)
    (t t' : Tree Val) : Prop :=
  ∃ c : List ℕ → ℝ, ∀ q, S.Inside rs p q → ∃ l l', (K.nat rs p q).logPdf L t = ok (scalars (rs ++ ss) l) ∧
    (K.nat rs p q).logPdf L t' = ok (scalars (rs ++ ss) l') ∧
    ∀ i, inB rs i = true → ∑ j ∈ box ss, l (i ++ j) = ∑ j ∈ box ss, l' (i ++ j) + c i

end Efax.Spec
