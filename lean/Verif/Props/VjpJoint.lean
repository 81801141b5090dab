import Verif.Lemmas.VjpJoint
import Verif.Props.VjpMore

/-!
# The Fisher information of joint distributions applied to a vector (C66)

For a joint distribution, `apply_fisher_information(vector)` applies the Fisher information of every part to
the part of the vector with the same name.
-/

namespace Efax

open MeasureTheory Spec Set
open scoped ComplexOrder

variable [MachEps] {search : Cls → List Val → Except Err (List Val)}

/-- A joint distribution, whose parts may be joint distributions: the expectation parameters and the
products are those of the parts. -/
theorem C66_joint {L : Library Cls} {parts vectors exps results : Subs Cls}
    (h : PartsApplied L parts vectors exps results) :
    (Dist.mk .jointN [] parts).applyFisher L (.mk .jointE [] vectors) =
        .ok (.mk .jointE [] exps, .mk .jointN [] results) ∧
      Steady L (.mk .jointN [] parts) :=
  ⟨h.joint, h.jointSteady⟩

/-! ### Parts for which it holds: small changes of the parameters do not make `to_exp()` fail -/

theorem C66_steady_bernoulli : ∀ rs p q,
    Steady (library search) (.mk .bernoulliNP (layS rs p q) .nil) :=
  movesS.one.steady C51_bernoulli rfl rfl rfl

theorem C66_steady_poisson : ∀ rs p q,
    Steady (library search) (.mk .poissonNP (layS rs p q) .nil) :=
  movesS.one.steady C51_poisson rfl rfl rfl

theorem C66_steady_geometric : ∀ rs p q,
    Steady (library search) (.mk .geometricNP (layS rs p q) .nil) :=
  movesS.one.steady C51_geometric rfl rfl rfl

theorem C66_steady_negative_binomial : ∀ rs p q,
    Steady (library search) (.mk .negativeBinomialNP (laySFixedInt rs p q) .nil) :=
  (movesS.both' movesInt).steady C51_negative_binomial rfl rfl rfl

theorem C66_steady_multinomial (d : ℕ) : ∀ rs p q,
    Steady (library search) (.mk .multinomialNP (layV (d + 1) rs p q) .nil) :=
  movesV.one.steady (C51_multinomial d) rfl rfl rfl

theorem C66_steady_exponential : ∀ rs p q,
    Steady (library search) (.mk .exponentialNP (layS rs p q) .nil) :=
  movesS.one.steady C51_exponential rfl rfl rfl

theorem C66_steady_chi_square : ∀ rs p q,
    Steady (library search) (.mk .chiSquareNP (layS rs p q) .nil) :=
  movesS.one.steady C51_chi_square rfl rfl rfl

theorem C66_steady_chi : ∀ rs p q,
    Steady (library search) (.mk .chiNP (layS rs p q) .nil) :=
  movesS.one.steady C51_chi rfl rfl rfl

theorem C66_steady_rayleigh : ∀ rs p q,
    Steady (library search) (.mk .rayleighNP (layS rs p q) .nil) :=
  movesS.one.steady C51_rayleigh rfl rfl rfl

theorem C66_steady_gamma : ∀ rs p q,
    Steady (library search) (.mk .gammaNP (laySS rs p q) .nil) :=
  (movesS.two movesS).steady C51_gamma rfl rfl rfl

theorem C66_steady_weibull : ∀ rs p q,
    Steady (library search) (.mk .weibullNP (layFixedS rs p q) .nil) :=
  (movesS.both movesS).steady C51_weibull rfl rfl rfl

theorem C66_steady_normal : ∀ rs p q,
    Steady (library search) (.mk .normalNP (laySS rs p q) .nil) :=
  (movesS.two movesS).steady C51_normal rfl rfl rfl

theorem C66_steady_unit_normal : ∀ rs p q,
    Steady (library search) (.mk .unitNormalNP (layS rs p q) .nil) :=
  movesS.one.steady C51_unit_normal rfl rfl rfl

theorem C66_steady_dirichlet (d : ℕ) : ∀ rs p q,
    Steady (library search) (.mk .dirichletNP (layV (d + 2) rs p q) .nil) :=
  movesV.one.steady (C51_dirichlet (d + 1)) rfl rfl rfl

theorem C66_steady_beta : ∀ rs p q,
    Steady (library search) (.mk .betaNP (layV 2 rs p q) .nil) :=
  movesV.one.steady C51_beta rfl rfl rfl

theorem C66_steady_gen_dirichlet (d : ℕ) : ∀ rs p q,
    Steady (library search) (.mk .genDirichletNP (layVV d rs p q) .nil) :=
  (movesV.two movesV).steady (C51_gen_dirichlet d) rfl rfl rfl

theorem C66_steady_von_mises_fisher : ∀ rs p q,
    Steady (library search) (.mk .vonMisesFisherNP (layE (n + 1) rs p q) .nil) :=
  movesE.one.steady (C51_von_mises (n + 1)) rfl rfl rfl

theorem C66_steady_mv_unit (d : ℕ) : ∀ rs p q,
    Steady (library search) (.mk .mvUnitNormalNP (layV d rs p q) .nil) :=
  movesV.one.steady (C51_mv_unit d) rfl rfl rfl

theorem C66_steady_mv_fixed (d : ℕ) : ∀ rs p q,
    Steady (library search) (.mk .fixedVarianceNormalNP (layVFixed d rs p q) .nil) :=
  (movesV.both' movesS).steady (C51_mv_fixed d) rfl rfl rfl

theorem C66_steady_mv_diagonal (d : ℕ) : ∀ rs p q,
    Steady (library search) (.mk .diagonalNormalNP (layVV d rs p q) .nil) :=
  (movesV.two movesV).steady (C51_mv_diagonal d) rfl rfl rfl

theorem C66_steady_mv_isotropic (d : ℕ) : ∀ rs p q,
    Steady (library search) (.mk .isotropicNormalNP (layVS (d + 1) rs p q) .nil) :=
  (movesV.two movesS).steady (C51_mv_isotropic (d + 1)) rfl rfl rfl

theorem C66_steady_complex_unit : ∀ rs p q,
    Steady (library search) (.mk .complexUnitNormalNP (layC rs p q) .nil) :=
  movesC.one.steady C51_complex_unit rfl rfl rfl

theorem C66_steady_complex_normal : ∀ rs p q,
    Steady (library search) (.mk .complexNormalNP (layCSC rs p q) .nil) :=
  (movesC.three movesS movesC).steady C51_complex_normal rfl rfl rfl

theorem C66_steady_cmv_unit (d : ℕ) : ∀ rs p q,
    Steady (library search) (.mk .cmvUnitNormalNP (layCV d rs p q) .nil) :=
  movesCV.one.steady (C51_cmv_unit d) rfl rfl rfl

/-- For example, the Fisher information of the joint distribution of a normal and a Poisson variable is applied to
the vector part by part. -/
theorem C66_normal_poisson (rs : List ℕ) (q v : List ℕ → ℝ × ℝ) (r w : List ℕ → ℝ)
    (hq : ∀ i, inB rs i = true → q i ∈ normalDom) : ∃ x y,
    (Dist.mk .jointN [] (.cons "a" (.mk .normalNP (laySS rs (fun _ => ()) q) .nil)
        (.cons "b" (.mk .poissonNP (layS rs (fun _ => ()) r) .nil) .nil))).applyFisher (library search)
      (.mk .jointE [] (.cons "a" (.mk .normalEP (laySS rs (fun _ => ()) v) .nil)
        (.cons "b" (.mk .poissonEP (layS rs (fun _ => ()) w) .nil) .nil))) =
      .ok (.mk .jointE [] (.cons "a" (.mk .normalEP (laySS rs (fun _ => ()) fun i => normal.toExp (q i)) .nil)
        (.cons "b" (.mk .poissonEP (layS rs (fun _ => ()) fun i => poisson.toExp (r i)) .nil) .nil)),
        .mk .jointN [] (.cons "a" (.mk .normalNP (laySS rs (fun _ => ()) x) .nil)
        (.cons "b" (.mk .poissonNP (layS rs (fun _ => ()) y) .nil) .nil))) ∧
    ∀ i, inB rs i = true →
      (∀ z, HasCov volume (normal.pdf (q i)) (fun o => normal.dot z (normal.stat o))
        (fun o => normal.dot (v i) (normal.stat o)) (normal.dot z (x i))) ∧
      HasCov Measure.count (poisson.pdf (r i)) (fun o => poisson.stat o)
        (fun o => w i * poisson.stat o) (y i) := by
  obtain ⟨_, x, h1, hx⟩ := C66_normal (search := search) rs (fun _ => ()) q (fun _ => ()) v fun i hi =>
    ⟨hq i hi, trivial⟩
  obtain ⟨_, y, h2, hy⟩ := C66_poisson (search := search) rs (fun _ => ()) r (fun _ => ()) w fun i hi =>
    ⟨trivial, trivial⟩
  refine ⟨x, y, (C66_joint (.cons h1 (C66_steady_normal _ _ _) (.cons h2 (C66_steady_poisson _ _ _) .nil))).1,
    fun i hi => ⟨fun z => hx i hi z trivial, ?_⟩⟩
  simpa [poisson] using hy i hi 1 trivial

-- The hypotheses can be satisfied.
example : ((5, -2) : ℝ × ℝ) ∈ normalDom := by norm_num [normalDom]

end Efax
