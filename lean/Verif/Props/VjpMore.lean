import Verif.Props.Vjp
import Verif.Lemmas.VjpMatrix
import Verif.Lemmas.Fisher

/-!
# The Fisher information applied to a vector: matrices, cut-offs, fixed parameters, joint distributions (C66)
-/

namespace Efax

open MeasureTheory Spec Set
open scoped ComplexOrder

variable [MachEps] {search : Cls → List Val → Except Err (List Val)}

/-- Multivariate normal: for the vectors and the directions with symmetric matrices. -/
theorem C66_mv_normal (d : ℕ) : FisherApplied (library search)
    (fun rs p q => .mk .mvNormalNP (layVM d rs p q) .nil) (fun rs p q => .mk .mvNormalEP (layVM d rs p q) .nil)
    (fun _ => mvNormal d) volume (fun _ => mvNormalDom d) (symmetricDirs d) :=
  VLay.applied (slotV.two slotM) (C51_mv_normal d) rfl rfl rfl (fun _ _ _ => rfl) (fun _ _ _ => trivial)
    fun _ q v hq hv => ⟨mvDeriv q v, fun e => ⟨mvNormal_deriv q v (mvNormal_unit q hq) e, .of_forall fun _ => trivial⟩,
      fun _ hw => (mvNormal_regular d).toLocallyRegular.cov_of_deriv hq hv hw
        (mvNormal_deriv q v (mvNormal_unit q hq) _)⟩

/-- Circularly symmetric complex normal: for the vectors and the directions that are Hermitian. -/
theorem C66_cmv_circular (d : ℕ) : FisherApplied (library search)
    (fun rs p q => .mk .ccsnNP (layCM d rs p q) .nil) (fun rs p q => .mk .ccsnEP (layCM d rs p q) .nil)
    (fun _ => cmvCircular d) volume (fun _ => cmvCircularDom d) (hermitianDirs d) := by
  have hu : ∀ q ∈ cmvCircularDom d, IsUnit (-q).det := fun q h =>
    (Matrix.isUnit_iff_isUnit_det _).1 (Matrix.PosDef.isUnit h)
  refine VLay.applied slotCM.one (C51_cmv_circular d) rfl rfl rfl (fun _ a b => ?_) (fun _ _ _ => trivial)
    fun _ q v hq hv => ⟨circularDeriv q v, fun e => ⟨cmvCircular_deriv q v (hu q hq) e, .of_forall fun _ => trivial⟩,
      fun _ hw => (cmvCircular_regular d).toLocallyRegular.cov_of_deriv hq hv hw
        (cmvCircular_deriv q v (hu q hq) _)⟩
  simp only [cmvCircular, Complex.re_sum]

-- The domains are not empty.
example : ((0, -1) : (Fin 3 → ℝ) × Matrix (Fin 3) (Fin 3) ℝ) ∈ mvNormalDom 3 ∧
    ((0, 1) : (Fin 3 → ℝ) × Matrix (Fin 3) (Fin 3) ℝ) ∈ symmetricDirs 3 ∧
    (-1 : Matrix (Fin 3) (Fin 3) ℂ) ∈ cmvCircularDom 3 ∧ (1 : Matrix (Fin 3) (Fin 3) ℂ) ∈ hermitianDirs 3 := by
  refine ⟨?_, Matrix.isSymm_one, ?_, Matrix.isHermitian_one⟩
  · change (- -1 : Matrix (Fin 3) (Fin 3) ℝ).PosDef
    rw [neg_neg]; exact Matrix.PosDef.one
  · change (- -1 : Matrix (Fin 3) (Fin 3) ℂ).PosDef
    rw [neg_neg]; exact Matrix.PosDef.one

/-! ### Below the cut-off of the logarithmic distribution -/

theorem logarithmic_toExp_floor (rs : List ℕ) (p : List ℕ → Unit) {q : List ℕ → ℝ}
    (h : ∀ i, inB rs i = true → q i < logProbabilityFloor) :
    Methods.logarithmicNP.toExp (layS rs p q) = .ok (layS rs p fun _ => 1) := by
  simp only [Methods.logarithmicNP, layS, toR_real, Calc.whereE]
  calc_simp
  rw [finite_scalars rs _ (fun _ => 1) fun i hi => by simp [h i hi]]
  rfl

/-- Below the cut-off of `to_exp()`, the result of `apply_fisher_information` is zero. -/
theorem C66_logarithmic_floor (rs : List ℕ) (p : List ℕ → Unit) (q v : List ℕ → ℝ)
    (h : ∀ i, inB rs i = true → q i < logProbabilityFloor) :
    (Dist.mk .logarithmicNP (layS rs p q) .nil).applyFisher (library search)
      (.mk .logarithmicEP (layS rs p v) .nil) =
      .ok (.mk .logarithmicEP (layS rs p fun _ => 1) .nil, .mk .logarithmicNP (layS rs p fun _ => 0) .nil) := by
  refine (applyFisher_simple (m := Methods.logarithmicNP) (v := layS rs p v) rfl rfl rfl
    (logarithmic_toExp_floor rs p h) (slotS.one.same rs p v p _)).trans
    (congrArg _ (congrArg _ (congrArg (fun x => Dist.mk Cls.logarithmicNP [.real x] .nil)
      (Arr.ext rfl fun i hi => ?_))))
  have hi : inB rs i = true := hi
  refine (Arr.ofFn_get (rs := rs) hi).trans (Eq.trans ?_ (Arr.ofFn_get (rs := rs) hi).symm)
  change deriv (fun t : ℝ => pairVals (layS rs p v) (Methods.logarithmicNP.toExp
    ((layS rs p q).modify 0 (Val.nudge i (t * 1))))) 0 = _
  have he : (fun t : ℝ => pairVals (layS rs p v) (Methods.logarithmicNP.toExp
      ((layS rs p q).modify 0 (Val.nudge i (t * 1))))) =ᶠ[nhds 0]
      fun _ => pairVals (layS rs p v) (.ok (layS rs p fun _ => 1)) := by
    have hc : Continuous fun t : ℝ => q i + t := by fun_prop
    filter_upwards [hc.continuousAt.eventually_lt continuousAt_const (by simpa using h i hi)] with t ht
    have hn : (layS rs p q).modify 0 (Val.nudge i (t * 1)) =
        layS rs p (Function.update q i (q i + t)) := by
      simp only [List.modify_succ_cons, List.modify_zero_cons, layS, layFixedS, layVFixed, nudge_scalars]
    rw [hn, logarithmic_toExp_floor rs p fun j hj => by
      by_cases e : j = i
      · simpa [e] using ht
      · simpa [e] using h j hj]
  rw [he.deriv_eq, deriv_const]

/-- C66 is violated below the cut-off: the variance is not zero there. -/
theorem C66_not_logarithmic : ¬FisherApplied (library search)
    (fun rs p q => .mk .logarithmicNP (layS rs p q) .nil) (fun rs p q => .mk .logarithmicEP (layS rs p q) .nil)
    (fun _ : Unit => logarithmic) Measure.count (fun _ => Iio 0) ⊤ := by
  intro h
  obtain ⟨p', u, h1, h2⟩ := h [] (fun _ => ()) (fun _ => -60) (fun _ => ()) (fun _ => 1)
    fun _ _ => ⟨by norm_num, trivial⟩
  have h3 := C66_logarithmic_floor (search := search) [] (fun _ => ()) (fun _ => -60) (fun _ => 1)
    fun _ _ => by norm_num [logProbabilityFloor]
  rw [h3] at h1
  have h4 := (Prod.ext_iff.1 (Except.ok.inj h1)).2
  have h5 : u [] = 0 := by
    have := congrArg (fun a : Arr ℝ => a.get []) (Val.real.inj (List.cons.inj (Dist.mk.inj h4).2.1).1)
    exact this.symm
  have h6 := h2 [] rfl 1 trivial
  rw [h5] at h6
  have h7 := posDef_of_cov (n := 1) (g := fun _ x => logarithmic.dot 1 (logarithmic.stat x)) (M := 0)
    (fun x => logarithmic.pdf_pos (-60) x) (fun _ _ => by simpa [logarithmic] using h6) fun z c hz => by
      have := logarithmic_minimal (z 0) trivial c (by
        filter_upwards [hz] with x hx
        simpa [logarithmic] using hx)
      funext k
      rw [Subsingleton.elim k 0, this]
      rfl
  exact lt_irrefl _ (h7.diag_pos (i := 0))

/-! ### The fixed parameters of the result -/

theorem sumBox_mul_update {rs : List ℕ} {i : List ℕ} (hi : inB rs i = true) (p p₁ : List ℕ → ℝ) (t : ℝ) :
    sumBox rs (fun j => p₁ j * Function.update p i (p i + t) j) =
      sumBox rs (fun j => if j = i then 0 else p₁ j * p j) + p₁ i * (p i + t) :=
  sumBox_update hi p (p i + t) fun j x => p₁ j * x

/-- The concentration of the result is the concentration of the vector: `vjp` also differentiates with
respect to the fixed parameters, which `to_exp()` copies. -/
theorem C66_weibull_concentration (rs : List ℕ) (p q p₁ v : List ℕ → ℝ) : ∃ e u,
    (Dist.mk .weibullNP (layFixedS rs p q) .nil).applyFisher (library search)
      (.mk .weibullEP (layFixedS rs p₁ v) .nil) = .ok (e, .mk .weibullNP (layFixedS rs p₁ u) .nil) := by
  have hT := fun p => C51_weibull.toExp rs p q fun _ _ => trivial
  obtain ⟨u, hu⟩ := fixedS.grad rs q (fun i z => deriv (fun t : ℝ =>
      pairVals (layFixedS rs p₁ v) (Methods.weibullNP.toExp
        ((layFixedS rs p q).modify 1 (Val.nudge i (t * z))))) 0)
  refine ⟨_, u, (applyFisher_simple (m := Methods.weibullNP) (v := layFixedS rs p₁ v) rfl rfl rfl (hT p)
    ((slotS.fixedVar fixedS).same rs p₁ v p _)).trans (congrArg _ (congrArg _ ?_))⟩
  refine congrArg₂ (fun x y => Dist.mk Cls.weibullNP [.real x, y] .nil) (Arr.ext rfl fun i hi => ?_) hu
  have hi : inB rs i = true := hi
  refine (Arr.ofFn_get (rs := rs) hi).trans (Eq.trans ?_ (Arr.ofFn_get (rs := rs) hi).symm)
  change deriv (fun t : ℝ => pairVals (layFixedS rs p₁ v) (Methods.weibullNP.toExp
    ((layFixedS rs p q).modify 0 (Val.nudge i (t * 1))))) 0 = _
  have he : ∀ t : ℝ, pairVals (layFixedS rs p₁ v) (Methods.weibullNP.toExp
      ((layFixedS rs p q).modify 0 (Val.nudge i (t * 1)))) =
      sumBox rs (fun j => if j = i then 0 else p₁ j * p j) + p₁ i * (p i + t) +
        sumBox rs (fun j => v j * (weibull (p j)).toExp (q j)) := by
    intro t
    have hn : (layFixedS rs p q).modify 0 (Val.nudge i (t * 1)) =
        layFixedS rs (Function.update p i (p i + t)) q := by
      simp only [List.modify_succ_cons, List.modify_zero_cons, layS, layFixedS, layVFixed, nudge_scalars]
    rw [hn, hT]
    simp only [pairVals, layFixedS, List.zipWith_cons_cons, List.zipWith_nil_left, List.sum_cons, List.sum_nil,
      slotS.pair, add_zero, sumBox_mul_update hi]
    rfl
  simp only [he]
  have h := ((((hasDerivAt_id (0 : ℝ)).const_add (p i)).const_mul (p₁ i)).const_add
    (sumBox rs fun j => if j = i then 0 else p₁ j * p j)).add_const
      (sumBox rs (fun j => v j * (weibull (p j)).toExp (q j)))
  simpa using h.deriv

/-- The variance of the result is the derivative with respect to the variance, which `to_exp()` copies
and multiplies by the natural parameter. -/
theorem C66_mv_fixed_variance (d : ℕ) (rs : List ℕ) (p p₁ : List ℕ → ℝ) (q v : List ℕ → Fin d → ℝ) : ∃ e u,
    (Dist.mk .fixedVarianceNormalNP (layVFixed d rs p q) .nil).applyFisher (library search)
      (.mk .fixedVarianceNormalEP (layVFixed d rs p₁ v) .nil) =
      .ok (e, .mk .fixedVarianceNormalNP (layVFixed d rs (fun i => p₁ i + ∑ k, v i k * q i k) u) .nil) := by
  have hT := fun p => (C51_mv_fixed d).toExp rs p q fun _ _ => trivial
  obtain ⟨u, hu⟩ := cotangent_vectors rs q (fun i z => deriv (fun t : ℝ =>
      pairVals (layVFixed d rs p₁ v) (Methods.fixedVarianceNormalNP.toExp
        ((layVFixed d rs p q).modify 0 (Val.nudge i (t * z))))) 0)
  refine ⟨_, u, (applyFisher_simple (m := Methods.fixedVarianceNormalNP) (v := layVFixed d rs p₁ v) rfl rfl rfl
    (hT p) ((slotV.varFixed fixedS).same rs p₁ v p _)).trans (congrArg _ (congrArg _ ?_))⟩
  refine congrArg₂ (fun x y => Dist.mk Cls.fixedVarianceNormalNP [x, .real y] .nil) hu (Arr.ext rfl fun i hi => ?_)
  have hi : inB rs i = true := hi
  refine (Arr.ofFn_get (rs := rs) hi).trans (Eq.trans ?_ (Arr.ofFn_get (rs := rs) hi).symm)
  change deriv (fun t : ℝ => pairVals (layVFixed d rs p₁ v) (Methods.fixedVarianceNormalNP.toExp
    ((layVFixed d rs p q).modify 1 (Val.nudge i (t * 1))))) 0 = _
  have he : ∀ t : ℝ, pairVals (layVFixed d rs p₁ v) (Methods.fixedVarianceNormalNP.toExp
      ((layVFixed d rs p q).modify 1 (Val.nudge i (t * 1)))) =
      sumBox rs (fun j => if j = i then 0 else ∑ k, v j k * (q j k * p j)) + ∑ k, v i k * (q i k * (p i + t)) +
      (sumBox rs (fun j => if j = i then 0 else p₁ j * p j) + p₁ i * (p i + t)) := by
    intro t
    have hn : (layVFixed d rs p q).modify 1 (Val.nudge i (t * 1)) =
        layVFixed d rs (Function.update p i (p i + t)) q := by
      simp only [List.modify_succ_cons, List.modify_zero_cons, layS, layFixedS, layVFixed, nudge_scalars]
    rw [hn, hT]
    simp only [pairVals, layVFixed, List.zipWith_cons_cons, List.zipWith_nil_left, List.sum_cons, List.sum_nil,
      slotS.pair, slotV.pair, add_zero, sumBox_mul_update hi]
    rw [← sumBox_update hi p (p i + t) fun j x => ∑ k, v j k * (q j k * x)]
    rfl
  simp only [he]
  have h1 : HasDerivAt (fun t : ℝ => ∑ k, v i k * (q i k * (p i + t))) (∑ k, v i k * q i k) 0 := by
    have := HasDerivAt.fun_sum (u := Finset.univ) fun k _ =>
      ((((hasDerivAt_id (0 : ℝ)).const_add (p i)).const_mul (q i k)).const_mul (v i k))
    simpa using this
  have h := (h1.const_add (sumBox rs fun j => if j = i then 0 else ∑ k, v j k * (q j k * p j))).add
    ((((hasDerivAt_id (0 : ℝ)).const_add (p i)).const_mul (p₁ i)).const_add
      (sumBox rs fun j => if j = i then 0 else p₁ j * p j))
  rw [mul_one] at h
  exact h.deriv.trans (add_comm _ _)

end Efax
