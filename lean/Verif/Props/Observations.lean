import Verif.Props.Objects
import Verif.Lemmas.SpreadKind

/-!
# C67: densities at arrays of observations

`log_pdf(x)` of a batch of distributions of shape `s` accepts observations with additional leading axes,
for example `n` observations for every distribution of the batch (`sample((n,))` returns such an array).
Shapes are stored last axis first, so the shape of the observations is `rs ++ ss`.
-/

namespace Efax

open ClassTable Calc Spec

theorem broadcastLike_append {α β : Type} [Inhabited α] [Inhabited β] (rs ss : List ℕ)
    (a : List ℕ → α) (b : List ℕ → β) :
    broadcastLike (ok (scalars rs a)) (ok (scalars (rs ++ ss) b)) =
      ok (scalars (rs ++ ss) fun i => a (i.take rs.length)) := by
  simp only [broadcastLike, bind_ok, scalars, Arr.ofFn_rshape, bcast_append, if_true]
  refine ok_ofFn_congr fun j hj => ?_
  rw [bidx_append hj, Arr.ofFn_get (inB_take hj)]

section

variable [MachEps] {solve : Solver} {search : Cls → List Val → Except Err (List Val)}

theorem spreads_bernoulli : (Simple.kind solve .bernoulli).Spreads (library search) :=
  .plain (m := Methods.bernoulliNP) (C51_bernoulli) rfl rfl rfl rfl (fun _ _ _ => rfl) (fun _ _ _ => rfl)
    (fun rs ss _ _ => (.cons ⟨rfl, spreadS rs ss _⟩ .nil)) (fun _ _ _ _ _ _ _ => rfl)

theorem spreads_beta : (Simple.kind solve .beta).Spreads (library search) :=
  .plain (m := Methods.betaNP) (C51_beta) rfl rfl rfl rfl (fun _ _ _ => rfl) (fun _ _ _ => rfl)
    (fun rs ss _ _ => (.cons ⟨rfl, spreadV rs ss _⟩ .nil)) (fun _ _ _ _ _ _ _ => rfl)

theorem spreads_chi : (Simple.kind solve .chi).Spreads (library search) :=
  .plain (m := Methods.chiNP) (C51_chi) rfl rfl rfl rfl (fun _ _ _ => rfl) (fun _ _ _ => rfl)
    (fun rs ss _ _ => (.cons ⟨rfl, spreadS rs ss _⟩ .nil)) (fun _ _ _ _ _ _ _ => rfl)

theorem spreads_chiSquare : (Simple.kind solve .chiSquare).Spreads (library search) :=
  .plain (m := Methods.chiSquareNP) (C51_chi_square) rfl rfl rfl rfl (fun _ _ _ => rfl) (fun _ _ _ => rfl)
    (fun rs ss _ _ => (.cons ⟨rfl, spreadS rs ss _⟩ .nil)) (fun _ _ _ _ _ _ _ => rfl)

theorem spreads_cmvCircular (d : ℕ) : (Simple.kind solve (.cmvCircular d)).Spreads (library search) :=
  .plain (m := Methods.ccsnNP) (C51_cmv_circular d) rfl rfl rfl rfl (fun _ _ _ => rfl) (fun _ _ _ => rfl)
    (fun rs ss _ _ => (.cons ⟨rfl, spreadCM rs ss _⟩ .nil)) (fun _ _ _ _ _ _ _ => rfl)

theorem spreads_cmvUnit (d : ℕ) : (Simple.kind solve (.cmvUnit d)).Spreads (library search) :=
  .plain (m := Methods.cmvUnitNormalNP) (C51_cmv_unit d) rfl rfl rfl rfl (fun _ _ _ => rfl) (fun _ _ _ => rfl)
    (fun rs ss _ _ => (.cons ⟨rfl, spreadCV rs ss _⟩ .nil)) (fun _ _ _ _ _ _ _ => rfl)

theorem spreads_complexNormal : (Simple.kind solve .complexNormal).Spreads (library search) :=
  .plain (m := Methods.complexNormalNP) (C51_complex_normal) rfl rfl rfl rfl (fun _ _ _ => rfl) (fun _ _ _ => rfl)
    (fun rs ss _ _ => (.cons ⟨rfl, spreadC rs ss _⟩ (.cons ⟨rfl, spreadS rs ss _⟩ (.cons ⟨rfl, spreadC rs ss _⟩ .nil)))) (fun _ _ _ _ _ _ _ => rfl)

theorem spreads_complexUnit : (Simple.kind solve .complexUnit).Spreads (library search) :=
  .plain (m := Methods.complexUnitNormalNP) (C51_complex_unit) rfl rfl rfl rfl (fun _ _ _ => rfl) (fun _ _ _ => rfl)
    (fun rs ss _ _ => (.cons ⟨rfl, spreadC rs ss _⟩ .nil)) (fun _ _ _ _ _ _ _ => rfl)

theorem spreads_dirichlet (d : ℕ) : (Simple.kind solve (.dirichlet d)).Spreads (library search) :=
  .plain (m := Methods.dirichletNP) (C51_dirichlet d) rfl rfl rfl rfl (fun _ _ _ => rfl) (fun _ _ _ => rfl)
    (fun rs ss _ _ => (.cons ⟨rfl, spreadV rs ss _⟩ .nil)) (fun _ _ _ _ _ _ _ => rfl)

theorem spreads_exponential : (Simple.kind solve .exponential).Spreads (library search) :=
  .plain (m := Methods.exponentialNP) (C51_exponential) rfl rfl rfl rfl (fun _ _ _ => rfl) (fun _ _ _ => rfl)
    (fun rs ss _ _ => (.cons ⟨rfl, spreadS rs ss _⟩ .nil)) (fun _ _ _ _ _ _ _ => rfl)

theorem spreads_gamma : (Simple.kind solve .gamma).Spreads (library search) :=
  .plain (m := Methods.gammaNP) (C51_gamma) rfl rfl rfl rfl (fun _ _ _ => rfl) (fun _ _ _ => rfl)
    (fun rs ss _ _ => (.cons ⟨rfl, spreadS rs ss _⟩ (.cons ⟨rfl, spreadS rs ss _⟩ .nil))) (fun _ _ _ _ _ _ _ => rfl)

theorem spreads_genDirichlet (d : ℕ) : (Simple.kind solve (.genDirichlet d)).Spreads (library search) :=
  .plain (m := Methods.genDirichletNP) (C51_gen_dirichlet d) rfl rfl rfl rfl (fun _ _ _ => rfl) (fun _ _ _ => rfl)
    (fun rs ss _ _ => (.cons ⟨rfl, spreadV rs ss _⟩ (.cons ⟨rfl, spreadV rs ss _⟩ .nil))) (fun _ _ _ _ _ _ _ => rfl)

theorem spreads_geometric : (Simple.kind solve .geometric).Spreads (library search) :=
  .plain (m := Methods.geometricNP) (C51_geometric) rfl rfl rfl rfl (fun _ _ _ => rfl) (fun _ _ _ => rfl)
    (fun rs ss _ _ => (.cons ⟨rfl, spreadS rs ss _⟩ .nil)) (fun _ _ _ _ _ _ _ => rfl)

theorem spreads_logarithmic : (Simple.kind solve .logarithmic).Spreads (library search) :=
  .plain (m := Methods.logarithmicNP) (C51_logarithmic) rfl rfl rfl rfl (fun _ _ _ => rfl) (fun _ _ _ => rfl)
    (fun rs ss _ _ => (.cons ⟨rfl, spreadS rs ss _⟩ .nil)) (fun _ _ _ _ _ _ _ => rfl)

theorem spreads_multinomial (d : ℕ) : (Simple.kind solve (.multinomial d)).Spreads (library search) :=
  .plain (m := Methods.multinomialNP) (C51_multinomial d) rfl rfl rfl rfl (fun _ _ _ => rfl) (fun _ _ _ => rfl)
    (fun rs ss _ _ => (.cons ⟨rfl, spreadV rs ss _⟩ .nil)) (fun _ _ _ _ _ _ _ => rfl)

theorem spreads_mvNormal (d : ℕ) : (Simple.kind solve (.mvNormal d)).Spreads (library search) :=
  .plain (m := Methods.mvNormalNP) (C51_mv_normal d) rfl rfl rfl rfl (fun _ _ _ => rfl) (fun _ _ _ => rfl)
    (fun rs ss _ _ => (.cons ⟨rfl, spreadV rs ss _⟩ (.cons ⟨rfl, spreadM rs ss _⟩ .nil))) (fun _ _ _ _ _ _ _ => rfl)

theorem spreads_mvDiagonal (d : ℕ) : (Simple.kind solve (.mvDiagonal d)).Spreads (library search) :=
  .plain (m := Methods.diagonalNormalNP) (C51_mv_diagonal d) rfl rfl rfl rfl (fun _ _ _ => rfl) (fun _ _ _ => rfl)
    (fun rs ss _ _ => (.cons ⟨rfl, spreadV rs ss _⟩ (.cons ⟨rfl, spreadV rs ss _⟩ .nil))) (fun _ _ _ _ _ _ _ => rfl)

theorem spreads_mvFixed (d : ℕ) : (Simple.kind solve (.mvFixed d)).Spreads (library search) := by
  refine .simple (m := Methods.fixedVarianceNormalNP)
    (fixed := fun rs p => [("variance", .real (scalars rs p))]) rfl rfl rfl rfl (fun _ _ _ => rfl)
    (fun _ _ _ => rfl) (fun rs ss _ _ => .cons ⟨rfl, spreadV rs ss _⟩ .nil)
    (fun rs ss p q x v h => .of_scalars ?_) fun rs ss p x v h => ?_
  · simp only [Methods.fixedVarianceNormalNP, layVFixed, show v.toR = _ from h, toR_real]
    calc_simp
    rw [bin_scalars_append]
    rfl
  · exact ⟨[v, .real (scalars rs p)], rfl, rfl, List.Forall₂.cons ⟨rfl, toC_of_toR h⟩ .nil⟩

theorem spreads_mvIsotropic (d : ℕ) : (Simple.kind solve (.mvIsotropic d)).Spreads (library search) :=
  .plain (m := Methods.isotropicNormalNP) (C51_mv_isotropic d) rfl rfl rfl rfl (fun _ _ _ => rfl) (fun _ _ _ => rfl)
    (fun rs ss _ _ => (.cons ⟨rfl, spreadV rs ss _⟩ (.cons ⟨rfl, spreadS rs ss _⟩ .nil))) (fun _ _ _ _ _ _ _ => rfl)

theorem spreads_mvUnit (d : ℕ) : (Simple.kind solve (.mvUnit d)).Spreads (library search) :=
  .plain (m := Methods.mvUnitNormalNP) (C51_mv_unit d) rfl rfl rfl rfl (fun _ _ _ => rfl) (fun _ _ _ => rfl)
    (fun rs ss _ _ => (.cons ⟨rfl, spreadV rs ss _⟩ .nil)) (fun _ _ _ _ _ _ _ => rfl)

theorem spreads_negativeBinomial :
    (Simple.kind solve .negativeBinomial).Spreads (library search) := by
  refine .simple (m := Methods.negativeBinomialNP)
    (fixed := fun rs (p : List ℕ → ℕ) => [("failures", .int (scalars rs fun i => (p i : ℤ)))]) rfl rfl rfl rfl
    (fun _ _ _ => rfl) (fun _ _ _ => rfl) (fun rs ss p q => ?_)
    (fun rs ss p q x v h => .of_scalars ?_) fun rs ss p x v h => ?_
  · exact .cons ⟨rfl, spreadS rs ss _⟩ .nil
  · simp only [Methods.negativeBinomialNP, Methods.nbCarrier, laySFixedInt, show v.toR = _ from h,
      toR_int_scalars, Int.cast_natCast]
    simp only [Calc.add_eq, bin_scalars_append]
    calc_simp
    rfl
  · have hg : Dict.get [("failures", Val.int (scalars rs fun i => (p i : ℤ)))] "failures" =
      .ok (Val.int (scalars rs fun i => (p i : ℤ))) := rfl
    simp only [Methods.negativeBinomialNP, hg, Bind.bind, Except.bind, show v.toR = _ from h,
      broadcastLike_append, run_ok]
    exact ⟨_, rfl, rfl, .cons ⟨rfl, toC_of_toR h⟩ .nil⟩

theorem spreads_normal : (Simple.kind solve .normal).Spreads (library search) :=
  .plain (m := Methods.normalNP) (C51_normal) rfl rfl rfl rfl (fun _ _ _ => rfl) (fun _ _ _ => rfl)
    (fun rs ss _ _ => (.cons ⟨rfl, spreadS rs ss _⟩ (.cons ⟨rfl, spreadS rs ss _⟩ .nil))) (fun _ _ _ _ _ _ _ => rfl)

theorem spreads_unitNormal : (Simple.kind solve .unitNormal).Spreads (library search) :=
  .plain (m := Methods.unitNormalNP) (C51_unit_normal) rfl rfl rfl rfl (fun _ _ _ => rfl) (fun _ _ _ => rfl)
    (fun rs ss _ _ => (.cons ⟨rfl, spreadS rs ss _⟩ .nil)) (fun _ _ _ _ _ _ _ => rfl)

theorem spreads_poisson : (Simple.kind solve .poisson).Spreads (library search) :=
  .plain (m := Methods.poissonNP) (C51_poisson) rfl rfl rfl rfl (fun _ _ _ => rfl) (fun _ _ _ => rfl)
    (fun rs ss _ _ => (.cons ⟨rfl, spreadS rs ss _⟩ .nil)) (fun _ _ _ _ _ _ _ => rfl)

theorem spreads_rayleigh : (Simple.kind solve .rayleigh).Spreads (library search) :=
  .plain (m := Methods.rayleighNP) (C51_rayleigh) rfl rfl rfl rfl (fun _ _ _ => rfl) (fun _ _ _ => rfl)
    (fun rs ss _ _ => (.cons ⟨rfl, spreadS rs ss _⟩ .nil)) (fun _ _ _ _ _ _ _ => rfl)

theorem spreads_vonMisesFisher (d : ℕ) :
    (Simple.kind solve (.vonMisesFisher d)).Spreads (library search) := by
  refine .simple (m := Methods.vonMisesFisherNP) (fixed := noFixed) rfl rfl rfl rfl
    (fun _ _ _ => rfl) (fun _ _ _ => rfl) (fun rs ss _ _ => .cons ⟨rfl, spreadV rs ss _⟩ .nil)
    (fun rs ss p q x v h => ⟨rs, ss, fun _ => 0, rfl, ?_, fun _ _ => rfl⟩) fun rs ss p x v h => ?_
  · simp only [Methods.vonMisesFisherNP, layE, toR_real]
    calc_simp
  · exact ⟨[v], rfl, rfl, .cons ⟨rfl, toC_of_toR h⟩ .nil⟩

theorem spreads_weibull : (Simple.kind solve .weibull).Spreads (library search) := by
  refine .simple (m := Methods.weibullNP)
    (fixed := fun rs p => [("concentration", .real (scalars rs p))]) rfl rfl rfl rfl
    (fun _ _ _ => rfl) (fun _ _ _ => rfl) (fun rs ss _ _ => .cons ⟨rfl, spreadS rs ss _⟩ .nil)
    (fun rs ss p q x v h => .of_scalars ?_) fun rs ss p x v h => ?_
  · simp only [Methods.weibullNP, layFixedS, show v.toR = _ from h, toR_real]
    calc_simp
    rw [bin_scalars_left]
    rfl
  · have hg : Dict.get [("concentration", Val.real (scalars rs p))] "concentration" =
      .ok (Val.real (scalars rs p)) := rfl
    simp only [Methods.weibullNP, hg, Bind.bind, Except.bind, show v.toR = _ from h, toR_real,
      broadcastLike_append, bin_scalars_append]
    vals_simp
    exact ⟨_, rfl, rfl, .cons ⟨rfl, rfl⟩ .nil⟩

theorem simple_spreads (s : Simple) : (s.kind solve).Spreads (library search) := by
  cases s with
  | bernoulli => exact spreads_bernoulli
  | beta => exact spreads_beta
  | chi => exact spreads_chi
  | chiSquare => exact spreads_chiSquare
  | cmvCircular d => exact spreads_cmvCircular d
  | cmvUnit d => exact spreads_cmvUnit d
  | complexNormal => exact spreads_complexNormal
  | complexUnit => exact spreads_complexUnit
  | dirichlet d => exact spreads_dirichlet d
  | exponential => exact spreads_exponential
  | gamma => exact spreads_gamma
  | genDirichlet d => exact spreads_genDirichlet d
  | geometric => exact spreads_geometric
  | logarithmic => exact spreads_logarithmic
  | multinomial d => exact spreads_multinomial d
  | mvNormal d => exact spreads_mvNormal d
  | mvDiagonal d => exact spreads_mvDiagonal d
  | mvFixed d => exact spreads_mvFixed d
  | mvIsotropic d => exact spreads_mvIsotropic d
  | mvUnit d => exact spreads_mvUnit d
  | negativeBinomial => exact spreads_negativeBinomial
  | normal => exact spreads_normal
  | unitNormal => exact spreads_unitNormal
  | poisson => exact spreads_poisson
  | rayleigh => exact spreads_rayleigh
  | vonMisesFisher d => exact spreads_vonMisesFisher d
  | weibull => exact spreads_weibull

theorem library_spreads (hs : solve.For search) {K : Kind Cls} (hK : LibraryKind solve K) :
    K.Spreads (library search) := by
  induction hK with
  | simple s => exact simple_spreads s
  | joint h0 hn hl ih =>
    obtain ⟨h1, h2⟩ := Parts.Ok.ofList (fun nk h => C51_library hs (hl nk h)) hn
    refine Spec.Kind.Spreads.joint rfl rfl rfl rfl h1 (.ofList ih) ?_
    rw [h2]
    simpa using h0

end

variable [MachEps] {L : Library Cls}

theorem log_pdf_spread {K : Kind Cls} (h : K.Ok L) (h' : K.Spreads L) (rs ss : List ℕ)
    (p : List ℕ → K.P) (q : List ℕ → K.N) (x : List ℕ → K.X) (t : Tree Val)
    (ht : K.obs (rs ++ ss) x t) : (K.nat rs p q).logPdf L t = ok (scalars (rs ++ ss) fun i =>
      (K.F (p (i.take rs.length))).logPdf (q (i.take rs.length)) (x i)) := by
  obtain ⟨est, he⟩ := h.estimator rs p q
  obtain ⟨w, h1, h2⟩ := h'.stat rs ss p q x t ht
  have h3 := (C25_estimator_from_natural (h.wfN _ _ _) he (h.distinct _ _ _ ht)).2 h1
  have hw := h2.wf (h.wfE _ _ _)
  have hm := h2.dotMatch (h.dotMatch (rs ++ ss) (fun i => p (i.take rs.length))
    (fun i => q (i.take rs.length)) _ _)
  have hd : dotCalc (K.nat rs p q) w = ok (scalars (rs ++ ss) fun i =>
      (K.F (p (i.take rs.length))).dot (q (i.take rs.length))
        ((K.F (p (i.take rs.length))).stat (x i))) := by
    have := dotCalc_eq (h.wfN _ _ _) hw hm
      (f := fun i => (K.F (p (i.take rs.length))).dot (q (i.take rs.length))
        ((K.F (p (i.take rs.length))).stat (x i))) fun i hi => by
        rw [h2.treeDot]
        exact h.dot _ _ _ _ _ i hi
    rw [← this, dotCalc, dotCalc, paramDot_spread (h'.nat rs ss p q) (h.wfN _ _ _) (h.wfN _ _ _) hw hm]
  simp only [Dist.logPdf, Bind.bind, Except.bind, he, h3]
  rw [hd, h.logNormalizer, Calc.sub_eq, bin_scalars_append, (h'.carrier rs ss p q x t ht).add_big]
  rfl

variable {solve : Solver} {search : Cls → List Val → Except Err (List Val)}

/-- **C67.** `log_pdf(x)` of a batch of distributions, simple or joint, at observations with additional
leading axes: every entry is the log-density of the distribution of its position in the batch at its
own observation. -/
theorem C67_log_pdf (hs : solve.For search) {K : Kind Cls} (hK : LibraryKind solve K) (rs ss : List ℕ)
    (p : List ℕ → K.P) (q : List ℕ → K.N) (x : List ℕ → K.X) (t : Tree Val)
    (ht : K.obs (rs ++ ss) x t) : (K.nat rs p q).logPdf (library search) t =
      ok (scalars (rs ++ ss) fun i =>
        (K.F (p (i.take rs.length))).logPdf (q (i.take rs.length)) (x i)) :=
  log_pdf_spread (C51_library hs hK) (library_spreads hs hK) rs ss p q x t ht

/-- **C67.** `pdf(x)` of a batch of distributions at observations with additional leading axes. -/
theorem C67_pdf (hs : solve.For search) {K : Kind Cls} (hK : LibraryKind solve K) (rs ss : List ℕ)
    (p : List ℕ → K.P) (q : List ℕ → K.N) (x : List ℕ → K.X) (t : Tree Val)
    (ht : K.obs (rs ++ ss) x t) : (K.nat rs p q).pdf (library search) t =
      ok (scalars (rs ++ ss) fun i =>
        (K.F (p (i.take rs.length))).pdf (q (i.take rs.length)) (x i)) := by
  rw [Dist.pdf, C67_log_pdf hs hK rs ss p q x t ht]
  calc_simp
  rfl

/-- **C67.** Every natural parametrization of shape `s` (simple or joint), at an array of observations
`x` with the additional leading axes `t`: `log_pdf(x)` has the shape of the observations, and
`log_pdf(x)[i] = log_pdf(x[i])` for every index `i` of these axes. -/
theorem C67_each (hs : solve.For search) {s t : List ℕ} {d : Dist Cls} (h : NaturalBatch s d)
    {x : Tree Val} (hx : Observed (s ++ t) d x) :
    (∃ a, d.logPdf (library search) x = ok a ∧ a.rshape = s ++ t) ∧
    ∀ i, inB t i = true → ∃ x', treeIndex i.reverse x = .ok x' ∧
      d.logPdf (library search) x' = atIndex i.reverse (d.logPdf (library search) x) := by
  obtain ⟨K, hK, p, q, rfl⟩ := C51_every_natural (solve := solve) d h.1 h.2
  obtain ⟨y, hy⟩ := observed_obs hK hx
  refine ⟨⟨_, C67_log_pdf hs hK s t p q y x hy, rfl⟩, fun i hi => ?_⟩
  obtain ⟨x', h1, h2⟩ := library_obs hK s t i y x hi hy
  refine ⟨x', h1, ?_⟩
  rw [C67_log_pdf hs hK s t p q y x hy, C51_log_pdf (C51_library hs hK) s p q _ x' h2,
    atIndex_scalars hi]
  refine congrArg ok (scalars_congr fun j hj => ?_)
  rw [← inB_length hj, List.take_left]

/-- Five observations for every entry of the nested joint distribution. -/
def Samples.observations : Tree Val := .node (.cons "j" (.node (.cons "n" (.leaf (c [2, 3, 5] 4))
  (.cons "w" (.leaf (c [3, 5] 1)) .nil))) (.cons "g" (.leaf (c [3, 5] 2)) .nil))

theorem Samples.observedMany : Observed ([3] ++ [5]) Samples.joint Samples.observations := by
  have hc : ∀ (rs : List ℕ) (x : ℝ) (a : Arr ℂ), Samples.c rs x ≠ .complex a := fun _ _ _ h => by cases h
  refine ⟨by simp [Forest.keys, Forest.toList], by simp [Forest.keys, Forest.toList, Subs.names],
    ⟨_, .tail _ (.head _), ?_⟩, ⟨_, .head _, ?_⟩, trivial⟩
  · exact ⟨hc _ _, rfl⟩
  · refine ⟨by simp [Forest.keys, Forest.toList], by simp [Forest.keys, Forest.toList, Subs.names],
      ⟨_, .tail _ (.head _), ?_⟩, ⟨_, .head _, ?_⟩, trivial⟩
    · exact ⟨hc _ _, rfl⟩
    · exact ⟨hc _ _, rfl⟩

/-- Non-vacuity of C67: five observations of a batch of three nested joint distributions. -/
example : ∃ a, Samples.joint.logPdf (library (searchFor zeroMinimizer)) Samples.observations = ok a ∧
    a.rshape = [3, 5] :=
  (C67_each (C51_search zeroMinimizer_returns) Samples.joint_batch Samples.observedMany).1

end Efax
