import Verif.Props.Observations
import Verif.Lemmas.Collect
import Verif.Spec.Estimate
import Verif.Props.Analysis

/-!
# C69: maximum likelihood estimation for batches

The recipe of the README and of `tests/test_sampling.py` 96-102: the statistics of many observations of
every distribution of a batch, averaged over the axes of the observations, are the expectation parameters
of the distribution that makes the observations most likely.
-/

namespace Efax

open ClassTable Calc Spec

theorem bcast_ones (rs ss : List ℕ) :
    bcast (rs ++ List.replicate ss.length 1) (rs ++ ss) = .ok (rs ++ ss) ∧
    bcast (rs ++ ss) (rs ++ List.replicate ss.length 1) = .ok (rs ++ ss) := by
  induction rs with
  | cons n rs ih => simp [bcast, ih, Bind.bind, Except.bind]
  | nil =>
    induction ss with
    | nil => exact ⟨rfl, rfl⟩
    | cons n ss ih =>
      simp only [List.nil_append] at ih ⊢
      simp only [List.length_cons, List.replicate_succ, bcast, ih, Bind.bind, Except.bind]
      by_cases h : n = 1 <;> simp [h, eq_comm]

theorem bidx_ones {rs ss i : List ℕ} (hi : inB (rs ++ ss) i = true) :
    bidx (rs ++ List.replicate ss.length 1) i = i.take rs.length ++ List.replicate ss.length 0 := by
  induction rs generalizing i with
  | cons n rs ih =>
    obtain ⟨k, j, rfl, hk, h⟩ := inB_cons_elim hi
    simp only [List.cons_append, bidx, ih h, List.length_cons, List.take_succ_cons, List.cons.injEq, and_true]
    split_ifs with h1 <;> omega
  | nil =>
    simp only [List.nil_append] at hi ⊢
    induction ss generalizing i with
    | nil => rfl
    | cons n ss ih =>
      obtain ⟨k, j, rfl, hk, h⟩ := inB_cons_elim hi
      have := ih h
      simp only [List.length_nil, List.take_zero, List.nil_append] at this ⊢
      simp [List.replicate_succ, bidx, this]

theorem inB_ones {rs ss i : List ℕ} (hi : inB (rs ++ ss) i = true) :
    inB (rs ++ List.replicate ss.length 1) (i.take rs.length ++ List.replicate ss.length 0) = true := by
  have h := inB_take hi
  refine (inB_append (inB_length h)).2 ⟨h, ?_⟩
  generalize ss.length = k
  induction k with
  | zero => rfl
  | succ k ih => exact (inB_cons _ _ _ _).2 ⟨Nat.one_pos, ih⟩

theorem scalars_ones {α : Type} [Inhabited α] {rs ss i : List ℕ} (hi : inB (rs ++ ss) i = true)
    (f : List ℕ → α) :
    (scalars (rs ++ List.replicate ss.length 1) fun i => f (i.take rs.length)).get
      (bidx (rs ++ List.replicate ss.length 1) i) = f (i.take rs.length) := by
  have h := inB_take hi
  rw [bidx_ones hi, scalars, Arr.ofFn_get (inB_ones hi)]
  congr 1
  exact List.take_left' (inB_length h)

theorem rshape_scalars {α : Type} [Inhabited α] (rs : List ℕ) (f : List ℕ → α) :
    (scalars rs f).rshape = rs := rfl

theorem broadcastLike_ones {α β : Type} [Inhabited α] [Inhabited β] (rs ss : List ℕ)
    (a : List ℕ → α) (b : List ℕ → β) :
    broadcastLike (ok (scalars (rs ++ List.replicate ss.length 1) fun i => a (i.take rs.length)))
        (ok (scalars (rs ++ ss) b)) =
      ok (scalars (rs ++ ss) fun i => a (i.take rs.length)) := by
  simp only [broadcastLike, bind_ok, rshape_scalars, bcast_ones, if_true]
  exact ok_ofFn_congr fun j hj => scalars_ones hj a

theorem bin_scalars_ones {α β γ : Type} [Inhabited α] [Inhabited β] [Inhabited γ] (f : α → β → γ)
    (rs ss : List ℕ) (a : List ℕ → α) (b : List ℕ → β) :
    bin f (ok (scalars (rs ++ ss) a))
        (ok (scalars (rs ++ List.replicate ss.length 1) fun i => b (i.take rs.length))) =
      ok (scalars (rs ++ ss) fun j => f (a j) (b (j.take rs.length))) := by
  simp only [bin, bind_ok, rshape_scalars, bcast_ones]
  refine ok_ofFn_congr fun j hj => ?_
  rw [scalars_ones hj, bidx_self hj, scalars, Arr.ofFn_get hj]

theorem spreadInt (rs ss : List ℕ) (f : List ℕ → ℤ) : SpreadVal rs ss (.int (scalars rs f))
    (.int (scalars (rs ++ ss) fun i => f (i.take rs.length))) :=
  ⟨[], rfl, rfl, fun i hi => by
    have hi : inB (rs ++ ss) i = true := hi
    simp only [toC_get, Spec.entry, List.nil_append, spread_scalars rs ss f hi]⟩

section

variable [MachEps] {solve : Solver} {search : Cls → List Val → Except Err (List Val)}

theorem collects_bernoulli : (Simple.kind solve .bernoulli).Collects (library search) :=
  .plain (m := Methods.bernoulliNP) (C51_bernoulli) rfl rfl rfl rfl (fun _ _ _ => rfl)
    (fun rs ss _ _ => (.cons ⟨spreadS rs ss _, rfl⟩ .nil))

theorem collects_beta : (Simple.kind solve .beta).Collects (library search) :=
  .plain (m := Methods.betaNP) (C51_beta) rfl rfl rfl rfl (fun _ _ _ => rfl)
    (fun rs ss _ _ => (.cons ⟨spreadV rs ss _, rfl⟩ .nil))

theorem collects_chi : (Simple.kind solve .chi).Collects (library search) :=
  .plain (m := Methods.chiNP) (C51_chi) rfl rfl rfl rfl (fun _ _ _ => rfl)
    (fun rs ss _ _ => (.cons ⟨spreadS rs ss _, rfl⟩ .nil))

theorem collects_chiSquare : (Simple.kind solve .chiSquare).Collects (library search) :=
  .plain (m := Methods.chiSquareNP) (C51_chi_square) rfl rfl rfl rfl (fun _ _ _ => rfl)
    (fun rs ss _ _ => (.cons ⟨spreadS rs ss _, rfl⟩ .nil))

theorem collects_cmvCircular (d : ℕ) : (Simple.kind solve (.cmvCircular d)).Collects (library search) :=
  .plain (m := Methods.ccsnNP) (C51_cmv_circular d) rfl rfl rfl rfl (fun _ _ _ => rfl)
    (fun rs ss _ _ => (.cons ⟨spreadCM rs ss _, rfl⟩ .nil))

theorem collects_cmvUnit (d : ℕ) : (Simple.kind solve (.cmvUnit d)).Collects (library search) :=
  .plain (m := Methods.cmvUnitNormalNP) (C51_cmv_unit d) rfl rfl rfl rfl (fun _ _ _ => rfl)
    (fun rs ss _ _ => (.cons ⟨spreadCV rs ss _, rfl⟩ .nil))

theorem collects_complexNormal : (Simple.kind solve .complexNormal).Collects (library search) :=
  .plain (m := Methods.complexNormalNP) (C51_complex_normal) rfl rfl rfl rfl (fun _ _ _ => rfl)
    (fun rs ss _ _ => (.cons ⟨spreadC rs ss _, rfl⟩ (.cons ⟨spreadS rs ss _, rfl⟩ (.cons ⟨spreadC rs ss _, rfl⟩ .nil))))

theorem collects_complexUnit : (Simple.kind solve .complexUnit).Collects (library search) :=
  .plain (m := Methods.complexUnitNormalNP) (C51_complex_unit) rfl rfl rfl rfl (fun _ _ _ => rfl)
    (fun rs ss _ _ => (.cons ⟨spreadC rs ss _, rfl⟩ .nil))

theorem collects_dirichlet (d : ℕ) : (Simple.kind solve (.dirichlet d)).Collects (library search) :=
  .plain (m := Methods.dirichletNP) (C51_dirichlet d) rfl rfl rfl rfl (fun _ _ _ => rfl)
    (fun rs ss _ _ => (.cons ⟨spreadV rs ss _, rfl⟩ .nil))

theorem collects_exponential : (Simple.kind solve .exponential).Collects (library search) :=
  .plain (m := Methods.exponentialNP) (C51_exponential) rfl rfl rfl rfl (fun _ _ _ => rfl)
    (fun rs ss _ _ => (.cons ⟨spreadS rs ss _, rfl⟩ .nil))

theorem collects_gamma : (Simple.kind solve .gamma).Collects (library search) :=
  .plain (m := Methods.gammaNP) (C51_gamma) rfl rfl rfl rfl (fun _ _ _ => rfl)
    (fun rs ss _ _ => (.cons ⟨spreadS rs ss _, rfl⟩ (.cons ⟨spreadS rs ss _, rfl⟩ .nil)))

theorem collects_genDirichlet (d : ℕ) : (Simple.kind solve (.genDirichlet d)).Collects (library search) :=
  .plain (m := Methods.genDirichletNP) (C51_gen_dirichlet d) rfl rfl rfl rfl (fun _ _ _ => rfl)
    (fun rs ss _ _ => (.cons ⟨spreadV rs ss _, rfl⟩ (.cons ⟨spreadV rs ss _, rfl⟩ .nil)))

theorem collects_geometric : (Simple.kind solve .geometric).Collects (library search) :=
  .plain (m := Methods.geometricNP) (C51_geometric) rfl rfl rfl rfl (fun _ _ _ => rfl)
    (fun rs ss _ _ => (.cons ⟨spreadS rs ss _, rfl⟩ .nil))

theorem collects_logarithmic : (Simple.kind solve .logarithmic).Collects (library search) :=
  .plain (m := Methods.logarithmicNP) (C51_logarithmic) rfl rfl rfl rfl (fun _ _ _ => rfl)
    (fun rs ss _ _ => (.cons ⟨spreadS rs ss _, rfl⟩ .nil))

theorem collects_multinomial (d : ℕ) : (Simple.kind solve (.multinomial d)).Collects (library search) :=
  .plain (m := Methods.multinomialNP) (C51_multinomial d) rfl rfl rfl rfl (fun _ _ _ => rfl)
    (fun rs ss _ _ => (.cons ⟨spreadV rs ss _, rfl⟩ .nil))

theorem collects_mvNormal (d : ℕ) : (Simple.kind solve (.mvNormal d)).Collects (library search) :=
  .plain (m := Methods.mvNormalNP) (C51_mv_normal d) rfl rfl rfl rfl (fun _ _ _ => rfl)
    (fun rs ss _ _ => (.cons ⟨spreadV rs ss _, rfl⟩ (.cons ⟨spreadM rs ss _, rfl⟩ .nil)))

theorem collects_mvDiagonal (d : ℕ) : (Simple.kind solve (.mvDiagonal d)).Collects (library search) :=
  .plain (m := Methods.diagonalNormalNP) (C51_mv_diagonal d) rfl rfl rfl rfl (fun _ _ _ => rfl)
    (fun rs ss _ _ => (.cons ⟨spreadV rs ss _, rfl⟩ (.cons ⟨spreadV rs ss _, rfl⟩ .nil)))

theorem collects_mvFixed (d : ℕ) : (Simple.kind solve (.mvFixed d)).Collects (library search) := by
  refine .simple (m := Methods.fixedVarianceNormalNP)
    (fixed := fun rs p => [("variance", .real (scalars rs p))]) rfl rfl rfl rfl (fun _ _ _ => rfl)
    (fun rs ss _ _ => (.cons ⟨spreadV rs ss _, rfl⟩ (.cons ⟨spreadS rs ss _, rfl⟩ .nil)))
    fun rs ss p x v hss h => ?_
  refine ⟨[v, .real (scalars (rs ++ List.replicate ss.length 1) fun i => p (i.take rs.length))], rfl, ?_⟩
  exact .cons (.of_toC (s := d :: rs) (toC_of_toR h) hss rfl)
    (.cons (.of_ones (D := .real) (e := fun a => (a : ℂ)) (fun _ => rfl) (fun _ _ => rfl) rs hss p) .nil)

theorem collects_mvIsotropic (d : ℕ) : (Simple.kind solve (.mvIsotropic d)).Collects (library search) :=
  .plain (m := Methods.isotropicNormalNP) (C51_mv_isotropic d) rfl rfl rfl rfl (fun _ _ _ => rfl)
    (fun rs ss _ _ => (.cons ⟨spreadV rs ss _, rfl⟩ (.cons ⟨spreadS rs ss _, rfl⟩ .nil)))

theorem collects_mvUnit (d : ℕ) : (Simple.kind solve (.mvUnit d)).Collects (library search) :=
  .plain (m := Methods.mvUnitNormalNP) (C51_mv_unit d) rfl rfl rfl rfl (fun _ _ _ => rfl)
    (fun rs ss _ _ => (.cons ⟨spreadV rs ss _, rfl⟩ .nil))

theorem collects_negativeBinomial : (Simple.kind solve .negativeBinomial).Collects (library search) := by
  refine .simple (m := Methods.negativeBinomialNP)
    (fixed := fun rs (p : List ℕ → ℕ) => [("failures", .int (scalars rs fun i => (p i : ℤ)))]) rfl rfl rfl rfl
    (fun _ _ _ => rfl)
    (fun rs ss _ _ => (.cons ⟨spreadS rs ss _, rfl⟩ (.cons ⟨spreadInt rs ss _, rfl⟩ .nil)))
    fun rs ss p x v hss h => ?_
  have hg : ∀ w, Dict.get [("failures", w)] "failures" = .ok (w : Val) := fun _ => rfl
  simp only [Methods.negativeBinomialNP, hg, Bind.bind, Except.bind, show v.toR = _ from h,
    broadcastLike_ones rs ss (fun i => (p i : ℤ)), run_ok]
  exact ⟨_, rfl, .cons (.of_toC (s := rs) (toC_of_toR h) hss rfl)
    (.cons (.of_toC (s := rs) rfl hss rfl) .nil)⟩

theorem collects_normal : (Simple.kind solve .normal).Collects (library search) :=
  .plain (m := Methods.normalNP) (C51_normal) rfl rfl rfl rfl (fun _ _ _ => rfl)
    (fun rs ss _ _ => (.cons ⟨spreadS rs ss _, rfl⟩ (.cons ⟨spreadS rs ss _, rfl⟩ .nil)))

theorem collects_unitNormal : (Simple.kind solve .unitNormal).Collects (library search) :=
  .plain (m := Methods.unitNormalNP) (C51_unit_normal) rfl rfl rfl rfl (fun _ _ _ => rfl)
    (fun rs ss _ _ => (.cons ⟨spreadS rs ss _, rfl⟩ .nil))

theorem collects_poisson : (Simple.kind solve .poisson).Collects (library search) :=
  .plain (m := Methods.poissonNP) (C51_poisson) rfl rfl rfl rfl (fun _ _ _ => rfl)
    (fun rs ss _ _ => (.cons ⟨spreadS rs ss _, rfl⟩ .nil))

theorem collects_rayleigh : (Simple.kind solve .rayleigh).Collects (library search) :=
  .plain (m := Methods.rayleighNP) (C51_rayleigh) rfl rfl rfl rfl (fun _ _ _ => rfl)
    (fun rs ss _ _ => (.cons ⟨spreadS rs ss _, rfl⟩ .nil))

theorem collects_vonMisesFisher (d : ℕ) :
    (Simple.kind solve (.vonMisesFisher d)).Collects (library search) := by
  refine .simple (m := Methods.vonMisesFisherNP) (fixed := noFixed) rfl rfl rfl rfl
    (fun _ _ _ => rfl) (fun rs ss _ _ => (.cons ⟨spreadV rs ss _, rfl⟩ .nil)) fun rs ss p x v hss h => ?_
  exact ⟨[v], rfl, .cons (.of_toC (s := d :: rs) (toC_of_toR h) hss rfl) .nil⟩

theorem collects_weibull : (Simple.kind solve .weibull).Collects (library search) := by
  refine .simple (m := Methods.weibullNP)
    (fixed := fun rs p => [("concentration", .real (scalars rs p))]) rfl rfl rfl rfl
    (fun _ _ _ => rfl)
    (fun rs ss _ _ => (.cons ⟨spreadS rs ss _, rfl⟩ (.cons ⟨spreadS rs ss _, rfl⟩ .nil)))
    fun rs ss p x v hss h => ?_
  have hg : ∀ w, Dict.get [("concentration", w)] "concentration" = .ok (w : Val) := fun _ => rfl
  simp only [Methods.weibullNP, hg, Bind.bind, Except.bind, show v.toR = _ from h, toR_real,
    broadcastLike_ones, bin_scalars_ones]
  vals_simp
  exact ⟨_, rfl, .cons (.of_toC (s := rs) rfl hss rfl) (.cons (.of_toC (s := rs) rfl hss rfl) .nil)⟩

theorem simple_collects (s : Simple) : (s.kind solve).Collects (library search) := by
  cases s with
  | bernoulli => exact collects_bernoulli
  | beta => exact collects_beta
  | chi => exact collects_chi
  | chiSquare => exact collects_chiSquare
  | cmvCircular d => exact collects_cmvCircular d
  | cmvUnit d => exact collects_cmvUnit d
  | complexNormal => exact collects_complexNormal
  | complexUnit => exact collects_complexUnit
  | dirichlet d => exact collects_dirichlet d
  | exponential => exact collects_exponential
  | gamma => exact collects_gamma
  | genDirichlet d => exact collects_genDirichlet d
  | geometric => exact collects_geometric
  | logarithmic => exact collects_logarithmic
  | multinomial d => exact collects_multinomial d
  | mvNormal d => exact collects_mvNormal d
  | mvDiagonal d => exact collects_mvDiagonal d
  | mvFixed d => exact collects_mvFixed d
  | mvIsotropic d => exact collects_mvIsotropic d
  | mvUnit d => exact collects_mvUnit d
  | negativeBinomial => exact collects_negativeBinomial
  | normal => exact collects_normal
  | unitNormal => exact collects_unitNormal
  | poisson => exact collects_poisson
  | rayleigh => exact collects_rayleigh
  | vonMisesFisher d => exact collects_vonMisesFisher d
  | weibull => exact collects_weibull

theorem library_collects {K : Kind Cls} (hK : LibraryKind solve K) :
    K.Collects (library search) := by
  induction hK with
  | simple s => exact simple_collects s
  | joint h0 hn hl ih => exact Spec.Kind.Collects.joint rfl rfl (.ofList ih)

mutual
theorem walk_of_rel {R : Val → Val → Prop} (hR : ∀ a b, R a b → a.rshape.length = b.rshape.length) :
    {d e : Dist Cls} → TreeRel R d e → ∀ {base : Path} {l : List (Info Cls)},
    e.walk makeInfo base = .ok l → ∃ l', d.walk makeInfo base = .ok l'
  | .mk c v s, .mk c' v' s', h, base, l, hl => by
    obtain ⟨rfl, h1, h2⟩ := h
    rw [Dist.walk] at hl
    cases e1 : Subs.walk makeInfo base s' with
    | error x => rw [e1] at hl; cases hl
    | ok A =>
      rw [e1] at hl
      cases e2 : makeInfo (Dist.mk c v' s') base with
      | error x => simp only [Bind.bind, Except.bind, e2] at hl; cases hl
      | ok b =>
        obtain ⟨n, hn, -⟩ := makeInfo_eq_ok e2
        obtain ⟨A', hA⟩ := walks_of_rel hR h2 e1
        have : ∃ n', dimensions c v = .ok n' := by
          change Cls.dimensions c v' = .ok n at hn
          change ∃ n', Cls.dimensions c v = .ok n'
          unfold Cls.dimensions at hn ⊢
          split_ifs at hn ⊢ with hc
          · cases h1 with
            | nil => cases hn
            | @cons a b _ _ hab _ =>
              have := hR _ _ hab
              simp only [Val.lastDim] at hn ⊢
              cases hb : a.rshape with
              | nil =>
                rw [hb] at this
                rw [List.length_eq_zero_iff.1 this.symm] at hn
                cases hn
              | cons x xs => exact ⟨x, rfl⟩
          · exact ⟨1, rfl⟩
        obtain ⟨n', hn'⟩ := this
        refine ⟨_, Dist.walk_ok (b := ⟨base, c, n', s.names⟩) hA ?_⟩
        simp [makeInfo, Dist.cls, Dist.vals, Dist.subs, hn', Bind.bind, Except.bind]
theorem walks_of_rel {R : Val → Val → Prop} (hR : ∀ a b, R a b → a.rshape.length = b.rshape.length) :
    {d e : Subs Cls} → TreeRels R d e → ∀ {base : Path} {l : List (Info Cls)},
    e.walk makeInfo base = .ok l → ∃ l', d.walk makeInfo base = .ok l'
  | .nil, .nil, _, _, _, _ => ⟨[], rfl⟩
  | .cons n _ s, .cons _ d' s', h, base, l, hl => by
    obtain ⟨rfl, h1, h2⟩ := h
    rw [Subs.walk] at hl
    cases e1 : d'.walk makeInfo (base ++ [n]) with
    | error x => rw [e1] at hl; cases hl
    | ok A =>
      rw [e1] at hl
      cases e2 : Subs.walk makeInfo base s' with
      | error x => simp only [Bind.bind, Except.bind, e2] at hl; cases hl
      | ok B =>
        obtain ⟨A', hA⟩ := walk_of_rel hR h1 e1
        obtain ⟨B', hB⟩ := walks_of_rel hR h2 e2
        exact ⟨_, Subs.walk_ok hA hB⟩
end

theorem SameMean.length {k : ℕ} {v v' : Val} (h : SameMean k v v') : v.rshape.length = v'.rshape.length := by
  obtain ⟨s, b, b', h1, h2, -, -, h3, h4, -⟩ := h
  rw [h3, h4, List.length_append, List.length_append, h1, h2]

theorem stat_natCls {C : Type} [ClassTable C] {stat : StatFn C} {p w : Dist C} {t : Tree Val}
    (h : StatTree some stat p t w) : (natCls p.cls).isSome := by
  cases p with
  | mk c v s =>
    cases t with
    | leaf x =>
      obtain ⟨-, ec, nc, h1, h2, -⟩ := h
      cases h1
      simp [Dist.cls, h2]
    | node f =>
      obtain ⟨-, ec, nc, h1, h2, -⟩ := h
      cases h1
      exact h2

theorem expand_exp (hs : solve.For search) {K : Kind Cls} (hK : LibraryKind solve K) (rs : List ℕ) (k : ℕ)
    (p : List ℕ → K.P) (χ : List ℕ → K.E) : (K.exp rs p χ).expand k =
      .ok (K.exp (rs ++ List.replicate k 1) (fun i => p (i.take rs.length)) fun i => χ (i.take rs.length)) := by
  have h := C51_library hs hK
  obtain ⟨l, hl⟩ := (library_indexed hs hK).infosE rs p χ []
  exact TreeRel.expand (((library_collects (search := search) hK).exp rs (List.replicate k 1) p χ).imp
    fun a b hab => by simpa using RepeatVal.expand hab) (h.wfE _ _ _) (h.wfE _ _ _) hl

/-- The estimate, and how it pairs with natural parameters. -/
theorem estimates_ok (hs : solve.For search) {K : Kind Cls} (hK : LibraryKind solve K) {rs ss : List ℕ}
    (hss : ∀ n ∈ ss, 0 < n) (p : List ℕ → K.P) (χ : List ℕ → K.E) {x : List ℕ → K.X} {t : Tree Val}
    (ht : K.obs (rs ++ ss) x t) : ∃ m, Estimates (library search) (K.exp rs p χ) ss.length t m ∧
      TreeRel (AvgVal ss.length) (K.exp (rs ++ ss) (fun i => p (i.take rs.length))
        fun i => (K.F (p (i.take rs.length))).stat (x i)) m := by
  have h := C51_library hs hK
  have hc := library_collects (search := search) hK
  have hx := library_indexed hs hK
  have he := expand_exp hs hK rs ss.length p χ
  obtain ⟨w, h1, h2⟩ := hc.stat rs ss p χ x t hss ht
  obtain ⟨l', hl'⟩ := hx.infosE (rs ++ List.replicate ss.length 1) (fun i => p (i.take rs.length))
    (fun i => χ (i.take rs.length)) []
  obtain ⟨nc, hn⟩ := Option.isSome_iff_exists.1 (stat_natCls h1)
  have hest : createEstimator (K.exp (rs ++ List.replicate ss.length 1) (fun i => p (i.take rs.length))
      fun i => χ (i.take rs.length)) = .ok ⟨l', parameters (K.exp (rs ++ List.replicate ss.length 1)
        (fun i => p (i.take rs.length)) fun i => χ (i.take rs.length)) (some true)⟩ := by
    simp only [createEstimator, infosOf, hl', hn, Bind.bind, Except.bind]
  have hw := (C25_estimator (h.wfE _ _ _) hest (h.distinct _ _ _ ht)).2 h1
  obtain ⟨m, m1, m2⟩ := h2.split (Q := fun a b => a.mean (some (firstAxes ss.length)) = .ok b)
    (T := fun b c => AvgVal ss.length c b) fun a b hab => hab.mean
  obtain ⟨l2, hl2⟩ := hx.infosE (rs ++ ss) (fun i => p (i.take rs.length))
    (fun i => (K.F (p (i.take rs.length))).stat (x i)) []
  obtain ⟨l3, hl3⟩ := walk_of_rel (fun a b => SameMean.length) h2 hl2
  have hwf := h2.wf (h.wfE _ _ _)
  exact ⟨m, ⟨_, _, w, he, hest, hw, m1.mean hwf (m1.wf' hwf) hl3⟩, m2.symm⟩

theorem Estimates.unique {L : Library Cls} {e : Dist Cls} {k : ℕ} {t : Tree Val} {m m' : Dist Cls}
    (h : Estimates L e k t m) (h' : Estimates L e k t m') : m = m' := by
  obtain ⟨a, b, c, h1, h2, h3, h4⟩ := h
  obtain ⟨a', b', c', g1, g2, g3, g4⟩ := h'
  rw [h1] at g1; cases g1
  rw [h2] at g2; cases g2
  rw [h3] at g3; cases g3
  rw [h4] at g4; cases g4
  rfl

theorem take_append_of {rs i j : List ℕ} (hi : inB rs i = true) : (i ++ j).take rs.length = i :=
  List.take_left' (inB_length hi)

/-- **C69.** The recipe of `tests/test_sampling.py` succeeds for every batch of distributions, simple or
joint, and every non-empty array of observations of each of them.  The estimate has the structure of the
distribution and its fixed parameters. -/
theorem C69_estimate (hs : solve.For search) {K : Kind Cls} (hK : LibraryKind solve K) {rs ss : List ℕ}
    (hss : ∀ n ∈ ss, 0 < n) (p : List ℕ → K.P) (χ : List ℕ → K.E) {x : List ℕ → K.X} {t : Tree Val}
    (ht : K.obs (rs ++ ss) x t) : ∃ m, Estimates (library search) (K.exp rs p χ) ss.length t m ∧
      SameTree (K.exp rs p χ) m ∧ ∀ k f v, f.fixed = true → ParamAt (K.exp rs p χ) k f v →
        ∃ v', ParamAt m k f v' ∧ v'.rshape = v.rshape ∧
          ∀ i, inB v.rshape i = true → entry v' i = entry v i := by
  obtain ⟨m, h1, h2⟩ := estimates_ok hs hK hss p χ ht
  have hc := library_collects (search := search) hK
  have hr := hc.exp rs ss p χ
  refine ⟨m, h1, ?_, fun k f v hf hv => ?_⟩
  · exact hr.same.trans ((hc.same _ _ _ _).trans h2.same)
  · obtain ⟨v1, e1, e2⟩ := hr.param' hv
    obtain ⟨v', e3, e4⟩ := h2.param' (hc.fixed _ _ _ _ k f v1 hf e1)
    obtain ⟨⟨s, a1, a2, a3⟩, -⟩ := e2
    obtain ⟨u, b, b1, b2, b3, b4, b5⟩ := e4
    obtain ⟨rfl, rfl⟩ := List.append_inj' (b3.symm.trans a2) b1
    refine ⟨v', e3, b4.trans a1.symm, fun i hi => ?_⟩
    rw [a1] at hi
    have h3 := b5 i hi
    have h4 : ∀ j ∈ box b, entry v1 (i ++ j) = entry v i := by
      intro j hj
      have := a3 (i ++ j) ((inB_append (inB_length hi)).2 ⟨hi, mem_box.1 hj⟩)
      rw [toC_get, toC_get, take_append_of hi] at this
      exact this
    rw [Finset.sum_congr rfl h4, Finset.sum_const, card_box, nsmul_eq_mul] at h3
    exact mul_left_cancel₀ (prod_ne_zero b2) h3

theorem estimate_dot (hs : solve.For search) {K : Kind Cls} (hK : LibraryKind solve K) {rs ss : List ℕ}
    (hss : ∀ n ∈ ss, 0 < n) {p : List ℕ → K.P} {χ : List ℕ → K.E} {x : List ℕ → K.X} {t : Tree Val}
    (ht : K.obs (rs ++ ss) x t) {m : Dist Cls}
    (hm : Estimates (library search) (K.exp rs p χ) ss.length t m) (v : List ℕ → K.N) :
    ∃ d, dotCalc (K.nat rs p v) m = ok (scalars rs d) ∧ ∀ i, inB rs i = true →
      (ss.prod : ℝ) * d i = ∑ j ∈ box ss, (K.F (p i)).dot (v i) ((K.F (p i)).stat (x (i ++ j))) := by
  have h := C51_library hs hK
  obtain ⟨m', h1, h2⟩ := estimates_ok hs hK hss p χ ht
  obtain rfl := Estimates.unique h1 hm
  have hsp := (library_spreads hs hK).nat rs ss p v
  have hd := h.dotMatch (rs ++ ss) (fun i => p (i.take rs.length)) (fun i => v (i.take rs.length))
    (fun i => p (i.take rs.length)) fun i => (K.F (p (i.take rs.length))).stat (x i)
  refine ⟨_, dotCalc_eq (h.wfN _ _ _) (h2.wf' (h.wfE _ _ _)) (dotMatch_mean hsp hd h2) fun i _ => rfl,
    fun i hi => ?_⟩
  rw [treeDot_mean hi hsp hd h2]
  refine Finset.sum_congr rfl fun j hj => ?_
  rw [h.dot _ _ _ _ _ _ ((inB_append (inB_length hi)).2 ⟨hi, mem_box.1 hj⟩), take_append_of hi]

/-- **C69.** The observations enter the likelihood of the distributions with natural parameters `q` only
through the estimate `m`: the sum of the log-densities of `n` observations is `n (q · m - log_normalizer)`,
up to a constant that does not depend on `q`. -/
theorem C69_sufficient (hs : solve.For search) {K : Kind Cls} (hK : LibraryKind solve K) {rs ss : List ℕ}
    (hss : ∀ n ∈ ss, 0 < n) {p : List ℕ → K.P} {χ : List ℕ → K.E} {x : List ℕ → K.X} {t : Tree Val}
    (ht : K.obs (rs ++ ss) x t) {m : Dist Cls}
    (hm : Estimates (library search) (K.exp rs p χ) ss.length t m) :
    ∃ c : List ℕ → ℝ, ∀ q : List ℕ → K.N, ∃ l z d,
      (K.nat rs p q).logPdf (library search) t = ok (scalars (rs ++ ss) l) ∧
      (K.nat rs p q).logNormalizer (library search) = ok (scalars rs z) ∧
      dotCalc (K.nat rs p q) m = ok (scalars rs d) ∧
      ∀ i, inB rs i = true → ∑ j ∈ box ss, l (i ++ j) = ss.prod * (d i - z i) + c i := by
  refine ⟨fun i => ∑ j ∈ box ss, (K.F (p i)).carrier (x (i ++ j)), fun q => ?_⟩
  obtain ⟨d, h1, h2⟩ := estimate_dot hs hK hss ht hm q
  refine ⟨_, _, d, C67_log_pdf hs hK rs ss p q x t ht, (C51_library hs hK).logNormalizer rs p q, h1,
    fun i hi => ?_⟩
  rw [mul_sub, h2 i hi]
  have : (ss.prod : ℝ) * (K.F (p i)).logNormalizer (q i) =
      ∑ j ∈ box ss, (K.F (p i)).logNormalizer (q i) := by
    rw [Finset.sum_const, card_box, nsmul_eq_mul]
  rw [this, ← Finset.sum_sub_distrib, ← Finset.sum_add_distrib]
  refine Finset.sum_congr rfl fun j hj => ?_
  rw [take_append_of hi, ExpFam.logPdf]

section

variable (hs : solve.For search) {K : Kind Cls} {S : Setting K} (hK : LibrarySetting solve K S)
  {rs ss : List ℕ} (hss : ∀ n ∈ ss, 0 < n) {p : List ℕ → K.P} {χ : List ℕ → K.E} {x : List ℕ → K.X}
  {t : Tree Val} (ht : K.obs (rs ++ ss) x t) {m : Dist Cls}
  (hm : Estimates (library search) (K.exp rs p χ) ss.length t m)

theorem sum_data (f : K.X → ℝ) (i : List ℕ) :
    (((box ss).toList.map fun j => x (i ++ j)).map f).sum = ∑ j ∈ box ss, f (x (i ++ j)) := by
  rw [List.map_map, Finset.sum_map_toList]
  rfl

include hs hK hss ht hm

theorem estimate_iff {q : List ℕ → K.N} {e : Dist Cls} (hr : EachLeaf RegularVals (K.nat rs p q))
    (he : (K.nat rs p q).toExp (library search).toExp = .ok e) (v : List ℕ → K.N) :
    dotCalc (K.nat rs p v) m = dotCalc (K.nat rs p v) e ↔ ∀ i, inB rs i = true →
      ss.prod * (K.F (p i)).dot (v i) ((K.F (p i)).toExp (q i)) =
        ∑ j ∈ box ss, (K.F (p i)).dot (v i) ((K.F (p i)).stat (x (i ++ j))) := by
  have h := C51_library hs hK.kind
  rw [h.toExp rs p q (regular_dom hK.kind hr)] at he
  cases he
  obtain ⟨d, h1, h2⟩ := estimate_dot hs hK.kind hss ht hm v
  rw [h1, h.dotCalc]
  have hn : (ss.prod : ℝ) ≠ 0 := by
    have := prod_ne_zero hss
    exact_mod_cast this
  constructor
  · intro e i hi
    rw [← h2 i hi, ok_scalars_inj e i hi]
  · intro e
    refine congrArg ok (scalars_congr fun i hi => ?_)
    have := e i hi
    rw [← h2 i hi] at this
    exact (mul_left_cancel₀ hn this).symm

/-- **C69.** Let `to_exp()` of the natural parameters `q` be `e`.  The distributions with these
parameters make the observations at least as likely as all other distributions (of the same batch, with
the same fixed parameters) if and only if `e` is the estimate, paired with all directions. -/
theorem C69_maximum_likelihood {q : List ℕ → K.N} (hq : S.Inside rs p q) {e : Dist Cls}
    (hr : EachLeaf RegularVals (K.nat rs p q))
    (he : (K.nat rs p q).toExp (library search).toExp = .ok e) :
    (∀ v : List ℕ → K.N, (∀ i, inB rs i = true → v i ∈ S.dirs) →
      dotCalc (K.nat rs p v) m = dotCalc (K.nat rs p v) e) ↔
    ∃ l, (K.nat rs p q).logPdf (library search) t = ok (scalars (rs ++ ss) l) ∧
      ∀ q', S.Inside rs p q' → ∃ l', (K.nat rs p q').logPdf (library search) t = ok (scalars (rs ++ ss) l') ∧
        ∀ i, inB rs i = true → ∑ j ∈ box ss, l' (i ++ j) ≤ ∑ j ∈ box ss, l (i ++ j) := by
  have hl : ∀ (q : List ℕ → K.N) (i : List ℕ), inB rs i = true →
      ∑ j ∈ box ss, (K.F (p ((i ++ j).take rs.length))).logPdf (q ((i ++ j).take rs.length)) (x (i ++ j)) =
        (((box ss).toList.map fun j => x (i ++ j)).map ((K.F (p i)).logPdf (q i))).sum := by
    intro q i hi
    rw [sum_data]
    exact Finset.sum_congr rfl fun j _ => by rw [take_append_of hi]
  have hc : ∀ i : List ℕ, ((((box ss).toList.map fun j => x (i ++ j)).length : ℕ) : ℝ) = ss.prod := by
    intro i
    rw [List.length_map, Finset.length_toList, card_box]
  constructor
  · intro h
    refine ⟨_, C67_log_pdf hs hK.kind rs ss p q x t ht, fun q' hq' => ⟨_,
      C67_log_pdf hs hK.kind rs ss p q' x t ht, fun i hi => ?_⟩⟩
    rw [hl q' i hi, hl q i hi]
    refine (library_lawful hK).mle (hq i hi).1 _ (hq i hi).2 (fun v hv => ?_) (hq' i hi).2
    rw [hc, sum_data]
    exact (estimate_iff hs hK hss ht hm hr he fun _ => v).1 (h _ fun _ _ => hv) i hi
  · rintro ⟨l, h1, h2⟩ v hv
    rw [estimate_iff hs hK hss ht hm hr he]
    intro i hi
    rw [← hc i, ← sum_data (fun y => (K.F (p i)).dot (v i) ((K.F (p i)).stat y))]
    refine (library_lawful hK).mle_only_if (hq i hi).1 (hq i hi).2 (fun q' hq' => ?_) (hv i hi)
    obtain ⟨l', h3, h4⟩ := h2 (fun k => if k = i then q' else q k) fun k hk => by
      by_cases e : k = i
      · subst e; simpa using ⟨(hq k hk).1, hq'⟩
      · simpa [e] using hq k hk
    have h5 := h4 i hi
    rw [C67_log_pdf hs hK.kind rs ss p _ x t ht] at h1 h3
    have e1 : ∀ j ∈ box ss, l (i ++ j) = _ := fun j hj =>
      (ok_scalars_inj h1 (i ++ j) ((inB_append (inB_length hi)).2 ⟨hi, mem_box.1 hj⟩)).symm
    have e2 : ∀ j ∈ box ss, l' (i ++ j) = _ := fun j hj =>
      (ok_scalars_inj h3 (i ++ j) ((inB_append (inB_length hi)).2 ⟨hi, mem_box.1 hj⟩)).symm
    rw [Finset.sum_congr rfl e1, Finset.sum_congr rfl e2, hl q i hi,
      hl (fun k => if k = i then q' else q k) i hi] at h5
    simpa using h5

/-- **C69.** There is no other such distribution. -/
theorem C69_unique {q q' : List ℕ → K.N} (hq : S.Inside rs p q) (hq' : S.Inside rs p q') {e : Dist Cls}
    (hr : EachLeaf RegularVals (K.nat rs p q))
    (he : (K.nat rs p q).toExp (library search).toExp = .ok e)
    (hv : ∀ v : List ℕ → K.N, (∀ i, inB rs i = true → v i ∈ S.dirs) →
      dotCalc (K.nat rs p v) m = dotCalc (K.nat rs p v) e) :
    ∃ l l', (K.nat rs p q).logPdf (library search) t = ok (scalars (rs ++ ss) l) ∧
      (K.nat rs p q').logPdf (library search) t = ok (scalars (rs ++ ss) l') ∧
      ∀ i, inB rs i = true → q' i ≠ q i → ∑ j ∈ box ss, l' (i ++ j) < ∑ j ∈ box ss, l (i ++ j) := by
  refine ⟨_, _, C67_log_pdf hs hK.kind rs ss p q x t ht, C67_log_pdf hs hK.kind rs ss p q' x t ht,
    fun i hi hne => ?_⟩
  have hl : ∀ (q : List ℕ → K.N),
      ∑ j ∈ box ss, (K.F (p ((i ++ j).take rs.length))).logPdf (q ((i ++ j).take rs.length)) (x (i ++ j)) =
        (((box ss).toList.map fun j => x (i ++ j)).map ((K.F (p i)).logPdf (q i))).sum := by
    intro q
    rw [sum_data]
    exact Finset.sum_congr rfl fun j _ => by rw [take_append_of hi]
  rw [hl q, hl q']
  refine (library_lawful hK).mle_unique (hq i hi).1 (fun h0 => ?_) (hq i hi).2 (fun v hv' => ?_)
    (hq' i hi).2 hne
  · have := congrArg List.length h0
    rw [List.length_map, Finset.length_toList, card_box] at this
    exact prod_ne_zero hss (by simp [this])
  · rw [List.length_map, Finset.length_toList, card_box, sum_data]
    exact (estimate_iff hs hK hss ht hm hr he fun _ => v).1 (hv _ fun _ _ => hv') i hi

end

/-- **C69.** For a class without fixed parameters, the recipe of the README and of
`examples/maximum_likelihood_estimation.py` computes the same:
`MaximumLikelihoodEstimator.create_simple_estimator(cls)` instead of `create_estimator`. -/
theorem C69_simple_estimator (hs : solve.For search) {K : Kind Cls} (hK : LibraryKind solve K)
    {rs ss : List ℕ} (hss : ∀ n ∈ ss, 0 < n) {p : List ℕ → K.P} {χ : List ℕ → K.E} {x : List ℕ → K.X}
    {v : Val} (ht : K.obs (rs ++ ss) x (.leaf v)) {m : Dist Cls}
    (hf : ∀ f ∈ Cls.fields (K.exp rs p χ).cls, f.fixed = false) :
    Estimates (library search) (K.exp rs p χ) ss.length (.leaf v) m ↔
    ∃ est w, createSimpleEstimator (K.exp rs p χ).cls [] = .ok est ∧
      est.sufficientStatistics (library search).stat (.leaf v) = .ok w ∧
      paramMean w (some (firstAxes ss.length)) = .ok m := by
  have h := C51_library hs hK
  obtain ⟨w, h1, h2⟩ := (library_collects (search := search) hK).stat rs ss p χ x _ hss ht
  have he := expand_exp hs hK rs ss.length p χ
  have hc : (K.exp rs p χ).cls = (K.exp (rs ++ List.replicate ss.length 1) (fun i => p (i.take rs.length))
      fun i => χ (i.take rs.length)).cls := by
    have := ((library_collects (search := search) hK).exp rs (List.replicate ss.length 1) p χ).same
    revert this
    generalize K.exp rs p χ = d
    generalize K.exp _ _ _ = d'
    cases d; cases d'
    exact fun h => h.1
  have hw := h.wfE (rs ++ List.replicate ss.length 1) (fun i => p (i.take rs.length))
    fun i => χ (i.take rs.length)
  obtain ⟨m', hm'⟩ := estimates_ok hs hK hss p χ ht
  have key : ∃ est, createSimpleEstimator (K.exp rs p χ).cls [] = .ok est ∧
      est.sufficientStatistics (library search).stat (.leaf v) = .ok w := by
    rw [hc] at hf ⊢
    revert h1 hf
    generalize K.exp _ _ _ = d
    cases d with
    | mk c vals subs =>
      rintro hf ⟨-, ec, nc, h3, h4, h5, h6⟩
      cases h3
      have hz : fixedArgs c vals = [] := by
        unfold fixedArgs
        rw [List.map_eq_nil_iff, List.filter_eq_nil_iff]
        rintro ⟨f, a⟩ hfa
        simp [hf f (List.of_mem_zip hfa).1]
      rw [hz] at h5
      have hn : ((Cls.fields nc).filter Field.fixed) = [] := by
        have e1 := (estimatorClasses_some c c rfl).2 nc h4
        have e2 : ((Cls.fields c).filter Field.fixed) = [] := by
          rw [List.filter_eq_nil_iff]
          exact fun f hm => by simp [hf f hm]
        rw [show fields c = Cls.fields c from rfl, e2] at e1
        exact List.map_eq_nil_iff.1 e1
      have he : createSimpleEstimator c [] = .ok ⟨[⟨[], c, 0, []⟩], []⟩ := by
        simp [createSimpleEstimator, h4]
      exact ⟨_, he, (C25_simple_estimator h4 he).2 ⟨[], by rw [hn]; exact .nil, h5, h6⟩⟩
  constructor
  · rintro ⟨e', est, w', g1, g2, g3, g4⟩
    rw [he] at g1
    cases g1
    have := (C25_estimator hw g2 (h.distinct _ _ _ ht)).2 h1
    rw [g3] at this
    cases this
    obtain ⟨est', k1, k2⟩ := key
    exact ⟨est', w, k1, k2, g4⟩
  · rintro ⟨est', w', k1, k2, k3⟩
    obtain ⟨est, k4, k5⟩ := key
    rw [k1] at k4
    cases k4
    rw [k2] at k5
    cases k5
    obtain ⟨⟨e', est, w'', g1, g2, g3, g4⟩, -⟩ := hm'
    have g1' := g1
    rw [he] at g1'
    cases g1'
    have := (C25_estimator hw g2 (h.distinct _ _ _ ht)).2 h1
    exact ⟨_, est, w, he, g2, this, k3⟩

/-- **C69.** The new axes are necessary: without them, `parameter_mean` raises for
`MultivariateFixedVarianceNormalEP` without batch axes, since the variance in the statistics
(multivariate_normal/fixed_variance.py 69-71) has no axes of the observations. -/
theorem C69_new_axes_necessary (d n : ℕ) (p : List ℕ → ℝ) (χ : List ℕ → Fin d → ℝ)
    (x : List ℕ → Fin d → ℝ) : ∃ est w,
      createEstimator ((Simple.kind solve (.mvFixed d)).exp [] p χ) = .ok est ∧
      est.sufficientStatistics (library search).stat (.leaf (.real (vectors [n] x))) = .ok w ∧
      ¬∃ m, paramMean w (some (firstAxes 1)) = .ok m := by
  refine ⟨_, .mk .fixedVarianceNormalEP [.real (vectors [n] x), .real (scalars [] p)] .nil, rfl, rfl, ?_⟩
  rintro ⟨m, hm⟩
  have hw : WF (Dist.mk Cls.fixedVarianceNormalEP [.real (vectors [n] x), .real (scalars [] p)] .nil) :=
    ⟨rfl, by simp [isJoint, Cls.isJoint], by simp [Subs.names], trivial⟩
  obtain ⟨-, -, -, h⟩ := C17_mean hw hm
  obtain ⟨v', -, ax, h1, -⟩ := h _ _ _ (.here (i := 1) rfl rfl)
  obtain ⟨h1, -⟩ := h1
  cases h1 with
  | cons h1 _ => exact Nat.not_lt_zero _ h1.1

/-- Non-vacuity of C69: ten observations (in an array of shape 2×5) of each of three nested joint
distributions. -/
example (hs : solve.For search) (χ : List ℕ → _) :
    let K := Kind.joint .jointN .jointE (.ofList (partsOf (Samples.outer solve)))
    ∃ t m, Estimates (library search) (K.exp [3] (fun _ => ((), ((), (), ()), ())) χ) 2 t m := by
  intro K
  obtain ⟨t, ht⟩ := obs_total (Samples.outer_setting (solve := solve)).kind ([3] ++ [5, 2])
    fun _ => ((0 : ℝ), ((1 : ℕ), (1 : ℝ), ()), ())
  obtain ⟨m, h, -⟩ := C69_estimate hs Samples.outer_setting.kind (ss := [5, 2]) (by simp)
    (fun _ => ((), ((), (), ()), ())) χ ht
  exact ⟨t, m, h⟩

/-- Non-vacuity of C69: the observations `b`, `b + 1` and `b + 2` of the Poisson distribution number `b`
of a batch, and the most likely means `b + 1`. -/
example (hs : solve.For search) (t : Tree Val)
    (ht : (Simple.kind solve .poisson).obs ([2] ++ [3]) (fun i => i.sum) t) :
    let K := Simple.kind solve .poisson
    let q : List ℕ → ℝ := fun i => Real.log (i.sum + 1)
    ∃ l, (K.nat [2] (fun _ => ()) q).logPdf (library search) t = ok (scalars [2, 3] l) ∧
      ∀ q', ∃ l', (K.nat [2] (fun _ => ()) q').logPdf (library search) t = ok (scalars [2, 3] l') ∧
        ∀ i, inB [2] i = true → ∑ j ∈ box [3], l' (i ++ j) ≤ ∑ j ∈ box [3], l (i ++ j) := by
  intro K q
  have hK := LibrarySetting.simple (solve := solve) .poisson
  have hi : ∀ q, (Simple.setting solve .poisson).Inside [2] (fun _ => ()) q := fun _ _ _ => ⟨trivial, trivial⟩
  have hr : EachLeaf RegularVals (K.nat [2] (fun _ => ()) q) := by
    intro l hl
    have e : leaves (K.nat [2] (fun _ => ()) q) = [.mk .poissonNP (layS [2] (fun _ => ()) q) .nil] := rfl
    rw [e, List.mem_singleton] at hl
    subst hl
    exact trivial
  obtain ⟨m, hm, -⟩ := C69_estimate hs hK.kind (rs := [2]) (ss := [3]) (by simp) (fun _ => ())
    (fun _ => (0 : ℝ)) ht
  have he := (C51_library hs hK.kind).toExp [2] (fun _ => ()) q (regular_dom hK.kind hr)
  obtain ⟨l, h1, h2⟩ := (C69_maximum_likelihood hs hK (by simp) ht hm (hi q) hr he).1 fun (v : List ℕ → ℝ) hv => by
    refine (estimate_iff hs hK (by simp) ht hm hr he v).2 fun i _ => ?_
    have hp : (0 : ℝ) < i.sum + 1 := by positivity
    show ((([3] : List ℕ).prod : ℕ) : ℝ) * (v i * Real.exp (Real.log (i.sum + 1))) =
      ∑ j ∈ box [3], v i * (((i ++ j).sum : ℕ) : ℝ)
    rw [Real.exp_log hp, ← Finset.mul_sum, sum_box_cons]
    simp [box, Finset.sum_range_succ]
    ring
  exact ⟨l, h1, fun q' => h2 q' (hi q')⟩

end

end Efax
