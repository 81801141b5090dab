import Verif.Model.Tests.Bodies6
import Verif.Props.TestSampling

/-!
# Lemmas: the statistics of variates for fixed parameters without new axes
-/

namespace Efax

open ClassTable Calc Spec

/-- The same array, or an array without axes where the other one has the same number everywhere. -/
def FlatVal (v v' : Val) : Prop :=
  v.toC = v'.toC ∨ (v.rshape = [] ∧ ∀ i, inB v'.rshape i = true → entry v' i = entry v [])

/-- Fixed parameters have no axes or those of the observations, the others have axes. -/
def FlatShape (ss : List ℕ) (f : Field) (v : Val) : Prop :=
  if f.fixed then v.rshape = [] ∨ v.rshape = ss else v.rshape ≠ []

section

variable {C : Type} [ClassTable C]

/-- The statistics `w` of observations of shape `ss`, where the arrays of `S` have these axes throughout. -/
def FlatOk (ss : List ℕ) (w S : Dist C) : Prop :=
  TreeRel FlatVal w S ∧ ∀ k f v, ParamAt w k f v → FlatShape ss f v

/-- The same for parts. -/
def FlatsOk (ss : List ℕ) (w S : Subs C) : Prop :=
  TreeRels FlatVal w S ∧ ∀ n d k f v, (n, d) ∈ w.toList → ParamAt d k f v → FlatShape ss f v

/-- The statistics of observations of shape `ss` for one distribution. -/
def Spec.Kind.Flat (L : Library C) (K : Kind C) : Prop :=
  ∀ ss (p : List ℕ → K.P) (χ : List ℕ → K.E) x t, ss ≠ [] → K.obs ss x t → ∃ w,
    StatTree some L.stat (K.exp [] p χ) t w ∧
    FlatOk ss w (K.exp ss (fun _ => p []) fun i => (K.F (p [])).stat (x i))

/-- The same for parts. -/
def Parts.Flat (L : Library C) (R : Parts C) : Prop :=
  ∀ ss (p : List ℕ → R.P) (χ : List ℕ → R.E) x f, ss ≠ [] → R.obs ss x f → ∃ w,
    StatSubs some L.stat (R.exp [] p χ) f w ∧
    FlatsOk ss w (R.exp ss (fun _ => p []) fun i => (R.F (p [])).stat (x i))

theorem Parts.Flat.nil {L : Library C} : Parts.Flat L (.nil : Parts C) :=
  fun _ _ _ _ _ _ _ => ⟨.nil, rfl, trivial, fun _ _ _ _ _ h => by cases h⟩

theorem Parts.Flat.cons {L : Library C} {n : String} {K : Kind C} {R : Parts C} (hK : K.Flat L)
    (hR : Parts.Flat L R) : Parts.Flat L (.cons n K R) := by
  intro ss p χ x f hss ⟨⟨t, ht, ho⟩, h⟩
  obtain ⟨w, h1, h2, h3⟩ := hK ss (fun i => (p i).1) (fun i => (χ i).1) _ t hss ho
  obtain ⟨s, h4, h5, h6⟩ := hR ss (fun i => (p i).2) (fun i => (χ i).2) _ f hss h
  refine ⟨.cons n w s, ⟨t, w, s, ht, h1, h4, rfl⟩, ⟨rfl, h2, h5⟩, fun m d k f v hm hp => ?_⟩
  rcases List.mem_cons.1 hm with hm | hm
  · cases hm
    exact h3 k f v hp
  · exact h6 m d k f v hm hp

theorem Parts.Flat.ofList {L : Library C} {l : List (String × Kind C)}
    (h : ∀ nk ∈ l, nk.2.Flat L) : Parts.Flat L (.ofList l) := by
  induction l with
  | nil => exact .nil
  | cons nk l ih =>
    exact .cons (h nk List.mem_cons_self) (ih fun nk h' => h nk (List.mem_cons_of_mem _ h'))

theorem Spec.Kind.Flat.joint {L : Library C} {c c' : C}
    (hc' : isJoint c' = true) (hn : natCls c' = some c) {R : Parts C}
    (hR : Parts.Flat L R) : (Kind.joint c c' R).Flat L := by
  intro ss p χ x t hss h
  obtain ⟨f, rfl, hf, ho, hk⟩ := h
  obtain ⟨w, h1, h2, h3⟩ := hR ss p χ x f hss ho
  refine ⟨.mk c' [] w, ⟨hc', c', w, rfl, by simp [hn], h1, rfl⟩, ⟨rfl, .nil, h2⟩, fun k f v h => ?_⟩
  generalize e : Dist.mk c' [] w = d at h
  cases h with
  | here h4 h5 =>
    cases e
    simp at h5
  | sub h4 h5 =>
    cases e
    exact h3 _ _ _ _ _ h4 h5

theorem Spec.Kind.Flat.simple {P N E X : Type} [Sub N] {L : Library C} {c c' : C} {m : NatMethods}
    {nat : Layout P N} {exp : Layout P E} {fixed : List ℕ → (List ℕ → P) → Dict String Val}
    {obs : List ℕ → (List ℕ → X) → Val → Prop} {F : P → ExpFam N E X} {dom : P → N → Prop}
    {toNat : P → E → N} {ecm : P → E → ℝ} {ent : Prop} {domE : P → E → Prop}
    (hm : L.nat c = some m) (hj : isJoint c' = false) (he : expCls c = some c')
    (hn : natCls c' = some c)
    (hfix : ∀ rs p χ, fixedArgs c' (exp rs p χ) = fixed rs p)
    (hst : ∀ ss (p : List ℕ → P) x v, ss ≠ [] → obs ss x v →
      ∃ w, m.stat v (fixed [] p) = .ok w ∧
        List.Forall₂ FlatVal w (exp ss (fun _ => p []) fun i => (F (p [])).stat (x i)) ∧
        List.Forall₂ (FlatShape ss) (fields c') w) :
    (Kind.simple c c' nat exp obs F toNat ecm ent dom domE).Flat L := by
  intro ss p χ x t hss h
  obtain ⟨v, rfl, h⟩ := h
  obtain ⟨w, h1, h2, h3⟩ := hst ss p x v hss h
  refine ⟨.mk c' w .nil, ⟨hj, c', c, rfl, hn, ?_, by simp [Dist.cls, hn]⟩, ⟨rfl, h2, trivial⟩, fun k f v h => ?_⟩
  · have e := hfix [] p χ
    rw [Library.stat, hm, he]
    simp only [e, h1]
    rfl
  · generalize hd : Dist.mk c' w .nil = d at h
    cases h with
    | sub h4 h5 =>
      cases hd
      cases h4
    | @here _ _ _ i _ _ h4 h5 =>
      cases hd
      obtain ⟨l1, rfl⟩ := List.getElem?_eq_some_iff.1 h4
      obtain ⟨l2, rfl⟩ := List.getElem?_eq_some_iff.1 h5
      exact (List.forall₂_iff_get.1 h3).2 i l1 l2

/-- A class whose statistics depend on the observation only. -/
theorem Spec.Kind.Flat.plain {P N E X : Type} [Sub N] {L : Library C} {c c' : C} {m : NatMethods}
    {nat : Layout P N} {exp : Layout P E}
    {obs : List ℕ → (List ℕ → X) → Val → Prop} {F : P → ExpFam N E X} {dom : P → N → Prop}
    {toNat : P → E → N} {ecm : P → E → ℝ} {ent : Prop} {domE : P → E → Prop}
    (hr : Refines m nat exp noFixed obs F dom) (hm : L.nat c = some m)
    (hj : isJoint c' = false) (he : expCls c = some c') (hn : natCls c' = some c)
    (hfix : ∀ rs p χ, fixedArgs c' (exp rs p χ) = [])
    (hlen : ∀ rs p χ, (exp rs p χ).length = (fields c').length)
    (hrep : ∀ rs ss p χ, List.Forall₂ (RepeatVal rs ss) (exp rs p χ)
      (exp (rs ++ ss) (fun i => p (i.take rs.length)) fun i => χ (i.take rs.length))) :
    (Kind.simple c c' nat exp obs F toNat ecm ent dom domE).Flat L := by
  refine .simple (fixed := noFixed) hm hj he hn hfix fun ss p x v hss h => ?_
  obtain ⟨w, h1, h2⟩ := hr.stat ss (fun _ => p []) x v h
  set S := exp ss (fun _ => p []) fun i => (F (p [])).stat (x i) with hS
  have hl : w.length = S.length := by simpa using congrArg List.length h2
  have hw : ∀ i (l1 : i < w.length) (l2 : i < S.length), w[i].toC = S[i].toC := by
    intro i l1 l2
    have := congrArg (·[i]?) h2
    simpa [l1, l2] using this
  refine ⟨w, h1, List.forall₂_iff_get.2 ⟨hl, fun i l1 l2 => .inl (hw i l1 l2)⟩,
    List.forall₂_iff_get.2 ⟨(hl.trans (hlen _ _ _)).symm, fun i l1 l2 => ?_⟩⟩
  have l3 : i < S.length := hl ▸ l2
  have hf : (fields c')[i].fixed = false := by
    by_contra hf
    have hm : ((fields c')[i].name, S[i]) ∈ fixedArgs c' S :=
      List.mem_map.2 ⟨((fields c')[i], S[i]), List.mem_filter.2 ⟨List.mem_iff_getElem?.2
        ⟨i, List.getElem?_zip_eq_some.2 ⟨by simp [l1], by simp [l3]⟩⟩, by simpa using hf⟩, rfl⟩
    have e : fixedArgs c' S = [] := hfix _ _ _
    generalize fixedArgs c' S = A at hm e
    subst e
    cases hm
  have h3 := hrep ss [] (fun _ => p []) fun i => (F (p [])).stat (x i)
  obtain ⟨⟨s, h4, -⟩, -⟩ := (List.forall₂_iff_get.1 h3).2 i l3 (by rw [← h3.length_eq]; exact l3)
  have h5 : w[i].rshape = s ++ ss := by
    have := congrArg Arr.rshape (hw i l2 l3)
    simp only [toC_rshape] at this
    exact this.trans h4
  show if (fields c')[i].fixed then _ else w[i].rshape ≠ []
  rw [hf, h5]
  simp [hss]

end

/-! ### The families -/

theorem bcast_nil (ss : List ℕ) : bcast [] ss = .ok ss ∧ bcast ss [] = .ok ss := by
  cases ss <;> exact ⟨rfl, rfl⟩

theorem bidx_nil (i : List ℕ) : bidx [] i = [] := by cases i <;> rfl

theorem flat_scalars_nil {α : Type} [Inhabited α] (f : List ℕ → α) : (scalars [] f).get [] = f [] := by
  simp [scalars, Arr.ofFn, inB]

theorem broadcastLike_nil {α β : Type} [Inhabited α] [Inhabited β] (ss : List ℕ)
    (a : List ℕ → α) (b : List ℕ → β) :
    broadcastLike (ok (scalars [] a)) (ok (scalars ss b)) = ok (scalars ss fun _ => a []) := by
  simp only [broadcastLike, bind_ok, rshape_scalars, bcast_nil, if_true]
  exact ok_ofFn_congr fun j _ => by rw [bidx_nil, flat_scalars_nil]

theorem bin_scalars_nil {α β γ : Type} [Inhabited α] [Inhabited β] [Inhabited γ] (f : α → β → γ)
    (ss : List ℕ) (a : List ℕ → α) (b : List ℕ → β) :
    bin f (ok (scalars ss a)) (ok (scalars [] b)) = ok (scalars ss fun j => f (a j) (b [])) := by
  simp only [bin, bind_ok, rshape_scalars, bcast_nil]
  refine ok_ofFn_congr fun j hj => ?_
  rw [bidx_nil, flat_scalars_nil, bidx_self hj, scalars, Arr.ofFn_get hj]

section

variable [MachEps] {solve : Solver} {search : Cls → List Val → Except Err (List Val)}

theorem flat_bernoulli : (Simple.kind solve .bernoulli).Flat (library search) :=
  .plain (m := Methods.bernoulliNP) (C51_bernoulli) rfl rfl rfl rfl (fun _ _ _ => rfl) (fun _ _ _ => rfl)
    (fun rs ss _ _ => (.cons ⟨spreadS rs ss _, rfl⟩ .nil))

theorem flat_beta : (Simple.kind solve .beta).Flat (library search) :=
  .plain (m := Methods.betaNP) (C51_beta) rfl rfl rfl rfl (fun _ _ _ => rfl) (fun _ _ _ => rfl)
    (fun rs ss _ _ => (.cons ⟨spreadV rs ss _, rfl⟩ .nil))

theorem flat_chi : (Simple.kind solve .chi).Flat (library search) :=
  .plain (m := Methods.chiNP) (C51_chi) rfl rfl rfl rfl (fun _ _ _ => rfl) (fun _ _ _ => rfl)
    (fun rs ss _ _ => (.cons ⟨spreadS rs ss _, rfl⟩ .nil))

theorem flat_chiSquare : (Simple.kind solve .chiSquare).Flat (library search) :=
  .plain (m := Methods.chiSquareNP) (C51_chi_square) rfl rfl rfl rfl (fun _ _ _ => rfl) (fun _ _ _ => rfl)
    (fun rs ss _ _ => (.cons ⟨spreadS rs ss _, rfl⟩ .nil))

theorem flat_cmvCircular (d : ℕ) : (Simple.kind solve (.cmvCircular d)).Flat (library search) :=
  .plain (m := Methods.ccsnNP) (C51_cmv_circular d) rfl rfl rfl rfl (fun _ _ _ => rfl) (fun _ _ _ => rfl)
    (fun rs ss _ _ => (.cons ⟨spreadCM rs ss _, rfl⟩ .nil))

theorem flat_cmvUnit (d : ℕ) : (Simple.kind solve (.cmvUnit d)).Flat (library search) :=
  .plain (m := Methods.cmvUnitNormalNP) (C51_cmv_unit d) rfl rfl rfl rfl (fun _ _ _ => rfl) (fun _ _ _ => rfl)
    (fun rs ss _ _ => (.cons ⟨spreadCV rs ss _, rfl⟩ .nil))

theorem flat_complexNormal : (Simple.kind solve .complexNormal).Flat (library search) :=
  .plain (m := Methods.complexNormalNP) (C51_complex_normal) rfl rfl rfl rfl (fun _ _ _ => rfl) (fun _ _ _ => rfl)
    (fun rs ss _ _ => (.cons ⟨spreadC rs ss _, rfl⟩ (.cons ⟨spreadS rs ss _, rfl⟩ (.cons ⟨spreadC rs ss _, rfl⟩ .nil))))

theorem flat_complexUnit : (Simple.kind solve .complexUnit).Flat (library search) :=
  .plain (m := Methods.complexUnitNormalNP) (C51_complex_unit) rfl rfl rfl rfl (fun _ _ _ => rfl) (fun _ _ _ => rfl)
    (fun rs ss _ _ => (.cons ⟨spreadC rs ss _, rfl⟩ .nil))

theorem flat_dirichlet (d : ℕ) : (Simple.kind solve (.dirichlet d)).Flat (library search) :=
  .plain (m := Methods.dirichletNP) (C51_dirichlet d) rfl rfl rfl rfl (fun _ _ _ => rfl) (fun _ _ _ => rfl)
    (fun rs ss _ _ => (.cons ⟨spreadV rs ss _, rfl⟩ .nil))

theorem flat_exponential : (Simple.kind solve .exponential).Flat (library search) :=
  .plain (m := Methods.exponentialNP) (C51_exponential) rfl rfl rfl rfl (fun _ _ _ => rfl) (fun _ _ _ => rfl)
    (fun rs ss _ _ => (.cons ⟨spreadS rs ss _, rfl⟩ .nil))

theorem flat_gamma : (Simple.kind solve .gamma).Flat (library search) :=
  .plain (m := Methods.gammaNP) (C51_gamma) rfl rfl rfl rfl (fun _ _ _ => rfl) (fun _ _ _ => rfl)
    (fun rs ss _ _ => (.cons ⟨spreadS rs ss _, rfl⟩ (.cons ⟨spreadS rs ss _, rfl⟩ .nil)))

theorem flat_genDirichlet (d : ℕ) : (Simple.kind solve (.genDirichlet d)).Flat (library search) :=
  .plain (m := Methods.genDirichletNP) (C51_gen_dirichlet d) rfl rfl rfl rfl (fun _ _ _ => rfl) (fun _ _ _ => rfl)
    (fun rs ss _ _ => (.cons ⟨spreadV rs ss _, rfl⟩ (.cons ⟨spreadV rs ss _, rfl⟩ .nil)))

theorem flat_geometric : (Simple.kind solve .geometric).Flat (library search) :=
  .plain (m := Methods.geometricNP) (C51_geometric) rfl rfl rfl rfl (fun _ _ _ => rfl) (fun _ _ _ => rfl)
    (fun rs ss _ _ => (.cons ⟨spreadS rs ss _, rfl⟩ .nil))

theorem flat_logarithmic : (Simple.kind solve .logarithmic).Flat (library search) :=
  .plain (m := Methods.logarithmicNP) (C51_logarithmic) rfl rfl rfl rfl (fun _ _ _ => rfl) (fun _ _ _ => rfl)
    (fun rs ss _ _ => (.cons ⟨spreadS rs ss _, rfl⟩ .nil))

theorem flat_multinomial (d : ℕ) : (Simple.kind solve (.multinomial d)).Flat (library search) :=
  .plain (m := Methods.multinomialNP) (C51_multinomial d) rfl rfl rfl rfl (fun _ _ _ => rfl) (fun _ _ _ => rfl)
    (fun rs ss _ _ => (.cons ⟨spreadV rs ss _, rfl⟩ .nil))

theorem flat_mvNormal (d : ℕ) : (Simple.kind solve (.mvNormal d)).Flat (library search) :=
  .plain (m := Methods.mvNormalNP) (C51_mv_normal d) rfl rfl rfl rfl (fun _ _ _ => rfl) (fun _ _ _ => rfl)
    (fun rs ss _ _ => (.cons ⟨spreadV rs ss _, rfl⟩ (.cons ⟨spreadM rs ss _, rfl⟩ .nil)))

theorem flat_mvDiagonal (d : ℕ) : (Simple.kind solve (.mvDiagonal d)).Flat (library search) :=
  .plain (m := Methods.diagonalNormalNP) (C51_mv_diagonal d) rfl rfl rfl rfl (fun _ _ _ => rfl) (fun _ _ _ => rfl)
    (fun rs ss _ _ => (.cons ⟨spreadV rs ss _, rfl⟩ (.cons ⟨spreadV rs ss _, rfl⟩ .nil)))

theorem flat_mvIsotropic (d : ℕ) : (Simple.kind solve (.mvIsotropic d)).Flat (library search) :=
  .plain (m := Methods.isotropicNormalNP) (C51_mv_isotropic d) rfl rfl rfl rfl (fun _ _ _ => rfl) (fun _ _ _ => rfl)
    (fun rs ss _ _ => (.cons ⟨spreadV rs ss _, rfl⟩ (.cons ⟨spreadS rs ss _, rfl⟩ .nil)))

theorem flat_mvUnit (d : ℕ) : (Simple.kind solve (.mvUnit d)).Flat (library search) :=
  .plain (m := Methods.mvUnitNormalNP) (C51_mv_unit d) rfl rfl rfl rfl (fun _ _ _ => rfl) (fun _ _ _ => rfl)
    (fun rs ss _ _ => (.cons ⟨spreadV rs ss _, rfl⟩ .nil))

theorem flat_normal : (Simple.kind solve .normal).Flat (library search) :=
  .plain (m := Methods.normalNP) (C51_normal) rfl rfl rfl rfl (fun _ _ _ => rfl) (fun _ _ _ => rfl)
    (fun rs ss _ _ => (.cons ⟨spreadS rs ss _, rfl⟩ (.cons ⟨spreadS rs ss _, rfl⟩ .nil)))

theorem flat_unitNormal : (Simple.kind solve .unitNormal).Flat (library search) :=
  .plain (m := Methods.unitNormalNP) (C51_unit_normal) rfl rfl rfl rfl (fun _ _ _ => rfl) (fun _ _ _ => rfl)
    (fun rs ss _ _ => (.cons ⟨spreadS rs ss _, rfl⟩ .nil))

theorem flat_poisson : (Simple.kind solve .poisson).Flat (library search) :=
  .plain (m := Methods.poissonNP) (C51_poisson) rfl rfl rfl rfl (fun _ _ _ => rfl) (fun _ _ _ => rfl)
    (fun rs ss _ _ => (.cons ⟨spreadS rs ss _, rfl⟩ .nil))

theorem flat_rayleigh : (Simple.kind solve .rayleigh).Flat (library search) :=
  .plain (m := Methods.rayleighNP) (C51_rayleigh) rfl rfl rfl rfl (fun _ _ _ => rfl) (fun _ _ _ => rfl)
    (fun rs ss _ _ => (.cons ⟨spreadS rs ss _, rfl⟩ .nil))

theorem flat_vonMisesFisher (d : ℕ) : (Simple.kind solve (.vonMisesFisher d)).Flat (library search) := by
  refine .simple (m := Methods.vonMisesFisherNP) (fixed := noFixed) rfl rfl rfl rfl
    (fun _ _ _ => rfl) fun ss p x v hss h => ?_
  refine ⟨[v], rfl, .cons (.inl (toC_of_toR h)) .nil, .cons ?_ .nil⟩
  show v.rshape ≠ []
  rw [rshape_of_toR h]
  exact List.cons_ne_nil _ _

theorem flat_mvFixed (d : ℕ) : (Simple.kind solve (.mvFixed d)).Flat (library search) := by
  refine .simple (m := Methods.fixedVarianceNormalNP)
    (fixed := fun rs p => [("variance", .real (scalars rs p))]) rfl rfl rfl rfl (fun _ _ _ => rfl)
    fun ss p x v hss h => ?_
  refine ⟨[v, .real (scalars [] p)], rfl,
    .cons (.inl (toC_of_toR h)) (.cons (.inr ⟨rfl, fun i hi => ?_⟩) .nil), .cons ?_ (.cons ?_ .nil)⟩
  · have hi : inB ss i = true := hi
    show ((scalars ss fun _ => p []).get i : ℂ) = ((scalars [] p).get [] : ℂ)
    rw [flat_scalars_nil, scalars, Arr.ofFn_get hi]
  · show v.rshape ≠ []
    rw [rshape_of_toR h]
    exact List.cons_ne_nil _ _
  · exact .inl rfl

theorem flat_negativeBinomial : (Simple.kind solve .negativeBinomial).Flat (library search) := by
  refine .simple (m := Methods.negativeBinomialNP)
    (fixed := fun rs (p : List ℕ → ℕ) => [("failures", .int (scalars rs fun i => (p i : ℤ)))]) rfl rfl rfl rfl
    (fun _ _ _ => rfl) fun ss p x v hss h => ?_
  have hg : ∀ w, Dict.get [("failures", w)] "failures" = .ok (w : Val) := fun _ => rfl
  simp only [Methods.negativeBinomialNP, hg, Bind.bind, Except.bind, show v.toR = _ from h,
    broadcastLike_nil ss (fun i => (p i : ℤ)), run_ok]
  refine ⟨_, rfl, .cons (.inl (toC_of_toR h)) (.cons (.inl rfl) .nil), .cons ?_ (.cons ?_ .nil)⟩
  · show v.rshape ≠ []
    rw [rshape_of_toR h]
    exact hss
  · exact .inr rfl

theorem flat_weibull : (Simple.kind solve .weibull).Flat (library search) := by
  refine .simple (m := Methods.weibullNP)
    (fixed := fun rs p => [("concentration", .real (scalars rs p))]) rfl rfl rfl rfl
    (fun _ _ _ => rfl) fun ss p x v hss h => ?_
  have hg : ∀ w, Dict.get [("concentration", w)] "concentration" = .ok (w : Val) := fun _ => rfl
  simp only [Methods.weibullNP, hg, Bind.bind, Except.bind, show v.toR = _ from h, toR_real,
    broadcastLike_nil, bin_scalars_nil]
  vals_simp
  exact ⟨_, rfl, .cons (.inl rfl) (.cons (.inl rfl) .nil), .cons (.inr rfl) (.cons hss .nil)⟩

theorem simple_flat (s : Simple) : (s.kind solve).Flat (library search) := by
  cases s with
  | bernoulli => exact flat_bernoulli
  | beta => exact flat_beta
  | chi => exact flat_chi
  | chiSquare => exact flat_chiSquare
  | cmvCircular d => exact flat_cmvCircular d
  | cmvUnit d => exact flat_cmvUnit d
  | complexNormal => exact flat_complexNormal
  | complexUnit => exact flat_complexUnit
  | dirichlet d => exact flat_dirichlet d
  | exponential => exact flat_exponential
  | gamma => exact flat_gamma
  | genDirichlet d => exact flat_genDirichlet d
  | geometric => exact flat_geometric
  | logarithmic => exact flat_logarithmic
  | multinomial d => exact flat_multinomial d
  | mvNormal d => exact flat_mvNormal d
  | mvDiagonal d => exact flat_mvDiagonal d
  | mvFixed d => exact flat_mvFixed d
  | mvIsotropic d => exact flat_mvIsotropic d
  | mvUnit d => exact flat_mvUnit d
  | negativeBinomial => exact flat_negativeBinomial
  | normal => exact flat_normal
  | unitNormal => exact flat_unitNormal
  | poisson => exact flat_poisson
  | rayleigh => exact flat_rayleigh
  | vonMisesFisher d => exact flat_vonMisesFisher d
  | weibull => exact flat_weibull

theorem library_flat {K : Kind Cls} (hK : LibraryKind solve K) : K.Flat (library search) := by
  induction hK with
  | simple s => exact simple_flat s
  | @joint l hne hn hall ih => exact .joint rfl rfl (.ofList ih)

end

end Efax
