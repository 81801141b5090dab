import Verif.Props.Reach

/-!
# C82: the conversions by search fail outside the narrowed bounds of the expectation parameters
-/

namespace Efax

open Spec Calc ClassTable

variable [MachEps]

theorem flatten_one_fails {c : Cls} {name : String} {s : Support} {v : Val} {x : Err}
    (hf : Cls.fields c = [⟨name, s, false⟩]) (ha : Cls.adjust c name [] = .ok s)
    (hy : s.flattened true v = .error x) : flatten (.mk c [v] .nil) true = .error x := by
  simp [flatten, Dist.walk, Subs.walk, makeFlat, parametersFlat, nodeParams, ClassTable.fields, hf,
    Dist.cls, Dist.vals, Dist.subs, Dict.ofList, Dict.set, makeFlatFields, ClassTable.adjust, ha, hy,
    Bind.bind, Except.bind, keep]

theorem flatten_two_fails {c : Cls} {n₁ n₂ : String} {s₁ s₂ : Support} {v₁ v₂ : Val} {x : Err}
    (hf : Cls.fields c = [⟨n₁, s₁, false⟩, ⟨n₂, s₂, false⟩]) (hne : n₁ ≠ n₂)
    (ha₁ : Cls.adjust c n₁ [] = .ok s₁) (ha₂ : ∀ kw, Cls.adjust c n₂ kw = .ok s₂)
    (hy : s₁.flattened true v₁ = .error x ∨
      (∃ a, s₁.flattened true v₁ = .ok a) ∧ s₂.flattened true v₂ = .error x) :
    flatten (.mk c [v₁, v₂] .nil) true = .error x := by
  rcases hy with hy | ⟨⟨a, hy₁⟩, hy⟩ <;>
  simp [flatten, Dist.walk, Subs.walk, makeFlat, parametersFlat, nodeParams, ClassTable.fields, hf,
    Dist.cls, Dist.vals, Dist.subs, Dict.ofList, Dict.set, makeFlatFields, ClassTable.adjust, ha₁, ha₂, hy, *,
    Bind.bind, Except.bind, keep]

omit [MachEps] in
theorem flattened_scalar_fails {mn mx : Option ℝ} {g : ℝ} {rs : List ℕ} {f : List ℕ → ℝ} {i : List ℕ}
    (hi : inB rs i = true) (h : Ring.realFlat mn mx (f i) = none) :
    (Support.scalar (.real mn mx g)).flattened true (.real (scalars rs f)) = .error .nonFinite := by
  simp only [Support.flattened, Val.newaxis, Ring.flattened, if_true]
  have hi' : inB (1 :: rs) (0 :: i) = true := (inB_cons ..).2 ⟨by omega, hi⟩
  refine Arr.mapE_error (i := 0 :: i) hi' ?_
  rw [Arr.newaxis, Arr.ofFn_get (rs := 1 :: (scalars rs f).rshape) hi', List.tail_cons, scalars, Arr.ofFn_get hi, h]

omit [MachEps] in
theorem flattened_vector_fails {mn mx : Option ℝ} {g : ℝ} {n : ℕ} {rs : List ℕ} {f : List ℕ → Fin n → ℝ}
    {i : List ℕ} {k : Fin n} (hi : inB rs i = true) (h : Ring.realFlat mn mx (f i k) = none) :
    (Support.vector (.real mn mx g)).flattened true (.real (vectors rs f)) = .error .nonFinite := by
  simp only [Support.flattened, Ring.flattened, if_true]
  refine Arr.mapE_error (i := k.val :: i) ((inB_cons ..).2 ⟨k.2, hi⟩) ?_
  rw [Calc.vectors_get _ k.2 hi, h]

omit [MachEps] in
theorem realFlat_below {m x : ℝ} (h : x < m) : Ring.realFlat (some m) none x = none :=
  if_neg (by linarith)

omit [MachEps] in
theorem realFlat_above {m x : ℝ} (h : m < x) : Ring.realFlat none (some m) x = none := by
  simp only [Ring.realFlat, invSoftplus?, if_neg (show ¬0 < m - x by linarith), Option.map_none]

/-- What makes the flattening fail, makes the conversion fail. -/
theorem expToNat_fails {minimizer : Cls → List Val → Arr ℝ} {c : Cls} {v : List Val} {x : Err}
    (h : flatten (.mk c v .nil) true = .error x) : expToNat minimizer c v = .error x := by
  simp only [expToNat, h, Bind.bind, Except.bind]

theorem toNat_fails {leaf : Cls → List Val → Except Err (List Val)} {c c' : Cls} {v : List Val} {x : Err}
    (hc : Cls.natCls c = some c') (hj : Cls.isJoint c = false) (h : leaf c v = .error x) :
    (Dist.mk c v .nil).toNat leaf = .error x := by
  simp [Dist.toNat, ClassTable.natCls, hc, ClassTable.isJoint, hj, h, Bind.bind, Except.bind]

/-- **C82.** Whatever the minimizer, `GammaEP.to_nat` fails for a batch with a mean smaller than machine epsilon. -/
theorem C82_gamma_small (minimizer : Cls → List Val → Arr ℝ) {rs i : List ℕ} {χ : List ℕ → ℝ × ℝ}
    (hi : inB rs i = true) (h : (χ i).1 < MachEps.eps) :
    (Dist.mk Cls.gammaEP (laySS rs (fun _ => ()) χ) .nil).toNat (library (searchFor minimizer)).toNat =
      .error .nonFinite :=
  toNat_fails rfl rfl (show searchFor minimizer .gammaEP (laySS rs (fun _ => ()) χ) = .error .nonFinite from
    expToNat_fails (flatten_two_fails (n₁ := "mean") (n₂ := "mean_log") (s₁ := .scalar Ring.positiveSupport)
      (s₂ := .scalar Ring.realField) rfl (by decide) rfl (fun _ => rfl) (.inl (flattened_scalar_fails hi
        (realFlat_below (by rwa [Samples.openMin_zero]))))))

/-- **C82.** Beta: the expectation of a logarithm is larger than minus machine epsilon. -/
theorem C82_beta_large (minimizer : Cls → List Val → Arr ℝ) {rs i : List ℕ} {χ : List ℕ → Fin 2 → ℝ}
    (hi : inB rs i = true) {k : Fin 2} (h : -MachEps.eps < χ i k) :
    (Dist.mk Cls.betaEP (layV 2 rs (fun _ => ()) χ) .nil).toNat (library (searchFor minimizer)).toNat =
      .error .nonFinite :=
  toNat_fails rfl rfl (show searchFor minimizer .betaEP (layV 2 rs (fun _ => ()) χ) = .error .nonFinite from
    expToNat_fails (flatten_one_fails (name := "mean_log_probability") (s := .vector Ring.negativeSupport) rfl rfl
      (flattened_vector_fails hi (realFlat_above (by rwa [Samples.openMax_zero])))))

/-- **C82.** Dirichlet. -/
theorem C82_dirichlet_large (minimizer : Cls → List Val → Arr ℝ) {rs i : List ℕ} {n : ℕ}
    {χ : List ℕ → Fin n → ℝ} (hi : inB rs i = true) {k : Fin n} (h : -MachEps.eps < χ i k) :
    (Dist.mk Cls.dirichletEP (layV n rs (fun _ => ()) χ) .nil).toNat (library (searchFor minimizer)).toNat =
      .error .nonFinite :=
  toNat_fails rfl rfl (show searchFor minimizer .dirichletEP (layV n rs (fun _ => ()) χ) = .error .nonFinite from
    expToNat_fails (flatten_one_fails (name := "mean_log_probability") (s := .vector Ring.negativeSupport) rfl rfl
      (flattened_vector_fails hi (realFlat_above (by rwa [Samples.openMax_zero])))))

/-- **C82.** Generalized Dirichlet: the expectations of the logarithms of the probabilities. -/
theorem C82_gen_dirichlet_large (minimizer : Cls → List Val → Arr ℝ) {rs i : List ℕ} {n : ℕ}
    {χ : List ℕ → (Fin n → ℝ) × (Fin n → ℝ)} (hi : inB rs i = true) {k : Fin n} (h : -MachEps.eps < (χ i).1 k) :
    (Dist.mk Cls.genDirichletEP (layVV n rs (fun _ => ()) χ) .nil).toNat (library (searchFor minimizer)).toNat =
      .error .nonFinite :=
  toNat_fails rfl rfl (show searchFor minimizer .genDirichletEP (layVV n rs (fun _ => ()) χ) = .error .nonFinite from
    expToNat_fails (flatten_two_fails (n₁ := "mean_log_probability") (n₂ := "mean_log_cumulative_probability")
      (s₁ := .vector Ring.negativeSupport) (s₂ := .vector Ring.negativeSupport) rfl (by decide) rfl (fun _ => rfl)
      (.inl (flattened_vector_fails hi (realFlat_above (by rwa [Samples.openMax_zero]))))))

/-- **C82** is violated for gamma distributions with a mean smaller than machine epsilon: they are distributions,
`to_exp()` computes their expectation parameters, and `to_nat()` fails whatever the minimizer. -/
theorem C82_not_gamma {minimizer : Cls → List Val → Arr ℝ} (h : ReturnsSearchVectors minimizer) {rate shape : ℝ}
    (h0 : 0 < rate) (h1 : 0 < shape) (h2 : shape / rate < MachEps.eps) :
    (Simple.gamma.setting (solverOf minimizer)).Inside [] (fun _ => ()) (fun _ => (-rate, shape - 1)) ∧
    ∃ e, (Dist.mk Cls.gammaNP (laySS [] (fun _ => ()) fun _ => (-rate, shape - 1)) .nil).toExp
        (library (searchFor minimizer)).toExp = .ok e ∧
      e.toNat (library (searchFor minimizer)).toNat = .error .nonFinite := by
  have hK : LibraryKind (solverOf minimizer) (Simple.gamma.kind _) := .simple _
  have hO := C51_library (C51_search h) hK
  have hd : ((-rate, shape - 1) : ℝ × ℝ) ∈ gammaDom := ⟨by simpa using h0, by show -1 < shape - 1; linarith⟩
  refine ⟨fun _ _ => ⟨trivial, hd⟩, _, hO.toExp [] (fun _ => ()) (fun _ => ((-rate, shape - 1) : ℝ × ℝ))
    (fun _ _ => trivial), C82_gamma_small minimizer (i := []) rfl ?_⟩
  show -((shape - 1) + 1) / -rate < _
  rwa [sub_add_cancel, neg_div_neg_eq]

/-- **C82** is violated for beta distributions with a very large parameter. -/
theorem C82_not_beta {minimizer : Cls → List Val → Arr ℝ} (h : ReturnsSearchVectors minimizer) {a : ℝ}
    (h0 : 1 < a * MachEps.eps) :
    (Simple.beta.setting (solverOf minimizer)).Inside [] (fun _ => ()) (fun _ => ![a - 1, 0]) ∧
    ∃ e, (Dist.mk Cls.betaNP (layV 2 [] (fun _ => ()) fun _ => ![a - 1, 0]) .nil).toExp
        (library (searchFor minimizer)).toExp = .ok e ∧
      e.toNat (library (searchFor minimizer)).toNat = .error .nonFinite := by
  have hK : LibraryKind (solverOf minimizer) (Simple.beta.kind _) := .simple _
  have hO := C51_library (C51_search h) hK
  have he := MachEps.pos
  have ha : 0 < a := by
    by_contra hn
    nlinarith
  have hd : (![a - 1, 0] : Fin 2 → ℝ) ∈ dirichletDom 2 := by
    intro k
    fin_cases k
    · show -1 < a - 1
      linarith
    · show (-1 : ℝ) < 0
      norm_num
  refine ⟨fun _ _ => ⟨trivial, hd⟩, _, hO.toExp [] (fun _ => ()) (fun _ => (![a - 1, 0] : Fin 2 → ℝ))
    (fun _ _ => trivial), C82_beta_large minimizer (i := []) (k := 0) rfl ?_⟩
  have e : beta.toExp ![a - 1, 0] 0 = digamma a - digamma (a + 1) := by
    simp [beta, dirichletExpHelper, Fin.sum_univ_two]
    congr 1
    ring
  show -MachEps.eps < beta.toExp ![a - 1, 0] 0
  rw [e, digamma_add_one ha]
  have : 1 / a < MachEps.eps := by rwa [div_lt_iff₀ ha, mul_comm]
  linarith

example (minimizer : Cls → List Val → Arr ℝ) (h : ReturnsSearchVectors minimizer) :
    ∃ e, (Dist.mk Cls.gammaNP (laySS [] (fun _ => ()) fun _ => (-(2 / MachEps.eps), 1 - 1)) .nil).toExp
        (library (searchFor minimizer)).toExp = .ok e ∧
      e.toNat (library (searchFor minimizer)).toNat = .error .nonFinite := by
  have he := MachEps.pos
  refine (C82_not_gamma h (by positivity) one_pos ?_).2
  rw [one_div_div]
  linarith

/-- One of three probabilities is almost one. -/
example (minimizer : Cls → List Val → Arr ℝ) :
    (Dist.mk Cls.dirichletEP (layV 3 [2] (fun _ => ()) fun _ => ![-20, -20, -(MachEps.eps / 2)]) .nil).toNat
        (library (searchFor minimizer)).toNat = .error .nonFinite ∧
    (Dist.mk Cls.genDirichletEP (layVV 2 [2] (fun _ => ()) fun _ => (![-20, -(MachEps.eps / 2)], ![-20, -30])) .nil).toNat
        (library (searchFor minimizer)).toNat = .error .nonFinite := by
  have he := MachEps.pos
  have h : -MachEps.eps < -(MachEps.eps / 2) := by linarith
  exact ⟨C82_dirichlet_large minimizer (i := [1]) (k := 2) rfl h,
    C82_gen_dirichlet_large minimizer (i := [1]) (k := 1) rfl h⟩

example : ReturnsSearchVectors exactMinimizer ∧ 1 < 2 / MachEps.eps * MachEps.eps := by
  refine ⟨exactMinimizer_returns, ?_⟩
  rw [div_mul_cancel₀ _ MachEps.pos.ne']
  norm_num

end Efax
