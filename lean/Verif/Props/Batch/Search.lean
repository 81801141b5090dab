import Verif.Lemmas.ExpToNat
import Verif.Model.Families.Search
import Verif.Props.Families.Search
import Verif.Props.Families.VonMises
import Verif.Lemmas.SupportRT

/-!
# C32, C51: the conversion by search of a batch searches for every entry separately
-/

namespace Efax

open Spec Calc

variable [MachEps]

/-- The result of the minimizer for one distribution, as a vector of `m` numbers. -/
def found (minimizer : Cls → List Val → Arr ℝ) (c : Cls) (m : ℕ) (v : List Val) (k : Fin m) : ℝ :=
  (minimizer c v).get [k.val]

/-- What the search computes for a single distribution: the natural parameters for the search vector
that the minimizer returns. -/
noncomputable def solverOf (minimizer : Cls → List Val → Arr ℝ) : Solver where
  gamma χ := gammaSearchToNatural χ
    (found minimizer .gammaEP 1 (laySS [] (fun _ => ()) fun _ => χ) 0)
  chiSquare χ := chiSquareSearchToNatural
    (found minimizer .chiSquareEP 1 (layS [] (fun _ => ()) fun _ => χ) 0)
  chi χ := chiSquareSearchToNatural
    (found minimizer .chiSquareEP 1 (layS [] (fun _ => ()) fun _ => χ) 0)
  logarithmic χ := logarithmicSearchToNatural
    (found minimizer .logarithmicEP 1 (layS [] (fun _ => ()) fun _ => χ) 0)
  beta χ := dirichletSearchToNatural
    (found minimizer .betaEP 2 (layV 2 [] (fun _ => ()) fun _ => χ))
  dirichlet n χ := dirichletSearchToNatural
    (found minimizer .dirichletEP n (layV n [] (fun _ => ()) fun _ => χ))
  genDirichlet d χ := genDirichletSearchToNatural
    (found minimizer .genDirichletEP (d + d) (layVV d [] (fun _ => ()) fun _ => χ))
  vonMisesFisher d χ := vmfSearchToNatural χ
    (found minimizer .vonMisesFisherEP 1 (layE d [] (fun _ => ()) fun _ => χ) 0)

/-- The search vectors that the minimizer returns have the length of the initial search vector. -/
structure ReturnsSearchVectors (minimizer : Cls → List Val → Arr ℝ) : Prop where
  gamma : ∀ χ, (minimizer .gammaEP (laySS [] (fun _ => ()) fun _ => χ)).rshape = [1]
  chiSquare : ∀ χ, (minimizer .chiSquareEP (layS [] (fun _ => ()) fun _ => χ)).rshape = [1]
  logarithmic : ∀ χ, (minimizer .logarithmicEP (layS [] (fun _ => ()) fun _ => χ)).rshape = [1]
  beta : ∀ χ, (minimizer .betaEP (layV 2 [] (fun _ => ()) fun _ => χ)).rshape = [2]
  dirichlet : ∀ n χ, (minimizer .dirichletEP (layV n [] (fun _ => ()) fun _ => χ)).rshape = [n]
  genDirichlet : ∀ d χ,
    (minimizer .genDirichletEP (layVV d [] (fun _ => ()) fun _ => χ)).rshape = [d + d]
  vonMisesFisher : ∀ d χ,
    (minimizer .vonMisesFisherEP (layE d [] (fun _ => ()) fun _ => χ)).rshape = [1]

theorem flat_getD {mn mx : Option ℝ} {x : ℝ} (h1 : ∀ m ∈ mn, m < x) (h2 : ∀ M ∈ mx, x < M) :
    Ring.realFlat mn mx x = some ((Ring.realFlat mn mx x).getD 0) ∧
      Ring.realUnflat mn mx ((Ring.realFlat mn mx x).getD 0) = x := by
  obtain ⟨y, h, h'⟩ := Ring.realUnflat_realFlat h1 h2
  simp [h, h']

theorem searchToNatural_one {c c' : Cls} {name : String} {s : Support} {d n : ℕ} {v w : Val}
    {rs : List ℕ} {z : List ℕ → Fin n → ℝ} (hc : Cls.natCls c = some c')
    (hd : Cls.dimensions c [v] = .ok d) (hx : parameters (.mk c [v] .nil : Dist Cls) (some true) = [])
    (hf : Cls.fields c' = [⟨name, s, false⟩]) (hj : Cls.isJoint c' = false)
    (ha : Cls.adjust c' name [] = .ok s) (hn : s.numElements d = n)
    (hy : s.unflattened true (vectors rs z) d = .ok w) :
    (Dist.mk c [v] .nil).searchToNatural (vectors rs z) = .ok (.mk c' [w] .nil) := by
  have := unflatten_one hf hj ha hn hy
  simp only [flOf] at this
  simp [Dist.searchToNatural, Dist.cls, Dist.vals, Dist.subs, ClassTable.natCls, hc, createFlattener,
    makeInfo, ClassTable.dimensions, hd, hx, Bind.bind, Except.bind, Subs.names, this]

theorem chiSquare_search {minimizer : Cls → List Val → Arr ℝ} (h : ReturnsSearchVectors minimizer) :
    Solves (expToNat minimizer .chiSquareEP) layS layS fun _ => (solverOf minimizer).chiSquare := by
  refine expToNat_solves (c := .chiSquareEP) (n := 1) (m := 1) (d := 1)
    (z := fun χ _ => χ) (stn := fun _ s => chiSquareSearchToNatural (s 0)) rfl (fun χ => h.chiSquare _)
    (fun rs χ _ => ?_) (fun χ _ => ?_) (fun rs χ w _ => ?_)
  · exact flatten_one (name := "mean_log") (s := .scalar Ring.realField) rfl rfl rfl
      (flattened_scalar fun i hi => rfl)
  · refine unflatten_one (name := "mean_log") (s := .scalar Ring.realField) rfl rfl rfl rfl ?_
    exact unflattened_scalar
  · have h1 : (Dist.mk .chiSquareEP [.real (scalars rs χ)] .nil : Dist Cls).searchToNatural (vectors rs w) =
        .ok (.mk .chiSquareNP [.real (scalars rs fun i => chiSquareSearchToNatural (w i 0))] .nil) :=
      searchToNatural_one (name := "k_over_two_minus_one")
        (s := .scalar (Ring.mkReal (some (-1)) none)) (d := 1) rfl rfl rfl rfl rfl rfl rfl
        unflattened_scalar
    simp only [searchToNaturalVals, layS, h1, Bind.bind, Except.bind]
    rfl

theorem logarithmic_search {minimizer : Cls → List Val → Arr ℝ} (h : ReturnsSearchVectors minimizer) :
    Solves (expToNat minimizer .logarithmicEP) layS layS (fun _ => (solverOf minimizer).logarithmic)
      fun _ χ => Ring.openMin 1 < χ := by
  refine expToNat_solves (c := .logarithmicEP) (n := 1) (m := 1) (d := 1)
    (z := fun χ _ => (Ring.realFlat (some (Ring.openMin 1)) none χ).getD 0)
    (stn := fun _ s => logarithmicSearchToNatural (s 0)) rfl (fun χ => h.logarithmic _)
    (fun rs χ hχ => ?_) (fun χ hχ => ?_) (fun rs χ w _ => ?_)
  · exact flatten_one (name := "chi") (s := .scalar (Ring.mkReal (some 1) none)) rfl rfl rfl
      (flattened_scalar fun i hi => (flat_getD (by simpa using hχ i hi) (by simp)).1)
  · refine unflatten_one (name := "chi") (s := .scalar (Ring.mkReal (some 1) none)) rfl rfl rfl rfl ?_
    refine unflattened_scalar.trans ?_
    exact congrArg (fun f => Except.ok (Val.real (scalars [] f))) (funext fun _ =>
      (flat_getD (mn := some (Ring.openMin 1)) (mx := none) (by simpa using hχ) (by simp)).2)
  · have h1 : (Dist.mk .logarithmicEP [.real (scalars rs χ)] .nil : Dist Cls).searchToNatural (vectors rs w) =
        .ok (.mk .logarithmicNP [.real (scalars rs fun i => logarithmicSearchToNatural (w i 0))] .nil) :=
      searchToNatural_one (name := "log_probability")
        (s := .scalar Ring.negativeSupport) (d := 1) rfl rfl rfl rfl rfl rfl rfl
        unflattened_scalar
    simp only [searchToNaturalVals, layS, h1, Bind.bind, Except.bind]
    rfl

theorem dirichlet_search {minimizer : Cls → List Val → Arr ℝ} (h : ReturnsSearchVectors minimizer)
    (n : ℕ) :
    Solves (expToNat minimizer .dirichletEP) (layV n) (layV n)
      (fun _ => (solverOf minimizer).dirichlet n) fun _ χ => ∀ k, χ k < Ring.openMax 0 := by
  refine expToNat_solves (c := .dirichletEP) (n := n) (m := n) (d := n)
    (z := fun χ k => (Ring.realFlat none (some (Ring.openMax 0)) (χ k)).getD 0)
    (stn := fun _ s => dirichletSearchToNatural s) rfl (fun χ => h.dirichlet n _)
    (fun rs χ hχ => ?_) (fun χ hχ => ?_) (fun rs χ w _ => ?_)
  · exact flatten_one (name := "mean_log_probability") (s := .vector Ring.negativeSupport) rfl rfl rfl
      (flattened_vector fun i hi k => (flat_getD (by simp) (by simpa using hχ i hi k)).1)
  · refine unflatten_one (name := "mean_log_probability") (s := .vector Ring.negativeSupport) rfl rfl
      rfl rfl ?_
    refine unflattened_vector.trans ?_
    exact congrArg (fun f => Except.ok (Val.real (vectors [] f))) (funext fun _ => funext fun k =>
        (flat_getD (mn := none) (mx := some (Ring.openMax 0)) (by simp) (by simpa using hχ k)).2)
  · have h1 : (Dist.mk .dirichletEP [.real (vectors rs χ)] .nil : Dist Cls).searchToNatural (vectors rs w) =
        .ok (.mk .dirichletNP [.real (vectors rs fun i => dirichletSearchToNatural (w i))] .nil) :=
      searchToNatural_one (name := "alpha_minus_one")
        (s := .vector (Ring.mkReal (some (-1)) none 3)) (d := n) rfl rfl rfl rfl rfl rfl rfl
        unflattened_vector
    simp only [searchToNaturalVals, layV, h1, Bind.bind, Except.bind]
    rfl

theorem beta_search {minimizer : Cls → List Val → Arr ℝ} (h : ReturnsSearchVectors minimizer) :
    Solves (expToNat minimizer .betaEP) (layV 2) (layV 2)
      (fun _ => (solverOf minimizer).beta) fun _ χ => ∀ k, χ k < Ring.openMax 0 := by
  refine expToNat_solves (c := .betaEP) (n := 2) (m := 2) (d := 2)
    (z := fun χ k => (Ring.realFlat none (some (Ring.openMax 0)) (χ k)).getD 0)
    (stn := fun _ s => dirichletSearchToNatural s) rfl (fun χ => h.beta _)
    (fun rs χ hχ => ?_) (fun χ hχ => ?_) (fun rs χ w _ => ?_)
  · exact flatten_one (name := "mean_log_probability") (s := .vector Ring.negativeSupport) rfl rfl rfl
      (flattened_vector fun i hi k => (flat_getD (by simp) (by simpa using hχ i hi k)).1)
  · refine unflatten_one (name := "mean_log_probability") (s := .vector Ring.negativeSupport) rfl rfl
      rfl rfl ?_
    refine unflattened_vector.trans ?_
    exact congrArg (fun f => Except.ok (Val.real (vectors [] f))) (funext fun _ => funext fun k =>
        (flat_getD (mn := none) (mx := some (Ring.openMax 0)) (by simp) (by simpa using hχ k)).2)
  · have h1 : (Dist.mk .betaEP [.real (vectors rs χ)] .nil : Dist Cls).searchToNatural (vectors rs w) =
        .ok (.mk .betaNP [.real (vectors rs fun i => dirichletSearchToNatural (w i))] .nil) :=
      searchToNatural_one (name := "alpha_minus_one")
        (s := .vector (Ring.mkReal (some (-1)) none 3)) (d := 2) rfl rfl rfl rfl rfl rfl rfl
        unflattened_vector
    simp only [searchToNaturalVals, layV, h1, Bind.bind, Except.bind]
    rfl

theorem gamma_search {minimizer : Cls → List Val → Arr ℝ} (h : ReturnsSearchVectors minimizer) :
    Solves (expToNat minimizer .gammaEP) laySS laySS (fun _ => (solverOf minimizer).gamma)
      fun _ χ => Ring.openMin 0 < χ.1 := by
  refine expToNat_solves (c := .gammaEP) (n := 1 + 1) (m := 1) (d := 1)
    (z := fun χ => Fin.append (fun _ : Fin 1 => (Ring.realFlat (some (Ring.openMin 0)) none χ.1).getD 0)
      fun _ : Fin 1 => χ.2)
    (stn := fun χ s => gammaSearchToNatural χ (s 0)) rfl (fun χ => h.gamma _)
    (fun rs χ hχ => ?_) (fun χ hχ => ?_) (fun rs χ w _ => ?_)
  · exact flatten_two (n₁ := "mean") (n₂ := "mean_log") (s₁ := .scalar Ring.positiveSupport)
      (s₂ := .scalar Ring.realField) rfl (by decide) rfl (fun _ => rfl) rfl
      (flattened_scalar fun i hi => (flat_getD (by simpa using hχ i hi) (by simp)).1)
      (flattened_scalar fun i hi => rfl)
  · refine unflatten_two (n₁ := "mean") (n₂ := "mean_log") (s₁ := .scalar Ring.positiveSupport)
      (s₂ := .scalar Ring.realField) (k₁ := 1) (k₂ := 1) rfl rfl (by decide) rfl (fun _ => rfl) rfl rfl ?_
      unflattened_scalar
    refine unflattened_scalar.trans ?_
    exact congrArg (fun f => Except.ok (Val.real (scalars [] f))) (funext fun _ =>
      (flat_getD (mn := some (Ring.openMin 0)) (mx := none) (by simpa using hχ) (by simp)).2)
  · have h0 : at_ 0 (ok (vectors rs w)) = ok (scalars rs fun i => w i 0) := at_vectors (by omega) rs w
    simp only [searchToNaturalVals, laySS, Val.toR, h0, map_scalars, div_eq, sub_eq, neg_eq, bin_scalars,
      ofNat_eq, bin_scalars_const, vals, Val.ofR, run_ok]
    rfl

theorem genDirichlet_search {minimizer : Cls → List Val → Arr ℝ} (h : ReturnsSearchVectors minimizer)
    (d : ℕ) :
    Solves (expToNat minimizer .genDirichletEP) (layVV d) (layVV d)
      (fun _ => (solverOf minimizer).genDirichlet d)
      fun _ χ => ∀ k, χ.1 k < Ring.openMax 0 ∧ χ.2 k < Ring.openMax 0 := by
  refine expToNat_solves (c := .genDirichletEP) (n := d + d) (m := d + d) (d := d)
    (z := fun χ => Fin.append (fun k => (Ring.realFlat none (some (Ring.openMax 0)) (χ.1 k)).getD 0)
      fun k => (Ring.realFlat none (some (Ring.openMax 0)) (χ.2 k)).getD 0)
    (stn := fun _ s => genDirichletSearchToNatural s) rfl (fun χ => h.genDirichlet d _)
    (fun rs χ hχ => ?_) (fun χ hχ => ?_) (fun rs χ w _ => ?_)
  · exact flatten_two (n₁ := "mean_log_probability") (n₂ := "mean_log_cumulative_probability")
      (s₁ := .vector Ring.negativeSupport)
      (s₂ := .vector Ring.negativeSupport) rfl (by decide) rfl (fun _ => rfl) rfl
      (flattened_vector fun i hi k => (flat_getD (by simp) (by simpa using (hχ i hi k).1)).1)
      (flattened_vector fun i hi k => (flat_getD (by simp) (by simpa using (hχ i hi k).2)).1)
  · refine unflatten_two (n₁ := "mean_log_probability") (n₂ := "mean_log_cumulative_probability")
      (s₁ := .vector Ring.negativeSupport) (s₂ := .vector Ring.negativeSupport) (k₁ := d) (k₂ := d)
      rfl rfl (by decide) rfl (fun _ => rfl) rfl rfl (unflattened_vector.trans ?_)
      (unflattened_vector.trans ?_)
    · exact congrArg (fun f => Except.ok (Val.real (vectors [] f))) (funext fun _ => funext fun k =>
        (flat_getD (mn := none) (mx := some (Ring.openMax 0)) (by simp) (by simpa using (hχ k).1)).2)
    · exact congrArg (fun f => Except.ok (Val.real (vectors [] f))) (funext fun _ => funext fun k =>
        (flat_getD (mn := none) (mx := some (Ring.openMax 0)) (by simp) (by simpa using (hχ k).2)).2)
  · have hd : Cls.dimensions .genDirichletEP
      [.real (vectors rs fun i => (χ i).1), .real (vectors rs fun i => (χ i).2)] = .ok d := rfl
    have ht : take d (ok (vectors rs fun i k => softplus (w i k))) =
        ok (vectors rs fun i k => softplus (w i (Fin.castAdd d k))) := by
      simp only [take, bind_ok, vectors_rshape, Nat.min_eq_left (Nat.le_add_right d d)]
      refine ofFn_vectors fun k i hi => ?_
      rw [Calc.vectors_get _ (by omega) hi]
      rfl
    have hr : drop d (ok (vectors rs fun i k => softplus (w i k))) =
        ok (vectors rs fun i k => softplus (w i (Fin.natAdd d k))) := by
      simp only [drop, bind_ok, vectors_rshape, Nat.add_sub_cancel_left]
      refine ofFn_vectors fun k i hi => ?_
      simp only
      rw [Calc.vectors_get _ (by omega : d + k.val < d + d) hi]
      rfl
    simp only [searchToNaturalVals, layVV, hd, map_vectors, Bind.bind, Except.bind, ht, hr, sub_eq,
      ofNat_eq, bin_vectors_const, vals, Val.ofR, run_ok]
    rfl

theorem norm_row {d : ℕ} {rs : List ℕ} (χ : List ℕ → EuclideanSpace ℝ (Fin d)) (k : ℕ) {j : List ℕ}
    (hj : inB rs j = true) :
    Support.rowNorm (vectors rs fun i k => χ i k) (k :: j) = ‖χ j‖ := by
  rw [Support.rowNorm_eq (vectors_rshape rs _), EuclideanSpace.norm_eq]
  congr 1
  rw [Finset.sum_range]
  refine Finset.sum_congr rfl fun k _ => ?_
  rw [Calc.vectors_get _ k.2 hj, Real.norm_eq_abs, sq_abs]

/-- The plane coordinates of a point of the disk. -/
noncomputable def diskFlat {d : ℕ} (χ : EuclideanSpace ℝ (Fin d)) (k : Fin d) : ℝ :=
  χ k * ((logit? (‖χ‖ / 1 * 0.5 + 0.5)).getD 0) / ‖χ‖

theorem flattened_disk {d : ℕ} {rs : List ℕ} {χ : List ℕ → EuclideanSpace ℝ (Fin d)}
    (h : ∀ i, inB rs i = true → InDisk (χ i)) :
    (Support.circular 1).flattened true (.real (vectors rs fun i k => χ i k)) =
      .ok (vectors rs fun i => diskFlat (χ i)) := by
  simp only [Support.flattened, Support.circFlat, if_true, vectors_rshape]
  refine (Arr.mapE_eq_ok_iff).2 ⟨rfl, fun i hi => ?_⟩
  obtain ⟨k, j, rfl, hk, hj⟩ := inB_cons_elim (show inB (d :: rs) i = true from hi)
  obtain ⟨h0, h1⟩ := h j hj
  rw [Calc.vectors_get _ hk hj, Calc.vectors_get _ hk hj, norm_row χ k hj]
  obtain ⟨c, hc, -⟩ := expit_logit (p := ‖χ j‖ / 1 * 0.5 + 0.5) (by norm_num; positivity)
    (by norm_num; linarith)
  simp only [div?, one_ne_zero, if_false, Option.bind_eq_bind, Option.bind_some, hc, h0.ne', diskFlat,
    Option.getD_some]

theorem unflattened_disk {d : ℕ} {χ : EuclideanSpace ℝ (Fin d)} (h : InDisk χ) :
    (Support.circular 1).unflattened true (vectors [] fun _ => diskFlat χ) d =
      .ok (.real (vectors [] fun _ k => χ k)) := by
  have hb : ∀ j, inB [] j = true →
      0 < ∑ k ∈ Finset.range d, (vectors [] fun (_ : List ℕ) k => χ k).get (k :: j) ^ 2 ∧
      ∑ k ∈ Finset.range d, (vectors [] fun (_ : List ℕ) k => χ k).get (k :: j) ^ 2 < 1 ^ 2 := by
    intro j hj
    have h0 := norm_row (rs := []) (fun _ => χ) 0 hj
    rw [Support.rowNorm_eq (vectors_rshape [] _)] at h0
    have hs : ∑ k ∈ Finset.range d, (vectors [] fun (_ : List ℕ) k => χ k).get (k :: j) ^ 2 = ‖χ‖ ^ 2 := by
      rw [← h0, Real.sq_sqrt (Finset.sum_nonneg fun _ _ => sq_nonneg _)]
    rw [hs]
    obtain ⟨ha, hb⟩ := h
    exact ⟨by positivity, by nlinarith⟩
  obtain ⟨y, h1, -, h3⟩ := Support.circ_roundtrip (radius := 1) (mapped := true) (d := d) (batch := [])
    (a := vectors [] fun _ k => χ k) rfl fun _ => ⟨one_pos, fun j _ hj => hb j hj⟩
  have := flattened_disk (rs := []) (χ := fun _ => χ) fun _ _ => h
  simp only [Support.flattened] at this
  rw [this] at h1
  cases h1
  simp only [Support.unflattened, h3]
  rfl

theorem vmf_search {minimizer : Cls → List Val → Arr ℝ} (h : ReturnsSearchVectors minimizer) (d : ℕ) :
    Solves (expToNat minimizer .vonMisesFisherEP) (layE d) (layE d)
      (fun _ => (solverOf minimizer).vonMisesFisher d) fun _ => InDisk := by
  refine expToNat_solves (c := .vonMisesFisherEP) (n := d) (m := 1) (d := d)
    (z := diskFlat) (stn := fun χ s => vmfSearchToNatural χ (s 0)) rfl (fun χ => h.vonMisesFisher d _)
    (fun rs χ hχ => ?_) (fun χ hχ => ?_) (fun rs χ w _ => ?_)
  · exact flatten_one (name := "mean") (s := .circular 1) rfl rfl rfl (flattened_disk hχ)
  · exact unflatten_one (name := "mean") (s := .circular 1) rfl rfl rfl rfl (unflattened_disk hχ)
  · simp only [searchToNaturalVals, layE, Val.toR, norm_vectors, newaxis_scalars, map_vectors, div_eq, mul_eq,
      bin_vectors, bin_vectors_one, vals, Val.ofR, run_ok]
    simp only [List.mapM_cons, List.mapM_nil, id, Bind.bind, Except.bind, pure, Except.pure, Functor.map,
      Except.map]
    refine congrArg Except.ok (congrArg (fun a => [Val.real a]) ?_)
    congr 1
    funext i k
    simp only [vmfSearchToNatural, EuclideanSpace.norm_eq, PiLp.smul_apply, smul_eq_mul, Real.norm_eq_abs, sq_abs]
    ring

/-- **C32, C51.** `to_nat()` of a batch, for the classes that convert by search: for every entry
separately, the natural parameters for the search vector that the minimizer returns for this entry.
The parameters must lie inside the stored bounds of their supports. -/
theorem C51_search {minimizer : Cls → List Val → Arr ℝ} (h : ReturnsSearchVectors minimizer) :
    (solverOf minimizer).For (searchFor minimizer) where
  gamma := gamma_search h
  chiSquare := chiSquare_search h
  chi := chiSquare_search h
  logarithmic := logarithmic_search h
  beta := beta_search h
  dirichlet := dirichlet_search h
  genDirichlet := genDirichlet_search h
  vonMisesFisher := vmf_search h

end Efax
