import Verif.Lemmas.Bisection
import Verif.Lemmas.VmfStart
import Verif.Props.Samples2

/-!
# C70: the default search with one parameter converges to the natural parameters
-/

namespace Efax

open Spec Calc

/-! ### Bisection -/

/-- **C70.** Bisection, with an interval that is expanded up to `k` times, finds every point where a
function changes its sign that is not further than `3 ^ k` from the start, with an error of at most
`3 ^ k / 2 ^ n` after `n` halvings. -/
theorem C70_bisection (k n : ℕ) : FindsCrossing (3 ^ k) (3 ^ k / 2 ^ n) (bisection k n) := by
  intro f s x h hs
  obtain ⟨h1, h2, h3⟩ := expand_spec h k one_pos (by rwa [one_mul])
  refine (halve_mem h n h1 h2).trans ?_
  rw [pow_succ, ← div_div, div_right_comm]
  gcongr
  linarith

/-- The hypothesis of `FindsCrossing` is satisfiable. -/
example : Crosses (fun t : ℝ => (t : EReal)) 0 := crosses_of_strictMono strictMono_id rfl

variable [MachEps]

/-! ### The searches are monotone -/

/-- **C70.** The gradient that the search receives increases strictly, so it has at most one root and
changes its sign there; and the natural parameter (the shape, the concentration) increases strictly
with the search parameter, as `search_to_natural` demands.  (The gradient of the logarithmic
distribution is constant outside of the cut-offs of `to_exp`.) -/
theorem C70_monotone :
    (∀ χ : ℝ × ℝ, StrictMono (gammaSearchGradient χ)) ∧
    (∀ χ, StrictMono (searchGradient chiSquareSearchToNatural chiSquare.toExp χ)) ∧
    (∀ (n : ℕ) (m : EuclideanSpace ℝ (Fin (n + 1))), StrictMono (vmfSearchGradient m)) ∧
    (∀ q s, logProbabilityFloor ≤ q → q ≤ logProbabilityCeiling → logarithmicSearchToNatural s = q →
      Crosses (logarithmicSearchGradient (logarithmic.toExp q)) s) ∧
    (∀ χ : ℝ × ℝ, StrictMono fun s => (gammaSearchToNatural χ s).2) ∧
    StrictMono chiSquareSearchToNatural ∧ StrictMono logarithmicSearchToNatural ∧
    (∀ (n : ℕ) (m : EuclideanSpace ℝ (Fin (n + 1))), m ≠ 0 → StrictMono fun s =>
      ‖vmfSearchToNatural m s‖) :=
  ⟨gammaSearchGradient_strictMono, chiSquareSearchGradient_strictMono,
    fun _ => vmfSearchGradient_strictMono, fun _ _ h1 h2 hs => logarithmic_crosses h1 h2 hs,
    fun χ a b h => by
      have := softplus_strictMono h
      simp only [gammaSearchToNatural]
      linarith,
    chiSquareSearchToNatural_strictMono, logarithmicSearchToNatural_strictMono,
    fun n m hm a b h => by
      simp only [vmf_search_norm hm]
      exact softplus_strictMono h⟩

/-- The hypotheses are satisfiable. -/
example : ∃ q s, logProbabilityFloor ≤ q ∧ q ≤ logProbabilityCeiling ∧
    logarithmicSearchToNatural s = q := by
  have := MachEps.lt
  obtain ⟨s, hs⟩ := realUnflat_below (M := Ring.openMax 0) (q := -1) (by
    rw [Ring.openMax, zero_mul, zero_sub]
    exact lt_min (by linarith) (by norm_num))
  exact ⟨-1, s, by norm_num [logProbabilityFloor], by norm_num [logProbabilityCeiling], hs⟩

/-! ### The searches start near the root -/

/-- **C70.** For every gamma distribution, and for every von Mises-Fisher distribution in at least two
dimensions, the search starts near its root; for the gamma distribution the first interval of the
bisection contains the root. -/
theorem C70_start :
    (∀ (χ : ℝ × ℝ) (s x : ℝ), 0 < χ.1 → χ.2 < Real.log χ.1 → gammaSearchGradient χ s = 0 →
      gammaInitialSearch χ = some x → |s - x| ≤ 1) ∧
    (∀ (n : ℕ) (m : EuclideanSpace ℝ (Fin (n + 2))) (s x : ℝ), m ≠ 0 → ‖m‖ < 1 →
      vmfSearchGradient m s = 0 → vmfInitialSearch m = some x → |s - x| ≤ 2) :=
  ⟨fun _ _ _ _ h hs hx => gamma_start h hs hx, fun _ _ _ _ h h1 hs hx => vmf_start h h1 hs hx⟩

/-- Both kinds of distributions exist, with their roots and their starting points. -/
example : ∃ s x, gammaSearchGradient (1, -1) s = 0 ∧ gammaInitialSearch (1, -1) = some x := by
  obtain ⟨⟨s, hs⟩, hx⟩ := (C32_gamma_domain (1, -1)).2 ⟨one_pos, by norm_num⟩
  obtain ⟨x, hx⟩ := Option.isSome_iff_exists.1 hx
  exact ⟨s, x, hs, hx⟩

example {m : EuclideanSpace ℝ (Fin 3)} (h : m ≠ 0) (h1 : ‖m‖ < 1) :
    ∃ s x, vmfSearchGradient m s = 0 ∧ vmfInitialSearch m = some x := by
  obtain ⟨s, hs⟩ := C32_von_mises_fisher_exists h h1
  obtain ⟨x, hx, -⟩ := C32_von_mises_fisher_initial h h1
  exact ⟨s, x, hs, hx⟩

/-! ### Which search is chosen -/

/-- **C70.** A search for one number is done by bisection, and no other search is.  The parameters must
lie inside the stored bounds of their supports (for the gamma distribution: belong to a
distribution). -/
theorem C70_choice (rs : List ℕ) :
    (∀ χ : List ℕ → ℝ × ℝ, (∀ i, inB rs i = true → 0 < (χ i).1 ∧ (χ i).2 < Real.log (χ i).1) →
      choosesBisection .gammaEP (laySS rs (fun _ => ()) χ) = .ok true) ∧
    (∀ χ, choosesBisection .chiSquareEP (layS rs (fun _ => ()) χ) = .ok true) ∧
    (∀ χ : List ℕ → ℝ, (∀ i, inB rs i = true → Ring.openMin 1 < χ i) →
      choosesBisection .logarithmicEP (layS rs (fun _ => ()) χ) = .ok true) ∧
    (∀ (n : ℕ) (χ : List ℕ → EuclideanSpace ℝ (Fin (n + 1))), (∀ i, inB rs i = true → InDisk (χ i)) →
      choosesBisection .vonMisesFisherEP (layE (n + 1) rs (fun _ => ()) χ) = .ok true) ∧
    (∀ χ : List ℕ → Fin 2 → ℝ, (∀ i, inB rs i = true → ∀ k, χ i k < Ring.openMax 0) →
      choosesBisection .betaEP (layV 2 rs (fun _ => ()) χ) = .ok false) ∧
    (∀ (n : ℕ) (χ : List ℕ → Fin n → ℝ), (∀ i, inB rs i = true → ∀ k, χ i k < Ring.openMax 0) →
      choosesBisection .dirichletEP (layV n rs (fun _ => ()) χ) = .ok (decide (n ≤ 1))) ∧
    (∀ (d : ℕ) (χ : List ℕ → (Fin d → ℝ) × (Fin d → ℝ)),
      (∀ i, inB rs i = true → ∀ k, (χ i).1 k < Ring.openMax 0 ∧ (χ i).2 k < Ring.openMax 0) →
      choosesBisection .genDirichletEP (layVV d rs (fun _ => ()) χ) = .ok (decide (d = 0))) := by
  refine ⟨fun χ h => ?_, fun χ => ?_, fun χ h => ?_, fun n χ h => ?_, fun χ h => ?_, fun n χ h => ?_,
    fun d χ h => ?_⟩
  · have hx : ∀ i, ∃ x, inB rs i = true → gammaInitialSearch (χ i) = some x := fun i => by
      by_cases hi : inB rs i = true
      · obtain ⟨x, hx⟩ := Option.isSome_iff_exists.1 ((C32_gamma_domain (χ i)).2 (h i hi)).2
        exact ⟨x, fun _ => hx⟩
      · exact ⟨0, fun h => absurd h hi⟩
    choose x hx using hx
    exact choosesBisection_of (gamma_initial hx)
  · exact choosesBisection_of (initial_zero (chiSquare_flat rs χ) rfl)
  · obtain ⟨z, hz⟩ := logarithmic_flat h
    exact choosesBisection_of (initial_zero hz rfl)
  · have hx : ∀ i, ∃ x, inB rs i = true → vmfInitialSearch (χ i) = some x := fun i => by
      by_cases hi : inB rs i = true
      · obtain ⟨x, hx, -⟩ := C32_von_mises_fisher_initial (norm_pos_iff.1 (h i hi).1) (h i hi).2
        exact ⟨x, fun _ => hx⟩
      · exact ⟨0, fun h => absurd h hi⟩
    choose x hx using hx
    exact choosesBisection_of (vmf_initial hx)
  · refine choosesBisection_of (n := 2) (initial_zero (z := fun i k =>
      (Ring.realFlat none (some (Ring.openMax 0)) (χ i k)).getD 0)
      (flatten_one (name := "mean_log_probability") (s := .vector Ring.negativeSupport) rfl rfl rfl
      (flattened_vector fun i hi k => (flat_getD (by simp) (by simpa using h i hi k)).1)) rfl)
  · refine (choosesBisection_of (c := .dirichletEP) (n := n) (initial_zero (z := fun i k =>
      (Ring.realFlat none (some (Ring.openMax 0)) (χ i k)).getD 0)
      (flatten_one (name := "mean_log_probability") (s := .vector Ring.negativeSupport) rfl rfl rfl
      (flattened_vector fun i hi k => (flat_getD (by simp) (by simpa using h i hi k)).1)) rfl)).trans ?_
    simp
  · refine (choosesBisection_of (c := .genDirichletEP) (n := d + d) (initial_zero
      (flatten_two (z₁ := fun i k => (Ring.realFlat none (some (Ring.openMax 0)) ((χ i).1 k)).getD 0)
      (z₂ := fun i k => (Ring.realFlat none (some (Ring.openMax 0)) ((χ i).2 k)).getD 0)
      (n₁ := "mean_log_probability") (n₂ := "mean_log_cumulative_probability")
      (s₁ := .vector Ring.negativeSupport)
      (s₂ := .vector Ring.negativeSupport) rfl (by decide) rfl (fun _ => rfl) rfl
      (flattened_vector fun i hi k => (flat_getD (by simp) (by simpa using (h i hi k).1)).1)
      (flattened_vector fun i hi k => (flat_getD (by simp) (by simpa using (h i hi k).2)).1)) rfl)).trans ?_
    congr 1
    simp only [decide_eq_decide]
    omega

/-! ### The conversion by search -/

/-- The minimizer is the one that `ExpToNat.__post_init__` chooses. -/
def UsesDefault (minimize : (Arr ℝ → Calc EReal) → Arr ℝ → Arr ℝ) (find : (ℝ → EReal) → ℝ → ℝ → ℝ)
    (minimizer : Cls → List Val → Arr ℝ) : Prop :=
  ∀ c v a, defaultSolve minimize find c v = .ok a → minimizer c v = a

variable {minimize : (Arr ℝ → Calc EReal) → Arr ℝ → Arr ℝ} {find : (ℝ → EReal) → ℝ → ℝ → ℝ}
  {minimizer : Cls → List Val → Arr ℝ} {reach tol : ℝ}

theorem UsesDefault.found (hu : UsesDefault minimize find minimizer) {c : Cls} {v : List Val} {x : ℝ}
    {g : ℝ → EReal} (hx : initialSearchVals c v = Except.ok (vectors [] fun _ (_ : Fin 1) => x))
    (hg : ∀ y, searchGradientVals c v (vectors [] fun _ (_ : Fin 1) => y) =
      Except.ok (vectors [] fun _ (_ : Fin 1) => g y)) :
    found minimizer c 1 v 0 = find g (x - 1) (x + 1) := by
  have h1 : choosesBisection c v = .ok true := choosesBisection_of hx
  have := hu c v _ (by
    simp only [defaultSolve, h1, Bind.bind, Except.bind, if_true]
    exact bisectionSolve_eq hx hg)
  rw [Efax.found, this]
  exact Calc.vectors_get _ one_pos rfl

theorem abs_le_of_softplus {s y r : ℝ} (h : softplus s = y) (h1 : Real.exp (-r) ≤ y) (h2 : y ≤ r) :
    |s| ≤ r := by
  have e : Real.exp y = 1 + Real.exp s := by rw [← h, softplus, Real.exp_log (by positivity)]
  rw [abs_le]
  constructor
  · have : y ≤ Real.exp s := by linarith [Real.add_one_le_exp y]
    exact Real.exp_le_exp.1 (h1.trans this)
  · have : Real.exp s < Real.exp y := by linarith
    linarith [Real.exp_lt_exp.1 this]

/-- **C70.** `to_nat()` of a batch of gamma distributions with the default minimizer, if the bisection
finds a root that is not further than one from the start up to the error `tol`: the error of the shape
is at most `tol`, and that of the rate at most `tol` divided by the mean. -/
theorem C70_gamma (h : ReturnsSearchVectors minimizer) (hu : UsesDefault minimize find minimizer)
    (hf : FindsCrossing reach tol find) (hreach : 1 ≤ reach) {rs : List ℕ} {q : List ℕ → ℝ × ℝ}
    (hq : ∀ i, inB rs i = true → q i ∈ gammaDom ∧ Ring.openMin 0 < (gamma.toExp (q i)).1) :
    ∃ q', searchFor minimizer .gammaEP (laySS rs (fun _ => ()) fun i => gamma.toExp (q i)) =
        .ok (laySS rs (fun _ => ()) q') ∧
      ∀ i, inB rs i = true → |(q' i).2 - (q i).2| ≤ tol ∧
        |(q' i).1 - (q i).1| ≤ tol / (gamma.toExp (q i)).1 := by
  refine ⟨_, (C51_search h).gamma rs (fun _ => ()) _ fun i hi => (hq i hi).2, fun i hi => ?_⟩
  obtain ⟨hd, -⟩ := hq i hi
  set χ := gamma.toExp (q i) with hχ
  have hdom := (C32_gamma_domain χ).1.1 ⟨q i, hd, rfl⟩
  obtain ⟨s, hs⟩ := C32_gamma.exists_root χ hdom.1 (q i) hd rfl
  obtain ⟨x, hx⟩ := Option.isSome_iff_exists.1 ((C32_gamma_domain χ).2 hdom).2
  have hqs : gammaSearchToNatural χ s = q i :=
    (C32_gamma.unique χ hdom.1 s hs _ hd rfl).symm
  have hfd := hu.found (gamma_initial (rs := []) (χ := fun _ => χ) (x := fun _ => x) fun _ _ => hx)
    (gamma_searchGradient χ)
  have he := hf _ s x (crosses_of_strictMono (gammaSearchGradient_strictMono χ) hs)
    ((gamma_start hdom.2 hs hx).trans hreach)
  rw [← hfd] at he
  have hsp := (softplus_lipschitz _ _).trans he
  rw [← hqs]
  simp only [solverOf, gammaSearchToNatural]
  constructor
  · rwa [sub_sub_sub_cancel_right]
  · rw [neg_sub_neg, ← sub_div, abs_div, abs_of_pos hdom.1, abs_sub_comm]
    exact div_le_div_of_nonneg_right hsp hdom.1.le

/-- **C70.** `to_nat()` of a batch of chi-square distributions and of a batch of chi distributions with
the default minimizer, which starts at zero: the error of the natural parameter is at most `tol`, if
the distances of the natural parameters from the stored bound lie between `exp (-reach)` and
`reach`. -/
theorem C70_chi_square (h : ReturnsSearchVectors minimizer) (hu : UsesDefault minimize find minimizer)
    (hf : FindsCrossing reach tol find) {rs : List ℕ} {q : List ℕ → ℝ}
    (hq : ∀ i, inB rs i = true → Real.exp (-reach) ≤ q i - Ring.openMin (-1) ∧
      q i - Ring.openMin (-1) ≤ reach) :
    ∃ q', searchFor minimizer .chiSquareEP (layS rs (fun _ => ()) fun i => chiSquare.toExp (q i)) =
        .ok (layS rs (fun _ => ()) q') ∧
      searchFor minimizer .chiEP (layS rs (fun _ => ()) fun i => chi.toExp (q i)) =
        .ok (layS rs (fun _ => ()) q') ∧
      ∀ i, inB rs i = true → |q' i - q i| ≤ tol := by
  refine ⟨_, (C51_search h).chiSquare rs (fun _ => ()) _ fun _ _ => trivial,
    (C51_search h).chi rs (fun _ => ()) _ fun _ _ => trivial, fun i hi => ?_⟩
  obtain ⟨h1, h2⟩ := hq i hi
  have hpos : Ring.openMin (-1) < q i := by linarith [Real.exp_pos (-reach)]
  obtain ⟨s, hs⟩ := realUnflat_above hpos
  have hs' : chiSquareSearchToNatural s = q i := hs
  have hsp : softplus s = q i - Ring.openMin (-1) := by
    simp only [Ring.realUnflat] at hs
    linarith
  set χ := chiSquare.toExp (q i) with hχ
  have hfd := hu.found (initial_zero (chiSquare_flat [] fun _ => χ) rfl) (chiSquare_searchGradient χ)
  have he := hf _ s 0 (crosses_of_strictMono (chiSquareSearchGradient_strictMono χ) (s := s) (by
    simp only [searchGradient, hs', hχ, sub_self])) (by
    rw [sub_zero]
    exact abs_le_of_softplus hsp h1 h2)
  rw [← hfd] at he
  have hl := (softplus_lipschitz _ _).trans he
  rw [← hs']
  simp only [solverOf, chiSquareSearchToNatural, Ring.realUnflat, add_sub_add_right_eq_sub]
  exact hl

/-- **C70.** `to_nat()` of a batch of logarithmic distributions with the default minimizer, between the
cut-offs of `to_exp`. -/
theorem C70_logarithmic (h : ReturnsSearchVectors minimizer) (hu : UsesDefault minimize find minimizer)
    (hf : FindsCrossing reach tol find) {rs : List ℕ} {q : List ℕ → ℝ}
    (hq : ∀ i, inB rs i = true → logProbabilityFloor ≤ q i ∧ q i ≤ logProbabilityCeiling ∧
      Real.exp (-reach) ≤ Ring.openMax 0 - q i ∧ Ring.openMax 0 - q i ≤ reach ∧
      Ring.openMin 1 < logarithmic.toExp (q i)) :
    ∃ q', searchFor minimizer .logarithmicEP
        (layS rs (fun _ => ()) fun i => logarithmic.toExp (q i)) = .ok (layS rs (fun _ => ()) q') ∧
      ∀ i, inB rs i = true → |q' i - q i| ≤ tol := by
  refine ⟨_, (C51_search h).logarithmic rs (fun _ => ()) _ fun i hi => (hq i hi).2.2.2.2,
    fun i hi => ?_⟩
  obtain ⟨hl, hc, h1, h2, h3⟩ := hq i hi
  have hpos : q i < Ring.openMax 0 := by linarith [Real.exp_pos (-reach)]
  obtain ⟨s, hs⟩ := realUnflat_below hpos
  have hs' : logarithmicSearchToNatural s = q i := hs
  have hsp : softplus (-s) = Ring.openMax 0 - q i := by
    simp only [Ring.realUnflat] at hs
    linarith
  set χ := logarithmic.toExp (q i) with hχ
  obtain ⟨z, hz⟩ := logarithmic_flat (rs := []) (χ := fun _ => χ) fun _ _ => h3
  have hfd := hu.found (initial_zero hz rfl) (logarithmic_searchGradient χ)
  have he := hf _ s 0 (logarithmic_crosses hl hc hs') (by
    rw [sub_zero, ← abs_neg]
    exact abs_le_of_softplus hsp h1 h2)
  rw [← hfd] at he
  rw [← hs']
  simp only [solverOf, logarithmicSearchToNatural, Ring.realUnflat, sub_sub_sub_cancel_left]
  refine (softplus_lipschitz _ _).trans (le_trans (le_of_eq ?_) he)
  rw [neg_sub_neg]

/-- **C70.** `to_nat()` of a batch of von Mises-Fisher distributions with the default minimizer, if the
bisection finds a root that is not further than two from the start: the error of the natural parameter
is at most `tol`. -/
theorem C70_von_mises_fisher (h : ReturnsSearchVectors minimizer)
    (hu : UsesDefault minimize find minimizer) (hf : FindsCrossing reach tol find) (hreach : 2 ≤ reach)
    {n : ℕ} {rs : List ℕ} {q : List ℕ → EuclideanSpace ℝ (Fin (n + 2))}
    (hq : ∀ i, inB rs i = true → q i ≠ 0) :
    ∃ q', searchFor minimizer .vonMisesFisherEP
        (layE (n + 2) rs (fun _ => ()) fun i => (vonMisesFisher (n + 2)).toExp (q i)) =
        .ok (layE (n + 2) rs (fun _ => ()) q') ∧
      ∀ i, inB rs i = true → ‖q' i - q i‖ ≤ tol := by
  have hr : ∀ i, inB rs i = true → (vonMisesFisher (n + 2)).toExp (q i) ≠ 0 ∧
      ‖(vonMisesFisher (n + 2)).toExp (q i)‖ < 1 := fun i hi =>
    (C33_von_mises_fisher_range (n := n + 1)).subset ⟨q i, hq i hi, rfl⟩
  refine ⟨_, (C51_search h).vonMisesFisher (n + 2) rs (fun _ => ()) _ fun i hi =>
    ⟨norm_pos_iff.2 (hr i hi).1, (hr i hi).2⟩, fun i hi => ?_⟩
  obtain ⟨h0, h1⟩ := hr i hi
  set χ := (vonMisesFisher (n + 2)).toExp (q i) with hχ
  obtain ⟨s, hs⟩ := C32_von_mises_fisher.exists_root χ h0 (q i) (hq i hi) rfl
  obtain ⟨x, hx, -⟩ := C32_von_mises_fisher_initial h0 h1
  have hqs : vmfSearchToNatural χ s = q i :=
    (C32_von_mises_fisher.unique χ h0 s hs _ (hq i hi) rfl).symm
  have hfd := hu.found (vmf_initial (rs := []) (χ := fun _ => χ) (x := fun _ => x) fun _ _ => hx)
    (vmf_searchGradient χ)
  have he := hf _ s x (crosses_of_strictMono (vmfSearchGradient_strictMono χ) hs)
    ((vmf_start h0 h1 hs hx).trans hreach)
  rw [← hfd] at he
  have hsp := (softplus_lipschitz _ _).trans he
  have hn : 0 < ‖χ‖ := norm_pos_iff.2 h0
  rw [← hqs]
  simp only [solverOf, vmfSearchToNatural]
  rw [← sub_smul, norm_smul, ← sub_div, norm_div, norm_norm, div_mul_cancel₀ _ hn.ne']
  exact hsp

/-! ### The hypotheses are satisfiable -/

theorem flatten_one_error {c : Cls} {name : String} {s : Support} {v : Val} {e : Err}
    (hf : Cls.fields c = [⟨name, s, false⟩]) (ha : Cls.adjust c name [] = .ok s)
    (hy : s.flattened true v = .error e) : flatten (.mk c [v] .nil) true = .error e := by
  simp [flatten, Dist.walk, Subs.walk, makeFlat, parametersFlat, nodeParams, ClassTable.fields, hf,
    Dist.cls, Dist.vals, Dist.subs, Dict.ofList, Dict.set, makeFlatFields, ClassTable.adjust, ha, hy,
    Bind.bind, Except.bind, keep]

theorem flatten_two_error {c : Cls} {n₁ n₂ : String} {s₁ s₂ : Support} {v₁ v₂ : Val} {e : Err}
    (hf : Cls.fields c = [⟨n₁, s₁, false⟩, ⟨n₂, s₂, false⟩]) (hne : n₁ ≠ n₂)
    (ha₁ : Cls.adjust c n₁ [] = .ok s₁) (ha₂ : ∀ kw, Cls.adjust c n₂ kw = .ok s₂)
    (hy : s₁.flattened true v₁ = .error e ∨
      (∃ y, s₁.flattened true v₁ = .ok y) ∧ s₂.flattened true v₂ = .error e) :
    flatten (.mk c [v₁, v₂] .nil) true = .error e := by
  rcases hy with hy | ⟨⟨y, hy⟩, hy'⟩
  · simp [flatten, Dist.walk, Subs.walk, makeFlat, parametersFlat, nodeParams, ClassTable.fields, hf,
      Dist.cls, Dist.vals, Dist.subs, Dict.ofList, Dict.set, makeFlatFields, ClassTable.adjust, ha₁, hy, hne,
      Bind.bind, Except.bind, keep]
  · simp [flatten, Dist.walk, Subs.walk, makeFlat, parametersFlat, nodeParams, ClassTable.fields, hf,
      Dist.cls, Dist.vals, Dist.subs, Dict.ofList, Dict.set, makeFlatFields, ClassTable.adjust, ha₁, ha₂, hy,
      hy', hne, Bind.bind, Except.bind, keep]

theorem flattened_vector_error {n : ℕ} {χ : Fin n → ℝ} (h : ¬ ∀ k, χ k < Ring.openMax 0) :
    (Support.vector Ring.negativeSupport).flattened true (.real (vectors [] fun _ => χ)) =
      .error .nonFinite := by
  push Not at h
  obtain ⟨k, hk⟩ := h
  refine Arr.mapE_error (i := [k.val]) ((inB_cons ..).2 ⟨k.2, rfl⟩) ?_
  rw [Calc.vectors_get _ k.2 rfl]
  simp [Ring.realFlat, invSoftplus?, hk]

/-- What the minimizer that `__post_init__` chooses returns; zeros if it raises. -/
noncomputable def defaultMinimizer (minimize : (Arr ℝ → Calc EReal) → Arr ℝ → Arr ℝ)
    (find : (ℝ → EReal) → ℝ → ℝ → ℝ) (c : Cls) (v : List Val) : Arr ℝ :=
  match defaultSolve minimize find c v with
  | .ok a => a
  | .error _ => zeroMinimizer c v

theorem defaultMinimizer_uses : UsesDefault minimize find (defaultMinimizer minimize find) := by
  intro c v a h
  rw [defaultMinimizer, h]

theorem defaultMinimizer_rshape (hm : ∀ f a, (minimize f a).rshape = a.rshape) {c : Cls} {v : List Val}
    (h : (∃ e, initialSearchVals c v = Except.error e) ∨
      ∃ a, initialSearchVals c v = Except.ok a ∧ a.rshape = (zeroMinimizer c v).rshape) :
    (defaultMinimizer minimize find c v).rshape = (zeroMinimizer c v).rshape := by
  rcases h with ⟨e, h⟩ | ⟨a, h, ha⟩
  · simp [defaultMinimizer, defaultSolve, choosesBisection, h, Bind.bind, Except.bind]
  · rw [defaultMinimizer]
    split
    · next b hb =>
      simp only [defaultSolve, choosesBisection, h, Bind.bind, Except.bind] at hb
      split at hb
      · cases hb
      · split at hb
        · simp only [bisectionSolve, h, Bind.bind, Except.bind] at hb
          split at hb
          · cases hb
          · next h1 =>
            split at hb
            · rw [← Except.ok.inj hb, ← ha, not_not.1 h1]
              rfl
            · cases hb
        · simp only [adamSolve, h, Bind.bind, Except.bind] at hb
          cases hb
          rw [hm, ha]
    · rfl

theorem initial_error {c : Cls} {v : List Val} {e : Err}
    (hf : flatten (.mk c v .nil) true = .error e)
    (h : initialSearchVals c v =
      (flatten (.mk c v .nil) true).bind fun p => ok (Arr.ofFn p.2.rshape fun _ => 0)) :
    initialSearchVals c v = Except.error e := by
  rw [h, hf]
  rfl

theorem finite_newaxis (f : List ℕ → Option EReal) :
    (∃ e, (newaxis (finite (ok (scalars [] f))) : Calc ℝ) = Except.error e) ∨
      ∃ a, newaxis (finite (ok (scalars [] f))) = Except.ok a ∧ a.rshape = [1] := by
  simp only [finite, bind_ok]
  split_ifs
  · exact .inr ⟨_, rfl, rfl⟩
  · exact .inl ⟨_, rfl⟩

theorem defaultMinimizer_returns (hm : ∀ f a, (minimize f a).rshape = a.rshape) :
    ReturnsSearchVectors (defaultMinimizer minimize find) where
  gamma χ := by
    refine defaultMinimizer_rshape hm ?_
    unfold initialSearchVals
    simp only [laySS, toR_real]
    calc_simp
    exact finite_newaxis _
  chiSquare χ := defaultMinimizer_rshape hm (.inr ⟨_, initial_zero (chiSquare_flat [] fun _ => χ) rfl, rfl⟩)
  logarithmic χ := by
    refine defaultMinimizer_rshape hm ?_
    by_cases h : Ring.openMin 1 < χ
    · obtain ⟨z, hz⟩ := logarithmic_flat (rs := []) (χ := fun _ => χ) fun _ _ => h
      exact .inr ⟨_, initial_zero hz rfl, rfl⟩
    · refine .inl ⟨.nonFinite, initial_error (flatten_one_error (name := "chi")
        (s := .scalar (Ring.mkReal (some 1) none)) rfl rfl ?_) rfl⟩
      refine Arr.mapE_error (i := [0]) rfl ?_
      have : (scalars [] fun _ => χ).newaxis.get [0] = χ := rfl
      rw [this]
      simp [Ring.realFlat, invSoftplus?, not_lt.1 h]
  beta χ := by
    refine defaultMinimizer_rshape hm ?_
    by_cases h : ∀ k, χ k < Ring.openMax 0
    · exact .inr ⟨_, initial_zero (flatten_one (name := "mean_log_probability")
        (s := .vector Ring.negativeSupport) rfl rfl rfl
        (flattened_vector fun i hi k => (flat_getD (by simp) (by simpa using h k)).1)) rfl, rfl⟩
    · exact .inl ⟨.nonFinite, initial_error (flatten_one_error (name := "mean_log_probability")
        (s := .vector Ring.negativeSupport) rfl rfl (flattened_vector_error h)) rfl⟩
  dirichlet n χ := by
    refine defaultMinimizer_rshape hm ?_
    by_cases h : ∀ k, χ k < Ring.openMax 0
    · exact .inr ⟨_, initial_zero (flatten_one (name := "mean_log_probability")
        (s := .vector Ring.negativeSupport) rfl rfl rfl
        (flattened_vector fun i hi k => (flat_getD (by simp) (by simpa using h k)).1)) rfl, rfl⟩
    · exact .inl ⟨.nonFinite, initial_error (flatten_one_error (name := "mean_log_probability")
        (s := .vector Ring.negativeSupport) rfl rfl (flattened_vector_error h)) rfl⟩
  genDirichlet d χ := by
    refine defaultMinimizer_rshape hm ?_
    have hok : ∀ {χ : Fin d → ℝ}, (∀ k, χ k < Ring.openMax 0) →
        (Support.vector Ring.negativeSupport).flattened true (.real (vectors [] fun _ => χ)) =
          .ok (vectors [] fun _ k => (Ring.realFlat none (some (Ring.openMax 0)) (χ k)).getD 0) :=
      fun h => flattened_vector fun i hi k => (flat_getD (by simp) (by simpa using h k)).1
    by_cases h1 : ∀ k, χ.1 k < Ring.openMax 0
    · by_cases h2 : ∀ k, χ.2 k < Ring.openMax 0
      · exact .inr ⟨_, initial_zero (flatten_two (n₁ := "mean_log_probability")
          (n₂ := "mean_log_cumulative_probability")
          (s₁ := .vector Ring.negativeSupport)
          (s₂ := .vector Ring.negativeSupport) rfl (by decide) rfl (fun _ => rfl) rfl
          (hok h1) (hok h2)) rfl, rfl⟩
      · exact .inl ⟨.nonFinite, initial_error (flatten_two_error (n₁ := "mean_log_probability")
          (n₂ := "mean_log_cumulative_probability") (s₁ := .vector Ring.negativeSupport)
          (s₂ := .vector Ring.negativeSupport) rfl (by decide) rfl (fun _ => rfl)
          (.inr ⟨⟨_, hok h1⟩, flattened_vector_error h2⟩)) rfl⟩
    · exact .inl ⟨.nonFinite, initial_error (flatten_two_error (n₁ := "mean_log_probability")
        (n₂ := "mean_log_cumulative_probability") (s₁ := .vector Ring.negativeSupport)
        (s₂ := .vector Ring.negativeSupport) rfl (by decide) rfl (fun _ => rfl)
        (.inl (flattened_vector_error h1))) rfl⟩
  vonMisesFisher d χ := by
    refine defaultMinimizer_rshape hm ?_
    unfold initialSearchVals
    simp only [layE, toR_real, whereE]
    calc_simp
    exact finite_newaxis _

/-- The minimizers of the theorems above exist; with `n` halvings of an interval that is expanded at
most once, the shape of a gamma distribution is found up to the error `3 / 2 ^ n`. -/
example (n : ℕ) : ∃ q', searchFor (defaultMinimizer (fun _ a => a) (bisection 1 n)) .gammaEP
      (laySS [] (fun _ => ()) fun _ => gamma.toExp (-1, 0)) = .ok (laySS [] (fun _ => ()) q') ∧
    |(q' []).2 - 0| ≤ 3 / 2 ^ n := by
  have hm : (gamma.toExp (-1, 0)).1 = 1 := by norm_num [gamma]
  obtain ⟨q', h1, h2⟩ := C70_gamma (defaultMinimizer_returns fun _ _ => rfl)
    defaultMinimizer_uses (C70_bisection 1 n) (by norm_num) (rs := []) (q := fun _ => (-1, 0))
    fun _ _ => ⟨by norm_num [gammaDom], by
      have := MachEps.lt
      rw [hm, Ring.openMin, zero_mul, zero_add]
      exact max_lt (by linarith) (by norm_num)⟩
  exact ⟨q', h1, by simpa using (h2 [] rfl).1⟩

example (n : ℕ) {q : EuclideanSpace ℝ (Fin 3)} (hq : q ≠ 0) :
    ∃ q', searchFor (defaultMinimizer (fun _ a => a) (bisection 1 n)) .vonMisesFisherEP
      (layE 3 [] (fun _ => ()) fun _ => (vonMisesFisher 3).toExp q) = .ok (layE 3 [] (fun _ => ()) q') ∧
    ‖q' [] - q‖ ≤ 3 / 2 ^ n := by
  obtain ⟨q', h1, h2⟩ := C70_von_mises_fisher (n := 1) (defaultMinimizer_returns fun _ _ => rfl)
    defaultMinimizer_uses (C70_bisection 1 n) (by norm_num) (rs := []) (q := fun _ => q) fun _ _ => hq
  exact ⟨q', h1, by simpa using h2 [] rfl⟩

/-- The ranges of `C70_chi_square` and of `C70_logarithmic` are not empty, and they exhaust the
parameters inside the stored bounds as `reach` grows. -/
example {y : ℝ} (hy : 0 < y) : ∃ k : ℕ, Real.exp (-3 ^ k) ≤ y ∧ y ≤ 3 ^ k := by
  obtain ⟨k, hk⟩ := pow_unbounded_of_one_lt (max y (-Real.log y)) (by norm_num : (1 : ℝ) < 3)
  refine ⟨k, ?_, (le_max_left _ _).trans hk.le⟩
  rw [← Real.le_log_iff_exp_le hy]
  linarith [le_max_right y (-Real.log y)]

/-- **C70.** `VonMisesFisherEP.search_gradient` is right for single distributions only, as
`to_nat` uses it: for a batch the norms have no axis for the search vector, and the result has the
wrong shape. -/
theorem C70_von_mises_fisher_batch_counterexample :
    ∃ r, searchGradientVals .vonMisesFisherEP (layE 2 [2] (fun _ => ()) fun _ => 0)
      (vectors [2] fun _ (_ : Fin 1) => 0) = Except.ok r ∧ r.rshape = [2, 2] := by
  unfold searchGradientVals
  simp only [layE, toR_real]
  calc_simp
  exact ⟨_, rfl, rfl⟩

end Efax
