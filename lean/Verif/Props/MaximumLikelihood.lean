import Verif.Lemmas.MaximumLikelihood
import Verif.Props.Reach

/-!
# C99: the example `examples/maximum_likelihood_estimation.py` finds the distribution
-/

namespace Efax

open MeasureTheory ProbabilityTheory Spec Calc Set

variable [MachEps] {solve : Solver} {search : Cls → List Val → Except Err (List Val)} {Key : Type}

/-- The steps of the example, if the observations have most likely parameters that the search finds. -/
theorem maximumLikelihoodExample_eq (hs : solve.For search) {d : ℕ} {rng : Random Key} {key : Key}
    {alpha a : Fin (d + 1) → ℝ} {n : ℕ} (hn : 0 < n) {x : List ℕ → Fin d → ℝ} {v : Val} {m : Dist Cls}
    {χ : List ℕ → Fin (d + 1) → ℝ}
    (hv : Cls.sample search rng .dirichletNP (layV (d + 1) [] (fun _ => ()) fun _ k => alpha k - 1) key
      (some [n]) = .ok v) (hx : HoldsV [n] x v)
    (hm : Estimates (library search) (((Simple.dirichlet d).kind solve).exp [] (fun _ => ()) χ) 1 (.leaf v) m)
    (hdot : ∀ w : Fin (d + 1) → ℝ, dotCalc (((Simple.dirichlet d).kind solve).nat [] (fun _ => ()) fun _ => w) m =
      dotCalc (((Simple.dirichlet d).kind solve).nat [] (fun _ => ()) fun _ => w)
        (((Simple.dirichlet d).kind solve).exp [] (fun _ => ()) fun _ => (dirichlet d).toExp a))
    (ha : ∀ k, (dirichlet d).toExp a k < Ring.openMax 0)
    (hr : solve.dirichlet (d + 1) ((dirichlet d).toExp a) = a) :
    maximumLikelihoodExample search rng key (vectors [] fun _ => alpha) n =
      .ok (vectors [] fun _ k => a k + 1) := by
  have hK : LibraryKind solve ((Simple.dirichlet d).kind solve) := .simple (.dirichlet d)
  have h := C51_library hs hK
  obtain ⟨est, w, h1, h2, h3⟩ := (C69_simple_estimator hs hK (rs := []) (ss := [n]) (by simpa using hn)
    (x := x) ⟨_, rfl, hx⟩ (show ∀ f ∈ Cls.fields .dirichletEP, f.fixed = false by simp [Cls.fields])).1 hm
  obtain ⟨est', h1', h2'⟩ := dirichlet_statistics (search := search) hx
  obtain rfl : est = est' := Except.ok.inj (h1.symm.trans h1')
  obtain rfl := Except.ok.inj (h2.symm.trans h2')
  obtain ⟨χ', h4⟩ := dirichlet_mean hs hn fun i => (dirichlet d).stat (x i)
  obtain rfl := Except.ok.inj (h3.symm.trans h4)
  have h5 : χ' = (dirichlet d).toExp a := by
    ext k
    have h6 := hdot (Pi.single k 1)
    have e1 := h.dotCalc [] (fun _ => ()) (fun _ => ()) (fun _ => (Pi.single k 1 : Fin (d + 1) → ℝ)) fun _ => χ'
    have e2 := h.dotCalc [] (fun _ => ()) (fun _ => ()) (fun _ => (Pi.single k 1 : Fin (d + 1) → ℝ))
      fun _ => (dirichlet d).toExp a
    have h7 := ok_scalars_inj (e1.symm.trans (h6.trans e2)) [] rfl
    simpa [Simple.kind, Kind.simple, dirichlet, Pi.single_apply] using h7
  subst h5
  have h6 := h.toNat [] (fun _ => ()) (fun _ => (dirichlet d).toExp a) fun _ _ => ha
  have h7 : Val.ofR (ok (vectors [] fun _ => alpha) - const 1) =
      .ok (.real (vectors [] fun _ k => alpha k - 1)) := by
    calc_simp
    rfl
  have h8 : ((Val.real (vectors [] fun _ => a)).toR + const 1).run = .ok (vectors [] fun _ k => a k + 1) := by
    simp only [toR_real]
    calc_simp
    rfl
  have h9 : (Dist.mk Cls.dirichletEP (layV (d + 1) [] (fun _ => ()) fun _ => (dirichlet d).toExp a) .nil).toNat
      (library search).toNat = .ok (.mk .dirichletNP [.real (vectors [] fun _ => a)] .nil) := by
    have : ((Simple.dirichlet d).kind solve).toNat () ((dirichlet d).toExp a) = a := hr
    simp only [this] at h6
    exact h6
  have hv' : Cls.sample search rng .dirichletNP [.real (vectors [] fun _ k => alpha k - 1)] key
      (some [n]) = .ok v := hv
  simp only [maximumLikelihoodExample, h7, hv', h1', h2', h4, h9, alphaMinusOne, Bind.bind, Except.bind]
  exact h8

/-- **C99.** The example with any Dirichlet distribution: if enough samples are drawn, then with a probability
as near 1 as desired it prints numbers as near to `alpha` as desired, provided that the search finds the
roots there are. -/
theorem C99_maximum_likelihood (hs : solve.For search) {d : ℕ} (hd : 0 < d)
    (hr : ∀ q : Fin (d + 1) → ℝ, (∀ k, Ring.openMin (-1) < q k) →
      solve.dirichlet (d + 1) ((dirichlet d).toExp q) = q)
    {Ω : Type} [MeasurableSpace Ω] {P : Measure Ω} (I : IdealRandom Key P) (key : Key)
    (alpha : Fin (d + 1) → ℝ) (h1 : ∀ k, Ring.openMin (-1) < alpha k - 1)
    (h2 : ∀ k, digamma (alpha k) - digamma (∑ k, alpha k) < Ring.openMax 0) {ε δ : ℝ} (hε : 0 < ε) (hδ : 0 < δ) :
    ∃ n₀ : ℕ, ∀ n, n₀ ≤ n → P {ω | ¬ ∃ a : Fin (d + 1) → ℝ,
      maximumLikelihoodExample search (I.rng ω) key (vectors [] fun _ => alpha) n = .ok (vectors [] fun _ => a) ∧
      ∀ k, |a k - alpha k| < ε} ≤ ENNReal.ofReal δ := by
  set q : Fin (d + 1) → ℝ := fun k => alpha k - 1 with hq
  have hq0 : ∀ k, 0 < q k + 1 := fun k => by
    have := (openMin_gt (-1)).trans (h1 k)
    simp only [hq]; linarith
  have hsum : ∀ a : Fin (d + 1) → ℝ, ∑ j, a j + ((d + 1 : ℕ) : ℝ) = ∑ j, (a j + 1) := fun a => by
    rw [Finset.sum_add_distrib]; simp
  have hcont : ∀ k, ContinuousAt (fun a => (dirichlet d).toExp a k) q := fun k => by
    refine ContinuousAt.sub ?_ ?_
    · exact ContinuousAt.comp (f := fun a : Fin (d + 1) → ℝ => a k + 1) (digamma_continuousAt (hq0 k))
        ((continuous_apply k).continuousAt.add continuousAt_const)
    · refine ContinuousAt.comp (f := fun a : Fin (d + 1) → ℝ => ∑ j, a j + ((d + 1 : ℕ) : ℝ))
        (digamma_continuousAt ?_) (by fun_prop)
      rw [hsum]
      exact Finset.sum_pos (fun j _ => hq0 j) ⟨0, Finset.mem_univ _⟩
  have hq1 : ∀ k, (dirichlet d).toExp q k < Ring.openMax 0 := fun k => by
    have := h2 k
    simp only [dirichlet, dirichletExpHelper, hsum]
    simpa [hq] using this
  have hev : ∀ᶠ a in nhds q, ∀ k, (dirichlet d).toExp a k < Ring.openMax 0 ∧ Ring.openMin (-1) < a k :=
    Filter.eventually_all.2 fun k => ((hcont k).eventually (gt_mem_nhds (hq1 k))).and
      ((continuous_apply k).continuousAt.eventually (lt_mem_nhds (h1 k)))
  obtain ⟨ε', hε', hev⟩ := Metric.eventually_nhds_iff.1 hev
  have hdom : q ∈ dirichletDom (d + 1) := fun k => by linarith [hq0 k]
  have hC := fun k => C98_dirichlet (Key := Key) hs d hd Ω _ P I key [] (fun _ => ()) (fun _ => q)
    (fun _ _ => hdom) (LinearMap.proj k) (min ε ε') (δ / (d + 1)) (by positivity) (by positivity)
  choose n₀ hC using hC
  refine ⟨∑ k, n₀ k + 1, fun n hn => ?_⟩
  have hn0 : 0 < n := by omega
  obtain ⟨y, hy, -, -⟩ := C63_dirichlet d Ω _ P I key (some [n]) [] (fun _ => ()) (fun _ => q) fun _ _ => hdom
  choose x hx hP using fun k => hC k [n] (by simpa using hn0) (by
    have := Finset.single_le_sum (f := n₀) (fun _ _ => Nat.zero_le _) (Finset.mem_univ k)
    simp only [List.prod_cons, List.prod_nil, mul_one]
    omega)
  have hxe : ∀ k, x k = x 0 := fun k => funext fun ω => Except.ok.inj ((hx k ω).symm.trans (hx 0 ω))
  simp only [hxe] at hP
  refine (measure_mono fun ω hω => ?_).trans ((measure_iUnion_fintype_le _ _).trans
    ((Finset.sum_le_sum fun k _ => hP k).trans (le_of_eq ?_)))
  · by_contra hno
    rw [mem_iUnion, not_exists] at hno
    replace hno := fun k => Classical.not_not.1 (hno k)
    choose a m hL hE hD hN using hno
    have hnear : ∀ k, |a 0 [] k - q k| < min ε ε' := fun k => by
      have h3 : a k [] = a 0 [] := C98_unique (hL k) (hL 0) rfl
      have := hN k [] rfl
      rw [h3] at this
      exact this
    have hdist : dist (α := Fin (d + 1) → ℝ) (a 0 []) q < ε' := (dist_pi_lt_iff hε').2 fun k => by
      rw [Real.dist_eq]
      exact (hnear k).trans_le (min_le_right _ _)
    refine hω ⟨fun k => a 0 [] k + 1, ?_, fun k => ?_⟩
    · refine maximumLikelihoodExample_eq hs hn0 (hx 0 ω) (x := y ω) ?_ (hE 0) (fun w => ?_) (fun k => ?_)
        (hr _ fun k => ?_)
      · rw [← Except.ok.inj ((hy ω).symm.trans (hx 0 ω))]
        rfl
      · exact hD 0 (fun _ => w) fun _ _ => trivial
      · exact (hev hdist k).1
      · exact (hev hdist k).2
    · have := (hnear k).trans_le (min_le_left _ _)
      rwa [show a 0 [] k + 1 - alpha k = a 0 [] k - q k by rw [hq]; ring]
  · rw [Finset.sum_const, Finset.card_univ, Fintype.card_fin, nsmul_eq_mul, ← ENNReal.ofReal_natCast,
      ← ENNReal.ofReal_mul (by positivity)]
    congr 1
    push_cast
    field_simp

/-- **C99.** The example itself, with `alpha = [2, 3, 4]`. -/
theorem C99_example (hs : solve.For search)
    (hr : ∀ q : Fin 3 → ℝ, (∀ k, Ring.openMin (-1) < q k) → solve.dirichlet 3 ((dirichlet 2).toExp q) = q)
    {Ω : Type} [MeasurableSpace Ω] {P : Measure Ω} (I : IdealRandom Key P) (key : Key)
    {ε δ : ℝ} (hε : 0 < ε) (hδ : 0 < δ) :
    ∃ n₀ : ℕ, ∀ n, n₀ ≤ n → P {ω | ¬ ∃ a b c : ℝ,
      maximumLikelihoodExample search (I.rng ω) key (vectors [] fun _ => ![2, 3, 4]) n =
        .ok (vectors [] fun _ => ![a, b, c]) ∧
      |a - 2| < ε ∧ |b - 3| < ε ∧ |c - 4| < ε} ≤ ENNReal.ofReal δ := by
  have e1 : MachEps.eps < 1 / 4 := MachEps.lt
  have e2 := MachEps.pos
  have hm : Ring.openMin (-1) < 0 := by
    simp only [Ring.openMin, copysign]
    norm_num
    linarith
  have hM : (-1 / 4 : ℝ) < Ring.openMax 0 := by
    simp only [Ring.openMax]
    norm_num
    linarith
  have h9 : digamma 9 = digamma 4 + 1 / 4 + 1 / 5 + 1 / 6 + 1 / 7 + 1 / 8 := by
    have h4 := digamma_add_one (x := 4) (by norm_num)
    have h5 := digamma_add_one (x := 5) (by norm_num)
    have h6 := digamma_add_one (x := 6) (by norm_num)
    have h7 := digamma_add_one (x := 7) (by norm_num)
    have h8 := digamma_add_one (x := 8) (by norm_num)
    norm_num at h4 h5 h6 h7 h8 ⊢
    linarith
  have h2 := digamma_add_one (x := 2) (by norm_num)
  have h3 := digamma_add_one (x := 3) (by norm_num)
  norm_num at h2 h3
  obtain ⟨n₀, h⟩ := C99_maximum_likelihood hs (by norm_num : 0 < 2) hr I key ![2, 3, 4]
    (fun k => by fin_cases k <;> simp <;> linarith)
    (fun k => by
      rw [show ∑ k, (![2, 3, 4] : Fin 3 → ℝ) k = 9 by simp [Fin.sum_univ_three]; norm_num, h9]
      fin_cases k <;> simp <;> linarith) hε hδ
  refine ⟨n₀, fun n hn => (measure_mono fun ω hω => ?_).trans (h n hn)⟩
  rintro ⟨a, ha, hk⟩
  refine hω ⟨a 0, a 1, a 2, ?_, hk 0, hk 1, hk 2⟩
  rw [ha]
  congr 2
  funext _ k
  fin_cases k <;> rfl

/-- Non-vacuity: an ideal source of random numbers and a search that finds the roots. -/
example : ∃ (Ω : Type) (_ : MeasurableSpace Ω) (P : Measure Ω) (I : IdealRandom (List (ℕ × ℕ)) P) (n : ℕ),
    P {ω | ¬ ∃ a b c : ℝ,
      maximumLikelihoodExample (searchFor exactMinimizer) (I.rng ω) [] (vectors [] fun _ => ![2, 3, 4]) n =
        .ok (vectors [] fun _ => ![a, b, c]) ∧
      |a - 2| < 1 / 10 ∧ |b - 3| < 1 / 10 ∧ |c - 4| < 1 / 10} ≤ ENNReal.ofReal (1 / 100) := by
  obtain ⟨I⟩ := idealRandom_exists
  obtain ⟨n, h⟩ := C99_example (C51_search exactMinimizer_returns) (fun q hq => exact_dirichlet (by norm_num) hq) I []
    (ε := 1 / 10) (δ := 1 / 100) (by norm_num) (by norm_num)
  exact ⟨_, _, _, I, n, h n le_rfl⟩

end Efax
