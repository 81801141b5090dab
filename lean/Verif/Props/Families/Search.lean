import Verif.Model.Families.Search
import Verif.Lemmas.Digamma
import Verif.Lemmas.Families.Discrete
import Verif.Lemmas.Families.Simplex
import Verif.Props.Families.Logarithmic
import Verif.Lemmas.Ring

/-!
# Conversion by search (C32)

`SearchCorrect toExp dom reach mdom searchToNatural gradient`: see `Spec.ExpFam`.  The sets `reach`
are the interiors of the declared supports: the plane map of a bound `m` only reaches the values above
`m + eps`.
-/

namespace Efax

open Spec Set

variable [MachEps]

theorem openMin_gt (m : ℝ) : m < Ring.openMin m :=
  lt_of_lt_of_le (by linarith [MachEps.pos]) (le_max_left _ _)

theorem openMax_lt (m : ℝ) : Ring.openMax m < m :=
  lt_of_le_of_lt (min_le_left _ _) (by linarith [MachEps.pos])

omit [MachEps] in
/-- The default search of a family with injective conversion. -/
theorem searchCorrect_default {S N E : Type} [AddGroup E] {stn : S → N} {toExp : N → E}
    {dom reach : Set N} (hv : ∀ s, stn s ∈ dom) (hi : InjOn toExp dom)
    (hr : ∀ q ∈ reach, ∃ s, stn s = q) :
    SearchCorrect toExp dom reach univ (fun _ => stn) (searchGradient stn toExp) where
  valid _ _ := hv
  root _ _ _ := sub_eq_zero
  unique χ _ s h q hq hqχ := hi hq (hv s) (hqχ.trans (sub_eq_zero.1 h).symm)
  exists_root χ _ q hq hqχ := by
    obtain ⟨s, rfl⟩ := hr q hq
    exact ⟨s, sub_eq_zero.2 hqχ⟩

theorem realUnflat_above {m q : ℝ} (h : m < q) : ∃ s, Ring.realUnflat (some m) none s = q := by
  obtain ⟨s, _, h2⟩ := Ring.realUnflat_realFlat (mn := some m) (mx := none) (x := q)
    (by simpa using h) (by simp)
  exact ⟨s, h2⟩

theorem realUnflat_below {M q : ℝ} (h : q < M) : ∃ s, Ring.realUnflat none (some M) s = q := by
  obtain ⟨s, _, h2⟩ := Ring.realUnflat_realFlat (mn := none) (mx := some M) (x := q)
    (by simp) (by simpa using h)
  exact ⟨s, h2⟩

theorem lt_realUnflat (m s : ℝ) : m < Ring.realUnflat (some (Ring.openMin m)) none s :=
  (openMin_gt m).trans ((Ring.realUnflat_mem (mn := some (Ring.openMin m)) (mx := none) (by simp) s).1
    _ rfl)

theorem realUnflat_lt (M s : ℝ) : Ring.realUnflat none (some (Ring.openMax M)) s < M :=
  ((Ring.realUnflat_mem (mn := none) (mx := some (Ring.openMax M)) (by simp) s).2 _ rfl).trans
    (openMax_lt M)

/-- Chi-square. -/
theorem C32_chi_square : SearchCorrect chiSquare.toExp (Ioi (-1)) (Ioi (Ring.openMin (-1))) univ
    (fun _ => chiSquareSearchToNatural) (searchGradient chiSquareSearchToNatural chiSquare.toExp) :=
  searchCorrect_default (fun s => lt_realUnflat (-1) s)
    (chiSquare_regular.toExp_injOn chiSquare_minimal) fun _ h => realUnflat_above h

/-- Chi. -/
theorem C32_chi : SearchCorrect chi.toExp (Ioi (-1)) (Ioi (Ring.openMin (-1))) univ
    (fun _ => chiSquareSearchToNatural) (searchGradient chiSquareSearchToNatural chi.toExp) :=
  searchCorrect_default (fun s => lt_realUnflat (-1) s)
    (chi_regular.toExp_injOn chi_minimal) fun _ h => realUnflat_above h

/-- Chi-square: every expectation parameter above that of the least reachable degrees of freedom has
a root; every real number is the expectation parameter of some distribution. -/
theorem C32_chi_square_exists (χ : ℝ) :
    (∃ q, -1 < q ∧ chiSquare.toExp q = χ) ∧
    (chiSquare.toExp (Ring.openMin (-1)) < χ →
      ∃ s, searchGradient chiSquareSearchToNatural chiSquare.toExp χ s = 0) := by
  obtain ⟨x, hx, he⟩ := digamma_surj (χ + Real.log 0.5)
  have hq : chiSquare.toExp (x - 1) = χ := by
    simp only [chiSquare, sub_add_cancel, he]
    ring
  refine ⟨⟨x - 1, by linarith, hq⟩, fun h => ?_⟩
  refine C32_chi_square.exists_root χ trivial (x - 1) (?_ : Ring.openMin (-1) < x - 1) hq
  by_contra hn
  have hm := openMin_gt (-1)
  have : digamma x ≤ digamma (Ring.openMin (-1) + 1) :=
    digamma_strictMonoOn.monotoneOn (show (0 : ℝ) < x from hx)
      (show (0 : ℝ) < Ring.openMin (-1) + 1 by linarith) (by linarith [not_lt.1 hn])
  simp only [chiSquare] at h
  linarith

/-- Dirichlet, with any number of categories from two. -/
theorem C32_dirichlet (d : ℕ) : SearchCorrect (dirichlet (d + 1)).toExp (dirichletDom (d + 2))
    {q | ∀ i, Ring.openMin (-1) < q i} univ (fun _ => dirichletSearchToNatural)
    (searchGradient dirichletSearchToNatural (dirichlet (d + 1)).toExp) :=
  searchCorrect_default (fun s i => lt_realUnflat (-1) (s i))
    ((dirichlet_regular (d + 1)).toExp_injOn (dirichlet_minimal d)) fun q h => by
      choose s hs using fun i => realUnflat_above (h i)
      exact ⟨s, funext hs⟩

/-- Beta. -/
theorem C32_beta : SearchCorrect beta.toExp (dirichletDom 2)
    {q | ∀ i, Ring.openMin (-1) < q i} univ (fun _ => dirichletSearchToNatural)
    (searchGradient dirichletSearchToNatural beta.toExp) :=
  searchCorrect_default (fun s i => lt_realUnflat (-1) (s i))
    (beta_regular.toExp_injOn beta_minimal) fun q h => by
      choose s hs using fun i => realUnflat_above (h i)
      exact ⟨s, funext hs⟩

omit [MachEps] in
/-- Generalized Dirichlet, of any dimension.  The search reaches the parameters with `gamma > 0`. -/
theorem C32_gen_dirichlet (k : ℕ) : SearchCorrect (genDirichlet k).toExp (genDirichletDom k)
    {q | (∀ i, -1 < q.1 i) ∧ ∀ i, 0 < q.2 i} univ (fun _ => genDirichletSearchToNatural)
    (searchGradient genDirichletSearchToNatural (genDirichlet k).toExp) := by
  refine searchCorrect_default (fun s => ⟨fun i => ?_, fun i => ?_⟩)
    ((genDirichlet_regular k).toExp_injOn (genDirichlet_minimal k)) fun q h => ?_
  · have := softplus_pos (s (Fin.castAdd k i))
    simp only [genDirichletSearchToNatural]
    linarith
  · have h1 : 0 ≤ ∑ j, if i ≤ j then (genDirichletSearchToNatural s).2 j else 0 :=
      Finset.sum_nonneg fun j _ => by
        split_ifs
        · exact (softplus_pos _).le
        · exact le_rfl
    have h2 : 0 ≤ ∑ j, if i < j then (genDirichletSearchToNatural s).1 j + 1 else 0 :=
      Finset.sum_nonneg fun j _ => by
        split_ifs
        · simp only [genDirichletSearchToNatural, sub_add_cancel]
          exact (softplus_pos _).le
        · exact le_rfl
    linarith
  · choose a ha using fun i => softplus_invSoftplus (x := q.1 i + 1) (by linarith [h.1 i])
    choose b hb using fun i => softplus_invSoftplus (h.2 i)
    refine ⟨Fin.append a b, Prod.ext (funext fun i => ?_) (funext fun i => ?_)⟩
    · simp [genDirichletSearchToNatural, (ha i).2]
    · simp only [genDirichletSearchToNatural, Fin.append_right, (hb i).2]

omit [MachEps] in
/-- Gamma: the one-dimensional search over the shape. -/
theorem C32_gamma : SearchCorrect gamma.toExp gammaDom gammaDom {χ | 0 < χ.1} gammaSearchToNatural
    gammaSearchGradient := by
  have hv : ∀ χ ∈ {χ : ℝ × ℝ | 0 < χ.1}, ∀ s, gammaSearchToNatural χ s ∈ gammaDom := by
    intro χ h s
    have hs := softplus_pos s
    exact ⟨neg_lt_zero.2 (div_pos hs h), by simp only [gammaSearchToNatural]; linarith⟩
  have hr : ∀ χ ∈ {χ : ℝ × ℝ | 0 < χ.1}, ∀ s, gammaSearchGradient χ s = 0 ↔
      gamma.toExp (gammaSearchToNatural χ s) = χ := by
    intro χ h s
    have hs := softplus_pos s
    have h' : 0 < χ.1 := h
    simp only [gammaSearchGradient, gamma, gammaSearchToNatural, Prod.ext_iff, neg_neg,
      sub_add_cancel]
    rw [neg_div_neg_eq, div_div_cancel₀ hs.ne', Real.log_div hs.ne' h'.ne']
    constructor
    · intro h1; exact ⟨rfl, by linarith⟩
    · rintro ⟨_, h1⟩; linarith
  refine ⟨hv, hr, fun χ h s hg q hq hqχ => ?_, fun χ h q hq hqχ => ?_⟩
  · exact (gamma_regular.toExp_injOn gamma_minimal) hq (hv χ h s) (hqχ.trans ((hr χ h s).1 hg).symm)
  · obtain ⟨s, _, hs⟩ := softplus_invSoftplus (x := q.2 + 1) (by linarith [hq.2])
    refine ⟨s, (hr χ h s).2 ?_⟩
    have h1 : gammaSearchToNatural χ s = q := by
      have h2 : χ.1 = (q.2 + 1) / -q.1 := by rw [← hqχ, div_neg, ← neg_div]; rfl
      have h3 : q.2 + 1 ≠ 0 := by linarith [hq.2]
      refine Prod.ext ?_ ?_
      · simp only [gammaSearchToNatural, hs, h2]
        rw [div_div_cancel₀ h3, neg_neg]
      · simp [gammaSearchToNatural, hs]
    rw [h1, hqχ]

omit [MachEps] in
/-- Gamma: the expectation parameters of the gamma distributions are exactly the pairs with
`mean > 0` and `mean_log < log mean`; for all of them the search has a root, and the search starts
from a finite value. -/
theorem C32_gamma_domain (χ : ℝ × ℝ) :
    ((∃ q ∈ gammaDom, gamma.toExp q = χ) ↔ 0 < χ.1 ∧ χ.2 < Real.log χ.1) ∧
    (0 < χ.1 ∧ χ.2 < Real.log χ.1 →
      (∃ s, gammaSearchGradient χ s = 0) ∧ (gammaInitialSearch χ).isSome) := by
  have key : 0 < χ.1 ∧ χ.2 < Real.log χ.1 → ∃ q ∈ gammaDom, gamma.toExp q = χ := by
    rintro ⟨h1, h2⟩
    obtain ⟨x, hx, he⟩ := log_sub_digamma_surj (y := Real.log χ.1 - χ.2) (by linarith)
    refine ⟨(-(x / χ.1), x - 1), ⟨neg_lt_zero.2 (div_pos hx h1), by simp; linarith⟩, ?_⟩
    refine Prod.ext ?_ ?_
    · simp only [gamma, sub_add_cancel]
      rw [neg_div_neg_eq, div_div_cancel₀ hx.ne']
    · simp only [gamma, sub_add_cancel, neg_neg]
      rw [Real.log_div hx.ne' h1.ne']
      linarith
  refine ⟨⟨?_, key⟩, fun h => ⟨?_, ?_⟩⟩
  · rintro ⟨q, ⟨h1, h2⟩, rfl⟩
    have h3 : 0 < q.2 + 1 := by linarith
    have h4 : 0 < -q.1 := by linarith
    have h5 : -(q.2 + 1) / q.1 = (q.2 + 1) / -q.1 := by rw [neg_div, div_neg]
    simp only [gamma]
    rw [h5, Real.log_div h3.ne' h4.ne']
    exact ⟨div_pos h3 h4, by linarith [digamma_lt_log h3]⟩
  · obtain ⟨q, hq, he⟩ := key h
    exact C32_gamma.exists_root χ h.1 q hq he
  · have hd : 0 < Real.log χ.1 - χ.2 := by linarith [h.2]
    rw [gammaInitialSearch, invSoftplus?, if_pos]
    · rfl
    · simp only [gammaInitialShape]
      set d := Real.log χ.1 - χ.2
      refine div_pos ?_ (by linarith)
      have : |d - 3| < Real.sqrt ((d - 3) ^ 2 + 24 * d) := by
        rw [← Real.sqrt_sq_eq_abs]
        exact Real.sqrt_lt_sqrt (sq_nonneg _) (by linarith)
      linarith [le_abs_self (d - 3)]

/-- Gamma: the initial shape `s` of the search solves the equation `log s - ψ(s) = log E(x) - E(log x)`
with the left side replaced by its rational approximation `(1 + 1 / (6 s + 1)) / (2 s)`. -/
theorem C32_gamma_initial {χ : ℝ × ℝ} (h : χ.2 < Real.log χ.1) :
    0 < gammaInitialShape χ ∧
    (1 + 1 / (6 * gammaInitialShape χ + 1)) / (2 * gammaInitialShape χ) = Real.log χ.1 - χ.2 := by
  have hd : 0 < Real.log χ.1 - χ.2 := by linarith
  simp only [gammaInitialShape]
  set d := Real.log χ.1 - χ.2
  have hr : 0 ≤ (d - 3) ^ 2 + 24 * d := by positivity
  set r := Real.sqrt ((d - 3) ^ 2 + 24 * d) with hrd
  have hr2 : r ^ 2 = (d - 3) ^ 2 + 24 * d := Real.sq_sqrt hr
  have hr0 : 0 ≤ r := Real.sqrt_nonneg _
  have hs : 0 < 3 - d + r := by nlinarith
  refine ⟨by positivity, ?_⟩
  field_simp
  nlinarith

example : (0 : ℝ) < Real.log (Real.exp 1) := by simp

/-- Logarithmic: every search vector gives a valid log-probability; the gradient vanishes exactly
when the code's `to_exp` returns `χ`, and then the log-probability is the only one whose mean is
`χ`.  A root exists if the mean `χ` belongs to a log-probability between the floor and the ceiling
which the plane map reaches. -/
theorem C32_logarithmic {χ : ℝ} (hχ : 1 < χ) (s : ℝ) :
    logarithmicSearchToNatural s < 0 ∧
    (logarithmicSearchGradient χ s = 0 ↔ logarithmicToExp (logarithmicSearchToNatural s) = χ) ∧
    (logarithmicSearchGradient χ s = 0 →
      logarithmic.toExp (logarithmicSearchToNatural s) = χ ∧
      ∀ q < 0, logarithmic.toExp q = χ → q = logarithmicSearchToNatural s) := by
  have h0 : logarithmicSearchToNatural s < 0 := realUnflat_lt 0 s
  have h1 : logarithmicSearchGradient χ s = 0 ↔
      logarithmicToExp (logarithmicSearchToNatural s) = χ := by
    rw [logarithmicSearchGradient]
    generalize logarithmicToExp (logarithmicSearchToNatural s) = z
    induction z with
    | bot => simp
    | top => simp
    | coe z =>
      rw [← EReal.coe_sub, ← EReal.coe_zero, EReal.coe_eq_coe_iff, EReal.coe_eq_coe_iff, sub_eq_zero]
  refine ⟨h0, h1, fun hg => ?_⟩
  have h2 : logarithmic.toExp (logarithmicSearchToNatural s) = χ := by
    have h3 := h1.1 hg
    rw [logarithmicToExp] at h3
    split_ifs at h3 with a b
    · have : (1 : ℝ) = χ := by exact_mod_cast h3
      linarith
    · exact absurd h3 (EReal.coe_ne_top χ).symm
    · exact EReal.coe_eq_coe_iff.1 h3
  exact ⟨h2, fun q hq he =>
    (logarithmic_regular.toExp_injOn logarithmic_minimal) hq h0 (he.trans h2.symm)⟩

theorem C32_logarithmic_exists {χ q : ℝ} (h1 : logProbabilityFloor ≤ q)
    (h2 : q ≤ logProbabilityCeiling) (h3 : q < Ring.openMax 0) (h : logarithmic.toExp q = χ) :
    ∃ s, logarithmicSearchGradient χ s = 0 := by
  obtain ⟨s, hs⟩ := realUnflat_below h3
  refine ⟨s, ?_⟩
  rw [logarithmicSearchGradient, logarithmicSearchToNatural, hs, logarithmicToExp,
    if_neg (not_lt.2 h1), if_neg (not_lt.2 h2), ← EReal.coe_sub, ← h]
  exact congrArg _ (sub_self _)

/-- The hypotheses are satisfiable: the standard exponential distribution as a gamma distribution. -/
example : ∃ s, gammaSearchGradient (1, -Real.eulerMascheroniConstant) s = 0 := by
  refine ((C32_gamma_domain _).2 ⟨one_pos, ?_⟩).1
  simp only [Real.log_one]
  linarith [Real.one_half_lt_eulerMascheroniConstant]

example : logProbabilityFloor ≤ -1 ∧ (-1 : ℝ) ≤ logProbabilityCeiling ∧ (-1 : ℝ) < Ring.openMax 0 := by
  have := MachEps.lt
  refine ⟨by norm_num [logProbabilityFloor], by norm_num [logProbabilityCeiling], ?_⟩
  rw [Ring.openMax, zero_mul, zero_sub]
  exact lt_min (by linarith) (by norm_num)

end Efax
