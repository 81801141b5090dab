import Verif.Lemmas.Checked
import Verif.Props.Analysis

/-!
# C94: no operation leaves its domain
-/

namespace Efax

open MeasureTheory Spec Checked Set

variable [MachEps] {solve : Solver}

private theorem expPos {q : ℝ} (h : q < 0) : -1 < -Real.exp q := by
  have := Real.exp_lt_one_iff.2 h; linarith

private theorem pos_ae {p : ℝ → Prop} (h : ∀ x, 0 < x → p x) : ∀ᵐ x ∂positive, p x :=
  ae_restrict_of_forall_mem measurableSet_Ioi h

private theorem simplex_ae {d : ℕ} {p : (Fin d → ℝ) → Prop} (h : ∀ x ∈ simplex d, p x) :
    ∀ᵐ x ∂volume.restrict (simplex d), p x :=
  ae_restrict_of_forall_mem (measurableSet_simplex d) h

private theorem nb_finite {r : ℕ} (hr : 1 ≤ r) :
    (∀ q < 0, (Checked.negativeBinomial r).logNormalizer q =
      some ((negativeBinomial r).logNormalizer q)) ∧
    (∀ q < 0, (Checked.negativeBinomial r).toExp q = some ((negativeBinomial r).toExp q)) ∧
    (∀ χ > 0, (Checked.negativeBinomial r).toNat χ = some (negativeBinomialToNat r χ)) ∧
    ∀ x, (Checked.negativeBinomial r).carrier x = some ((negativeBinomial r).carrier x) := by
  have hr' : (0 : ℝ) < r := Nat.cast_pos.2 hr
  refine ⟨fun q h => ?_, fun q h => ?_, fun χ h => ?_, fun x => ?_⟩
  · simp [Checked.negativeBinomial, negativeBinomial, log1p?_eq (expPos h)]
  · have : 1 < Real.exp (-q) := Real.one_lt_exp_iff.2 (by linarith)
    exact div?_eq (by rw [expm1]; linarith)
  · have h : 0 < χ := h
    have : 0 < r / χ := div_pos hr' h
    simp [Checked.negativeBinomial, negativeBinomialToNat, div?_eq h.ne',
      log1p?_eq (show -1 < r / χ by linarith)]
  · have hx : (0 : ℝ) ≤ x := Nat.cast_nonneg x
    have hr'' : (1 : ℝ) ≤ r := by exact_mod_cast hr
    simp only [Checked.negativeBinomial, negativeBinomial,
      gammaln?_eq (show (0 : ℝ) < x + r - 1 + 1 by linarith),
      gammaln?_eq (show (0 : ℝ) < x + 1 by linarith),
      gammaln?_eq (show (0 : ℝ) < x + r - 1 - x + 1 by linarith)]
    rfl

private theorem exp_finite :
    (∀ q < 0, Checked.exponential.logNormalizer q = some (exponential.logNormalizer q)) ∧
    (∀ q < 0, Checked.exponential.toExp q = some (exponential.toExp q)) ∧
    ∀ χ > 0, Checked.exponential.toNat χ = some (exponentialToNat χ) := by
  refine ⟨fun q h => ?_, fun q h => div?_eq h.ne, fun χ h => div?_eq (ne_of_gt h)⟩
  simp [Checked.exponential, exponential, log?_eq (neg_pos.2 h)]

private theorem chi_finite (g : ℝ → ℝ) :
    (∀ q > -1, (Checked.chiSquare g).logNormalizer q = some (chiSquare.logNormalizer q)) ∧
    ∀ q > -1, (Checked.chiSquare g).toExp q = some (chiSquare.toExp q) := by
  refine ⟨fun q h => ?_, fun q h => ?_⟩ <;>
  · have h1 : 0 < q + 1 := by linarith
    have h2 : (0 : ℝ) < 0.5 := by norm_num
    simp [Checked.chiSquare, chiSquare, gammaln?_eq h1, digamma?_eq h1, log?_eq h2]

private theorem dirichlet_pos {n : ℕ} {q : Fin n → ℝ} (hn : 0 < n) (h : q ∈ dirichletDom n) :
    (∀ i, 0 < q i + 1) ∧ 0 < ∑ i, q i + n := by
  have h1 : ∀ i, 0 < q i + 1 := fun i => by have := h i; linarith
  refine ⟨h1, ?_⟩
  have : ∑ i, q i + n = ∑ i, (q i + 1) := by simp [Finset.sum_add_distrib]
  rw [this]
  exact Finset.sum_pos (fun i _ => h1 i) ⟨⟨0, hn⟩, Finset.mem_univ _⟩

private theorem dir_finite {n : ℕ} {q : Fin n → ℝ} (hn : 0 < n) (h : q ∈ dirichletDom n) :
    Checked.dirichletLogNormalizer q = some (dirichletLogNormalizer q) ∧
    Checked.dirichletExpHelper q = some (dirichletExpHelper q) := by
  obtain ⟨h1, h2⟩ := dirichlet_pos hn h
  constructor
  · simp only [Checked.dirichletLogNormalizer, vec?_eq fun i => gammaln?_eq (h1 i), gammaln?_eq h2]
    rfl
  · simp only [Checked.dirichletExpHelper, vec?_eq fun i => digamma?_eq (h1 i), digamma?_eq h2]
    rfl

private theorem normal_finite {q : ℝ × ℝ} (h : q.2 < 0) :
    Checked.normal.logNormalizer q = some (normal.logNormalizer q) ∧
    Checked.normal.toExp q = some (normal.toExp q) := by
  have h2 : 2 * q.2 ≠ 0 := mul_ne_zero two_ne_zero h.ne
  have h4 : 4 * q.2 ≠ 0 := mul_ne_zero four_ne_zero h.ne
  have hl : 0 < -Real.pi / q.2 := div_pos_of_neg_of_neg (neg_neg_of_pos Real.pi_pos) h
  constructor
  · simp only [Checked.normal, div?_eq h4, div?_eq h.ne, Option.bind_eq_bind, Option.bind_some, log?_eq hl]
    rfl
  · simp only [Checked.normal, div?_eq h2, div?_eq h.ne]
    rfl

private theorem normal_nat {χ : ℝ × ℝ} (h : χ.1 ^ 2 < χ.2) :
    Checked.normal.toNat χ = some (normalToNat χ) := by
  have : χ.2 - χ.1 ^ 2 ≠ 0 := (sub_pos.2 h).ne'
  simp only [Checked.normal, div?_eq this]
  rfl

private theorem rsmu_finite {q : ComplexNormalParams} (h : q ∈ complexNormalDom) :
    Checked.complexNormalRSMu q = some (complexNormalRSMu q) ∧ 0 < (complexNormalRSMu q).2.1 := by
  obtain ⟨hh, hD⟩ := complexNormal_dom h
  have hc : (q.2.1 : ℂ) ≠ 0 := Complex.ofReal_ne_zero.2 hh.ne
  have hr : Complex.normSq (-q.2.2 / q.2.1) = Complex.normSq q.2.2 / q.2.1 ^ 2 := by
    rw [map_div₀, Complex.normSq_neg, Complex.normSq_ofReal, pow_two]
  have hk : Complex.normSq (q.2.2 / q.2.1) = Complex.normSq q.2.2 / q.2.1 ^ 2 := by
    rw [map_div₀, Complex.normSq_ofReal, pow_two]
  have h2 : 0 < q.2.1 ^ 2 := by nlinarith
  have hp : 0 < (Complex.normSq q.2.2 / q.2.1 ^ 2 - 1) * q.2.1 := by
    apply mul_pos_of_neg_of_neg _ hh
    rw [sub_neg, div_lt_one h2]
    linarith
  have hpc : (((Complex.normSq q.2.2 / q.2.1 ^ 2 - 1) * q.2.1 : ℝ) : ℂ) ≠ 0 :=
    Complex.ofReal_ne_zero.2 hp.ne'
  constructor
  · simp only [Checked.complexNormalRSMu, complexNormalRSMu, div?_eq hc, Option.bind_eq_bind,
      Option.bind_some, hr, hk, div?_eq hp.ne', div?_eq hpc]
    rfl
  · show 0 < 1 / ((Complex.normSq (-q.2.2 / q.2.1) - 1) * q.2.1)
    rw [hr]
    exact one_div_pos.2 hp

private theorem complex_finite {q : ComplexNormalParams} (h : q ∈ complexNormalDom) :
    Checked.complexNormal.logNormalizer q = some (complexNormal.logNormalizer q) ∧
    Checked.complexNormal.toExp q = some (complexNormal.toExp q) := by
  obtain ⟨hr, hs⟩ := rsmu_finite h
  have hh := (complexNormal_dom h).1
  constructor
  · simp only [Checked.complexNormal, hr, Option.bind_eq_bind, Option.bind_some, log?_eq hs,
      log?_eq (neg_pos.2 hh), log?_eq Real.pi_pos]
    rfl
  · simp only [Checked.complexNormal, hr]
    rfl

private theorem complex_nat {χ : ComplexNormalParams} (h : ‖χ.2.2 - χ.1 ^ 2‖ < χ.2.1 - ‖χ.1‖ ^ 2) :
    Checked.complexNormal.toNat χ = some (complexNormalToNat χ) := by
  rw [← Complex.normSq_eq_norm_sq] at h
  set u := χ.2.2 - χ.1 ^ 2 with hu
  set v := χ.2.1 - Complex.normSq χ.1 with hv
  have hv0 : 0 < v := (norm_nonneg u).trans_lt h
  have hc : (v : ℂ) ≠ 0 := Complex.ofReal_ne_zero.2 hv0.ne'
  have hp : (v : ℂ) - starRingEnd ℂ (starRingEnd ℂ u / v * u) ≠ 0 := by
    have e : starRingEnd ℂ (starRingEnd ℂ u / v * u) = ((‖u‖ ^ 2 / v : ℝ) : ℂ) := by
      rw [map_mul, map_div₀, Complex.conj_conj, Complex.conj_ofReal, div_mul_eq_mul_div,
        Complex.mul_conj, Complex.normSq_eq_norm_sq]
      push_cast
      rfl
    rw [e, ← Complex.ofReal_sub, Complex.ofReal_ne_zero, sub_ne_zero, ne_comm]
    refine ne_of_lt ((div_lt_iff₀ hv0).2 ?_)
    have := norm_nonneg u
    nlinarith
  simp only [Checked.complexNormal, complexNormalToNat]
  simp only [← hv, ← hu, div?_eq hc, Option.bind_eq_bind, Option.bind_some, div?_eq hp]
  rfl

private theorem mv_det {d : ℕ} {m : Matrix (Fin d) (Fin d) ℝ} (h : (-m).PosDef) :
    m.det ≠ 0 ∧ (-m).det ≠ 0 := by
  refine ⟨fun e => ?_, h.det_pos.ne'⟩
  have := h.det_pos
  rw [Matrix.det_neg, e, mul_zero] at this
  exact this.false

open scoped ComplexOrder in
private theorem cmv_det {d : ℕ} {m : Matrix (Fin d) (Fin d) ℂ} (h : m.PosDef) :
    m.det ≠ 0 ∧ 0 < m.det.re :=
  ⟨h.det_pos.ne', (Complex.lt_def.1 h.det_pos).1⟩

open scoped ComplexOrder in
theorem simple_finite : (s : Simple) → FiniteFor (s.setting solve) (s.checked solve)
  | .bernoulli => .simple (C := fun (_ : Unit) => Checked.bernoulli)
      (fun _ _ _ _ => rfl) (fun _ _ _ _ _ => rfl)
      (fun _ q _ h => logit?_eq (C31_bernoulli.1 q h).1) (fun _ _ _ _ _ _ => rfl)
      (fun _ _ => ae_of_all _ fun _ => ⟨rfl, rfl⟩)
  | .beta => .simple (C := fun (_ : Unit) => Checked.beta solve.beta)
      (fun _ _ _ h => (dir_finite two_pos h).1) (fun _ _ _ h _ => (dir_finite two_pos h).2)
      (fun _ _ _ _ => rfl) (fun _ _ _ _ _ _ => rfl)
      (fun _ _ => ae_restrict_of_forall_mem measurableSet_Ioo fun x h => ⟨by
        simp only [Checked.beta, log?_eq h.1, log1p?_eq (neg_lt_neg h.2)]
        rfl, rfl⟩)
  | .chi => .simple (C := fun (_ : Unit) => Checked.chi solve.chi)
      (fun _ q _ h => (chi_finite solve.chi).1 q h) (fun _ q _ h _ => (chi_finite solve.chi).2 q h)
      (fun _ _ _ _ => rfl)
      (fun _ q _ _ _ h => by
        have h : -1 < solve.chi (Efax.chi.toExp q) := h
        have h1 : 0 < solve.chi (Efax.chi.toExp q) + 1 := by linarith
        simp only [Checked.chi, digamma?_eq h1, log?_eq two_pos]
        rfl)
      (fun _ _ => pos_ae fun x h => ⟨log?_eq (by positivity), by
        simp only [Checked.chi, log?_eq (mul_pos two_pos h)]
        rfl⟩)
  | .chiSquare => .simple (C := fun (_ : Unit) => Checked.chiSquare solve.chiSquare)
      (fun _ q _ h => (chi_finite _).1 q h) (fun _ q _ h _ => (chi_finite _).2 q h)
      (fun _ _ _ _ => rfl) (fun _ _ _ _ _ _ => rfl) (fun _ _ => pos_ae fun x h => ⟨log?_eq h, rfl⟩)
  | .cmvCircular d => .simple (C := fun (_ : Unit) => Checked.cmvCircular d)
      (fun _ q _ h => by
        simp only [Checked.cmvCircular, log?_eq (cmv_det h).2, log?_eq Real.pi_pos]
        rfl)
      (fun _ q _ h _ => by
        simp only [Checked.cmvCircular, inv?_eq (cmv_det h).1]
        rfl)
      (fun _ q _ h => by
        simp only [Checked.cmvCircular, inv?_eq (cmv_det (C31_cmv_circular.1 q h).1).1]
        rfl)
      (fun _ _ _ _ _ _ => rfl) (fun _ _ => ae_of_all _ fun _ => ⟨rfl, rfl⟩)
  | .cmvUnit d => .simple (C := fun (_ : Unit) => Checked.cmvUnit d)
      (fun _ q _ h => by
        simp only [Checked.cmvUnit, log?_eq Real.pi_pos]
        rfl)
      (fun _ _ _ _ _ => rfl) (fun _ _ _ _ => rfl) (fun _ _ _ _ _ _ => rfl)
      (fun _ _ => ae_of_all _ fun _ => ⟨rfl, rfl⟩)
  | .complexNormal => .simple (C := fun (_ : Unit) => Checked.complexNormal)
      (fun _ _ _ h => (complex_finite h).1) (fun _ _ _ h _ => (complex_finite h).2)
      (fun _ q _ h => complex_nat (C31_complex_normal.1 q h).1) (fun _ _ _ _ _ _ => rfl)
      (fun _ _ => ae_of_all _ fun _ => ⟨rfl, rfl⟩)
  | .complexUnit => .simple (C := fun (_ : Unit) => Checked.complexUnit)
      (fun _ q _ h => by
        simp only [Checked.complexUnit, log?_eq Real.pi_pos]
        rfl)
      (fun _ _ _ _ _ => rfl) (fun _ _ _ _ => rfl) (fun _ _ _ _ _ _ => rfl)
      (fun _ _ => ae_of_all _ fun _ => ⟨rfl, rfl⟩)
  | .dirichlet d => .simple (C := fun (_ : Unit) => Checked.dirichlet d (solve.dirichlet (d + 1)))
      (fun _ _ _ h => (dir_finite d.succ_pos h).1)
      (fun _ _ _ h _ => (dir_finite d.succ_pos h).2) (fun _ _ _ _ => rfl) (fun _ _ _ _ _ _ => rfl)
      (fun _ _ => simplex_ae fun x h => ⟨by
        simp only [Checked.dirichlet, vec?_eq fun i => log?_eq (h.1 i), log?_eq (sub_pos.2 h.2)]
        rfl, rfl⟩)
  | .exponential => .simple (C := fun (_ : Unit) => Checked.exponential)
      (fun _ q _ h => exp_finite.1 q h) (fun _ q _ h _ => exp_finite.2.1 q h)
      (fun _ q _ h => exp_finite.2.2 _ (C31_exponential.1 q h).1) (fun _ _ _ _ _ _ => rfl)
      (fun _ _ => ae_of_all _ fun _ => ⟨rfl, rfl⟩)
  | .gamma => .simple (C := fun (_ : Unit) => Checked.gamma solve.gamma)
      (fun _ q _ h => by
        have h1 : 0 < q.2 + 1 := by have := h.2; linarith
        simp only [Checked.gamma, gammaln?_eq h1, log?_eq (neg_pos.2 h.1)]
        rfl)
      (fun _ q _ h _ => by
        have h1 : 0 < q.2 + 1 := by have := h.2; linarith
        simp only [Checked.gamma, digamma?_eq h1, log?_eq (neg_pos.2 h.1), div?_eq h.1.ne]
        rfl)
      (fun _ _ _ _ => rfl) (fun _ _ _ _ _ _ => rfl)
      (fun _ _ => pos_ae fun x h => ⟨by
        simp only [Checked.gamma, log?_eq h]
        rfl, rfl⟩)
  | .genDirichlet d => .simple (C := fun (_ : Unit) => Checked.genDirichlet d (solve.genDirichlet d))
      (fun _ q _ h => by
        have ha : ∀ i, 0 < (genDirichletAlphaBeta q).1 i := fun i => by
          have := h.1 i
          show 0 < q.1 i + 1
          linarith
        have hb : ∀ i, 0 < (genDirichletAlphaBeta q).2 i := fun i => by
          rw [genDirichlet_beta]
          exact genDirichletDom_beta h i
        simp only [Checked.genDirichlet, vec?_eq fun i => betaln?_eq (ha i) (hb i)]
        rfl)
      (fun _ q _ h _ => by
        have ha : ∀ i, 0 < (genDirichletAlphaBeta q).1 i := fun i => by
          have := h.1 i
          show 0 < q.1 i + 1
          linarith
        have hb : ∀ i, 0 < (genDirichletAlphaBeta q).2 i := fun i => by
          rw [genDirichlet_beta]
          exact genDirichletDom_beta h i
        simp only [Checked.genDirichlet, vec?_eq fun i => digamma?_eq (ha i),
          vec?_eq fun i => digamma?_eq (hb i), vec?_eq fun i => digamma?_eq (add_pos (ha i) (hb i))]
        rfl)
      (fun _ _ _ _ => rfl) (fun _ _ _ _ _ _ => rfl)
      (fun _ _ => simplex_ae fun x h => ⟨by
        have hs : ∀ i, -1 < -∑ j ∈ Finset.Iic i, x j := fun i => neg_lt_neg
          ((Finset.sum_le_sum_of_subset_of_nonneg (Finset.subset_univ _)
            fun j _ _ => (h.1 j).le).trans_lt h.2)
        simp only [Checked.genDirichlet, vec?_eq fun i => log?_eq (h.1 i),
          vec?_eq fun i => log1p?_eq (hs i)]
        rfl, rfl⟩)
  | .geometric => .simple (C := fun (_ : Unit) => Checked.geometric)
      (fun _ q _ h => (nb_finite le_rfl).1 q h)
      (fun _ q _ h _ => (nb_finite le_rfl).2.1 q h)
      (fun _ q _ h => (nb_finite le_rfl).2.2.1 _ (C31_geometric.1 q h).1) (fun _ _ _ _ _ _ => rfl)
      (fun _ _ => ae_of_all _ fun x => ⟨rfl, (nb_finite le_rfl).2.2.2 x⟩)
  | .logarithmic => .simple (C := fun (_ : Unit) => Checked.logarithmic solve.logarithmic)
      (fun _ q _ h => by
        have h0 : Real.exp q < 1 := Real.exp_lt_one_iff.2 h
        have hl : 0 < -log1p (-Real.exp q) :=
          neg_pos.2 (Real.log_neg (by linarith) (by have := Real.exp_pos q; linarith))
        simp only [Checked.logarithmic, log1p?_eq (expPos h), Option.bind_eq_bind, Option.bind_some,
          log?_eq hl]
        rfl)
      (fun _ q _ h hd => by
        have h0 : Real.exp q < 1 := Real.exp_lt_one_iff.2 h
        have hl : log1p (-Real.exp q) < 0 :=
          Real.log_neg (by linarith) (by have := Real.exp_pos q; linarith)
        have he : expm1 q < 0 := by rw [expm1]; linarith
        simp only [Checked.logarithmic, if_neg (not_lt.2 hd.1), if_neg (not_lt.2 hd.2),
          log1p?_eq (expPos h), Option.bind_eq_bind, Option.bind_some,
          div?_eq (mul_pos_of_neg_of_neg he hl).ne']
        rfl)
      (fun _ _ _ _ => rfl) (fun _ _ h => h.elim)
      (fun _ _ => ae_of_all _ fun x => ⟨rfl, by
        have h : (0 : ℝ) < x + 1 := by positivity
        simp only [Checked.logarithmic, log?_eq h]
        rfl⟩)
  | .multinomial d => .simple (C := fun (_ : Unit) => Checked.multinomial d)
      (fun _ _ _ _ => rfl) (fun _ _ _ _ _ => rfl)
      (fun _ q _ h => by
        obtain ⟨h1, h2⟩ := (C31_multinomial d).1 q h |>.1
        set χ := (Efax.multinomial d).toExp q
        have hp : 0 < 1 - ∑ j, χ j := sub_pos.2 h2
        exact vec?_eq fun i => by
          simp only [div?_eq hp.ne', Option.bind_eq_bind, Option.bind_some, log?_eq (div_pos (h1 i) hp)]
          rfl)
      (fun _ _ _ _ _ _ => rfl) (fun _ _ => ae_of_all _ fun _ => ⟨rfl, rfl⟩)
  | .mvNormal d => .simple (C := fun (_ : Unit) => Checked.mvNormal d)
      (fun _ q _ h => by
        simp only [Checked.mvNormal, inv?_eq (mv_det h).1, logAbsDet?_eq (mv_det h).2,
          log?_eq Real.pi_pos]
        rfl)
      (fun _ q _ h _ => by
        simp only [Checked.mvNormal, inv?_eq (mv_det h).1]
        rfl)
      (fun _ q _ h => by
        have hd := (C31_mv_normal.1 q h).1.det_pos.ne'
        simp only [Checked.mvNormal, inv?_eq hd]
        rfl)
      (fun _ _ _ _ _ _ => rfl) (fun _ _ => ae_of_all _ fun _ => ⟨rfl, rfl⟩)
  | .mvDiagonal d => .simple (C := fun (_ : Unit) => Checked.mvDiagonal d)
      (fun _ q _ h => by
        change (vec? fun i => Checked.normal.logNormalizer (q.1 i, q.2 i)).bind _ = _
        rw [vec?_eq fun i => (normal_finite (q := (q.1 i, q.2 i)) (h i)).1]
        rfl)
      (fun _ q _ h _ => by
        have h2 : ∀ i, 2 * q.2 i ≠ 0 := fun i => mul_ne_zero two_ne_zero (h i).ne
        simp only [Checked.mvDiagonal, vec?_eq fun i => div?_eq (h2 i), Option.bind_eq_bind, Option.bind_some,
          div?_eq (h _).ne]
        exact congrArg (Option.bind · _) (vec?_eq fun _ => rfl))
      (fun _ q _ h => by
        have hv := fun i => (sub_pos.2 ((C31_mv_diagonal.1 q h).1 i)).ne'
        simp only [Checked.mvDiagonal, vec?_eq fun i => div?_eq (hv i)]
        rfl)
      (fun _ _ _ _ _ _ => rfl) (fun _ _ => ae_of_all _ fun _ => ⟨rfl, rfl⟩)
  | .mvFixed d => .simple (C := fun (v : ℝ) => Checked.mvFixed d v)
      (fun v q hv _ => by
        have h : 0 < Real.pi * 2 * v := by have := Real.pi_pos; positivity
        simp only [Checked.mvFixed, log?_eq h]
        rfl)
      (fun _ _ _ _ _ => rfl)
      (fun v q hv _ => vec?_eq fun i => div?_eq (ne_of_gt hv))
      (fun v q _ hv _ _ => by
        simp only [Checked.mvFixed, div?_eq (ne_of_gt hv)]
        rfl)
      (fun v hv => ae_of_all _ fun x => ⟨rfl, div?_eq (ne_of_gt hv)⟩)
  | .mvIsotropic d => .simple (C := fun (_ : Unit) => Checked.mvIsotropic d)
      (fun _ q _ h => by
        have h : q.2 < 0 := h
        have hl : 0 < Real.pi / -q.2 := div_pos Real.pi_pos (neg_pos.2 h)
        simp only [Checked.mvIsotropic, div?_eq h.ne, div?_eq (neg_pos.2 h).ne', Option.bind_eq_bind,
          Option.bind_some, log?_eq hl]
        rfl)
      (fun _ q _ h _ => by
        have h : q.2 < 0 := h
        have hp : -2 * q.2 ≠ 0 := mul_ne_zero (by norm_num) h.ne
        simp only [Checked.mvIsotropic, vec?_eq fun i => div?_eq hp, div?_eq hp, vec?_some]
        rfl)
      (fun _ q hd h => by
        obtain ⟨d, rfl⟩ := Nat.exists_eq_succ_of_ne_zero (Nat.pos_iff_ne_zero.1 hd)
        have hd' : ((d + 1 : ℕ) : ℝ) ≠ 0 := by positivity
        have h1 := (C31_mv_isotropic.1 q h).1
        set χ := (Efax.mvIsotropic (d + 1)).toExp q
        have hv : (χ.2 - ∑ i, χ.1 i ^ 2) / ((d + 1 : ℕ) : ℝ) ≠ 0 := div_ne_zero (sub_pos.2 h1).ne' hd'
        simp only [Checked.mvIsotropic, Nat.succ_eq_add_one, div?_eq hd', Option.bind_eq_bind,
          Option.bind_some, div?_eq hv, vec?_some]
        rfl)
      (fun _ _ _ _ _ _ => rfl) (fun _ _ => ae_of_all _ fun _ => ⟨rfl, rfl⟩)
  | .mvUnit d => .simple (C := fun (_ : Unit) => Checked.mvUnit d)
      (fun _ q _ _ => by
        have h : 0 < Real.pi * 2 := by have := Real.pi_pos; positivity
        simp only [Checked.mvUnit, log?_eq h]
        rfl)
      (fun _ _ _ _ _ => rfl) (fun _ _ _ _ => rfl) (fun _ _ _ _ _ _ => rfl)
      (fun _ _ => ae_of_all _ fun _ => ⟨rfl, rfl⟩)
  | .negativeBinomial => .simple (C := fun (r : ℕ) => Checked.negativeBinomial r)
      (fun _ q hr h => (nb_finite hr).1 q h)
      (fun _ q hr h _ => (nb_finite hr).2.1 q h)
      (fun _ q hr h => (nb_finite hr).2.2.1 _ ((C31_negative_binomial hr).1 q h).1) (fun _ _ h => h.elim)
      (fun _ hr => ae_of_all _ fun x => ⟨rfl, (nb_finite hr).2.2.2 x⟩)
  | .normal => .simple (C := fun (_ : Unit) => Checked.normal)
      (fun _ _ _ h => (normal_finite h).1) (fun _ _ _ h _ => (normal_finite h).2)
      (fun _ q _ h => normal_nat (C31_normal.1 q h).1) (fun _ _ _ _ _ _ => rfl)
      (fun _ _ => ae_of_all _ fun _ => ⟨rfl, rfl⟩)
  | .unitNormal => .simple (C := fun (_ : Unit) => Checked.unitNormal)
      (fun _ q _ _ => by
        have h : 0 < Real.pi * 2 := by have := Real.pi_pos; positivity
        simp only [Checked.unitNormal, log?_eq h]
        rfl)
      (fun _ _ _ _ _ => rfl) (fun _ _ _ _ => rfl) (fun _ _ _ _ _ _ => rfl)
      (fun _ _ => ae_of_all _ fun _ => ⟨rfl, rfl⟩)
  | .poisson => .simple (C := fun (_ : Unit) => Checked.poisson)
      (fun _ _ _ _ => rfl) (fun _ _ _ _ _ => rfl)
      (fun _ q _ h => log?_eq (C31_poisson.1 q h).1) (fun _ _ h => h.elim)
      (fun _ _ => ae_of_all _ fun x => ⟨rfl, by
        have h : (0 : ℝ) < x + 1 := by positivity
        simp only [Checked.poisson, gammaln?_eq h]
        rfl⟩)
  | .rayleigh => .simple (C := fun (_ : Unit) => Checked.rayleigh)
      (fun _ q _ h => exp_finite.1 q h) (fun _ q _ h _ => exp_finite.2.1 q h)
      (fun _ q _ h => exp_finite.2.2 _ (C31_exponential.1 q h).1)
      (fun _ q _ _ h _ => by
        have h0 : 0 < Efax.rayleigh.toExp q := (C31_rayleigh.1 q h).1
        have h1 : 0 < Efax.rayleigh.toExp q * 0.5 := by positivity
        simp only [Checked.rayleigh, log?_eq h1, log?_eq two_pos]
        rfl)
      (fun _ _ => pos_ae fun x h => ⟨rfl, by
        simp only [Checked.rayleigh, log?_eq h, log?_eq two_pos]
        rfl⟩)
  | .vonMisesFisher d => .simple (C := fun (_ : Unit) => Checked.vonMisesFisher d (solve.vonMisesFisher d))
      (fun _ q _ h => by
        have h0 : 0 < ‖q‖ := norm_pos_iff.2 h
        have h1 : 0 < 2 * Real.pi := by have := Real.pi_pos; positivity
        simp only [Checked.vonMisesFisher, log?_eq h0, log?_eq h1, logIve?_eq h0]
        rfl)
      (fun _ q _ h _ => by
        have h0 : 0 < ‖q‖ := norm_pos_iff.2 h
        simp only [Checked.vonMisesFisher, Checked.vmfAK, ivRatio?_eq h0, if_neg h0.ne',
          Option.bind_eq_bind, Option.bind_some, div?_eq h0.ne']
        exact congrArg some (if_neg h0.ne').symm)
      (fun _ _ _ _ => rfl) (fun _ _ _ _ _ _ => rfl) (fun _ _ => ae_of_all _ fun _ => ⟨rfl, rfl⟩)
  | .weibull => .simple (C := fun (k : ℝ) => Checked.weibull k)
      (fun k q hk h => by
        simp only [Checked.weibull, log?_eq (neg_pos.2 h), log?_eq hk]
        rfl)
      (fun _ q _ h _ => exp_finite.2.1 q h)
      (fun k q _ h => exp_finite.2.2 _ ((C31_weibull k).1 q h).1)
      (fun k q _ hk h _ => by
        have h0 : 0 < (Efax.weibull k).toExp q := ((C31_weibull k).1 q h).1
        simp only [Checked.weibull, div?_eq (ne_of_gt hk), log?_eq h0]
        rfl)
      (fun k hk => pos_ae fun x h => ⟨pow?_eq h, by
        simp only [Checked.weibull, log?_eq h]
        rfl⟩)

set_option linter.overlappingInstances false in
private theorem cons_finite {n : String} {K : Kind Cls} {R : Parts Cls} {S : Setting K} {T : Settings R}
    (hS : S.Lawful) (hT : T.Lawful) {C : CheckedKind K}
    {D : CheckedKind (Kind.joint .jointN .jointE R)} (h : FiniteFor S C)
    (h' : FiniteFor (Setting.joint .jointN .jointE T) D) :
    FiniteFor (Setting.joint .jointN .jointE (Settings.cons n S T))
      (fun p => prodChecked (C p.1) (D p.2)) := by
  obtain ⟨G, M, MS, μ, ok, dom, dirs, closed⟩ := S
  obtain ⟨G', M', MS', μ', ok', dom', dirs', closed'⟩ := T
  have s1 : SigmaFinite μ := hS.sigma
  have s2 : SigmaFinite μ' := hT.sigma
  constructor
  · intro p q hp hq
    change (do return (← (C p.1).logNormalizer q.1) + (← (D p.2).logNormalizer q.2)) = _
    rw [h.logNormalizer _ _ hp.1 hq.1, h'.logNormalizer _ _ hp.2 hq.2]
    rfl
  · intro p q hp hq hd
    change (do return (← (C p.1).toExp q.1, ← (D p.2).toExp q.2)) = _
    rw [h.toExp _ _ hp.1 hq.1 hd.1, h'.toExp _ _ hp.2 hq.2 hd.2]
    rfl
  · intro p q hp hq
    change (do return (← (C p.1).toNat ((K.F p.1).toExp q.1), ← (D p.2).toNat ((R.F p.2).toExp q.2))) = _
    rw [h.toNat _ _ hp.1 hq.1]
    have := h'.toNat _ _ hp.2 hq.2
    change (D p.2).toNat ((R.F p.2).toExp q.2) = _ at this
    rw [this]
    rfl
  · intro p q he hp hq hn
    change (do return (← (C p.1).ecm ((K.F p.1).toExp q.1)) + (← (D p.2).ecm ((R.F p.2).toExp q.2))) = _
    rw [h.ecm _ _ he.1 hp.1 hq.1 hn.1]
    have := h'.ecm _ _ he.2 hp.2 hq.2 hn.2
    change (D p.2).ecm ((R.F p.2).toExp q.2) = _ at this
    rw [this]
    rfl
  · intro p hp
    have a : ∀ᵐ x ∂μ, (C p.1).stat x = some ((K.F p.1).stat x) ∧
      (C p.1).carrier x = some ((K.F p.1).carrier x) := h.obs _ hp.1
    have b : ∀ᵐ x ∂μ', (D p.2).stat x = some ((R.F p.2).stat x) ∧
      (D p.2).carrier x = some ((R.F p.2).carrier x) := h'.obs _ hp.2
    have a' := (Measure.quasiMeasurePreserving_fst (μ := μ) (ν := μ')).ae a
    have b' := (Measure.quasiMeasurePreserving_snd (μ := μ) (ν := μ')).ae b
    change ∀ᵐ x ∂μ.prod μ', _
    filter_upwards [a', b'] with x hx hx'
    constructor
    · change (do return (← (C p.1).stat x.1, ← (D p.2).stat x.2)) = _
      rw [hx.1, hx'.1]
      rfl
    · change (do return (← (C p.1).carrier x.1) + (← (D p.2).carrier x.2)) = _
      rw [hx.2, hx'.2]
      rfl

theorem joint_finite : (l : List CheckedPart) → (∀ s ∈ l, s.2.2.1.Lawful) →
    (∀ s ∈ l, FiniteFor s.2.2.1 s.2.2.2) →
    FiniteFor (Setting.joint .jointN .jointE (Settings.ofList (checkedSettings l))) (checkedOf l)
  | [], _, _ => by
    constructor
    · exact fun _ _ _ _ => rfl
    · exact fun _ _ _ _ _ => rfl
    · exact fun _ _ _ _ => rfl
    · exact fun _ _ _ _ _ _ => rfl
    · exact fun _ _ => ae_of_all _ fun _ => ⟨rfl, rfl⟩
  | s :: l, hL, h => by
    have hl : ∀ s ∈ checkedSettings l, s.2.2.Lawful := by
      intro s' hs
      obtain ⟨t, ht, rfl⟩ := List.mem_map.1 hs
      exact hL t (List.mem_cons_of_mem _ ht)
    exact cons_finite (hL _ List.mem_cons_self) (.ofList _ hl) (h _ List.mem_cons_self)
      (joint_finite l (fun s hs => hL s (List.mem_cons_of_mem _ hs))
        fun s hs => h s (List.mem_cons_of_mem _ hs))

theorem libraryChecked_setting {K : Kind Cls} {S : Setting K} {C : CheckedKind K}
    (h : LibraryChecked solve K S C) : LibrarySetting solve K S := by
  induction h with
  | simple s => exact .simple s
  | @joint l h0 hn _ ih =>
    refine .joint (by simpa [checkedSettings] using h0) (by simpa [checkedSettings, Function.comp_def] using hn)
      fun s hs => ?_
    obtain ⟨t, ht, rfl⟩ := List.mem_map.1 hs
    exact ih t ht

/-- **C94.** In the methods of every distribution, simple or joint, no operation leaves its domain when
the parameters are valid, for almost every observation; the results are those of the family. -/
theorem C94_finite {K : Kind Cls} {S : Setting K} {C : CheckedKind K}
    (h : LibraryChecked solve K S C) : FiniteFor S C := by
  induction h with
  | simple s => exact simple_finite s
  | joint h0 hn hS ih =>
    exact joint_finite _ (fun s hs => library_lawful (libraryChecked_setting (hS s hs))) ih

private theorem checked_exist : (l : List (String × Σ K : Kind Cls, Setting K)) →
    (∀ s ∈ l, ∃ C, LibraryChecked solve s.2.1 s.2.2 C) →
    ∃ l', checkedSettings l' = l ∧ ∀ s ∈ l', LibraryChecked solve s.2.1 s.2.2.1 s.2.2.2
  | [], _ => ⟨[], rfl, by simp⟩
  | (n, ⟨K, S⟩) :: l, h => by
      obtain ⟨C, hC⟩ := h _ List.mem_cons_self
      obtain ⟨l', rfl, hl⟩ := checked_exist l fun s hs => h s (List.mem_cons_of_mem _ hs)
      exact ⟨(n, ⟨K, S, C⟩) :: l', rfl, List.forall_mem_cons.2 ⟨hC, hl⟩⟩

/-- **C94.** Every kind of distributions has methods with checked arithmetic. -/
theorem C94_every {K : Kind Cls} {S : Setting K} (h : LibrarySetting solve K S) :
    ∃ C, LibraryChecked solve K S C := by
  induction h with
  | simple s => exact ⟨_, .simple s⟩
  | joint h0 hn _ ih =>
    obtain ⟨l', rfl, h⟩ := checked_exist _ ih
    exact ⟨_, .joint (by rintro rfl; exact h0 rfl) (by simpa [checkedSettings, Function.comp_def] using hn) h⟩

section

variable {K : Kind Cls} {S : Setting K} {C : CheckedKind K} (h : LibraryChecked solve K S C)
  {p : K.P} (hp : S.ok p)

include h hp

/-- **C94.** The logarithm of the density is finite at almost every observation. -/
theorem C94_log_pdf {q : K.N} (hq : q ∈ S.dom p) : letI := S.ms
    ∀ᵐ x ∂S.μ, (C p).logPdf (K.F p).dot q x = some ((K.F p).logPdf q x) ∧
      (C p).pdf (K.F p).dot q x = some ((K.F p).pdf q x) := by
  letI := S.ms
  have hF := C94_finite h
  filter_upwards [hF.obs p hp] with x hx
  have e : (C p).logPdf (K.F p).dot q x = some ((K.F p).logPdf q x) := by
    rw [CheckedFam.logPdf, hx.1, hx.2, hF.logNormalizer p q hp hq]
    rfl
  refine ⟨e, ?_⟩
  rw [CheckedFam.pdf, e]
  rfl

/-- **C94.** The divergence of valid natural parameters is finite. -/
theorem C94_kl {a b : K.N} (ha : a ∈ S.dom p) (hd : K.dom p a) (hb : b ∈ S.dom p) :
    (C p).kl (K.F p).dot a b = some ((K.F p).kl a b) := by
  have hF := C94_finite h
  rw [CheckedFam.kl, hF.toExp p a hp ha hd]
  change (do
    let x ← (C p).logNormalizer b
    let y ← (C p).logNormalizer a
    return (K.F p).dot (a - b) ((K.F p).toExp a) + x - y) = _
  rw [hF.logNormalizer p a hp ha, hF.logNormalizer p b hp hb]
  rfl

/-- **C94.** The divergence of expectation parameters whose natural parameters `to_nat()` finds is
finite. -/
theorem C94_kl_expectation {a b : K.N} (ha : a ∈ S.dom p)
    (hn : K.toNat p ((K.F p).toExp a) ∈ S.dom p) (hb : b ∈ S.dom p) :
    (C p).klE (K.F p).dot ((K.F p).toExp a) b = some ((K.F p).klE (K.toNat p) ((K.F p).toExp a) b) := by
  have hF := C94_finite h
  rw [CheckedFam.klE, hF.toNat p a hp ha]
  change (do
    let x ← (C p).logNormalizer b
    let y ← (C p).logNormalizer (K.toNat p ((K.F p).toExp a))
    return (K.F p).dot (K.toNat p ((K.F p).toExp a) - b) ((K.F p).toExp a) + x - y) = _
  rw [hF.logNormalizer p _ hp hn, hF.logNormalizer p b hp hb]
  rfl

/-- **C94.** The entropy of valid parameters is finite, computed from either parametrization. -/
theorem C94_entropy (he : K.ent) {a : K.N} (ha : a ∈ S.dom p)
    (hn : K.toNat p ((K.F p).toExp a) ∈ S.dom p) :
    (K.dom p a → (C p).entropyN (K.F p).dot a = some ((K.F p).entropyN (K.ecm p) a)) ∧
    (C p).entropyE (K.F p).dot ((K.F p).toExp a) =
      some ((K.F p).entropyE (K.ecm p) (K.toNat p) ((K.F p).toExp a)) := by
  have hF := C94_finite h
  constructor
  · intro hd
    rw [CheckedFam.entropyN, hF.toExp p a hp ha hd]
    change (C p).crossEntropy (K.F p).dot ((K.F p).toExp a) a = _
    rw [CheckedFam.crossEntropy, hF.logNormalizer p a hp ha, hF.ecm p a he hp ha hn]
    rfl
  · rw [CheckedFam.entropyE, hF.toNat p a hp ha]
    change (C p).crossEntropy (K.F p).dot ((K.F p).toExp a) (K.toNat p ((K.F p).toExp a)) = _
    rw [CheckedFam.crossEntropy, hF.logNormalizer p _ hp hn, hF.ecm p a he hp ha hn]
    rfl

end

/-- Non-vacuity of C94: the divergence of nested joint distributions is finite. -/
example : ∃ C, LibraryChecked solve _ (Setting.joint .jointN .jointE (.ofList (Samples.outer solve))) C ∧
    ∀ a b, ∃ y, (C ((), ((), (), ()), ())).kl
      ((Kind.joint Cls.jointN Cls.jointE (.ofList (partsOf (Samples.outer solve)))).F
        ((), ((), (), ()), ())).dot (Samples.point a) (Samples.point b) = some y := by
  obtain ⟨C, hC⟩ := C94_every (Samples.outer_setting (solve := solve))
  refine ⟨C, hC, fun a b => ⟨_, C94_kl hC ?_ ?_ ⟨trivial, ⟨trivial, trivial, trivial⟩, trivial⟩ ?_⟩⟩
  · exact (Samples.point_inside [] (fun _ => a) [] rfl).1
  · exact (Samples.point_inside [] (fun _ => a) [] rfl).2
  · exact (Samples.point_inside [] (fun _ => b) [] rfl).2

/-- Non-vacuity of C94: the density and the entropy of a normal distribution, and the entropy of a chi
distribution whose search finds the parameters. -/
example (hc : solve.chi (Efax.chi.toExp 0) = 0) :
    (∀ᵐ x : ℝ, ∃ y, Checked.normal.pdf Efax.normal.dot (3, -1) x = some y) ∧
    (∃ y, Checked.normal.entropyE Efax.normal.dot (Efax.normal.toExp (3, -1)) = some y) ∧
    ∃ y, (Checked.chi solve.chi).entropyN Efax.chi.dot 0 = some y := by
  have hm : ((3, -1) : ℝ × ℝ) ∈ normalDom := show (-1 : ℝ) < 0 by norm_num
  refine ⟨?_, ⟨_, (C94_entropy (.simple (solve := solve) .normal) (p := ()) trivial trivial
    (a := ((3, -1) : ℝ × ℝ)) hm ?_).2⟩, ⟨_, (C94_entropy (.simple (solve := solve) .chi) (p := ()) trivial trivial
    (a := (0 : ℝ)) ?_ ?_).1 trivial⟩⟩
  · have h : ∀ᵐ x ∂(volume : Measure ℝ), _ :=
      C94_log_pdf (.simple (solve := solve) .normal) (p := ()) trivial (q := ((3, -1) : ℝ × ℝ)) hm
    filter_upwards [h] with x hx
    exact ⟨_, hx.2⟩
  · change normalToNat (Efax.normal.toExp (3, -1)) ∈ normalDom
    rw [(C31_normal.1 _ hm).2]
    exact hm
  · exact show (-1 : ℝ) < 0 by norm_num
  · change solve.chi (Efax.chi.toExp 0) ∈ Ioi (-1 : ℝ)
    rw [hc]
    exact show (-1 : ℝ) < 0 by norm_num

end Efax
