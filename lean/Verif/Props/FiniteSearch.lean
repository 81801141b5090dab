import Verif.Props.Finite

/-!
# C94: invalid parameters, searches, surprisals and variances
-/

namespace Efax

open MeasureTheory Spec Checked Set

private theorem log?_none {x : ℝ} (h : ¬0 < x) : log? x = none := if_neg h

private theorem log1p?_none {x : ℝ} (h : ¬-1 < x) : log1p? x = none := if_neg h

private theorem vec?_none {ι A : Type} {f : ι → Option A} {i : ι} (h : f i = none) : vec? f = none := by
  rw [vec?, dif_neg]
  intro hs
  simpa [h] using hs i

private theorem nb_none {r : ℕ} {q : ℝ} (h : ¬q < 0) : (Checked.negativeBinomial r).logNormalizer q = none := by
  have : ¬-1 < -Real.exp q := by
    have := Real.one_le_exp (not_lt.1 h)
    linarith
  simp only [Checked.negativeBinomial, log1p?_none this]
  rfl

private theorem exp_none {q : ℝ} (h : ¬q < 0) : Checked.exponential.logNormalizer q = none := by
  simp only [Checked.exponential, log?_none (show ¬0 < -q by linarith)]
  rfl

private theorem normal_none {q : ℝ × ℝ} (h : ¬q.2 < 0) : Checked.normal.logNormalizer q = none := by
  have h : 0 ≤ q.2 := not_lt.1 h
  rcases h.eq_or_lt with h0 | h0
  · have : Checked.div? (-Real.pi) q.2 = none := if_pos h0.symm
    simp only [Checked.normal, this, Option.bind_eq_bind, Option.bind_none, Option.bind_fun_none]
  · have : ¬0 < -Real.pi / q.2 :=
      (div_neg_of_neg_of_pos (neg_neg_of_pos Real.pi_pos) h0).not_gt
    simp only [Checked.normal, div?_eq h0.ne', log?_none this, Option.bind_eq_bind, Option.bind_none,
      Option.bind_fun_none, Option.bind_some]

private theorem complex_none {q : ComplexNormalParams} (h : q ∉ complexNormalDom) :
    Checked.complexNormal.logNormalizer q = none := by
  by_cases hh : q.2.1 < 0
  · have hc : (q.2.1 : ℂ) ≠ 0 := Complex.ofReal_ne_zero.2 hh.ne
    have hn : -q.2.1 ≤ ‖q.2.2‖ := not_lt.1 h
    have hr : Complex.normSq (-q.2.2 / q.2.1) = Complex.normSq q.2.2 / q.2.1 ^ 2 := by
      rw [map_div₀, Complex.normSq_neg, Complex.normSq_ofReal, pow_two]
    have h2 : 0 < q.2.1 ^ 2 := by nlinarith
    have h1 : 1 ≤ Complex.normSq q.2.2 / q.2.1 ^ 2 := by
      rw [le_div_iff₀ h2, Complex.normSq_eq_norm_sq]
      nlinarith
    have hs : (Complex.normSq (-q.2.2 / q.2.1) - 1) * q.2.1 ≤ 0 := by
      rw [hr]
      exact mul_nonpos_of_nonneg_of_nonpos (sub_nonneg.2 h1) hh.le
    rcases hs.eq_or_lt with h0 | h0
    · have e : Checked.complexNormalRSMu q = none := by
        have : Checked.div? 1 ((Complex.normSq (-q.2.2 / q.2.1) - 1) * q.2.1) = none := if_pos h0
        simp only [Checked.complexNormalRSMu, div?_eq hc, Option.bind_eq_bind, Option.bind_some, this,
          Option.bind_none]
      simp only [Checked.complexNormal, e, Option.bind_eq_bind, Option.bind_none]
    · have hl : ¬0 < 1 / ((Complex.normSq (-q.2.2 / q.2.1) - 1) * q.2.1) :=
        (one_div_neg.2 h0).not_gt
      cases e : Checked.complexNormalRSMu q with
      | none => simp only [Checked.complexNormal, e, Option.bind_eq_bind, Option.bind_none]
      | some t =>
        have ht : t.2.1 = 1 / ((Complex.normSq (-q.2.2 / q.2.1) - 1) * q.2.1) := by
          simp only [Checked.complexNormalRSMu, div?_eq hc, Option.bind_eq_bind, Option.bind_some,
            div?_eq h0.ne, Option.bind_eq_some_iff] at e
          obtain ⟨l, -, e⟩ := e
          obtain rfl := Option.some.inj e
          rfl
        obtain ⟨r, s, mu⟩ := t
        obtain rfl : s = _ := ht
        simp only [Checked.complexNormal, e, Option.bind_eq_bind, Option.bind_some, log?_none hl,
          Option.bind_none]
  · have hl : ¬0 < -q.2.1 := by linarith
    simp only [Checked.complexNormal, log?_none hl, Option.bind_eq_bind, Option.bind_none,
      Option.bind_fun_none]

variable [MachEps] {solve : Solver}

/-- **C94.** `log_normalizer()` of the guarded families is not finite for any invalid parameters, so that
an invalid parameter cannot pass for a valid one. -/
theorem C94_invalid : (s : Simple) → s.Guarded → ∀ p, (s.setting solve).ok p →
    ∀ q ∉ (s.setting solve).dom p, (s.checked solve p).logNormalizer q = none
  | .exponential, _, _, _, _, h => exp_none h
  | .rayleigh, _, _, _, _, h => exp_none h
  | .weibull, _, (k : ℝ), _, (q : ℝ), h => by
    change (Checked.weibull k).logNormalizer q = none
    simp only [Checked.weibull, log?_none (show ¬0 < -q from fun h' => h (neg_pos.1 h'))]
    rfl
  | .negativeBinomial, _, _, _, _, h => nb_none h
  | .geometric, _, _, _, _, h => nb_none h
  | .logarithmic, _, _, _, (q : ℝ), h => by
    have h : ¬q < 0 := h
    have : ¬-1 < -Real.exp q := by
      have := Real.one_le_exp (not_lt.1 h)
      linarith
    change (Checked.logarithmic solve.logarithmic).logNormalizer q = none
    simp only [Checked.logarithmic, log1p?_none this]
    rfl
  | .normal, _, _, _, _, h => normal_none h
  | .mvDiagonal d, _, _, _, (q : (Fin d → ℝ) × (Fin d → ℝ)), h => by
    obtain ⟨i, hi⟩ := not_forall.1 h
    change (vec? fun i => Checked.normal.logNormalizer (q.1 i, q.2 i)).bind _ = _
    rw [vec?_none (i := i) (normal_none (q := (q.1 i, q.2 i)) hi)]
    rfl
  | .mvIsotropic d, _, _, _, (q : (Fin d → ℝ) × ℝ), h => by
    have h : 0 ≤ q.2 := not_lt.1 h
    change (Checked.mvIsotropic d).logNormalizer q = none
    rcases h.eq_or_lt with h0 | h0
    · have : Checked.div? (-0.5 * ∑ i, q.1 i ^ 2) q.2 = none := if_pos h0.symm
      simp only [Checked.mvIsotropic, this]
      rfl
    · have hl : ¬0 < Real.pi / -q.2 := (div_neg_of_pos_of_neg Real.pi_pos (neg_neg_of_pos h0)).not_gt
      simp only [Checked.mvIsotropic, div?_eq h0.ne', div?_eq (neg_neg_of_pos h0).ne, log?_none hl,
        Option.bind_eq_bind, Option.bind_none, Option.bind_some]
  | .complexNormal, _, _, _, _, h => complex_none h
  | .vonMisesFisher d, _, _, _, (q : EuclideanSpace ℝ (Fin d)), h => by
    have h : q = 0 := not_not.1 h
    change (Checked.vonMisesFisher d (solve.vonMisesFisher d)).logNormalizer q = none
    simp only [Checked.vonMisesFisher, h, norm_zero, log?_none (lt_irrefl 0)]
    rfl

open scoped ComplexOrder in
omit [MachEps] in
/-- **C94.** `MultivariateNormalNP.log_normalizer()` and the one of the circularly symmetric complex
normal family are not guarded: matrices that are not negative definite, and so belong to no density, have
finite log-normalizers. -/
theorem C94_unguarded :
    (∃ q ∉ mvNormalDom 2, ∃ y, (Checked.mvNormal 2).logNormalizer q = some y) ∧
    ∃ q ∉ cmvCircularDom 2, ∃ y, (Checked.cmvCircular 2).logNormalizer q = some y := by
  constructor
  · refine ⟨(0, 1), fun h => ?_, ?_⟩
    · have h : (-(1 : Matrix (Fin 2) (Fin 2) ℝ)).PosDef := h
      have := h.diag_pos (i := 0)
      norm_num at this
    · have hd : (1 : Matrix (Fin 2) (Fin 2) ℝ).det ≠ 0 := by simp
      have hd' : (-(1 : Matrix (Fin 2) (Fin 2) ℝ)).det ≠ 0 := by simp [Matrix.det_neg]
      simp only [Checked.mvNormal, inv?_eq hd, logAbsDet?_eq hd', log?_eq Real.pi_pos]
      exact ⟨_, rfl⟩
  · refine ⟨1, fun h => ?_, ?_⟩
    · have h : (-(1 : Matrix (Fin 2) (Fin 2) ℂ)).PosDef := h
      have := h.diag_pos (i := 0)
      rw [Complex.lt_def] at this
      norm_num at this
    · have hd : 0 < (-(1 : Matrix (Fin 2) (Fin 2) ℂ)).det.re := by simp [Matrix.det_neg]
      simp only [Checked.cmvCircular, log?_eq hd, log?_eq Real.pi_pos]
      exact ⟨_, rfl⟩

omit [MachEps] in
/-- **C94.** The functions that the searches evaluate are finite for every search vector: of the gamma
family for a positive mean, of the von Mises-Fisher family for a mean that is not zero. -/
theorem C94_search :
    (∀ χ : ℝ × ℝ, 0 < χ.1 → ∀ s,
      Checked.gammaSearchToNatural χ s = some (gammaSearchToNatural χ s) ∧
      Checked.gammaSearchGradient χ s = some (gammaSearchGradient χ s)) ∧
    ∀ d (m : EuclideanSpace ℝ (Fin d)), m ≠ 0 → ∀ s,
      Checked.vmfSearchToNatural m s = some (vmfSearchToNatural m s) ∧
      Checked.vmfSearchGradient m s = some (vmfSearchGradient m s) := by
  refine ⟨fun χ h s => ⟨?_, ?_⟩, fun d m h s => ⟨?_, ?_⟩⟩
  · simp only [Checked.gammaSearchToNatural, div?_eq h.ne']
    rfl
  · have hs := softplus_pos s
    simp only [Checked.gammaSearchGradient, log?_eq h, log?_eq hs, digamma?_eq hs]
    rfl
  · simp only [Checked.vmfSearchToNatural, div?_eq (norm_ne_zero_iff.2 h)]
    rfl
  · simp only [Checked.vmfSearchGradient, Checked.vmfAK, ivRatio?_eq (softplus_pos s)]
    rfl

omit [MachEps] in
/-- **C94.** The uniform distribution on the sphere: the parameter zero lies in the declared support, and
`to_exp()` treats it, but its log-normalizer is not finite, so no density, divergence or entropy is; and
`search_to_natural` is not finite for any search vector, so `to_nat()` cannot return zero. -/
theorem C94_von_mises_zero (d : ℕ) (g : EuclideanSpace ℝ (Fin d) → EuclideanSpace ℝ (Fin d)) :
    let C := Checked.vonMisesFisher d g
    C.toExp 0 = some 0 ∧ C.logNormalizer 0 = none ∧
    (∀ dot x, C.logPdf dot 0 x = none) ∧ (∀ dot q, C.kl dot 0 q = none ∧ C.kl dot q 0 = none) ∧
    (∀ dot, C.entropyN dot 0 = none) ∧
    ∀ s, Checked.vmfSearchToNatural (0 : EuclideanSpace ℝ (Fin d)) s = none := by
  have h0 : (Checked.vonMisesFisher d g).logNormalizer 0 = none := by
    simp only [Checked.vonMisesFisher, norm_zero, log?_none (lt_irrefl 0)]
    rfl
  have h1 : (Checked.vonMisesFisher d g).toExp 0 = some 0 := by
    simp [Checked.vonMisesFisher]
  refine ⟨h1, h0, fun dot x => ?_, fun dot q => ⟨?_, ?_⟩, fun dot => ?_, fun s => ?_⟩
  · simp only [CheckedFam.logPdf, h0, Option.bind_eq_bind, Option.bind_none, Option.bind_fun_none]
  · simp only [CheckedFam.kl, CheckedFam.klWith, h0, Option.bind_eq_bind, Option.bind_none,
      Option.bind_fun_none]
  · simp only [CheckedFam.kl, CheckedFam.klWith, h0, Option.bind_eq_bind, Option.bind_none,
      Option.bind_fun_none]
  · simp only [CheckedFam.entropyN, CheckedFam.crossEntropy, h0, Option.bind_eq_bind, Option.bind_none,
      Option.bind_fun_none]
  · have : Checked.div? (softplus s) ‖(0 : EuclideanSpace ℝ (Fin d))‖ = none := if_pos norm_zero
    simp only [Checked.vmfSearchToNatural, this]
    rfl

omit [MachEps] in
/-- **C94.** The surprisals of all log-odds are finite. -/
theorem C94_surprisal :
    (∀ q, Checked.bernoulliSurprisal q = some (bernoulliSurprisal q)) ∧
    ∀ d (q : Fin (d + 1) → ℝ), Checked.multinomialSurprisal q = some (multinomialSurprisal q) := by
  constructor
  · intro q
    refine vec?_eq fun i => ?_
    have h : 0 < bernoulliProbability q i := by
      fin_cases i
      · exact expit_pos q
      · exact sub_pos.2 (expit_lt_one q)
    change (log? (bernoulliProbability q i)).bind _ = _
    rw [log?_eq h]
    rfl
  · intro d q
    refine vec?_eq fun i => ?_
    have hs := ((C31_multinomial d).1 q trivial).1
    have h : 0 < multinomialProbability q i := by
      refine Fin.lastCases ?_ (fun i => ?_) i
      · rw [multinomialProbability, Fin.snoc_last]
        exact sub_pos.2 hs.2
      · rw [multinomialProbability, Fin.snoc_castSucc]
        exact hs.1 i
    change (log? (multinomialProbability q i)).bind _ = _
    rw [log?_eq h]
    rfl

omit [MachEps] in
/-- **C94.** The conversions from and to a mean and a variance are finite: for valid natural parameters,
and for variances other than zero. -/
theorem C94_variance :
    (∀ q ∈ gammaDom, Checked.gammaToVar q = some (gammaToVar q)) ∧
    (∀ w : ℝ × ℝ, w.2 ≠ 0 → Checked.gammaVarToNat w = some (gammaVarToNat w) ∧
      Checked.normalVarToNat w = some (normalVarToNat w)) ∧
    ∀ d (w : (Fin d → ℝ) × (Fin d → ℝ)), (∀ i, w.2 i ≠ 0) →
      Checked.mvDiagonalVarToNat w = some (mvDiagonalVarToNat w) := by
  refine ⟨fun q h => ?_, fun w h => ⟨?_, ?_⟩, fun d w h => ?_⟩
  · have h : -q.1 ≠ 0 := (neg_pos.2 h.1).ne'
    simp only [Checked.gammaToVar, div?_eq h]
    rfl
  · simp only [Checked.gammaVarToNat, div?_eq h]
    rfl
  · simp only [Checked.normalVarToNat, div?_eq h]
    rfl
  · simp only [Checked.mvDiagonalVarToNat, vec?_eq fun i => div?_eq (h i)]
    rfl

/-- Non-vacuity of C94: invalid parameters of guarded families, and arguments of the searches. -/
example : Checked.normal.logNormalizer (1, 2) = none ∧
    Checked.complexNormal.logNormalizer (0, -1, 2) = none ∧
    (∃ y, Checked.gammaSearchGradient (2, 0) 1 = some y) ∧
    ∃ y, Checked.gammaToVar (-1, 0) = some y :=
  ⟨C94_invalid (solve := solve) .normal trivial () trivial ((1, 2) : ℝ × ℝ)
      (show ¬(2 : ℝ) < 0 by norm_num),
    C94_invalid (solve := solve) .complexNormal trivial () trivial ((0, -1, 2) : ℂ × ℝ × ℂ)
      (show ¬‖(2 : ℂ)‖ < -(-1) by norm_num),
    ⟨_, (C94_search.1 (2, 0) (by norm_num) 1).2⟩,
    ⟨_, C94_variance.1 (-1, 0) ⟨by norm_num, by norm_num⟩⟩⟩

end Efax
