import Verif.Props.Families.Carrier

/-!
# Variance parametrizations (C40) of the univariate normal and gamma families
-/

namespace Efax

open MeasureTheory Spec Set

/-- The conversions of `NormalVP` agree with each other and undo each other. -/
theorem C40_normal_conversions {w : ℝ × ℝ} (h : 0 < w.2) :
    normal.toExp (normalVarToNat w) = normalVarToExp w ∧
    normalToNat (normalVarToExp w) = normalVarToNat w ∧
    normalToVar (normalVarToExp w) = w ∧ normalNatToVar (normalVarToNat w) = w := by
  have h' := h.ne'
  have e1 : normal.toExp (normalVarToNat w) = normalVarToExp w := by
    simp only [normal, normalVarToNat, normalVarToExp]
    ext
    · simp only
      norm_num
      field_simp
    · simp only
      norm_num
      field_simp
      ring
  have e3 : normalToVar (normalVarToExp w) = w := by
    simp [normalToVar, normalVarToExp, normalVariance]
  refine ⟨e1, ?_, e3, ?_⟩
  · simp only [normalToNat, normalVarToExp, normalVarToNat, normalVariance]
    ext
    · simp only [add_sub_cancel_right, mul_one_div]
    · simp only [add_sub_cancel_right, mul_one_div]
  · rw [normalNatToVar, e1, e3]

/-- Converting a natural parameter to the variance parametrization and back. -/
theorem C40_normal_back {q : ℝ × ℝ} (h : q ∈ normalDom) :
    0 < (normalNatToVar q).2 ∧ normalVarToNat (normalNatToVar q) = q := by
  have h' : q.2 < 0 := h
  have e : (normalNatToVar q).2 = -0.5 / q.2 := by
    simp only [normalNatToVar, normalToVar, normalVariance, normal]
    ring
  refine ⟨by rw [e]; exact div_pos_of_neg_of_neg (by norm_num) h', ?_⟩
  rw [normalVarToNat, e]
  have h0 := h'.ne
  simp only [normalNatToVar, normalToVar, normal]
  ext
  · simp only
    norm_num
    field_simp
  · simp only
    norm_num
    ring

/-- The stored mean and variance are those of the density. -/
theorem C40_normal_moments {w : ℝ × ℝ} (h : 0 < w.2) :
    HasMean volume (normal.pdf (normalVarToNat w)) (fun x => x) w.1 ∧
    HasMean volume (normal.pdf (normalVarToNat w)) (fun x => (x - w.1) ^ 2) w.2 := by
  have hd : normalVarToNat w ∈ normalDom := by
    show -0.5 * (1 / w.2) < 0
    have : 0 < 1 / w.2 := by positivity
    linarith
  have e := (C40_normal_conversions h).1
  have e1 : (normal.toExp (normalVarToNat w)).1 = w.1 := by rw [e]; rfl
  have e2 : (normal.toExp (normalVarToNat w)).2 = w.2 + w.1 ^ 2 := by rw [e]; rfl
  have m1 := normal_mean hd
  have m2 := normal_mean_sq hd
  change HasMean _ _ _ (normal.toExp (normalVarToNat w)).1 at m1
  change HasMean _ _ _ (normal.toExp (normalVarToNat w)).2 at m2
  rw [e1] at m1
  rw [e2] at m2
  refine ⟨m1, ((m2.sub (m1.const_mul (2 * w.1))).add
    (.const (normal_regular.density _ hd) (w.1 ^ 2))).congr (fun x => by ring) (by ring)⟩

/-- The conversions of `GammaVP` undo each other. -/
theorem C40_gamma_conversions {w : ℝ × ℝ} (h1 : 0 < w.1) (h2 : 0 < w.2) :
    gammaVarToNat w ∈ gammaDom ∧ gammaToVar (gammaVarToNat w) = w ∧
    gamma.toExp (gammaVarToNat w) = gammaVarToExp w := by
  have a := h1.ne'
  have b := h2.ne'
  refine ⟨⟨?_, ?_⟩, ?_, rfl⟩
  · show -(w.1 / w.2) < 0
    have : 0 < w.1 / w.2 := by positivity
    linarith
  · show -1 < w.1 * (w.1 / w.2) - 1
    have : 0 < w.1 * (w.1 / w.2) := by positivity
    linarith
  · simp only [gammaToVar, gammaVarToNat]
    ext
    · simp only
      field_simp
      ring
    · simp only
      field_simp
      ring

theorem C40_gamma_back {q : ℝ × ℝ} (h : q ∈ gammaDom) :
    0 < (gammaToVar q).1 ∧ 0 < (gammaToVar q).2 ∧ gammaVarToNat (gammaToVar q) = q := by
  have h1 : 0 < -q.1 := neg_pos.2 h.1
  have h2 : 0 < q.2 + 1 := by linarith [h.2]
  have a := h.1.ne
  have b := h2.ne'
  refine ⟨div_pos h2 h1, div_pos (div_pos h2 h1) h1, ?_⟩
  simp only [gammaToVar, gammaVarToNat]
  ext
  · simp only
    field_simp
  · simp only
    field_simp
    ring

/-- The variance of the gamma density. -/
theorem gamma_variance {q : ℝ × ℝ} (h : q ∈ gammaDom) :
    HasMean positive (gamma.pdf q) (fun x => (x - -(q.2 + 1) / q.1) ^ 2)
      ((q.2 + 1) / q.1 ^ 2) := by
  obtain ⟨c, ⟨mg, mh, hg, hh, hc⟩, hd, _⟩ :=
    gamma_regular.fisherCorrect q h (1, 0) trivial (1, 0) trivial
  have m := gamma_mean h
  have s : ∀ x, gamma.dot (1, 0) (gamma.stat x) = x := fun x => by simp [gamma]
  simp only [s] at hg hh hc
  obtain rfl := hg.unique m
  obtain rfl := hh.unique m
  refine hc.congr (fun x => by ring) ?_
  have hq : q.1 ≠ 0 := h.1.ne
  have hd2 : HasDerivAt (fun t : ℝ => -(q.2 + 1) / (q.1 + t)) ((q.2 + 1) / q.1 ^ 2) 0 := by
    have h1 : HasDerivAt (fun t : ℝ => q.1 + t) 1 0 := (hasDerivAt_id (0 : ℝ)).const_add q.1
    have h2 := (hasDerivAt_const (0 : ℝ) (-(q.2 + 1))).div h1 (by simpa using hq)
    refine h2.congr_deriv ?_
    simp
  refine hd2.unique (hd.congr_of_eventuallyEq ?_)
  filter_upwards [gamma_regular.is_open q h (1, 0) trivial] with t ht
  rw [gamma_regular.deriv_eq ht trivial]
  simp [gamma]

/-- The stored mean and variance are those of the density. -/
theorem C40_gamma_moments {w : ℝ × ℝ} (h1 : 0 < w.1) (h2 : 0 < w.2) :
    HasMean positive (gamma.pdf (gammaVarToNat w)) (fun x => x) w.1 ∧
    HasMean positive (gamma.pdf (gammaVarToNat w)) (fun x => (x - w.1) ^ 2) w.2 := by
  obtain ⟨hd, _, _⟩ := C40_gamma_conversions h1 h2
  have a := h1.ne'
  have b := h2.ne'
  have e : -((gammaVarToNat w).2 + 1) / (gammaVarToNat w).1 = w.1 := by
    simp only [gammaVarToNat]
    field_simp
    ring
  have m := gamma_mean hd
  have v := gamma_variance hd
  rw [e] at m v
  refine ⟨m, v.congr (fun _ => rfl) ?_⟩
  simp only [gammaVarToNat]
  field_simp
  ring

/-- The hypotheses are satisfiable. -/
example : (0 : ℝ) < 3 ∧ ((-2, 3) : ℝ × ℝ) ∈ gammaDom ∧ ((5, -2) : ℝ × ℝ) ∈ normalDom := by
  norm_num [gammaDom, normalDom]

end Efax
