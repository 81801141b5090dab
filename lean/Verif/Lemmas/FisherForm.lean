import Verif.Lemmas.Trigamma
import Verif.Lemmas.Fisher
import Verif.Lemmas.Optimization
import Verif.Lemmas.Matrix

/-!
# Derivatives of the expectation parameters in closed form
-/

namespace Efax

open MeasureTheory Spec Set Filter Topology

/-- The derivatives of the expectation parameters, as a form on the directions. -/
def HasInfo {N E X : Type} [AddCommGroup N] [Module ℝ N] (F : ExpFam N E X) (dirs : Submodule ℝ N) (q : N)
    (g : N → N → ℝ) : Prop :=
  ∀ v ∈ dirs, ∀ w ∈ dirs, HasDerivAt (fun t : ℝ => F.dot v (F.toExp (q + t • w))) (g v w) 0

theorem Raw.fisher_form [MachEps] {P N E X : Type} [AddCommGroup N] [Module ℝ N] [MeasurableSpace X] {c c' : Cls}
    {lay : Layout P N} {n : ℕ} {good : N → Prop} (r : Raw c lay n good) {L : Library Cls}
    {F : P → ExpFam N E X} {μ : Measure X} {dom : P → Set N} {dirs : Submodule ℝ N} {m : NatMethods}
    {exp : Layout P E} {fixed : List ℕ → (List ℕ → P) → Dict String Val}
    {obs : List ℕ → (List ℕ → X) → Val → Prop} {dm : P → N → Prop} {g : P → N → N → N → ℝ}
    (hr : Refines m lay exp fixed obs F dm) (hm : L.nat c = some m) (hj : Cls.isJoint c = false)
    (he : Cls.expCls c = some c')
    (hdot : ∀ p q χ, paramDot (.mk c (lay [] p q) .nil) (.mk c' (exp [] p χ) .nil) =
      .ok (scalars [] fun i => (F (p i)).dot (q i) (χ i)))
    (R : ∀ p q, q ∈ dom p → ∃ D, q ∈ D ∧ LocallyRegular (F p) μ D dirs ∧ ∀ q ∈ D, dm p q)
    (hgood : ∀ p q, q ∈ dom p → good q) (hdirs : ∀ z, r.dec z ∈ dirs)
    (hg : ∀ p q, q ∈ dom p → HasInfo (F p) dirs q (g p q)) :
    ∀ rs p q, (∀ i, inB rs i = true → q i ∈ dom (p i)) → fisherMatrix L (.mk c (lay rs p q) .nil) =
      .ok (matrices rs fun i => Matrix.of fun k l =>
        g (p i) (q i) (r.dec (Pi.single k 1)) (r.dec (Pi.single l 1))) := by
  intro rs p q hq
  refine (fisherMatrix_grad (nat := fun rs p q => .mk c (lay rs p q) .nil)
    (exp := fun rs p χ => .mk c' (exp rs p χ) .nil) (dm := dm)
    (r.flat rs p q fun i hi => hgood _ _ (hq i hi)) (r.flAt rs p)
    (fun i _ z => r.unflat [] _ _) (fun _ => rfl) ?_ (fun p q => ?_)
    (fun p q h => ?_) hdot (fun i hi => r.dec_enc _ (hgood _ _ (hq i hi))) fun i hi => ?_).trans ?_
  · simp only [Dist.shape, ClassTable.isJoint, hj, Library.shape, hm]
    exact hr.shape rs p q
  · simp only [Dist.logNormalizer, ClassTable.isJoint, ClassTable.expCls, hj, he, Library.logNormalizer, hm]
    exact hr.logNormalizer [] p q
  · simp only [Dist.toExp, ClassTable.isJoint, ClassTable.expCls, hj, he, Library.toExp, hm]
    rw [hr.toExp [] p q fun i hi => by rw [inB_nil_iff.1 hi]; exact h]
    rfl
  · obtain ⟨D, hD, RR, hd⟩ := R _ _ (hq i hi)
    exact ⟨hd _ hD, fun z => (RR.is_open _ hD _ (hdirs z)).mono fun t ht => hd _ ht⟩
  · refine congrArg _ (matrices_eq fun i hi => ?_)
    ext a b
    rw [gradMatrix_apply, Matrix.of_apply]
    exact (hg _ _ (hq i hi) _ (hdirs _) _ (hdirs _)).deriv

theorem Raw.fisherIs [MachEps] {P N E X : Type} [AddCommGroup N] [Module ℝ N] [MeasurableSpace X] {c c' : Cls}
    {lay : Layout P N} {n : ℕ} {good : N → Prop} (r : Raw c lay n good) {L : Library Cls}
    {F : P → ExpFam N E X} {μ : Measure X} {dom : P → Set N} {dirs : Submodule ℝ N} {m : NatMethods}
    {exp : Layout P E} {fixed : List ℕ → (List ℕ → P) → Dict String Val}
    {obs : List ℕ → (List ℕ → X) → Val → Prop} {dm : P → N → Prop} {g : P → N → N → N → ℝ}
    (hr : Refines m lay exp fixed obs F dm) (hm : L.nat c = some m) (hj : Cls.isJoint c = false)
    (he : Cls.expCls c = some c')
    (hdot : ∀ p q χ, paramDot (.mk c (lay [] p q) .nil) (.mk c' (exp [] p χ) .nil) =
      .ok (scalars [] fun i => (F (p i)).dot (q i) (χ i)))
    (R : ∀ p q, q ∈ dom p → ∃ D, q ∈ D ∧ LocallyRegular (F p) μ D dirs ∧ ∀ q ∈ D, dm p q)
    (hgood : ∀ p q, q ∈ dom p → good q) (hdirs : ∀ z, r.dec z ∈ dirs)
    (hg : ∀ p q, q ∈ dom p → HasInfo (F p) dirs q (g p q)) :
    FisherIs L (fun rs p q => .mk c (lay rs p q) .nil) n dom g := by
  refine ⟨fun k => r.dec (Pi.single k 1), fun p q hq => ?_, r.fisher_form hr hm hj he hdot R hgood hdirs hg⟩
  refine ⟨_, _, r.flat [] p q fun i hi => ?_, rfl, fun k => ?_⟩
  · rw [inB_nil_iff.1 hi]; exact hgood _ _ hq
  · rw [unitVector_eq]
    exact r.unflat [] _ _

/-- Families with one number. -/
theorem hasInfo_one {X : Type} {F : ExpFam ℝ ℝ X} (hF : ∀ a b, F.dot a b = a * b) {q f' : ℝ}
    (h : HasDerivAt F.toExp f' q) : HasInfo F ⊤ q fun v w => f' * (v * w) := by
  intro v _ w _
  have h1 : HasDerivAt (fun t : ℝ => q + t • w) w 0 := by
    simpa using ((hasDerivAt_id (0 : ℝ)).mul_const w).const_add q
  have h2 : HasDerivAt (fun t : ℝ => F.toExp (q + t • w)) (f' * w) 0 :=
    HasDerivAt.comp (h₂ := F.toExp) 0 (by simpa using h) h1
  simp only [hF]
  refine HasDerivAt.congr_deriv (h2.const_mul v) ?_
  ring

theorem bernoulli_info (q : ℝ) : HasInfo bernoulli ⊤ q (Textbook.Info.bernoulli (bernoulli.toExp q)) :=
  hasInfo_one (fun _ _ => rfl) (hasDerivAt_expit q)

theorem poisson_info (q : ℝ) : HasInfo poisson ⊤ q (Textbook.Info.poisson (poisson.toExp q)) :=
  hasInfo_one (fun _ _ => rfl) (Real.hasDerivAt_exp q)

theorem negativeBinomial_info {r : ℕ} (hr : 1 ≤ r) {q : ℝ} (hq : q < 0) : HasInfo (negativeBinomial r) ⊤ q
    (Textbook.Info.negativeBinomial r (1 / (1 + (negativeBinomial r).toExp q / r))) := by
  have hr' : (r : ℝ) ≠ 0 := by positivity
  have he : Real.exp (-q) - 1 ≠ 0 := by
    have := Real.one_lt_exp_iff.2 (neg_pos.2 hq)
    linarith
  have hp : (1 : ℝ) / (1 + (negativeBinomial r).toExp q / r) = 1 - Real.exp q := by
    simp only [negativeBinomial, expm1]
    have h2 : Real.exp q * Real.exp (-q) = 1 := by rw [← Real.exp_add]; simp
    have h3 : Real.exp (-q) ≠ 0 := (Real.exp_pos _).ne'
    have h4 : Real.exp q = 1 / Real.exp (-q) := by field_simp; linarith
    rw [h4]
    field_simp
    ring
  have h1 : HasDerivAt (fun q : ℝ => (r : ℝ) / (Real.exp (-q) - 1))
      ((r : ℝ) * Real.exp (-q) / (Real.exp (-q) - 1) ^ 2) q := by
    have h2 : HasDerivAt (fun q : ℝ => Real.exp (-q) - 1) (-Real.exp (-q)) q := by
      have := (hasDerivAt_neg q).exp.sub_const 1
      simpa using this
    have h3 := (h2.fun_inv he).const_mul (r : ℝ)
    simp only [← div_eq_mul_inv] at h3
    refine HasDerivAt.congr_deriv (h3) ?_
    ring
  have := hasInfo_one (F := negativeBinomial r) (fun _ _ => rfl) (q := q) h1
  intro v hv w hw
  refine HasDerivAt.congr_deriv (this v hv w hw) ?_
  rw [hp, Textbook.Info.negativeBinomial]
  congr 1
  have h2 : Real.exp q * Real.exp (-q) = 1 := by rw [← Real.exp_add]; simp
  have h5 : Real.exp q - 1 ≠ 0 := by
    have := Real.exp_lt_one_iff.2 hq
    linarith
  have h6 : (1 : ℝ) - Real.exp q ≠ 0 := by
    have := Real.exp_lt_one_iff.2 hq
    linarith
  have h3 : Real.exp (-q) ≠ 0 := (Real.exp_pos _).ne'
  have h4 : Real.exp q = 1 / Real.exp (-q) := by field_simp; linarith
  rw [h4] at h6 ⊢
  have h7 : (Real.exp (-q) - 1) ≠ 0 := he
  have h8 : (1 - 1 / Real.exp (-q)) = (Real.exp (-q) - 1) / Real.exp (-q) := by field_simp
  rw [h8]
  field_simp
  ring

theorem geometric_info {q : ℝ} (hq : q < 0) : HasInfo geometric ⊤ q
    (Textbook.Info.negativeBinomial 1 (1 / (1 + geometric.toExp q))) := by
  have h := negativeBinomial_info (r := 1) le_rfl hq
  have e : (negativeBinomial 1).toExp q = geometric.toExp q := by simp [negativeBinomial, geometric]
  rw [Nat.cast_one, div_one, e] at h
  intro v hv w hw
  refine hasDerivAt_of_eq (h v hv w hw) (fun t => ?_) rfl
  simp [negativeBinomial, geometric]

theorem exponential_info {q : ℝ} (hq : q < 0) :
    HasInfo exponential ⊤ q (Textbook.Info.exponential (exponential.toExp q)) := by
  have h1 : HasDerivAt (fun q : ℝ => -1 / q) ((-1 / q) ^ 2) q := by
    have h3 := (hasDerivAt_inv hq.ne).const_mul (-1)
    simp only [← div_eq_mul_inv] at h3
    refine HasDerivAt.congr_deriv (h3) ?_
    field_simp
  exact hasInfo_one (F := exponential) (fun _ _ => rfl) h1

theorem weibull_info {k q : ℝ} (hk : 0 < k) (hq : q < 0) :
    HasInfo (weibull k) ⊤ q (Textbook.Info.weibull k ((weibull k).toExp q ^ (1 / k))) := by
  intro v hv w hw
  have h := exponential_info hq v hv w hw
  have e : ((weibull k).toExp q ^ (1 / k)) ^ k = exponential.toExp q := by
    have h0 : (0 : ℝ) ≤ -1 / q := div_nonneg_of_nonpos (by norm_num) hq.le
    change ((-1 / q) ^ (1 / k)) ^ k = -1 / q
    rw [← Real.rpow_mul h0, one_div_mul_cancel hk.ne', Real.rpow_one]
  rw [Textbook.Info.weibull, e]
  exact h

theorem rayleigh_info {q : ℝ} (hq : q < 0) :
    HasInfo rayleigh ⊤ q (Textbook.Info.rayleigh (Real.sqrt (rayleigh.toExp q / 2))) := by
  intro v hv w hw
  have h := exponential_info hq v hv w hw
  have e : 2 * Real.sqrt (rayleigh.toExp q / 2) ^ 2 = exponential.toExp q := by
    have h0 : (0 : ℝ) ≤ -1 / q := div_nonneg_of_nonpos (by norm_num) hq.le
    rw [Real.sq_sqrt (by change 0 ≤ (-1 / q) / 2; positivity)]
    change 2 * (-1 / q / 2) = -1 / q
    ring
  rw [Textbook.Info.rayleigh, e]
  exact h

theorem hasDerivAt_digamma_line {a : ℝ} (ha : 0 < a) (w : ℝ) :
    HasDerivAt (fun t : ℝ => digamma (a + t * w)) (trigamma a * w) 0 := by
  have h1 : HasDerivAt (fun t : ℝ => a + t * w) w 0 := by
    simpa using ((hasDerivAt_id (0 : ℝ)).mul_const w).const_add a
  exact HasDerivAt.comp (h₂ := digamma) 0 (by simpa using hasDerivAt_digamma ha) h1

theorem chiSquare_info {q : ℝ} (hq : -1 < q) :
    HasInfo chiSquare ⊤ q (Textbook.Info.chiSquare ((q + 1) * 2)) := by
  have h1 : HasDerivAt (fun q : ℝ => digamma (q + 1) - Real.log 0.5) (trigamma (q + 1)) q := by
    have h2 := (hasDerivAt_digamma (x := q + 1) (by linarith)).comp_add_const q 1
    exact h2.sub_const _
  have h := hasInfo_one (F := chiSquare) (fun _ _ => rfl) h1
  intro v hv w hw
  have := h v hv w hw
  rw [Textbook.Info.chiSquare, mul_div_cancel_right₀ _ (two_ne_zero)]
  exact this

theorem chi_info {q : ℝ} (hq : -1 < q) : HasInfo chi ⊤ q (Textbook.Info.chiSquare ((q + 1) * 2)) :=
  fun v hv w hw => chiSquare_info hq v hv w hw

theorem unitNormal_info (q : ℝ) : HasInfo unitNormal ⊤ q fun v w => v * w := by
  have := hasInfo_one (F := unitNormal) (q := q) (fun _ _ => rfl) (hasDerivAt_id q)
  intro v hv w hw
  simpa using this v hv w hw

theorem logarithmic_info {q : ℝ} (hq : q < 0) :
    HasInfo logarithmic ⊤ q (Textbook.Info.logarithmic (Real.exp q)) := by
  have he : Real.exp q < 1 := Real.exp_lt_one_iff.2 hq
  have h0 : 0 < Real.exp q := Real.exp_pos q
  have h1 : 1 - Real.exp q ≠ 0 := by linarith
  have hl : Real.log (1 - Real.exp q) ≠ 0 := by
    have := Real.log_neg (x := 1 - Real.exp q) (by linarith) (by linarith)
    exact this.ne
  have h2 : HasDerivAt (fun q : ℝ => 1 - Real.exp q) (-Real.exp q) q := by
    simpa using (Real.hasDerivAt_exp q).const_sub 1
  have h3 : HasDerivAt (fun q : ℝ => (Real.exp q - 1) * Real.log (1 + -Real.exp q))
      (Real.exp q * Real.log (1 - Real.exp q) + (Real.exp q - 1) * (-Real.exp q / (1 - Real.exp q))) q := by
    have h4 := ((Real.hasDerivAt_exp q).sub_const 1).fun_mul (h2.log h1)
    simpa [← sub_eq_add_neg] using h4
  have h5 : (Real.exp q - 1) * Real.log (1 + -Real.exp q) ≠ 0 := by
    rw [← sub_eq_add_neg]
    exact mul_ne_zero (by linarith) hl
  have h6 := (Real.hasDerivAt_exp q).fun_div h3 h5
  have := hasInfo_one (F := logarithmic) (q := q) (fun _ _ => rfl) h6
  intro v hv w hw
  refine HasDerivAt.congr_deriv (this v hv w hw) ?_
  rw [Textbook.Info.logarithmic]
  congr 1
  rw [← sub_eq_add_neg] at h5 ⊢
  have h7 : Real.exp q - 1 ≠ 0 := by linarith
  field_simp
  ring

end Efax
