import Verif.Props.Oracle.Basic
import Verif.Props.Textbook
import Verif.Props.Scipy.Joint

/-!
# The oracles of the tests: distributions of `scipy.stats`
-/

namespace Efax

open Spec Calc Tests MeasureTheory

variable [MachEps] {solve : Solver} {search : Cls → List Val → Except Err (List Val)}

variable (hs : solve.For search)

/-- Observations that are passed on unchanged. -/
theorem real_obs {s : SimpleInfo} {rs : List ℕ} {v : Val} {K : List ℕ → (List ℕ → ℝ) → Val → Prop} (P : ℝ → Prop)
    (h : s.observation v = .ok v) (hK : ∀ x, HoldsR rs x v → K rs x v)
    (hv : ∃ x, HoldsR rs x v ∧ ∀ i, inB rs i = true → P (x i)) :
    ∃ y v' x, HoldsR rs y v ∧ s.observation v = .ok v' ∧ (∃ w, Tree.leaf v' = .leaf w ∧ K rs x w) ∧
      ∀ i, inB rs i = true → P (y i) ∧ y i = x i := by
  obtain ⟨x, h1, h2⟩ := hv
  exact ⟨x, v, x, h1, h, ⟨v, rfl, hK x h1⟩, fun i hi => ⟨h2 i hi, rfl⟩⟩

omit [MachEps] in
theorem onIntegers_natCast (f : ℤ → ℝ) (k : ℕ) : onIntegers f (k : ℝ) = f k := by
  simp [onIntegers]

omit [MachEps] in
theorem onIntegers_intCast (f : ℤ → ℝ) (k : ℤ) : onIntegers f (k : ℝ) = f k := by
  simp [onIntegers]

/-- Observations of counts. -/
theorem nat_obs {rs : List ℕ} {v : Val} {P : ℕ → Prop} (hv : ∃ x, HoldsR rs x v ∧ ∀ i, inB rs i = true → ∃ k : ℕ, P k ∧ x i = k) :
    ∃ k : List ℕ → ℕ, (HoldsR rs (fun i => (k i : ℝ)) v) ∧ ∀ i, inB rs i = true → P (k i) := by
  obtain ⟨x, h1, h2⟩ := hv
  choose! k hk using h2
  exact ⟨k, holdsR_congr h1 fun i hi => (hk i hi).2, fun i hi => (hk i hi).1⟩

theorem nat_obs' {rs : List ℕ} {v : Val} (hv : ∃ x, HoldsR rs x v ∧ ∀ i, inB rs i = true → ∃ k : ℕ, x i = k) :
    ∃ k : List ℕ → ℕ, HoldsR rs (fun i => (k i : ℝ)) v :=
  (nat_obs (P := fun _ => True) (by simpa using hv)).imp fun _ h => h.1

theorem any_obs {rs : List ℕ} {v : Val} (hv : ∃ x, HoldsR rs x v) :
    ∃ x, HoldsR rs x v ∧ ∀ i, inB rs i = true → True := hv.imp fun _ h => ⟨h, fun _ _ => trivial⟩

/-! ### Arguments -/

section

omit [MachEps]

variable (rs : List ℕ)

theorem geom_args (m : List ℕ → ℝ) : (1.0 : Calc ℝ) / (1.0 + ok (scalars rs m)) =
    ok (scalars rs fun i => 1.0 / (1.0 + m i)) := by
  calc_simp

theorem nbinom_args (m : List ℕ → ℝ) (r : List ℕ → ℕ) :
    args2 (Val.int (scalars rs fun i => (r i : ℤ))).toR
      (1.0 / (1.0 + ok (scalars rs m) / (Val.int (scalars rs fun i => (r i : ℤ))).toR)) =
    ok (scalars rs fun i => ((r i : ℝ), 1.0 / (1.0 + m i / (r i : ℝ)))) := by
  have e : (Val.int (scalars rs fun i => (r i : ℤ))).toR = ok (scalars rs fun i => (r i : ℝ)) := by
    refine (map_scalars (fun n : ℤ => (n : ℝ)) rs _).trans ?_
    simp
  rw [e, args2]
  calc_simp

theorem norm_args (m : List ℕ → ℝ × ℝ) :
    args2 (ok (scalars rs fun i => (m i).1)) ((Methods.normalVariance (.real (scalars rs fun i => (m i).1))
      (.real (scalars rs fun i => (m i).2))).map Real.sqrt) =
    ok (scalars rs fun i => ((m i).1, √(normalVariance (m i)))) := by
  show args2 _ (Calc.map Real.sqrt (ok (scalars rs fun i => (m i).2) - square (ok (scalars rs fun i => (m i).1)))) = _
  rw [args2]
  calc_simp
  rfl

theorem rayleigh_args (m : List ℕ → ℝ) : Calc.map Real.sqrt (ok (scalars rs m) / 2.0) =
    ok (scalars rs fun i => √(m i / 2.0)) := by
  calc_simp

theorem gamma_args (q : List ℕ → ℝ × ℝ) :
    args2 (ok (scalars rs fun i => (q i).2) + 1.0) (-1.0 / ok (scalars rs fun i => (q i).1)) =
    ok (scalars rs fun i => ((q i).2 + 1.0, -1.0 / (q i).1)) := by
  rw [args2]
  calc_simp

theorem chi_args (q : List ℕ → ℝ) :
    (ok (scalars rs q) + 1.0) * 2.0 = ok (scalars rs fun i => (q i + 1.0) * 2.0) := by
  calc_simp

theorem weibull_args (k x : List ℕ → ℝ) :
    args2 (ok (scalars rs k)) (bin (fun a b : ℝ => a ^ b) (ok (scalars rs x)) (1.0 / ok (scalars rs k))) =
    ok (scalars rs fun i => (k i, x i ^ (1.0 / k i))) := by
  rw [args2]
  calc_simp

theorem beta_args (q : List ℕ → Fin 2 → ℝ) :
    args2 ((ok (vectors rs q) + 1.0).at_ 0) ((ok (vectors rs q) + 1.0).at_ 1) =
    ok (scalars rs fun i => (q i 0 + 1.0, q i 1 + 1.0)) := by
  rw [args2]
  calc_simp
  rw [at_vectors (by omega), at_vectors (by omega), bin_scalars]
  rfl

end

/-! ### Densities -/

section

omit [MachEps]

theorem ssGeom_eq {q : ℝ} (hq : q < 0) (k : ℕ) :
    ssGeom (1.0 / (1.0 + geometric.toExp q)) ((k : ℝ) + 1) = geometric.pdf q k := by
  rw [C61_geometric hq, ssGeom, show ((k : ℝ) + 1) = ((k + 1 : ℤ) : ℝ) by push_cast; rfl, onIntegers_intCast,
    show (1.0 : ℝ) = 1 by norm_num]

theorem ssPoisson_eq (q : ℝ) (k : ℕ) : ssPoisson (poisson.toExp q) k = poisson.pdf q k := by
  rw [C57_poisson, ssPoisson, onIntegers_natCast, if_pos (by omega), Int.toNat_natCast, Textbook.poisson,
    mul_comm (Real.exp _)]

theorem ssNbinom_eq {r : ℕ} (hr : 1 ≤ r) {q : ℝ} (hq : q < 0) (k : ℕ) :
    ssNbinom ((r : ℝ), 1.0 / (1.0 + (negativeBinomial r).toExp q / (r : ℝ))) k =
      (negativeBinomial r).pdf q k := by
  obtain ⟨r, rfl⟩ := Nat.exists_eq_add_of_le' hr
  rw [C57_negative_binomial hr hq, ssNbinom, onIntegers_natCast, if_pos (by omega), Textbook.negativeBinomial,
    show (1.0 : ℝ) = 1 by norm_num, Real.rpow_natCast, zpow_natCast]
  congr 2
  rw [show k + (r + 1) - 1 = k + r by omega, Nat.cast_add_choose ℝ,
    show ((k : ℤ) : ℝ) + ((r + 1 : ℕ) : ℝ) = ((k + r : ℕ) : ℝ) + 1 by push_cast; ring,
    show ((r + 1 : ℕ) : ℝ) = (r : ℝ) + 1 by push_cast; ring, Int.cast_natCast, Real.Gamma_nat_eq_factorial,
    Real.Gamma_nat_eq_factorial, Real.Gamma_nat_eq_factorial]

theorem ssLogser_eq {q : ℝ} (hq : q < 0) (k : ℕ) : ssLogser (Real.exp q) ((k : ℝ) + 1) = logarithmic.pdf q k := by
  rw [C57_logarithmic hq, ssLogser, show ((k : ℝ) + 1) = ((k + 1 : ℕ) : ℝ) by push_cast; rfl,
    onIntegers_natCast, if_pos (by omega), Textbook.logarithmic, zpow_natCast]
  norm_cast

theorem ssNorm_eq (m : ℝ) {v : ℝ} (hv : 0 < v) (x : ℝ) : ssNorm (m, √v) x = Textbook.normal m v x := by
  have h := Real.sqrt_pos.2 hv
  simp only [ssNorm, Textbook.normal]
  rw [Real.sqrt_mul (by positivity) v, div_div, div_pow, Real.sq_sqrt hv.le]
  congr 2
  field_simp

theorem ssExpon_eq {q x : ℝ} (hq : q < 0) (hx : 0 < x) :
    ssExpon (0, exponential.toExp q) x = exponential.pdf q x := by
  have hm : 0 < exponential.toExp q := div_pos_of_neg_of_neg (by norm_num) hq
  rw [C57_exponential hq, ssExpon, sub_zero, if_pos (div_pos hx hm).le, Textbook.exponential, neg_div]

theorem ssRayleigh_eq {q x : ℝ} (hq : q < 0) (hx : 0 < x) :
    ssRayleigh √(rayleigh.toExp q / 2.0) x = rayleigh.pdf q x := by
  have hm : 0 < rayleigh.toExp q / 2 := half_pos (div_pos_of_neg_of_neg (by norm_num) hq)
  have h := Real.sqrt_pos.2 hm
  rw [C57_rayleigh hq hx, show (2.0 : ℝ) = 2 by norm_num, ssRayleigh, if_pos (div_pos hx h).le,
    Textbook.rayleigh]
  field_simp

theorem ssBeta_eq {q : Fin 2 → ℝ} (hq : q ∈ dirichletDom 2) {x : ℝ} (hx : 0 < x ∧ x < 1) :
    ssBeta (q 0 + 1.0, q 1 + 1.0) x = beta.pdf q x := by
  rw [C57_beta hq hx, ssBeta, if_pos hx, Textbook.beta, show (1.0 : ℝ) = 1 by norm_num]
  ring

theorem ssGamma_eq {q : ℝ × ℝ} (hq : q ∈ gammaDom) {x : ℝ} (hx : 0 < x) :
    ssGamma (q.2 + 1.0, -1.0 / q.1) x = gamma.pdf q x := by
  have h1 : 0 < -1 / q.1 := div_pos_of_neg_of_neg (by norm_num) hq.1
  rw [C57_gamma hq hx, show (1.0 : ℝ) = 1 by norm_num, ssGamma, if_pos (div_pos hx h1), Textbook.gamma,
    Real.div_rpow hx.le h1.le, Real.rpow_sub_one h1.ne', neg_div]
  have hq1 : q.1 ≠ 0 := hq.1.ne
  field_simp

theorem ssChi2_eq {q x : ℝ} (hq : -1 < q) (hx : 0 < x) : ssChi2 ((q + 1.0) * 2.0) x = chiSquare.pdf q x := by
  rw [C57_chi_square hq hx, ssChi2, if_pos hx, Textbook.chiSquare, show (1.0 : ℝ) = 1 by norm_num,
    show (2.0 : ℝ) = 2 by norm_num]
  ring

theorem ssChi_eq {q x : ℝ} (hq : -1 < q) (hx : 0 < x) : ssChi ((q + 1.0) * 2.0) x = chi.pdf q x := by
  rw [C57_chi hq hx, ssChi, if_pos hx, Textbook.chi, show (1.0 : ℝ) = 1 by norm_num,
    show (2.0 : ℝ) = 2 by norm_num]
  ring

theorem ssWeibull_eq {k q x : ℝ} (hk : 0 < k) (hq : q < 0) (hx : 0 < x) :
    ssWeibull (k, (weibull k).toExp q ^ (1.0 / k)) x = (weibull k).pdf q x := by
  have h1 : 0 < (weibull k).toExp q := div_pos_of_neg_of_neg (by norm_num) hq
  rw [C57_weibull hk hq hx, show (1.0 : ℝ) = 1 by norm_num, ssWeibull,
    if_pos (div_pos hx (Real.rpow_pos_of_pos h1 _)), Textbook.weibull]
  ring

end

/-! ### Agreement -/

include hs

theorem agrees_bernoulli (n : ℕ) :
    Agrees (library search) (.simple .bernoulli n) (Simple.bernoulli.setting solve) := by
  have hL := C51_library hs (.simple .bernoulli)
  have hd : ∀ (q : ℝ) (x : Bool), ssBernoulli (bernoulli.toExp q) (ofBool x) = bernoulli.pdf q x := by
    intro q x
    rw [C57_bernoulli]
    cases x <;> simp [ssBernoulli, onIntegers, ofBool, Textbook.bernoulli]
  refine agrees_frozen (density := ssBernoulli) (entropy := discreteEntropy)
    (fun _ (q : ℝ) => bernoulli.toExp q) (fun y (x : Bool) => y = ofBool x)
    (fun rs p q hq => ?_) ?_ ?_ ?_
  · exact natToScipy_expTo (s := .bernoulli) (n := n) rfl rfl (hL.toExp rs p q fun _ _ => trivial)
  · rintro rs v ⟨x, h1, h2⟩
    classical
    have e : ∀ i, inB rs i = true → x i = ofBool (decide (x i = 1)) := fun i hi => by
      rcases h2 i hi with h | h <;> simp [h, ofBool]
    exact ⟨x, v, fun i => decide (x i = 1), h1, rfl, ⟨v, rfl, holdsR_congr h1 e⟩, e⟩
  · rintro p q y x - - rfl
    exact hd q x
  · intro _ p q h1 h2 h3
    have h := ((library_lawful (solve := solve) (.simple .bernoulli)).entropy trivial h1 h2 h3).1
    refine discreteEntropy_eq (e := fun x : Bool => if x then 1 else 0) (by decide)
      (fun x => (congrArg _ (by cases x <;> simp [ofBool])).trans (hd q x)) (fun k hk => ?_) h
    simp only [Set.mem_range, Bool.exists_bool, Bool.false_eq_true, if_false, if_true, not_or] at hk
    simp [ssBernoulli, onIntegers, Ne.symm hk.1, Ne.symm hk.2]

theorem agrees_geometric (n : ℕ) :
    Agrees (library search) (.simple .geometric n) (Simple.geometric.setting solve) := by
  have hL := C51_library hs (.simple .geometric)
  refine agrees_frozen (density := ssGeom) (entropy := discreteEntropy)
    (fun _ (q : ℝ) => 1.0 / (1.0 + geometric.toExp q)) (fun y (x : ℕ) => y = (x : ℝ) + 1)
    (fun rs p q hq => ?_) ?_ ?_ ?_
  · refine (natToScipy_expTo (s := .geometric) (n := n) rfl rfl (hL.toExp rs p q fun _ _ => trivial)).trans ?_
    exact congrArg (frozen ssGeom discreteEntropy) (geom_args rs fun i => geometric.toExp (q i))
  · intro rs v hv
    obtain ⟨k, h1, h2⟩ := nat_obs hv
    have e : ∀ i, inB rs i = true → (k i : ℝ) = ((k i - 1 : ℕ) : ℝ) + 1 := fun i hi => by
      have := h2 i hi
      push_cast [this]
      ring
    refine ⟨_, .real (scalars rs fun i => ((k i - 1 : ℕ) : ℝ)), fun i => k i - 1, h1, ?_,
      ⟨_, rfl, rfl⟩, e⟩
    show Val.ofR (v.toR - 1) = _
    rw [h1]
    calc_simp
    refine congrArg (fun a => Except.ok (Val.real a)) (scalars_congr fun i hi => ?_)
    linarith [e i hi]
  · rintro p q y x - hq rfl
    exact ssGeom_eq hq x
  · intro _ p q h1 h2 h3
    have h := ((library_lawful (solve := solve) (.simple .geometric)).entropy trivial h1 h2 h3).1
    refine discreteEntropy_eq (e := fun x : ℕ => (x : ℤ) + 1) (fun a b h => by simpa using h)
      (fun x => (congrArg _ (by push_cast; rfl)).trans (ssGeom_eq h2 x)) (fun k hk => ?_) h
    rw [ssGeom, onIntegers_intCast, Scipy.geometricPmf, if_neg]
    intro h1
    exact hk ⟨(k - 1).toNat, by simp only; omega⟩

theorem agrees_poisson (n : ℕ) :
    Agrees (library search) (.simple .poisson n) (Simple.poisson.setting solve) := by
  have hL := C51_library hs (.simple .poisson)
  refine agrees_frozen (density := ssPoisson) (entropy := discreteEntropy)
    (fun _ (q : ℝ) => poisson.toExp q) (fun y (x : ℕ) => y = (x : ℝ))
    (fun rs p q hq => ?_) ?_ ?_ (fun h => h.elim)
  · exact natToScipy_expTo (s := .poisson) (n := n) rfl rfl (hL.toExp rs p q fun _ _ => trivial)
  · intro rs v hv
    obtain ⟨k, h1⟩ := nat_obs' hv
    exact ⟨_, v, k, h1, rfl, ⟨v, rfl, h1⟩, fun _ _ => rfl⟩
  · rintro p q y x - hq rfl
    exact ssPoisson_eq q x

theorem agrees_negativeBinomial (n : ℕ) :
    Agrees (library search) (.simple .negativeBinomial n) (Simple.negativeBinomial.setting solve) := by
  have hL := C51_library hs (.simple .negativeBinomial)
  refine agrees_frozen (density := ssNbinom) (entropy := discreteEntropy)
    (fun (r : ℕ) (q : ℝ) => ((r : ℝ), 1.0 / (1.0 + (negativeBinomial r).toExp q / (r : ℝ))))
    (fun y (x : ℕ) => y = (x : ℝ)) (fun rs p q hq => ?_) ?_ ?_ (fun h => h.elim)
  · refine (natToScipy_expTo (s := .negativeBinomial) (n := n) rfl rfl
      (hL.toExp rs p q fun _ _ => trivial)).trans ?_
    exact congrArg (frozen ssNbinom discreteEntropy)
      (nbinom_args rs (fun i => (negativeBinomial (p i)).toExp (q i)) p)
  · intro rs v hv
    obtain ⟨k, h1⟩ := nat_obs' hv
    exact ⟨_, v, k, h1, rfl, ⟨v, rfl, h1⟩, fun _ _ => rfl⟩
  · rintro p q y x h hq rfl
    exact ssNbinom_eq h hq x

omit hs in
theorem agrees_logarithmic (n : ℕ) :
    Agrees (library search) (.simple .logarithmic n) (Simple.logarithmic.setting solve) := by
  refine agrees_frozen (density := ssLogser) (entropy := discreteEntropy)
    (fun _ (q : ℝ) => Real.exp q) (fun y (x : ℕ) => y = (x : ℝ) + 1)
    (fun rs p q hq => ?_) ?_ ?_ (fun h => h.elim)
  · refine (natToScipy_natTo (s := .logarithmic) (n := n) rfl _).trans ?_
    exact congrArg (frozen ssLogser discreteEntropy) (map_scalars (α := ℝ) ..)
  · intro rs v hv
    obtain ⟨k, h1, h2⟩ := nat_obs hv
    have e : ∀ i, inB rs i = true → (k i : ℝ) = ((k i - 1 : ℕ) : ℝ) + 1 := fun i hi => by
      have := h2 i hi
      push_cast [this]
      ring
    exact ⟨_, v, fun i => k i - 1, h1, rfl, ⟨v, rfl, holdsR_congr h1 e⟩, e⟩
  · rintro p q y x - hq rfl
    exact ssLogser_eq hq x

theorem agrees_normal (n : ℕ) :
    Agrees (library search) (.simple .normal n) (Simple.normal.setting solve) := by
  have hL := C51_library hs (.simple .normal)
  have hd : ∀ q ∈ normalDom, ∀ x, ssNorm ((normal.toExp q).1, √(normalVariance (normal.toExp q))) x =
      normal.pdf q x := fun q hq x => by
    rw [C57_normal hq, ssNorm_eq]
    have hq : q.2 < 0 := hq
    have hv : normalVariance (normal.toExp q) = -1 / (2 * q.2) := by
      simp only [normalVariance, normal]; ring
    rw [hv]
    exact div_pos_of_neg_of_neg (by norm_num) (by linarith)
  refine agrees_frozen (density := ssNorm) (entropy := continuousEntropy)
    (fun _ (q : ℝ × ℝ) => ((normal.toExp q).1, √(normalVariance (normal.toExp q)))) (fun y (x : ℝ) => True ∧ y = x)
    (fun rs p q hq => ?_) (fun rs v hv => real_obs (fun _ => True) rfl (fun _ => id) (any_obs hv)) ?_ ?_
  · refine (natToScipy_expTo (s := .normal) (n := n) rfl rfl (hL.toExp rs p q fun _ _ => trivial)).trans ?_
    exact congrArg (frozen ssNorm continuousEntropy) (norm_args rs fun i => normal.toExp (q i))
  · rintro p q y x - hq ⟨-, rfl⟩
    exact hd q hq y
  · intro _ p q h1 h2 h3
    exact continuousEntropy_univ (fun x => hd q h2 x)
      ((library_lawful (solve := solve) (.simple .normal)).entropy trivial h1 h2 h3).1

theorem agrees_unitNormal (n : ℕ) :
    Agrees (library search) (.simple .unitNormal n) (Simple.unitNormal.setting solve) := by
  have hL := C51_library hs (.simple .unitNormal)
  have hd : ∀ q x : ℝ, ssNorm (unitNormal.toExp q, 1.0) x = unitNormal.pdf q x := fun q x => by
    rw [C57_unit_normal, ← ssNorm_eq _ one_pos, Real.sqrt_one, show (1.0 : ℝ) = 1 by norm_num]
  refine agrees_frozen (density := ssNorm) (entropy := continuousEntropy)
    (fun _ (q : ℝ) => (unitNormal.toExp q, 1.0)) (fun y (x : ℝ) => True ∧ y = x)
    (fun rs p q hq => ?_) (fun rs v hv => real_obs (fun _ => True) rfl (fun _ => id) (any_obs hv)) ?_ ?_
  · refine (natToScipy_expTo (s := .unitNormal) (n := n) rfl rfl (hL.toExp rs p q fun _ _ => trivial)).trans ?_
    exact congrArg (frozen ssNorm continuousEntropy) (bin_scalars_const (α := ℝ) (β := ℝ) ..)
  · rintro p q y x - hq ⟨-, rfl⟩
    exact hd q y
  · intro _ p q h1 h2 h3
    exact continuousEntropy_univ (fun x => hd q x)
      ((library_lawful (solve := solve) (.simple .unitNormal)).entropy trivial h1 h2 h3).1

theorem agrees_exponential (n : ℕ) :
    Agrees (library search) (.simple .exponential n) (Simple.exponential.setting solve) := by
  have hL := C51_library hs (.simple .exponential)
  refine agrees_frozen (density := ssExpon) (entropy := continuousEntropy)
    (fun _ (q : ℝ) => (0, exponential.toExp q)) (fun y (x : ℝ) => 0 < y ∧ y = x)
    (fun rs p q hq => ?_) (fun rs v hv => real_obs _ rfl (fun _ => id) hv) ?_ ?_
  · refine (natToScipy_expTo (s := .exponential) (n := n) rfl rfl (hL.toExp rs p q fun _ _ => trivial)).trans ?_
    exact congrArg (frozen ssExpon continuousEntropy) (bin_const_scalars (α := ℝ) (β := ℝ) ..)
  · rintro p q y x hp hq ⟨hy, rfl⟩
    exact ssExpon_eq hq hy
  · intro _ p q h1 h2 h3
    refine continuousEntropy_positive (fun x hx => ssExpon_eq h2 hx) (fun x hx => ?_)
      ((library_lawful (solve := solve) (.simple .exponential)).entropy trivial h1 h2 h3).1
    have hm : 0 < exponential.toExp q := div_pos_of_neg_of_neg (by norm_num) h2
    rw [ssExpon, sub_zero, if_neg (not_le.2 (div_neg_of_neg_of_pos hx hm))]

theorem agrees_rayleigh (n : ℕ) :
    Agrees (library search) (.simple .rayleigh n) (Simple.rayleigh.setting solve) := by
  have hL := C51_library hs (.simple .rayleigh)
  refine agrees_frozen (density := ssRayleigh) (entropy := continuousEntropy)
    (fun _ (q : ℝ) => √(rayleigh.toExp q / 2.0)) (fun y (x : ℝ) => 0 < y ∧ y = x)
    (fun rs p q hq => ?_) (fun rs v hv => real_obs _ rfl (fun _ => id) hv) ?_ ?_
  · refine (natToScipy_expTo (s := .rayleigh) (n := n) rfl rfl (hL.toExp rs p q fun _ _ => trivial)).trans ?_
    exact congrArg (frozen ssRayleigh continuousEntropy) (rayleigh_args rs fun i => rayleigh.toExp (q i))
  · rintro p q y x hp hq ⟨hy, rfl⟩
    exact ssRayleigh_eq hq hy
  · intro _ p q h1 h2 h3
    refine continuousEntropy_positive (fun x hx => ssRayleigh_eq h2 hx) (fun x hx => ?_)
      ((library_lawful (solve := solve) (.simple .rayleigh)).entropy trivial h1 h2 h3).1
    have hm : 0 < rayleigh.toExp q := div_pos_of_neg_of_neg (by norm_num) h2
    rw [ssRayleigh, if_neg (not_le.2 (div_neg_of_neg_of_pos hx (Real.sqrt_pos.2 (div_pos hm (by norm_num)))))]

omit hs in
theorem agrees_gamma (n : ℕ) :
    Agrees (library search) (.simple .gamma n) (Simple.gamma.setting solve) := by
  refine agrees_frozen (density := ssGamma) (entropy := continuousEntropy)
    (fun _ (q : ℝ × ℝ) => (q.2 + 1.0, -1.0 / q.1)) (fun y (x : ℝ) => 0 < y ∧ y = x)
    (fun rs p q hq => ?_) (fun rs v hv => real_obs _ rfl (fun _ => id) hv) ?_ ?_
  · refine (natToScipy_natTo (s := .gamma) (n := n) rfl _).trans ?_
    exact congrArg (frozen ssGamma continuousEntropy) (gamma_args rs q)
  · rintro p q y x hp hq ⟨hy, rfl⟩
    exact ssGamma_eq hq hy
  · intro _ p q h1 h2 h3
    refine continuousEntropy_positive (fun x hx => ssGamma_eq h2 hx) (fun x hx => ?_)
      ((library_lawful (solve := solve) (.simple .gamma)).entropy trivial h1 h2 h3).1
    have hm : 0 < -1.0 / q.1 := div_pos_of_neg_of_neg (by norm_num) h2.1
    rw [ssGamma, if_neg (not_lt.2 (div_neg_of_neg_of_pos hx hm).le)]

omit hs in
theorem agrees_chiSquare (n : ℕ) :
    Agrees (library search) (.simple .chiSquare n) (Simple.chiSquare.setting solve) := by
  refine agrees_frozen (density := ssChi2) (entropy := continuousEntropy)
    (fun _ (q : ℝ) => (q + 1.0) * 2.0) (fun y (x : ℝ) => 0 < y ∧ y = x)
    (fun rs p q hq => ?_) (fun rs v hv => real_obs _ rfl (fun _ => id) hv) ?_ ?_
  · refine (natToScipy_natTo (s := .chiSquare) (n := n) rfl _).trans ?_
    exact congrArg (frozen ssChi2 continuousEntropy) (chi_args rs q)
  · rintro p q y x hp hq ⟨hy, rfl⟩
    exact ssChi2_eq hq hy
  · intro _ p q h1 h2 h3
    refine continuousEntropy_positive (fun x hx => ssChi2_eq h2 hx) (fun x hx => ?_)
      ((library_lawful (solve := solve) (.simple .chiSquare)).entropy trivial h1 h2 h3).1
    rw [ssChi2, if_neg (not_lt.2 hx.le)]

omit hs in
theorem agrees_chi (n : ℕ) :
    Agrees (library search) (.simple .chi n) (Simple.chi.setting solve) := by
  refine agrees_frozen (density := ssChi) (entropy := continuousEntropy)
    (fun _ (q : ℝ) => (q + 1.0) * 2.0) (fun y (x : ℝ) => 0 < y ∧ y = x)
    (fun rs p q hq => ?_) (fun rs v hv => real_obs _ rfl (fun _ => id) hv) ?_ ?_
  · refine (natToScipy_natTo (s := .chi) (n := n) rfl _).trans ?_
    exact congrArg (frozen ssChi continuousEntropy) (chi_args rs q)
  · rintro p q y x hp hq ⟨hy, rfl⟩
    exact ssChi_eq hq hy
  · intro _ p q h1 h2 h3
    refine continuousEntropy_positive (fun x hx => ssChi_eq h2 hx) (fun x hx => ?_)
      ((library_lawful (solve := solve) (.simple .chi)).entropy trivial h1 h2 h3).1
    rw [ssChi, if_neg (not_lt.2 hx.le)]

theorem agrees_weibull (n : ℕ) :
    Agrees (library search) (.simple .weibull n) (Simple.weibull.setting solve) := by
  have hL := C51_library hs (.simple .weibull)
  refine agrees_frozen (density := ssWeibull) (entropy := continuousEntropy)
    (fun (k : ℝ) (q : ℝ) => (k, (weibull k).toExp q ^ (1.0 / k))) (fun y (x : ℝ) => 0 < y ∧ y = x)
    (fun rs p q hq => ?_) (fun rs v hv => real_obs _ rfl (fun _ => id) hv) ?_ ?_
  · refine (natToScipy_expTo (s := .weibull) (n := n) rfl rfl (hL.toExp rs p q fun _ _ => trivial)).trans ?_
    exact congrArg (frozen ssWeibull continuousEntropy) (weibull_args rs p fun i => (weibull (p i)).toExp (q i))
  · rintro p q y x hp hq ⟨hy, rfl⟩
    exact ssWeibull_eq hp hq hy
  · intro _ p q h1 h2 h3
    refine continuousEntropy_positive (fun x hx => ssWeibull_eq h1 h2 hx) (fun x hx => ?_)
      ((library_lawful (solve := solve) (.simple .weibull)).entropy trivial h1 h2 h3).1
    have hm : 0 < (weibull p).toExp q := div_pos_of_neg_of_neg (by norm_num) h2
    rw [ssWeibull, if_neg (not_lt.2 (div_neg_of_neg_of_pos hx (Real.rpow_pos_of_pos hm _)).le)]

omit hs in
theorem agrees_beta (n : ℕ) :
    Agrees (library search) (.simple .beta n) (Simple.beta.setting solve) := by
  refine agrees_frozen (density := ssBeta) (entropy := continuousEntropy)
    (fun _ (q : Fin 2 → ℝ) => (q 0 + 1.0, q 1 + 1.0)) (fun y (x : ℝ) => (0 < y ∧ y < 1) ∧ y = x)
    (fun rs p q hq => ?_) (fun rs v hv => real_obs (s := .beta) (fun y => 0 < y ∧ y < 1) rfl (fun _ => id) hv) ?_ ?_
  · refine (natToScipy_natTo (s := .beta) (n := n) rfl _).trans ?_
    exact congrArg (frozen ssBeta continuousEntropy) (beta_args rs q)
  · rintro p q y x hp hq ⟨hy, rfl⟩
    exact ssBeta_eq hq hy
  · intro _ p q h1 h2 h3
    refine continuousEntropy_eq measurableSet_Ioo (fun x hx => ssBeta_eq h2 hx) (.of_forall fun x hx => ?_)
      ((library_lawful (solve := solve) (.simple .beta)).entropy trivial h1 h2 h3).1
    exact if_neg hx

end Efax
