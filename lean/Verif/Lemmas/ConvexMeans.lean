import Verif.Lemmas.Gradients
import Verif.Props.Families.Inverse
import Verif.Props.Families.MvCarrier
import Verif.Props.Families.ComplexCarrier

/-!
# The expectation parameters of the families with closed forms are convex sets
-/

namespace Efax

open MeasureTheory Spec Set Matrix

open scoped ComplexOrder

/-- Averages of the expectation parameters of two distributions are converted by `toNat`. -/
def Spec.Setting.Averages {C : Type} {K : Kind C} (S : Setting K) : Prop :=
  S.closed → ∀ p, S.ok p → ∀ a ∈ S.dom p, ∀ b ∈ S.dom p, ∀ t : ℝ, 0 ≤ t → t ≤ 1 → ∀ x : K.E,
    (∀ v, (K.F p).dot v x = (1 - t) * (K.F p).dot v ((K.F p).toExp a) + t * (K.F p).dot v ((K.F p).toExp b)) →
    K.toNat p x ∈ S.dom p ∧ (K.F p).toExp (K.toNat p x) = x ∧ K.domE p x ∧ K.dom p (K.toNat p x)

/-- `Averages` for parts. -/
def Spec.Settings.Averages {C : Type} {R : Parts C} (S : Settings R) : Prop :=
  S.closed → ∀ p, S.ok p → ∀ a ∈ S.dom p, ∀ b ∈ S.dom p, ∀ t : ℝ, 0 ≤ t → t ≤ 1 → ∀ x : R.E,
    (∀ v, (R.F p).dot v x = (1 - t) * (R.F p).dot v ((R.F p).toExp a) + t * (R.F p).dot v ((R.F p).toExp b)) →
    R.toNat p x ∈ S.dom p ∧ (R.F p).toExp (R.toNat p x) = x ∧ R.domE p x ∧ R.dom p (R.toNat p x)

section

variable {C : Type}

theorem Spec.Settings.Averages.nil : (Settings.nil : Settings (.nil : Parts C)).Averages :=
  fun _ _ _ _ _ _ _ _ _ _ _ _ => ⟨trivial, rfl, trivial, trivial⟩

theorem Spec.Settings.Averages.cons {n : String} {K : Kind C} {R : Parts C} {S : Setting K} {T : Settings R}
    (hS : S.Averages) (hT : T.Averages) (lS : S.Lawful) (lT : T.Lawful) : (Settings.cons n S T).Averages := by
  intro hc p hp a ha b hb t h0 h1 x hx
  have zS : ∃ z : K.N, ∀ e, (K.F p.1).dot z e = 0 := by
    have h := lS.regular p.1 hp.1
    obtain ⟨G, M, MS, μ, ok, dom, dirs, closed⟩ := S
    exact ⟨0, fun e => by have := h.dot_sub 0 0 e; simpa using this⟩
  have zT : ∃ z : R.N, ∀ e, (R.F p.2).dot z e = 0 := by
    have h := lT.regular p.2 hp.2
    obtain ⟨G, M, MS, μ, ok, dom, dirs, closed⟩ := T
    exact ⟨0, fun e => by have := h.dot_sub 0 0 e; simpa using this⟩
  obtain ⟨z, hz⟩ := zS
  obtain ⟨z', hz'⟩ := zT
  obtain ⟨k1, k2, k3, k4⟩ := hS hc.1 p.1 hp.1 a.1 ha.1 b.1 hb.1 t h0 h1 x.1 fun v => by
    have e : (K.F p.1).dot v x.1 + (R.F p.2).dot z' x.2 =
      (1 - t) * ((K.F p.1).dot v ((K.F p.1).toExp a.1) + (R.F p.2).dot z' ((R.F p.2).toExp a.2)) +
        t * ((K.F p.1).dot v ((K.F p.1).toExp b.1) + (R.F p.2).dot z' ((R.F p.2).toExp b.2)) := hx (v, z')
    simpa only [hz', add_zero] using e
  obtain ⟨l1, l2, l3, l4⟩ := hT hc.2 p.2 hp.2 a.2 ha.2 b.2 hb.2 t h0 h1 x.2 fun v => by
    have e : (K.F p.1).dot z x.1 + (R.F p.2).dot v x.2 =
      (1 - t) * ((K.F p.1).dot z ((K.F p.1).toExp a.1) + (R.F p.2).dot v ((R.F p.2).toExp a.2)) +
        t * ((K.F p.1).dot z ((K.F p.1).toExp b.1) + (R.F p.2).dot v ((R.F p.2).toExp b.2)) := hx (z, v)
    simpa only [hz, zero_add] using e
  exact ⟨⟨k1, l1⟩, Prod.ext k2 l2, ⟨k3, l3⟩, ⟨k4, l4⟩⟩

theorem Spec.Settings.Averages.ofList : (l : List (String × Σ K : Kind C, Setting K)) →
    (∀ s ∈ l, s.2.2.Averages) → (∀ s ∈ l, s.2.2.Lawful) → (Settings.ofList l).Averages
  | [], _, _ => .nil
  | s :: l, h, h' => .cons (h s List.mem_cons_self) (ofList l (fun s' m => h s' (List.mem_cons_of_mem _ m))
      fun s' m => h' s' (List.mem_cons_of_mem _ m)) (h' s List.mem_cons_self)
      (Settings.Lawful.ofList l fun s' m => h' s' (List.mem_cons_of_mem _ m))

end

/-- A family with a closed form of `to_nat`, a convex set of expectation parameters and a pairing that is bilinear
and separates. -/
theorem averages_of {N E X : Type} [AddCommGroup E] [Module ℝ E] {F : ExpFam N E X} {toNat : E → N} {dom : Set N}
    {mdom : Set E} (hI : Inverses F.toExp toNat dom mdom) (hc : Convex ℝ mdom)
    (hd : ∀ v x y (s t : ℝ), F.dot v (s • x + t • y) = s * F.dot v x + t * F.dot v y)
    (hsep : ∀ x y, (∀ v, F.dot v x = F.dot v y) → x = y) {a b : N} (ha : a ∈ dom) (hb : b ∈ dom) {t : ℝ} (h0 : 0 ≤ t)
    (h1 : t ≤ 1) {x : E} (hx : ∀ v, F.dot v x = (1 - t) * F.dot v (F.toExp a) + t * F.dot v (F.toExp b)) :
    toNat x ∈ dom ∧ F.toExp (toNat x) = x := by
  have e : x = (1 - t) • F.toExp a + t • F.toExp b := hsep _ _ fun v => by rw [hx, hd]
  exact hI.2 x (e ▸ hc (hI.1 a ha).1 (hI.1 b hb).1 (by linarith) h0 (by ring))

/-- The pairing of numbers. -/
theorem real_separates {x y : ℝ} (h : ∀ v : ℝ, v * x = v * y) : x = y := by simpa using h 1

theorem vector_separates {d : ℕ} {x y : Fin d → ℝ} (h : ∀ v : Fin d → ℝ, ∑ k, v k * x k = ∑ k, v k * y k) : x = y := by
  funext k
  simpa [Pi.single_apply] using h (Pi.single k 1)

theorem matrix_separates {d : ℕ} {x y : Matrix (Fin d) (Fin d) ℝ}
    (h : ∀ v : Matrix (Fin d) (Fin d) ℝ, ∑ k, ∑ l, v k l * x k l = ∑ k, ∑ l, v k l * y k l) : x = y := by
  ext i j
  simpa [Matrix.single_apply, ite_and, Finset.sum_ite_eq, Finset.sum_ite_eq'] using h (Matrix.single i j 1)

theorem complex_separates {x y : ℂ} (h : ∀ v : ℂ, (v * x).re = (v * y).re) : x = y := by
  refine Complex.ext (by simpa using h 1) ?_
  have := h Complex.I
  simp only [Complex.mul_re, Complex.I_re, Complex.I_im] at this
  linarith

theorem complex_vector_separates {d : ℕ} {x y : Fin d → ℂ}
    (h : ∀ v : Fin d → ℂ, (∑ k, v k * x k).re = (∑ k, v k * y k).re) : x = y := by
  funext k
  refine complex_separates fun v => ?_
  simpa [Pi.single_apply] using h (Pi.single k v)

theorem complex_matrix_separates {d : ℕ} {x y : Matrix (Fin d) (Fin d) ℂ}
    (h : ∀ v : Matrix (Fin d) (Fin d) ℂ, (∑ k, ∑ l, v k l * x k l).re = (∑ k, ∑ l, v k l * y k l).re) : x = y := by
  ext i j
  refine complex_separates fun v => ?_
  simpa [Matrix.single_apply, ite_and, Finset.sum_ite_eq, Finset.sum_ite_eq'] using h (Matrix.single i j v)

theorem convex_normal : Convex ℝ {χ : ℝ × ℝ | χ.1 ^ 2 < χ.2} := by
  rintro ⟨x, u⟩ (hx : x ^ 2 < u) ⟨y, v⟩ (hy : y ^ 2 < v) s t hs ht hst
  show (s * x + t * y) ^ 2 < s * u + t * v
  obtain rfl : s = 1 - t := by linarith
  have e : (1 - t) * u + t * v - ((1 - t) * x + t * y) ^ 2 =
    (1 - t) * (u - x ^ 2) + t * (v - y ^ 2) + t * (1 - t) * (x - y) ^ 2 := by ring
  have h1 : 0 ≤ t * (1 - t) * (x - y) ^ 2 := by positivity
  have h2 : 0 < (1 - t) * (u - x ^ 2) + t * (v - y ^ 2) := by
    rcases hs.eq_or_lt with h | h
    · rw [← h, zero_mul, zero_add]
      have : t = 1 := by linarith
      rw [this]
      linarith
    · have := mul_pos h (sub_pos.2 hx)
      have := mul_nonneg ht (sub_pos.2 hy).le
      linarith
  linarith

theorem convex_diagonal {d : ℕ} : Convex ℝ {χ : (Fin d → ℝ) × (Fin d → ℝ) | ∀ i, χ.1 i ^ 2 < χ.2 i} := by
  rintro x hx y hy s t hs ht hst i
  exact convex_normal (x := (x.1 i, x.2 i)) (hx i) (y := (y.1 i, y.2 i)) (hy i) hs ht hst

theorem pos_average {x y s t : ℝ} (hx : 0 < x) (hy : 0 < y) (hs : 0 ≤ s) (ht : 0 ≤ t) (hst : s + t = 1) :
    0 < s * x + t * y := by
  have := convex_Ioi (𝕜 := ℝ) (0 : ℝ) hx hy hs ht hst
  simpa using this

theorem convex_isotropic {d : ℕ} : Convex ℝ {χ : (Fin d → ℝ) × ℝ | ∑ i, χ.1 i ^ 2 < χ.2} := by
  rintro ⟨x, u⟩ (hx : ∑ i, x i ^ 2 < u) ⟨y, v⟩ (hy : ∑ i, y i ^ 2 < v) s t hs ht hst
  show ∑ i, (s * x i + t * y i) ^ 2 < s * u + t * v
  have h := pos_average (sub_pos.2 hx) (sub_pos.2 hy) hs ht hst
  obtain rfl : s = 1 - t := by linarith
  have e : ∑ i, ((1 - t) * x i + t * y i) ^ 2 ≤ (1 - t) * ∑ i, x i ^ 2 + t * ∑ i, y i ^ 2 := by
    rw [Finset.mul_sum, Finset.mul_sum, ← Finset.sum_add_distrib]
    refine Finset.sum_le_sum fun i _ => ?_
    have : 0 ≤ t * (1 - t) * (x i - y i) ^ 2 := by positivity
    nlinarith
  linarith

theorem convex_posDef {d : ℕ} {𝕜 : Type} [RCLike 𝕜] {A B : Matrix (Fin d) (Fin d) 𝕜} (hA : A.PosDef) (hB : B.PosDef)
    {s t : ℝ} (hs : 0 ≤ s) (ht : 0 ≤ t) (hst : s + t = 1) : (s • A + t • B).PosDef := by
  rcases hs.eq_or_lt with h | h
  · obtain rfl : t = 1 := by linarith
    rwa [← h, zero_smul, zero_add, one_smul]
  · exact (hA.smul h).add_posSemidef (hB.posSemidef.smul ht)

theorem convex_mvNormal {d : ℕ} :
    Convex ℝ {χ : (Fin d → ℝ) × Matrix (Fin d) (Fin d) ℝ | (χ.2 - vecMulVec χ.1 χ.1).PosDef} := by
  rintro ⟨x, u⟩ (hx : (u - vecMulVec x x).PosDef) ⟨y, v⟩ (hy : (v - vecMulVec y y).PosDef) s t hs ht hst
  show (s • u + t • v - vecMulVec (s • x + t • y) (s • x + t • y)).PosDef
  have h := convex_posDef hx hy hs ht hst
  have h2 : ((s * t) • vecMulVec (x - y) (star (x - y))).PosSemidef :=
    (posSemidef_vecMulVec_self_star (x - y)).smul (mul_nonneg hs ht)
  have e : s • u + t • v - vecMulVec (s • x + t • y) (s • x + t • y) =
      s • (u - vecMulVec x x) + t • (v - vecMulVec y y) + (s * t) • vecMulVec (x - y) (star (x - y)) := by
    obtain rfl : s = 1 - t := by linarith
    ext i j
    simp [vecMulVec_apply]
    ring
  rw [e]
  exact h.add_posSemidef h2

theorem convex_complexNormal : Convex ℝ {χ : ℂ × ℝ × ℂ | ‖χ.2.2 - χ.1 ^ 2‖ < χ.2.1 - ‖χ.1‖ ^ 2} := by
  rintro ⟨x, u, z⟩ (hx : ‖z - x ^ 2‖ < u - ‖x‖ ^ 2) ⟨y, v, w⟩ (hy : ‖w - y ^ 2‖ < v - ‖y‖ ^ 2) s t hs ht hst
  show ‖(s • z + t • w) - (s • x + t • y) ^ 2‖ < s * u + t * v - ‖s • x + t • y‖ ^ 2
  have h := pos_average (sub_pos.2 hx) (sub_pos.2 hy) hs ht hst
  obtain rfl : s = 1 - t := by linarith
  have e1 : ((1 - t) • z + t • w) - ((1 - t) • x + t • y) ^ 2 =
      (1 - t) • (z - x ^ 2) + t • (w - y ^ 2) + (t * (1 - t)) • (x - y) ^ 2 := by
    simp only [Complex.real_smul]
    push_cast
    ring
  have e2 : ‖(1 - t) • x + t • y‖ ^ 2 = (1 - t) * ‖x‖ ^ 2 + t * ‖y‖ ^ 2 - t * (1 - t) * ‖x - y‖ ^ 2 := by
    simp only [← Complex.normSq_eq_norm_sq, Complex.normSq_apply, Complex.add_re, Complex.add_im, Complex.smul_re,
      Complex.smul_im, Complex.sub_re, Complex.sub_im, smul_eq_mul]
    ring
  have h1 : ‖(1 - t) • (z - x ^ 2) + t • (w - y ^ 2) + (t * (1 - t)) • (x - y) ^ 2‖ ≤
      (1 - t) * ‖z - x ^ 2‖ + t * ‖w - y ^ 2‖ + t * (1 - t) * ‖x - y‖ ^ 2 := by
    refine (norm_add₃_le).trans (le_of_eq ?_)
    rw [norm_smul, norm_smul, norm_smul, norm_pow, Real.norm_of_nonneg hs, Real.norm_of_nonneg ht,
      Real.norm_of_nonneg (mul_nonneg ht hs)]
  rw [e1, e2]
  linarith

theorem convex_simplex {d : ℕ} : Convex ℝ (simplex d) := by
  rintro x hx y hy s t hs ht hst
  refine ⟨fun i => pos_average (hx.1 i) (hy.1 i) hs ht hst, ?_⟩
  have h := pos_average (sub_pos.2 hx.2) (sub_pos.2 hy.2) hs ht hst
  have e : ∑ i, (s • x + t • y) i = s * ∑ i, x i + t * ∑ i, y i := by
    simp [Finset.mul_sum, Finset.sum_add_distrib]
  rw [e]
  linarith

variable [MachEps] {solve : Solver}

theorem simple_averages (s : Simple) : (s.setting solve).Averages := by
  intro hcl p hp a ha b hb t h0 h1 x hx
  have real : ∀ (v x y : ℝ) (s t : ℝ), v * (s * x + t * y) = s * (v * x) + t * (v * y) := fun v x y s t => by ring
  have vec : ∀ {d : ℕ} (v x y : Fin d → ℝ) (s t : ℝ),
      ∑ k, v k * (s * x k + t * y k) = s * ∑ k, v k * x k + t * ∑ k, v k * y k := fun v x y s t => by
    simp only [mul_add, Finset.mul_sum, Finset.sum_add_distrib, mul_left_comm]
  have mat : ∀ {d : ℕ} (v x y : Matrix (Fin d) (Fin d) ℝ) (s t : ℝ),
      ∑ k, ∑ l, v k l * (s * x k l + t * y k l) = s * ∑ k, ∑ l, v k l * x k l + t * ∑ k, ∑ l, v k l * y k l :=
    fun v x y s t => by simp only [mul_add, Finset.mul_sum, Finset.sum_add_distrib, mul_left_comm]
  have com : ∀ (v x y : ℂ) (s t : ℝ), (v * (s • x + t • y)).re = s * (v * x).re + t * (v * y).re :=
    fun v x y s t => by simp [mul_add]; ring
  cases s
  case beta | chi | chiSquare | dirichlet | gamma | genDirichlet | logarithmic | vonMisesFisher => exact hcl.elim
  case bernoulli =>
    obtain ⟨k1, k2⟩ := averages_of (E := ℝ) C31_bernoulli (convex_Ioo 0 1) real (fun x y h => real_separates h) ha hb h0 h1 hx
    exact ⟨k1, k2, trivial, trivial⟩
  case exponential =>
    obtain ⟨k1, k2⟩ := averages_of (E := ℝ) C31_exponential (convex_Ioi 0) real (fun x y h => real_separates h) ha hb h0 h1 hx
    exact ⟨k1, k2, trivial, trivial⟩
  case rayleigh =>
    obtain ⟨k1, k2⟩ := averages_of (E := ℝ) C31_rayleigh (convex_Ioi 0) real (fun x y h => real_separates h) ha hb h0 h1 hx
    exact ⟨k1, k2, trivial, trivial⟩
  case weibull =>
    obtain ⟨k1, k2⟩ := averages_of (E := ℝ) (C31_weibull p) (convex_Ioi 0) real (fun x y h => real_separates h) ha hb h0 h1 hx
    exact ⟨k1, k2, trivial, trivial⟩
  case geometric =>
    obtain ⟨k1, k2⟩ := averages_of (E := ℝ) C31_geometric (convex_Ioi 0) real (fun x y h => real_separates h) ha hb h0 h1 hx
    exact ⟨k1, k2, trivial, trivial⟩
  case negativeBinomial =>
    obtain ⟨k1, k2⟩ := averages_of (E := ℝ) (C31_negative_binomial hp) (convex_Ioi 0) real (fun x y h => real_separates h)
      ha hb h0 h1 hx
    exact ⟨k1, k2, trivial, trivial⟩
  case poisson =>
    obtain ⟨k1, k2⟩ := averages_of (E := ℝ) C31_poisson (convex_Ioi 0) real (fun x y h => real_separates h) ha hb h0 h1 hx
    exact ⟨k1, k2, trivial, trivial⟩
  case unitNormal =>
    obtain ⟨k1, k2⟩ := averages_of (E := ℝ) C31_unit_normal convex_univ real (fun x y h => real_separates h) ha hb h0 h1 hx
    exact ⟨k1, k2, trivial, trivial⟩
  case multinomial d =>
    obtain ⟨k1, k2⟩ := averages_of (E := Fin (d + 1) → ℝ) (C31_multinomial d) convex_simplex vec
      (fun x y h => vector_separates h) ha hb h0 h1 hx
    exact ⟨k1, k2, trivial, trivial⟩
  case mvUnit d =>
    obtain ⟨k1, k2⟩ := averages_of (E := Fin d → ℝ) C31_mv_unit convex_univ vec
      (fun x y h => vector_separates h) ha hb h0 h1 hx
    exact ⟨k1, k2, trivial, trivial⟩
  case mvFixed d =>
    obtain ⟨k1, k2⟩ := averages_of (E := Fin d → ℝ) (C31_mv_fixed hp) convex_univ vec
      (fun x y h => vector_separates h) ha hb h0 h1 hx
    exact ⟨k1, k2, trivial, trivial⟩
  case normal =>
    have hd : ∀ v x y (s t : ℝ), normal.dot v (s • x + t • y) = s * normal.dot v x + t * normal.dot v y :=
      fun v x y s t => by
        show v.1 * (s * x.1 + t * y.1) + v.2 * (s * x.2 + t * y.2) =
          s * (v.1 * x.1 + v.2 * x.2) + t * (v.1 * y.1 + v.2 * y.2)
        ring
    have hsep : ∀ x y, (∀ v, normal.dot v x = normal.dot v y) → x = y := fun x y h => by
      have h1 : ∀ v : ℝ × ℝ, v.1 * x.1 + v.2 * x.2 = v.1 * y.1 + v.2 * y.2 := h
      exact Prod.ext (by simpa using h1 (1, 0)) (by simpa using h1 (0, 1))
    obtain ⟨k1, k2⟩ := averages_of C31_normal convex_normal hd hsep ha hb h0 h1 hx
    exact ⟨k1, k2, trivial, trivial⟩
  case mvDiagonal d =>
    have hd : ∀ v x y (s t : ℝ), (mvDiagonal d).dot v (s • x + t • y) =
        s * (mvDiagonal d).dot v x + t * (mvDiagonal d).dot v y := fun v x y s t => by
      show ∑ k, v.1 k * (s * x.1 k + t * y.1 k) + ∑ k, v.2 k * (s * x.2 k + t * y.2 k) =
        s * (∑ k, v.1 k * x.1 k + ∑ k, v.2 k * x.2 k) + t * (∑ k, v.1 k * y.1 k + ∑ k, v.2 k * y.2 k)
      rw [vec, vec]
      ring
    have hsep : ∀ x y, (∀ v, (mvDiagonal d).dot v x = (mvDiagonal d).dot v y) → x = y := fun x y h => by
      have h1 : ∀ v : (Fin d → ℝ) × (Fin d → ℝ), ∑ k, v.1 k * x.1 k + ∑ k, v.2 k * x.2 k =
        ∑ k, v.1 k * y.1 k + ∑ k, v.2 k * y.2 k := h
      exact Prod.ext (vector_separates fun v => by simpa using h1 (v, 0))
        (vector_separates fun v => by simpa using h1 (0, v))
    obtain ⟨k1, k2⟩ := averages_of C31_mv_diagonal convex_diagonal hd hsep ha hb h0 h1 hx
    exact ⟨k1, k2, trivial, trivial⟩
  case mvIsotropic d =>
    obtain ⟨d, rfl⟩ : ∃ n, d = n + 1 := Nat.exists_eq_succ_of_ne_zero (Nat.pos_iff_ne_zero.1 hp)
    have hd : ∀ v x y (s t : ℝ), (mvIsotropic (d + 1)).dot v (s • x + t • y) =
        s * (mvIsotropic (d + 1)).dot v x + t * (mvIsotropic (d + 1)).dot v y := fun v x y s t => by
      show ∑ k, v.1 k * (s * x.1 k + t * y.1 k) + v.2 * (s * x.2 + t * y.2) =
        s * (∑ k, v.1 k * x.1 k + v.2 * x.2) + t * (∑ k, v.1 k * y.1 k + v.2 * y.2)
      rw [vec]
      ring
    have hsep : ∀ x y, (∀ v, (mvIsotropic (d + 1)).dot v x = (mvIsotropic (d + 1)).dot v y) → x = y := fun x y h => by
      have h1 : ∀ v : (Fin (d + 1) → ℝ) × ℝ, ∑ k, v.1 k * x.1 k + v.2 * x.2 = ∑ k, v.1 k * y.1 k + v.2 * y.2 := h
      exact Prod.ext (vector_separates fun v => by simpa using h1 (v, 0)) (by simpa using h1 (0, 1))
    obtain ⟨k1, k2⟩ := averages_of C31_mv_isotropic convex_isotropic hd hsep ha hb h0 h1 hx
    exact ⟨k1, k2, trivial, trivial⟩
  case mvNormal d =>
    have hd : ∀ v x y (s t : ℝ), (mvNormal d).dot v (s • x + t • y) =
        s * (mvNormal d).dot v x + t * (mvNormal d).dot v y := fun v x y s t => by
      show ∑ k, v.1 k * (s * x.1 k + t * y.1 k) + ∑ k, ∑ l, v.2 k l * (s * x.2 k l + t * y.2 k l) =
        s * (∑ k, v.1 k * x.1 k + ∑ k, ∑ l, v.2 k l * x.2 k l) + t * (∑ k, v.1 k * y.1 k + ∑ k, ∑ l, v.2 k l * y.2 k l)
      rw [vec, mat]
      ring
    have hsep : ∀ x y, (∀ v, (mvNormal d).dot v x = (mvNormal d).dot v y) → x = y := fun x y h => by
      have h1 : ∀ v : (Fin d → ℝ) × Matrix (Fin d) (Fin d) ℝ, ∑ k, v.1 k * x.1 k + ∑ k, ∑ l, v.2 k l * x.2 k l =
        ∑ k, v.1 k * y.1 k + ∑ k, ∑ l, v.2 k l * y.2 k l := h
      exact Prod.ext (vector_separates fun v => by simpa using h1 (v, 0))
        (matrix_separates fun v => by simpa using h1 (0, v))
    obtain ⟨k1, k2⟩ := averages_of C31_mv_normal convex_mvNormal hd hsep ha hb h0 h1 hx
    exact ⟨k1, k2, trivial, trivial⟩
  case complexUnit =>
    obtain ⟨k1, k2⟩ := averages_of (E := ℂ) C31_complex_unit convex_univ com
      (fun x y h => complex_separates h) ha hb h0 h1 hx
    exact ⟨k1, k2, trivial, trivial⟩
  case complexNormal =>
    have hd : ∀ v x y (s t : ℝ), complexNormal.dot v (s • x + t • y) =
        s * complexNormal.dot v x + t * complexNormal.dot v y := fun v x y s t => by
      show (v.1 * (s • x.1 + t • y.1)).re + v.2.1 * (s * x.2.1 + t * y.2.1) + (v.2.2 * (s • x.2.2 + t • y.2.2)).re =
        s * ((v.1 * x.1).re + v.2.1 * x.2.1 + (v.2.2 * x.2.2).re) +
          t * ((v.1 * y.1).re + v.2.1 * y.2.1 + (v.2.2 * y.2.2).re)
      rw [com, com]
      ring
    have hsep : ∀ x y, (∀ v, complexNormal.dot v x = complexNormal.dot v y) → x = y := fun x y h => by
      have h1 : ∀ v : ℂ × ℝ × ℂ, (v.1 * x.1).re + v.2.1 * x.2.1 + (v.2.2 * x.2.2).re =
        (v.1 * y.1).re + v.2.1 * y.2.1 + (v.2.2 * y.2.2).re := h
      exact Prod.ext (complex_separates fun v => by simpa using h1 (v, 0, 0))
        (Prod.ext (by simpa using h1 (0, 1, 0)) (complex_separates fun v => by simpa using h1 (0, 0, v)))
    obtain ⟨k1, k2⟩ := averages_of C31_complex_normal convex_complexNormal hd hsep ha hb h0 h1 hx
    exact ⟨k1, k2, trivial, trivial⟩
  case cmvUnit d =>
    have hd : ∀ v x y (s t : ℝ), (cmvUnit d).dot v (s • x + t • y) =
        s * (cmvUnit d).dot v x + t * (cmvUnit d).dot v y := fun v x y s t => by
      show (∑ k, v k * (s • x k + t • y k)).re = s * (∑ k, v k * x k).re + t * (∑ k, v k * y k).re
      simp only [Complex.re_sum, com, Finset.mul_sum, Finset.sum_add_distrib]
    obtain ⟨k1, k2⟩ := averages_of C31_cmv_unit convex_univ hd (fun x y h => complex_vector_separates h) ha hb h0 h1 hx
    exact ⟨k1, k2, trivial, trivial⟩
  case cmvCircular d =>
    have hd : ∀ v x y (s t : ℝ), (cmvCircular d).dot v (s • x + t • y) =
        s * (cmvCircular d).dot v x + t * (cmvCircular d).dot v y := fun v x y s t => by
      show (∑ k, ∑ l, v k l * (s • x k l + t • y k l)).re =
        s * (∑ k, ∑ l, v k l * x k l).re + t * (∑ k, ∑ l, v k l * y k l).re
      simp only [Complex.re_sum, com, Finset.mul_sum, Finset.sum_add_distrib]
    obtain ⟨k1, k2⟩ := averages_of C31_cmv_circular (fun x hx y hy s t hs ht hst => convex_posDef hx hy hs ht hst) hd
      (fun x y h => complex_matrix_separates h) ha hb h0 h1 hx
    exact ⟨k1, k2, trivial, trivial⟩

end Efax
