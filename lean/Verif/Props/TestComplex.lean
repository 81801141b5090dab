import Verif.Model.Tests.Bodies7
import Verif.Props.Scipy.MvArrays
import Verif.Props.TestSampling
import Verif.Props.TestDetect
import Verif.Spec.TestComplex

/-!
# The tests of the replacements for `scipy.stats` (C89)
-/

namespace Efax

open Spec Tests Scipy Matrix
open scoped ComplexOrder

variable {g : Rng}

/-! ### Mixtures of directions -/

section mixture

variable {d : ℕ} {s : Finset ℕ} {p : ℕ → ℝ} {Z : ℕ → Fin d → ℂ}

/-- The variance of directions with weights, and of independent noise. -/
noncomputable def mixVariance (s : Finset ℕ) (p : ℕ → ℝ) (Z : ℕ → Fin d → ℂ) : Matrix (Fin d) (Fin d) ℂ :=
  ∑ k ∈ s, (p k : ℂ) • vecMulVec (Z k) (star (Z k)) + 1

/-- The pseudo-variance. -/
noncomputable def mixPseudo (s : Finset ℕ) (p : ℕ → ℝ) (Z : ℕ → Fin d → ℂ) (t : ℝ) : Matrix (Fin d) (Fin d) ℂ :=
  (t : ℂ) • ∑ k ∈ s, (p k : ℂ) • vecMulVec (Z k) (Z k)

theorem rank_one (a b x y : Fin d → ℂ) : x ⬝ᵥ vecMulVec a b *ᵥ y = (x ⬝ᵥ a) * (b ⬝ᵥ y) := by
  rw [vecMulVec_mulVec]
  simp [dotProduct_smul, mul_comm]

theorem mixVariance_form (w : Fin d → ℂ) : star w ⬝ᵥ mixVariance s p Z *ᵥ w =
    ∑ k ∈ s, (p k : ℂ) * ((‖star w ⬝ᵥ Z k‖ ^ 2 : ℝ) : ℂ) + star w ⬝ᵥ w := by
  rw [mixVariance, add_mulVec, dotProduct_add, one_mulVec, sum_mulVec, dotProduct_sum]
  refine congrArg (· + _) (Finset.sum_congr rfl fun k _ => ?_)
  rw [smul_mulVec, dotProduct_smul, rank_one, smul_eq_mul]
  have : star (Z k) ⬝ᵥ w = (starRingEnd ℂ) (star w ⬝ᵥ Z k) := by
    rw [starRingEnd_apply, star_dotProduct]
  rw [this, Complex.mul_conj, Complex.normSq_eq_norm_sq]

theorem mixPseudo_form (t : ℝ) (w : Fin d → ℂ) : star w ⬝ᵥ mixPseudo s p Z t *ᵥ star w =
    (t : ℂ) * ∑ k ∈ s, (p k : ℂ) * (star w ⬝ᵥ Z k) ^ 2 := by
  rw [mixPseudo, smul_mulVec, dotProduct_smul, smul_eq_mul, sum_mulVec, dotProduct_sum]
  refine congrArg _ (Finset.sum_congr rfl fun k _ => ?_)
  rw [smul_mulVec, dotProduct_smul, rank_one, smul_eq_mul, dotProduct_comm (Z k), sq]

theorem mixVariance_hermitian : (mixVariance s p Z).IsHermitian := by
  ext i j
  simp [mixVariance, conjTranspose_apply, Matrix.add_apply, Matrix.sum_apply, Matrix.smul_apply, vecMulVec_apply, one_apply, mul_comm,
    eq_comm, apply_ite (starRingEnd ℂ)]

theorem mixPseudo_symm {t : ℝ} : (mixPseudo s p Z t).IsSymm := by
  ext i j
  simp [mixPseudo, transpose_apply, Matrix.sum_apply, Matrix.smul_apply, vecMulVec_apply, mul_comm]

theorem complexMvCov_symm {V P : Matrix (Fin d) (Fin d) ℂ} (hV : V.IsHermitian) (hP : P.IsSymm) :
    (Textbook.complexMvCov V P).IsHermitian := by
  have h1 : ∀ i j, V j i = (starRingEnd ℂ) (V i j) := fun i j => (hV.apply j i).symm
  have h2 : ∀ i j, P j i = P i j := fun i j => hP.apply i j
  ext i j
  rcases i with i | i <;> rcases j with j | j <;>
    simp [Textbook.complexMvCov, conjTranspose_apply, h1 i j, h2 i j] <;> ring

theorem mix_form_le (hp : ∀ k ∈ s, 0 ≤ p k) {t : ℝ} (ht : |t| ≤ 1) (w : Fin d → ℂ) :
    (star w ⬝ᵥ w).re ≤
      (star w ⬝ᵥ mixVariance s p Z *ᵥ w).re + (star w ⬝ᵥ mixPseudo s p Z t *ᵥ star w).re := by
  rw [mixVariance_form, mixPseudo_form, Complex.add_re, Complex.re_ofReal_mul, Complex.re_sum, Complex.re_sum,
    Finset.mul_sum]
  have : 0 ≤ ∑ k ∈ s, (p k * ‖star w ⬝ᵥ Z k‖ ^ 2 + t * (p k * ((star w ⬝ᵥ Z k) ^ 2).re)) := by
    refine Finset.sum_nonneg fun k hk => ?_
    have h1 : |((star w ⬝ᵥ Z k) ^ 2).re| ≤ ‖star w ⬝ᵥ Z k‖ ^ 2 := by
      rw [← norm_pow]
      exact Complex.abs_re_le_norm _
    have h2 : |t * ((star w ⬝ᵥ Z k) ^ 2).re| ≤ 1 * ‖star w ⬝ᵥ Z k‖ ^ 2 := by
      rw [abs_mul]
      exact mul_le_mul ht h1 (abs_nonneg _) zero_le_one
    have h3 := (abs_le.1 h2).1
    nlinarith [mul_nonneg (hp k hk) (by linarith : (0 : ℝ) ≤
      ‖star w ⬝ᵥ Z k‖ ^ 2 + t * ((star w ⬝ᵥ Z k) ^ 2).re)]
  rw [Finset.sum_add_distrib] at this
  simp only [Complex.re_ofReal_mul, Complex.ofReal_re]
  linarith

theorem mix_posDef (hp : ∀ k ∈ s, 0 ≤ p k) {t : ℝ} (ht : |t| ≤ 1) :
    (Textbook.complexMvCov (mixVariance s p Z) (mixPseudo s p Z t)).PosDef := by
  refine posDef_iff_dotProduct_mulVec.2 ⟨complexMvCov_symm mixVariance_hermitian mixPseudo_symm, fun {x} hx => ?_⟩
  have e : x = Textbook.mvParts fun i => ⟨x (.inl i), x (.inr i)⟩ := by
    ext i
    rcases i with i | i <;> rfl
  rw [star_trivial]
  generalize (fun i => (⟨x (.inl i), x (.inr i)⟩ : ℂ)) = w at e
  subst e
  rw [complexMvCov_form]
  have h1 := mix_form_le (Z := Z) hp ht w
  have h2 : 0 < (star w ⬝ᵥ w).re := by
    have : w ≠ 0 := fun h => hx (by subst h; ext i; rcases i with i | i <;> rfl)
    have := dotProduct_star_self_pos_iff.2 this
    exact (Complex.pos_iff.1 this).1
  linarith

end mixture

/-! ### The builders -/

theorem assertAllclose_iff {rtol atol : ℝ} {a b : Arr ℂ} {rs : List ℕ} (ha : a.rshape = rs) (hb : b.rshape = rs)
    {u : Unit} : assertAllclose rtol atol a b = .ok u ↔ ∀ i, inB rs i = true → Near rtol atol (a.get i) (b.get i) := by
  rw [assertAllclose, check_iff, allclose_same (v := .complex a) (w := .complex b) (ha.trans hb.symm)]
  change (∀ i, inB b.rshape i = true → _) ↔ _
  rw [hb]
  rfl

/-- `build_uvcn` makes distributions, for all draws, with the parameters that were drawn. -/
theorem C89_build_univariate (hg : InRange g) {beta : List ℕ → g.State → Arr ℝ × g.State} {rs : List ℕ}
    (hb : ∀ s, (beta rs s).1.rshape = rs ∧ ∀ i, inB rs i = true → 0 ≤ (beta rs s).1.get i ∧ (beta rs s).1.get i ≤ 1)
    (s : g.State) :
    let a := g.normal rs s
    let b := g.normal rs a.2
    let v := g.exponential rs b.2
    let t := beta rs v.2
    let u := g.uniform rs t.2
    ∃ D, buildUvcn g beta rs s = .ok (D, u.2) ∧ D.shape = rs.reverse ∧ D.rvsShape = [] ∧
      ∀ i, inB rs i = true →
        (D.objects i.reverse).mean = ⟨a.1.get i / 2, b.1.get i / 2⟩ ∧
        (D.objects i.reverse).variance = v.1.get i ∧
        ‖(D.objects i.reverse).pseudoVariance‖ = t.1.get i * v.1.get i ∧
        (D.objects i.reverse).pseudoVariance = ⟨t.1.get i * v.1.get i * Real.cos (2 * Real.pi * u.1.get i),
          t.1.get i * v.1.get i * Real.sin (2 * Real.pi * u.1.get i)⟩ ∧
        (Textbook.complexCov (D.objects i.reverse).variance (D.objects i.reverse).pseudoVariance).PosSemidef := by
  intro a b v t u
  have hn : ∀ i, inB rs i = true → ‖(v.1.get i : ℂ) * (t.1.get i : ℂ) *
      Complex.exp (Complex.I * ((2 * Real.pi * u.1.get i : ℝ) : ℂ))‖ = t.1.get i * v.1.get i := by
    intro i hi
    have h1 : 0 ≤ v.1.get i := hg.exponential_nonneg rs _ i hi
    have h2 : 0 ≤ t.1.get i := ((hb v.2).2 i hi).1
    rw [norm_mul, norm_mul, mul_comm Complex.I, Complex.norm_exp_ofReal_mul_I, mul_one, Complex.norm_real,
      Complex.norm_real, Real.norm_of_nonneg h1, Real.norm_of_nonneg h2, mul_comm]
  have hs : ∀ i, inB rs i = true → t.1.get i * v.1.get i ≤ v.1.get i := fun i hi =>
    mul_le_of_le_one_left (hg.exponential_nonneg rs _ i hi) ((hb v.2).2 i hi).2
  have h := (complexNormalNew_eq (rs := rs) (mean := some (randomComplexArray g rs s).1) (variance := some v.1)
    (pseudo := some (Arr.ofFn rs fun i => (v.1.get i : ℂ) * (t.1.get i : ℂ) *
      Complex.exp (Complex.I * ((2 * Real.pi * u.1.get i : ℝ) : ℂ))))
    (by rintro _ ⟨⟩; rfl) (by rintro _ ⟨⟩; exact hg.exponential_shape _ _) (by rintro _ ⟨⟩; rfl) (.inl rfl)).2
    ⟨fun i hi => ?_, rfl⟩
  · have h' : buildUvcn g beta rs s = _ := congrArg
      (fun E => E >>= fun D => (.ok (D, u.2) : Except Err (Shaped ComplexNormalData × g.State))) h
    refine ⟨_, h'.trans rfl, rfl, rfl, fun i hi => ?_⟩
    · simp only [Option.getD_some, List.reverse_reverse]
      rw [Arr.ofFn_get hi, hn i hi]
      refine ⟨?_, trivial, rfl, ?_, ?_⟩
      · refine (Arr.ofFn_get hi).trans ?_
        apply Complex.ext <;> simp [a, b] <;> ring
      · rw [mul_comm Complex.I]
        apply Complex.ext
        · rw [← Complex.ofReal_mul, Complex.re_ofReal_mul, Complex.exp_ofReal_mul_I_re, mul_comm (v.1.get i)]
        · rw [← Complex.ofReal_mul, Complex.im_ofReal_mul, Complex.exp_ofReal_mul_I_im, mul_comm (v.1.get i)]
      · rw [complexCov_posSemidef, hn i hi]
        exact hs i hi
  · rw [complexCov_posSemidef]
    simp only [scalarAt, Option.elim_some]
    rw [Arr.ofFn_get hi, hn i hi]
    exact hs i hi

theorem weighted_eq (f : ℕ → ℂ) : weighted f = ∑ k ∈ Finset.range 3, ((weight k / 7.5 : ℝ) : ℂ) * f k := by
  simp [weighted, directions, weight, Finset.sum_range_succ]
  norm_num
  ring

theorem weight_nonneg (k : ℕ) : 0 ≤ weight k / 7.5 := by
  unfold weight
  positivity

variable {rs : List ℕ} {d : ℕ}

theorem mvcnVariance_mix (z : Arr ℂ) {i : List ℕ} (hi : inB rs i = true) :
    (fun r c : Fin d => (mvcnVariance rs d z).get (c.val :: r.val :: i)) =
      mixVariance (Finset.range 3) (fun k => weight k / 7.5) fun k r => z.get (k :: r.val :: i) := by
  ext r c
  rw [mvcnVariance, Arr.ofFn_get (by simp [inB, hi]), mixVariance, Matrix.add_apply, Matrix.sum_apply]
  simp only [List.headD_cons, List.tail_cons, weighted_eq, Matrix.smul_apply, vecMulVec_apply, one_apply, Fin.ext_iff]
  refine congrArg (· + _) (Finset.sum_congr rfl fun k _ => ?_)
  simp [mul_comm]

theorem mvcnPseudo_mix (z : Arr ℂ) (t : ℝ) {i : List ℕ} (hi : inB rs i = true) :
    (fun r c : Fin d => (mvcnPseudoVariance rs d z t).get (c.val :: r.val :: i)) =
      mixPseudo (Finset.range 3) (fun k => weight k / 7.5) (fun k r => z.get (k :: r.val :: i)) t := by
  ext r c
  rw [mvcnPseudoVariance, Arr.ofFn_get (by simp [inB, hi]), mixPseudo, Matrix.smul_apply, Matrix.sum_apply]
  simp only [List.headD_cons, List.tail_cons, weighted_eq, Matrix.smul_apply, vecMulVec_apply, smul_eq_mul]
  rw [mul_comm]
  refine congrArg _ (Finset.sum_congr rfl fun k _ => ?_)
  rw [mul_comm (z.get _)]

theorem mixVariance_apply (Z : ℕ → Fin d → ℂ) (k l : Fin d) :
    mixVariance (Finset.range 3) (fun k => weight k / 7.5) Z k l = (3 * (Z 0 k * star (Z 0 l)) +
      5 * (Z 1 k * star (Z 1 l)) + 7 * (Z 2 k * star (Z 2 l))) / 15 + (1 : Matrix (Fin d) (Fin d) ℂ) k l := by
  simp only [mixVariance, Matrix.add_apply, Matrix.sum_apply, Matrix.smul_apply, vecMulVec_apply,
    Finset.sum_range_succ, Finset.sum_range_zero, weight, smul_eq_mul, Pi.star_apply, Matrix.zero_apply]
  push_cast
  ring

theorem mixPseudo_apply (t : ℝ) (Z : ℕ → Fin d → ℂ) (k l : Fin d) :
    mixPseudo (Finset.range 3) (fun k => weight k / 7.5) Z t k l =
      t * (3 * (Z 0 k * Z 0 l) + 5 * (Z 1 k * Z 1 l) + 7 * (Z 2 k * Z 2 l)) / 15 := by
  simp only [mixPseudo, Matrix.add_apply, Matrix.sum_apply, Matrix.smul_apply, vecMulVec_apply,
    Finset.sum_range_succ, Finset.sum_range_zero, weight, smul_eq_mul, Matrix.zero_apply]
  push_cast
  ring

/-- `build_mvcn` makes distributions with densities, for all draws and every number of dimensions: the mixture
of three directions with the weights 3 : 5 : 7, and independent noise. -/
theorem C89_build_multivariate (rs : List ℕ) (d : ℕ) {t : ℝ} (ht : |t| ≤ 1) (s : g.State) :
    let a := g.normal (d :: rs) s
    let b := g.normal (d :: rs) a.2
    let x := g.normal (3 :: d :: rs) b.2
    let y := g.normal (3 :: d :: rs) x.2
    ∃ D : Shaped (ComplexMvNormalData d), buildMvcn g rs d t s = .ok (⟨d, D⟩, y.2) ∧
      D.shape = rs.reverse ∧ D.rvsShape = [d] ∧ ∀ i, inB rs i = true →
        let z : Fin 3 → Fin d → ℂ := fun k j => ⟨x.1.get (k.val :: j.val :: i) / 2, y.1.get (k.val :: j.val :: i) / 2⟩
        (∀ k : Fin d, (D.objects i.reverse).mean k = ⟨a.1.get (k.val :: i) / 2, b.1.get (k.val :: i) / 2⟩) ∧
        (∀ k l : Fin d, (D.objects i.reverse).variance k l = (3 * (z 0 k * star (z 0 l)) + 5 * (z 1 k * star (z 1 l)) +
          7 * (z 2 k * star (z 2 l))) / 15 + (1 : Matrix (Fin d) (Fin d) ℂ) k l) ∧
        (∀ k l : Fin d, (D.objects i.reverse).pseudoVariance k l =
          t * (3 * (z 0 k * z 0 l) + 5 * (z 1 k * z 1 l) + 7 * (z 2 k * z 2 l)) / 15) ∧
        (Textbook.complexMvCov (D.objects i.reverse).variance (D.objects i.reverse).pseudoVariance).PosDef := by
  intro a b x y
  set Z := (randomComplexArray g (3 :: d :: rs) b.2).1 with hZ
  have h := (complexMvNormalNew_eq (rs := rs) (d := d) (cmean := some (randomComplexArray g (d :: rs) s).1)
    (variance := some (mvcnVariance rs d Z)) (pseudo := some (mvcnPseudoVariance rs d Z t))
    (by rintro _ ⟨⟩; rfl) (by rintro _ ⟨⟩; rfl) (by rintro _ ⟨⟩; rfl) (.inl rfl)).2
    ⟨fun i hi => ?_, rfl⟩
  · have h' : buildMvcn g rs d t s = _ := congrArg
      (fun E => E >>= fun D => (.ok (D, y.2) : Except Err ((Σ d, Shaped (ComplexMvNormalData d)) × g.State))) h
    refine ⟨_, h'.trans rfl, rfl, rfl, fun i hi => ?_⟩
    · intro z
      have hz : ∀ (k : Fin 3) (j : Fin d), Z.get (k.val :: j.val :: i) = z k j := fun k j => by
        refine (Arr.ofFn_get (by simp [inB, hi])).trans ?_
        apply Complex.ext <;> simp [z, x, y] <;> ring
      have h0 := hz 0
      have h1 := hz 1
      have h2 := hz 2
      simp only [Fin.val_zero, Fin.val_one, Fin.val_two] at h0 h1 h2
      simp only [Option.getD_some, List.reverse_reverse]
      rw [mvcnVariance_mix Z hi, mvcnPseudo_mix Z t hi]
      refine ⟨fun k => ?_, fun k l => ?_, fun k l => ?_, mix_posDef (fun k _ => weight_nonneg k) ht⟩
      · refine (Arr.ofFn_get (by simp [inB, hi])).trans ?_
        apply Complex.ext <;> simp [a, b] <;> ring
      · refine (congrFun (congrFun (mvcnVariance_mix Z hi) k) l).trans ((mixVariance_apply _ k l).trans ?_)
        rw [h0, h0, h1, h1, h2, h2]
      · refine (congrFun (congrFun (mvcnPseudo_mix Z t hi) k) l).trans ((mixPseudo_apply t _ k l).trans ?_)
        rw [h0, h0, h1, h1, h2, h2]
  · refine C58_cmv_accepts ?_
    have e1 : matrixAt (n := d) (some (mvcnVariance rs d Z)) 1 i = _ := mvcnVariance_mix Z hi
    have e2 : matrixAt (n := d) (some (mvcnPseudoVariance rs d Z t)) 0 i = _ := mvcnPseudo_mix Z t hi
    rw [e1, e2]
    exact (mix_posDef (fun k _ => weight_nonneg k) ht).posSemidef

/-! ### Draws -/

theorem average2_eq (m n : ℕ) (f : ℕ → ℕ → ℂ) : average2 m n f = average m n f := by
  rw [average2, average, Fintype.sum_prod_type, Finset.sum_range]
  simp only [Finset.sum_range, Nat.cast_mul]

theorem variance_average (m n : ℕ) (f : ℕ → ℕ → ℂ) (c : ℂ) :
    ((average m n fun a b => (starRingEnd ℂ) (f a b - c) * (f a b - c)).re : ℂ) =
      average m n fun a b => ((‖f a b - c‖ ^ 2 : ℝ) : ℂ) := by
  have : (average m n fun a b => (starRingEnd ℂ) (f a b - c) * (f a b - c)) =
      average m n fun a b => ((‖f a b - c‖ ^ 2 : ℝ) : ℂ) := by
    congr 1
    funext a b
    rw [mul_comm, Complex.mul_conj, Complex.normSq_eq_norm_sq]
  rw [this, average, ← Complex.ofReal_sum]
  norm_cast

theorem Arr.map_of {α β : Type} [Inhabited α] [Inhabited β] (f : α → β) (rs : List ℕ) (h : List ℕ → α) :
    (Arr.ofFn rs h).map f = Arr.ofFn rs fun i => f (h i) := by
  refine Arr.ext rfl fun i hi => ?_
  have hi : inB rs i = true := hi
  rw [Arr.map_get (a := Arr.ofFn rs h) hi, Arr.ofFn_get hi, Arr.ofFn_get hi]

theorem close_ofFn {rtol atol : ℝ} {rs : List ℕ} {f h : List ℕ → ℂ} {u : Unit} :
    assertAllclose rtol atol (Arr.ofFn rs f) (Arr.ofFn rs h) = .ok u ↔
      ∀ i, inB rs i = true → Near rtol atol (f i) (h i) := by
  rw [assertAllclose_iff (rs := rs) rfl rfl]
  refine forall₂_congr fun i hi => ?_
  rw [Arr.ofFn_get hi, Arr.ofFn_get hi]

/-- The test of draws of complex numbers passes exactly when the averages are close to the parameters of the
distributions. -/
theorem C89_univariate_rvs (hg : InRange g) {beta : List ℕ → g.State → Arr ℝ × g.State}
    (hb : ∀ s, (beta [2, 3] s).1.rshape = [2, 3] ∧
      ∀ i, inB [2, 3] i = true → 0 ≤ (beta [2, 3] s).1.get i ∧ (beta [2, 3] s).1.get i ≤ 1)
    (draw : List ℕ → List ℕ → g.State → Arr ℝ × g.State) (s : g.State) :
    ∃ D s₁ r s₂, buildUvcn g beta [2, 3] s = .ok (D, s₁) ∧
      (complexNormalShaped D draw).rvs (some (.inr [50, 100])) s₁ = .ok (r, s₂) ∧
      ∀ s', testUnivariateRvs g beta draw s = .ok s' ↔ s' = s₂ ∧ ∀ i, inB [2, 3] i = true →
        let m := (D.objects i.reverse).mean
        Near 0 0.02 (average 50 100 fun a b => r.get (b :: a :: i)) m ∧
        Near 0.03 0.02 (average 50 100 fun a b => ((‖r.get (b :: a :: i) - m‖ ^ 2 : ℝ) : ℂ))
          (D.objects i.reverse).variance ∧
        Near 0.03 0.02 (average 50 100 fun a b => (r.get (b :: a :: i) - m) * (r.get (b :: a :: i) - m))
          (D.objects i.reverse).pseudoVariance := by
  obtain ⟨D, h1, h2, h3, -⟩ := C89_build_univariate hg hb s
  generalize (g.uniform _ _).2 = s₁ at h1
  obtain ⟨l, r, vs, s₂, -, h4, h5, -, -⟩ := C60_rvs (complexNormalShaped D draw) (some (.inr [50, 100]))
    (fun i _ g => ⟨_, _, rfl, by
      change (Arr.ofFn _ _).rshape = (_ ++ D.rvsShape).reverse
      rw [h3, List.append_nil]
      rfl⟩) s₁
  refine ⟨D, s₁, r, s₂, h1, h4, fun s' => ?_⟩
  have m1 : complexNormalMeans D = .ok (Arr.ofFn [2, 3] fun i => (D.objects i.reverse).mean) := by
    rw [complexNormalMeans, h2]
    exact fill_scalars fun i _ => rfl
  have m2 : complexNormalVariances D = .ok (Arr.ofFn [2, 3] fun i => (D.objects i.reverse).variance) := by
    rw [complexNormalVariances, h2]
    exact fill_scalars fun i _ => rfl
  have m3 : complexNormalPseudoVariances D = .ok (Arr.ofFn [2, 3] fun i => (D.objects i.reverse).pseudoVariance) := by
    rw [complexNormalPseudoVariances, h2]
    exact fill_scalars fun i _ => rfl
  have h6 : r.rshape = [100, 50] ++ [2, 3] := by
    rw [h5]
    change (D.shape ++ [50, 100] ++ D.rvsShape).reverse = _
    rw [h2, h3]
    rfl
  simp only [testUnivariateRvs, h1, h4, m1, m2, m3, bind_ok_iff, Except.ok.injEq, exists_eq_left', check_iff, h6]
  rw [Arr.map_of]
  simp only [close_ofFn]
  constructor
  · rintro ⟨-, -, -, e1, -, e2, -, e3, rfl⟩
    refine ⟨rfl, fun i hi => ⟨?_, ?_, ?_⟩⟩
    · rw [← average2_eq]
      exact e1 i hi
    · rw [← variance_average, ← average2_eq]
      have := e2 i hi
      rwa [Arr.ofFn_get hi] at this
    · rw [← average2_eq]
      have := e3 i hi
      simp only [sq] at this
      rwa [Arr.ofFn_get hi] at this
  · rintro ⟨rfl, e⟩
    refine ⟨(), trivial, (), fun i hi => ?_, (), fun i hi => ?_, (), fun i hi => ?_, rfl⟩
    · rw [average2_eq]
      exact (e i hi).1
    · rw [Arr.ofFn_get hi, average2_eq, variance_average]
      exact (e i hi).2.1
    · rw [Arr.ofFn_get hi, average2_eq]
      simp only [sq]
      exact (e i hi).2.2

theorem vectors_close {rtol atol : ℝ} {M : Arr ℂ} (hM : M.rshape = d :: rs) {f : List ℕ → ℂ} {u : Unit}
    {m : List ℕ → Fin d → ℂ} (hm : ∀ i, inB rs i = true → ∀ k : Fin d, M.get (k.val :: i) = m i.reverse k) :
    assertAllclose rtol atol (Arr.ofFn (d :: rs) f) M = .ok u ↔
      ∀ i, inB rs i = true → ∀ k : Fin d, Near rtol atol (f (k.val :: i)) (m i.reverse k) := by
  rw [assertAllclose_iff (rs := d :: rs) rfl hM]
  constructor
  · intro h i hi k
    have hk : inB (d :: rs) (k.val :: i) = true := by simp [inB, hi]
    have := h _ hk
    rwa [Arr.ofFn_get hk, hm i hi k] at this
  · intro h i hi
    obtain ⟨k, j, rfl, hk, hj⟩ := inB_cons_elim hi
    rw [Arr.ofFn_get hi, hm j hj ⟨k, hk⟩]
    exact h j hj ⟨k, hk⟩

theorem matrices_close {rtol atol : ℝ} {M : Arr ℂ} (hM : M.rshape = d :: d :: rs) {f : List ℕ → ℂ} {u : Unit}
    {m : List ℕ → Matrix (Fin d) (Fin d) ℂ}
    (hm : ∀ i, inB rs i = true → ∀ k l : Fin d, M.get (l.val :: k.val :: i) = m i.reverse k l) :
    assertAllclose rtol atol (Arr.ofFn (d :: d :: rs) f) M = .ok u ↔
      ∀ i, inB rs i = true → ∀ k l : Fin d, Near rtol atol (f (l.val :: k.val :: i)) (m i.reverse k l) := by
  rw [assertAllclose_iff (rs := d :: d :: rs) rfl hM]
  constructor
  · intro h i hi k l
    have hk : inB (d :: d :: rs) (l.val :: k.val :: i) = true := by simp [inB, hi]
    have := h _ hk
    rwa [Arr.ofFn_get hk, hm i hi k l] at this
  · intro h i hi
    obtain ⟨l, j, rfl, hl, hj⟩ := inB_cons_elim hi
    obtain ⟨k, j, rfl, hk, hj⟩ := inB_cons_elim hj
    rw [Arr.ofFn_get hi, hm j hj ⟨k, hk⟩ ⟨l, hl⟩]
    exact h j hj ⟨k, hk⟩ ⟨l, hl⟩

/-- The test of draws of vectors passes exactly when the averages are close to the mean and the pseudo-variance, and
the **real part** of the averages for the variance is close to the (complex) variance. -/
theorem C89_multivariate_rvs (draw : List ℕ → List ℕ → g.State → Arr ℝ × g.State) (s : g.State) :
    ∃ (D : Shaped (ComplexMvNormalData 2)) (s₁ : g.State) (r : Arr ℂ) (s₂ : g.State),
      buildMvcn g [5, 3] 2 0.98 s = .ok (⟨2, D⟩, s₁) ∧
      (complexMvNormalShaped D draw).rvs (some (.inr [1800, 1700])) s₁ = .ok (r, s₂) ∧
      ∀ s', testMultivariateRvs g draw s = .ok s' ↔ s' = s₂ ∧ ∀ i, inB [5, 3] i = true → ∀ k l : Fin 2,
        let P := D.objects i.reverse
        let c := fun a b (k : Fin 2) => r.get (k.val :: b :: a :: i) - P.mean k
        Near 0.01 0.01 (average 1800 1700 fun a b => r.get (k.val :: b :: a :: i)) (P.mean k) ∧
        Near 0.2 0.5 ((average 1800 1700 fun a b => c a b k * star (c a b l)).re : ℂ) (P.variance k l) ∧
        Near 0.2 0.5 (average 1800 1700 fun a b => c a b k * c a b l) (P.pseudoVariance k l) := by
  obtain ⟨D, h1, h2, h3, -⟩ := C89_build_multivariate (g := g) [5, 3] 2 (t := 0.98) (by norm_num [abs_le]) s
  generalize (g.normal _ _).2 = s₁ at h1
  obtain ⟨l, r, vs, s₂, -, h4, h5, -, -⟩ := C60_rvs (complexMvNormalShaped D draw) (some (.inr [1800, 1700]))
    (fun i _ g => ⟨_, _, rfl, by
      change (Arr.ofFn _ _).rshape = (_ ++ D.rvsShape).reverse
      rw [h3]
      rfl⟩) s₁
  refine ⟨D, s₁, r, s₂, h1, h4, fun s' => ?_⟩
  obtain ⟨M, m1, m2, m3⟩ := fill_vectors (rs := [5, 3]) (v := fun i => (D.objects i).mean)
  obtain ⟨V, v1, v2, v3⟩ := fill_matrices (rs := [5, 3]) (m := fun i => (D.objects i).variance)
  obtain ⟨P, p1, p2, p3⟩ := fill_matrices (rs := [5, 3]) (m := fun i => (D.objects i).pseudoVariance)
  rw [← h2, ← h3] at m1 v1 p1
  have m1 : complexMvNormalMeans D = .ok M := m1
  have v1 : complexMvNormalVariances D = .ok V := v1
  have p1 : complexMvNormalPseudoVariances D = .ok P := p1
  have h6 : r.rshape = [2, 1700, 1800] ++ [5, 3] := by
    rw [h5]
    change (D.shape ++ [1800, 1700] ++ D.rvsShape).reverse = _
    rw [h2, h3]
    rfl
  simp only [testMultivariateRvs, h1, h4, m1, v1, p1, bind_ok_iff, Except.ok.injEq, exists_eq_left', check_iff, h6]
  simp only [vectors_close (m := fun i => (D.objects i).mean) m2 m3,
    matrices_close (m := fun i => (D.objects i).variance) v2 v3,
    matrices_close (m := fun i => (D.objects i).pseudoVariance) p2 p3, List.headD_cons, List.tail_cons,
    average2_eq]
  constructor
  · rintro ⟨-, -, -, e1, -, e2, -, e3, rfl⟩
    refine ⟨rfl, fun i hi k l => ⟨e1 i hi k, ?_, ?_⟩⟩
    · have := e2 i hi k l
      rwa [m3 i hi, m3 i hi] at this
    · have := e3 i hi k l
      rwa [m3 i hi, m3 i hi] at this
  · rintro ⟨rfl, e⟩
    refine ⟨(), trivial, (), fun i hi k => (e i hi k 0).1, (), fun i hi k l => ?_, (), fun i hi k l => ?_, rfl⟩
    · rw [m3 i hi, m3 i hi]
      exact (e i hi k l).2.1
    · rw [m3 i hi, m3 i hi]
      exact (e i hi k l).2.2

/-- No draws can pass the test if the variance has an entry whose imaginary part is too large. -/
theorem C89_multivariate_rejects (draw : List ℕ → List ℕ → g.State → Arr ℝ × g.State) (s : g.State)
    {D : Shaped (ComplexMvNormalData 2)} {s₁ : g.State} (hD : buildMvcn g [5, 3] 2 0.98 s = .ok (⟨2, D⟩, s₁))
    {i : List ℕ} (hi : inB [5, 3] i = true) {k l : Fin 2}
    (h : 0.5 + 0.2 * ‖(D.objects i.reverse).variance k l‖ < |((D.objects i.reverse).variance k l).im|) (s' : g.State) :
    testMultivariateRvs g draw s ≠ .ok s' := by
  obtain ⟨D', s₁', r, s₂, h1, -, h2⟩ := C89_multivariate_rvs draw s
  rw [hD, Except.ok.injEq, Prod.mk.injEq] at h1
  obtain rfl := eq_of_heq (Sigma.mk.inj h1.1).2
  intro h3
  have := (((h2 s').1 h3).2 i hi k l).2.1
  refine absurd this (not_le.2 (h.trans_le ?_))
  have := Complex.abs_im_le_norm (((average 1800 1700 fun a b => (r.get (k.val :: b :: a :: i) -
    (D.objects i.reverse).mean k) * star (r.get (l.val :: b :: a :: i) - (D.objects i.reverse).mean l)).re : ℂ) -
    (D.objects i.reverse).variance k l)
  rwa [Complex.sub_im, Complex.ofReal_im, zero_sub, abs_neg] at this

/-- Normal draws that are two in one row and zero in the others. -/
noncomputable def alternating : Rng where
  State := ℕ
  exponential rs s := (Arr.full rs 1, s)
  uniform rs s := (Arr.full rs 0, s)
  normal rs s := (Arr.ofFn rs fun i => if i.tail.headD 0 = s % 2 then 2 else 0, s + 1)
  binomial rs s := (Arr.full rs 0, s)

theorem alternating_inRange : InRange alternating where
  exponential_shape _ _ := rfl
  exponential_nonneg rs s i hi := by
    change 0 ≤ (Arr.full rs (1 : ℝ)).get i
    rw [Arr.full, Arr.ofFn_get hi]
    norm_num
  uniform_shape _ _ := rfl
  uniform_nonneg rs s i hi := by
    change 0 ≤ (Arr.full rs (0 : ℝ)).get i
    rw [Arr.full, Arr.ofFn_get hi]
  uniform_lt rs s i hi := by
    change (Arr.full rs (0 : ℝ)).get i < 1
    rw [Arr.full, Arr.ofFn_get hi]
    norm_num
  normal_shape _ _ := rfl
  binomial_shape _ _ := rfl
  binomial_mem rs s i hi := .inl (Arr.ofFn_get hi)

/-- **The test of draws of vectors can reject every sampler**, in particular one with the right moments: the real part
of the estimate of the variance is compared with a variance whose entries are not real. -/
theorem C89_multivariate_violated : ∃ (g : Rng) (s : g.State), InRange g ∧
    ∀ (draw : List ℕ → List ℕ → g.State → Arr ℝ × g.State) (s' : g.State), testMultivariateRvs g draw s ≠ .ok s' := by
  refine ⟨alternating, (0 : ℕ), alternating_inRange, fun draw s' => ?_⟩
  obtain ⟨D, h1, -, -, h2⟩ := C89_build_multivariate (g := alternating) [5, 3] 2 (t := 0.98) (by norm_num [abs_le])
    (0 : ℕ)
  obtain ⟨-, h3, -⟩ := h2 [0, 0] rfl
  refine C89_multivariate_rejects draw _ h1 (i := [0, 0]) rfl (k := 0) (l := 1) ?_ s'
  have h4 := h3 0 1
  have e : (D.objects [0, 0].reverse).variance 0 1 = -Complex.I := by
    rw [h4]
    apply Complex.ext <;> simp [alternating, Arr.ofFn, inB] <;> norm_num
  rw [e]
  norm_num

/-! ### Consistency -/

theorem mvNormal_equiv {ι κ : Type} [Fintype ι] [DecidableEq ι] [Fintype κ] [DecidableEq κ] (e : ι ≃ κ)
    (m x : κ → ℝ) (S : Matrix κ κ ℝ) :
    Textbook.mvNormal (m ∘ e) (S.submatrix e e) (x ∘ e) = Textbook.mvNormal m S x := by
  have h : (x ∘ e - m ∘ e) = (x - m) ∘ e := rfl
  rw [Textbook.mvNormal, Textbook.mvNormal, det_submatrix_equiv_self, Fintype.card_congr e, inv_submatrix_equiv, h,
    submatrix_mulVec_equiv, Function.comp_assoc, Equiv.self_comp_symm, Function.comp_id, comp_equiv_dotProduct_comp_equiv]

/-- Complex normal vectors with one component are complex normal numbers. -/
theorem C89_one_component (m z : ℂ) (v p : ℂ) (hv : v.im = 0) (V P : Matrix (Fin 1) (Fin 1) ℂ) (hV : V 0 0 = v)
    (hP : P 0 0 = p) : Textbook.complexMvCov V P = (Textbook.complexCov v.re p).submatrix
      (finSumFinEquiv (m := 1) (n := 1)) finSumFinEquiv ∧
    Textbook.complexMvNormal (fun _ => m) V P (fun _ => z) = Textbook.complexNormal m v.re p z := by
  have h : Textbook.complexMvCov V P = (Textbook.complexCov v.re p).submatrix
      (finSumFinEquiv (m := 1) (n := 1)) finSumFinEquiv := by
    ext i j
    rcases i with i | i <;> rcases j with j | j <;>
    · obtain rfl := Subsingleton.elim i 0
      obtain rfl := Subsingleton.elim j 0
      simp [Textbook.complexMvCov, Textbook.complexCov, hV, hP, hv, finSumFinEquiv]
  have h' : ∀ z : ℂ, Textbook.mvParts (d := 1) (fun _ => z) =
      Textbook.parts z ∘ (finSumFinEquiv (m := 1) (n := 1)) := fun z => by
    ext i
    rcases i with i | i <;>
    · obtain rfl := Subsingleton.elim i 0
      simp [Textbook.mvParts, Textbook.parts, finSumFinEquiv]
  refine ⟨h, ?_⟩
  rw [Textbook.complexMvNormal, Textbook.complexNormal, h, h' m, h' z, mvNormal_equiv]

/-- The test of consistency passes, for every generator. -/
theorem C89_consistency (draw : List ℕ → List ℕ → g.State → Arr ℝ × g.State) (s : g.State) :
    ∃ s', testConsistency g draw s = .ok s' := by
  obtain ⟨D, h1, h2, h3, h4⟩ := C89_build_multivariate (g := g) [] 1 (t := 0.5) (by norm_num [abs_le]) s
  generalize (g.normal _ _).2 = s₁ at h1
  obtain ⟨-, h5, -, h6⟩ := h4 [] rfl
  rw [List.reverse_nil] at h5 h6
  have hv : ((D.objects []).variance 0 0).im = 0 := by
    rw [h5 0 0]
    simp [Complex.mul_im, mul_comm]
  obtain ⟨e1, e2⟩ := C89_one_component ((D.objects []).mean 0) ((randomComplexArray g [] s₁).1.get []) _ _ hv
    (D.objects []).variance (D.objects []).pseudoVariance rfl rfl
  have h7 : ‖(D.objects []).pseudoVariance 0 0‖ < ((D.objects []).variance 0 0).re := by
    rw [← complexCov_posDef]
    rw [e1] at h6
    have := h6.submatrix (finSumFinEquiv (m := 1) (n := 1)).symm.injective
    rwa [submatrix_submatrix, Equiv.self_comp_symm, submatrix_id_id] at this
  have h8 := (complexNormalNew_eq (rs := []) (mean := some (Arr.full [] ((D.objects []).mean 0)))
    (variance := some (Arr.full [] ((D.objects []).variance 0 0).re))
    (pseudo := some (Arr.full [] ((D.objects []).pseudoVariance 0 0)))
    (by rintro _ ⟨⟩; rfl) (by rintro _ ⟨⟩; rfl) (by rintro _ ⟨⟩; rfl) (.inl rfl)).2
    ⟨fun i hi => by
      obtain rfl : i = [] := by simpa using inB_length hi
      exact complexCov_posSemidef.2 h7.le, rfl⟩
  have p1 : (complexMvNormalShaped D draw).pdf (Arr.ofFn [1] fun _ => (randomComplexArray g [] s₁).1.get []) =
      .ok (Arr.full [] (Textbook.complexMvNormal (D.objects []).mean (D.objects []).variance
        (D.objects []).pseudoVariance fun _ => (randomComplexArray g [] s₁).1.get [])) := by
    rw [C60_pdf_single _ _ h2]
    exact row_pdf rfl (fun k => Arr.ofFn_get (by simp [inB])) (C58_cmv_pdf h6 _ _)
  obtain ⟨U, hU, hp⟩ : ∃ U, complexNormalNew (some (Arr.full [] ((D.objects []).mean 0)))
      (some (Arr.full [] ((D.objects []).variance 0 0).re))
      (some (Arr.full [] ((D.objects []).pseudoVariance 0 0))) = .ok U ∧
      (complexNormalShaped U draw).pdf (randomComplexArray g [] s₁).1 = .ok (Arr.full []
        (Textbook.complexNormal ((D.objects []).mean 0) ((D.objects []).variance 0 0).re
          ((D.objects []).pseudoVariance 0 0) ((randomComplexArray g [] s₁).1.get []))) := by
    refine ⟨_, h8, (C60_pdf_single _ _ rfl).trans ?_⟩
    exact complexNormal_frozen_pdf (c := ⟨(D.objects []).mean 0, ((D.objects []).variance 0 0).re,
      (D.objects []).pseudoVariance 0 0⟩) h7 rfl rfl
  have hm : (D.objects []).mean = fun _ => (D.objects []).mean 0 := funext fun k => by rw [Subsingleton.elim k 0]
  rw [hm, e2] at p1
  have hf : first (D.objects []) = .ok ((D.objects []).mean 0, (D.objects []).variance 0 0,
      (D.objects []).pseudoVariance 0 0) := rfl
  simp only [testConsistency, h1, hf, hU, p1, hp, bind_ok_iff, Except.ok.injEq, exists_eq_left', check_iff]
  refine ⟨_, (), (allclose_same rfl).2 fun i _ => ?_, rfl⟩
  rw [sub_self, norm_zero]
  positivity

/-! ### Examples -/

theorem drawsInTurn_const {α G : Type} {W : α} : ∀ {ds : List (G → Except Err (α × G))} {g g' : G} {vs : List α},
    DrawsInTurn ds g vs g' → (∀ d ∈ ds, ∀ g v g', d g = .ok (v, g') → v = W) → ∀ v ∈ vs, v = W
  | _, _, _, _, .nil _, _ => by simp
  | _, _, _, _, .cons h hs, hd => by
    intro v hv
    rcases List.mem_cons.1 hv with rfl | hv
    · exact hd _ (List.mem_cons_self ..) _ _ _ h
    · exact drawsInTurn_const hs (fun d h => hd d (List.mem_cons_of_mem _ h)) v hv

/-- Draws that are the same for all distributions. -/
theorem rvs_const {α G : Type} [Inhabited α] {D : Shaped (Frozen α G)} {size : List ℕ} {W : Arr α}
    (hW : W.rshape = (size ++ D.rvsShape).reverse) (h : ∀ i g, (D.objects i).rvs size g = .ok (W, g)) {g g' : G}
    {r : Arr α} (hr : D.rvs (some (.inr size)) g = .ok (r, g')) {i : List ℕ} (hi : inB D.shape.reverse i = true)
    {j : List ℕ} (hj : inB W.rshape j = true) : r.get (j ++ i) = W.get j := by
  obtain ⟨l, r', vs, g₂, h1, h2, h3, h4, h5⟩ := C60_rvs D (some (.inr size)) (fun i _ g => ⟨W, g, h i g, hW⟩) g
  rw [hr, Except.ok.injEq, Prod.mk.injEq] at h2
  obtain rfl := h2.1
  have h6 := drawsInTurn_const h4 (W := W) (by
    intro d hd g v g' hv
    obtain ⟨i, -, rfl⟩ := List.mem_map.1 hd
    have := (h i g).symm.trans hv
    exact ((Prod.mk.inj (Except.ok.inj this)).1).symm)
  have hk : List.Forall₂ (· < ·) i.reverse D.shape := by simpa using forall₂_of_inB hi
  have h7 : ∀ {l : List (List ℕ)} {vs : List (Arr α)}, List.Forall₂ (fun i v => r.index i = .ok v) l vs →
      (∀ v ∈ vs, v = W) → ∀ i ∈ l, r.index i = .ok W := by
    intro l vs h hv
    induction h with
    | nil => simp
    | cons h _ ih =>
      intro i hi
      rcases List.mem_cons.1 hi with rfl | hi
      · rw [h, hv _ (List.mem_cons_self ..)]
      · exact ih (fun v h => hv v (List.mem_cons_of_mem _ h)) i hi
  have h8 := h7 h5 h6 _ ((h1.mem _).2 hk)
  rw [List.append_assoc] at h3
  rw [index_of h3 hk, Except.ok.injEq] at h8
  rw [hW] at hj
  rw [← h8]
  refine ((Arr.ofFn_get hj).trans ?_).symm
  rw [List.reverse_reverse]

theorem average_congr {m n : ℕ} {f h : ℕ → ℕ → ℂ} (e : ∀ a < m, ∀ b < n, f a b = h a b) :
    average m n f = average m n h := by
  rw [average, average]
  exact congrArg (· / _) (Finset.sum_congr rfl fun ab _ => e _ ab.1.isLt _ ab.2.isLt)

/-- A generator that always returns zero. -/
noncomputable def quiet : Rng where
  State := ℕ
  exponential rs s := (Arr.full rs 0, s)
  uniform rs s := (Arr.full rs 0, s)
  normal rs s := (Arr.full rs 0, s)
  binomial rs s := (Arr.full rs 0, s)

theorem full_get {α : Type} [Inhabited α] {rs i : List ℕ} {x : α} (hi : inB rs i = true) : (Arr.full rs x).get i = x :=
  Arr.ofFn_get hi

theorem quiet_inRange : InRange quiet where
  exponential_shape _ _ := rfl
  exponential_nonneg rs s i hi := (full_get hi).ge
  uniform_shape _ _ := rfl
  uniform_nonneg rs s i hi := (full_get hi).ge
  uniform_lt rs s i hi := (full_get hi).trans_lt one_pos
  normal_shape _ _ := rfl
  binomial_shape _ _ := rfl
  binomial_mem rs s i hi := .inl (full_get hi)

-- Draws that are all zero pass the test for distributions whose parameters are zero.
example : ∃ s', testUnivariateRvs quiet (fun rs s => (Arr.full rs 1, s))
    (fun _ size s => (Arr.full (size ++ [2]).reverse 0, s)) (0 : ℕ) = .ok s' := by
  have hb : ∀ s : ℕ, ((Arr.full [2, 3] (1 : ℝ), s)).1.rshape = [2, 3] ∧ ∀ i, inB [2, 3] i = true →
      0 ≤ (Arr.full [2, 3] (1 : ℝ)).get i ∧ (Arr.full [2, 3] (1 : ℝ)).get i ≤ 1 := fun s =>
    ⟨rfl, fun i hi => by rw [full_get hi]; norm_num⟩
  obtain ⟨D, s₁, r, s₂, h1, h2, h3⟩ := C89_univariate_rvs quiet_inRange (beta := fun rs s => (Arr.full rs 1, s)) hb
    (fun _ size s => (Arr.full (size ++ [2]).reverse 0, s)) (0 : ℕ)
  obtain ⟨D', h4, h5, h6, h7⟩ := C89_build_univariate quiet_inRange (beta := fun rs s => (Arr.full rs 1, s)) hb (0 : ℕ)
  rw [h1, Except.ok.injEq, Prod.mk.injEq] at h4
  obtain rfl := h4.1
  refine ⟨s₂, (h3 s₂).2 ⟨rfl, fun i hi => ?_⟩⟩
  obtain ⟨e1, e2, -, e3, -⟩ := h7 i hi
  have z : ∀ rs (i : List ℕ), inB rs i = true → (quiet.normal rs (0 : ℕ)).1.get i = 0 := fun rs i hi => full_get hi
  have z' : ∀ rs (i : List ℕ), inB rs i = true → (quiet.exponential rs (0 : ℕ)).1.get i = 0 := fun rs i hi =>
    full_get hi
  have e1 : (D.objects i.reverse).mean = 0 := e1.trans (by
    change (⟨(quiet.normal [2, 3] (0 : ℕ)).1.get i / 2, (quiet.normal [2, 3] (0 : ℕ)).1.get i / 2⟩ : ℂ) = 0
    rw [z _ i hi]
    apply Complex.ext <;> simp)
  have e2 : (D.objects i.reverse).variance = 0 := e2.trans (z' _ i hi)
  have hr : ∀ a < 50, ∀ b < 100, r.get (b :: a :: i) = 0 := by
    intro a ha b hb'
    refine (rvs_const (D := complexNormalShaped D _) (size := [50, 100]) (W := Arr.full [100, 50] 0)
      (by rw [show (complexNormalShaped D _).rvsShape = [] from h6]; rfl) (fun i g => ?_) h2 (i := i) (j := [b, a])
      (by rw [show (complexNormalShaped D _).shape = _ from h5]; exact hi)
      (by simp [inB, Arr.full, Arr.ofFn, ha, hb'])).trans (full_get (by simp [inB, ha, hb']))
    refine congrArg Except.ok (Prod.ext (Arr.ext rfl fun j hj => ?_) rfl)
    have hj : inB [100, 50] j = true := hj
    refine (Arr.ofFn_get hj).trans ?_
    rw [full_get (by simpa [inB] using hj), full_get (by simpa [inB] using hj), full_get hj]
    simp
  have e3 : (D.objects i.reverse).pseudoVariance = 0 := by
    rw [e3]
    have := z' [2, 3] i hi
    apply Complex.ext <;> simp [quiet] <;> exact .inl (.inr this)
  simp only [e1, e2, e3]
  rw [average_congr (h := fun _ _ => 0) hr, average_congr (f := fun a b => ((‖r.get (b :: a :: i) - 0‖ ^ 2 : ℝ) : ℂ))
    (h := fun _ _ => 0) (fun a ha b hb => by rw [hr a ha b hb]; simp), average_congr (h := fun _ _ => 0)
    (f := fun a b => (r.get (b :: a :: i) - 0) * (r.get (b :: a :: i) - 0))
    (fun a ha b hb => by rw [hr a ha b hb]; simp)]
  norm_num [Near, average]

theorem average_mul {m n : ℕ} {F : ℕ → ℕ → ℂ} (f h : ℕ → ℂ) (hF : ∀ a b, F a b = f a * h b) : average m n F =
    (∑ a ∈ Finset.range m, f a) * (∑ b ∈ Finset.range n, h b) / (m * n) := by
  rw [show F = fun a b => f a * h b from by funext a b; exact hF a b, average, Fintype.sum_prod_type, Finset.sum_range, Finset.sum_range, Finset.sum_mul_sum]

theorem powers_sum {z : ℂ} (hz : z ≠ 1) {n : ℕ} (hn : z ^ n = 1) : ∑ k ∈ Finset.range n, z ^ k = 0 := by
  rw [geom_sum_eq hz, hn, sub_self, zero_div]

/-- Powers of the imaginary unit: independent draws with the variance one and the pseudo-variance zero. -/
noncomputable def circular : ℕ → ℕ → ℕ → ℂ := fun a b k => Complex.I ^ (if k = 0 then b else a)

-- Draws with the right moments pass the test when the variance is real.
example : ∃ s', testMultivariateRvs quiet (fun _ size s => (Arr.ofFn (size ++ [4]).reverse fun j =>
      let z := circular (j.getD 2 0) (j.getD 1 0) (j.headD 0 % 2)
      if j.headD 0 < 2 then z.re else z.im, s)) (0 : ℕ) = .ok s' := by
  obtain ⟨D, s₁, r, s₂, h1, h2, h3⟩ := C89_multivariate_rvs (g := quiet) (fun _ size s =>
    (Arr.ofFn (size ++ [4]).reverse fun j =>
      let z := circular (j.getD 2 0) (j.getD 1 0) (j.headD 0 % 2)
      if j.headD 0 < 2 then z.re else z.im, s)) (0 : ℕ)
  obtain ⟨D', h4, h5, h6, h7⟩ := C89_build_multivariate (g := quiet) [5, 3] 2 (t := 0.98) (by norm_num [abs_le]) (0 : ℕ)
  rw [h1, Except.ok.injEq, Prod.mk.injEq] at h4
  obtain rfl := eq_of_heq (Sigma.mk.inj h4.1).2
  refine ⟨s₂, (h3 s₂).2 ⟨rfl, fun i hi k l => ?_⟩⟩
  obtain ⟨e1, e2, e3, -⟩ := h7 i hi
  have f2 : ∀ k : Fin 2, (Arr.full [2, 5, 3] (0 : ℝ)).get (k.val :: i) = 0 := fun k =>
    full_get ((inB_cons ..).2 ⟨k.isLt, hi⟩)
  have f3 : ∀ (p : Fin 3) (k : Fin 2), (Arr.full [3, 2, 5, 3] (0 : ℝ)).get (p.val :: k.val :: i) = 0 := fun p k =>
    full_get ((inB_cons ..).2 ⟨p.isLt, (inB_cons ..).2 ⟨k.isLt, hi⟩⟩)
  have hz : (⟨0, 0⟩ : ℂ) = 0 := rfl
  simp only [quiet, f2, f3, zero_div, hz, mul_zero, star_zero, add_zero, zero_add] at e1 e2 e3
  have hr : ∀ a < 1800, ∀ b < 1700, ∀ k : Fin 2, r.get (k.val :: b :: a :: i) = circular a b k.val := by
    intro a ha b hb' k
    have hin : inB [2, 1700, 1800] [k.val, b, a] = true :=
      (inB_cons ..).2 ⟨k.isLt, (inB_cons ..).2 ⟨hb', (inB_cons ..).2 ⟨ha, rfl⟩⟩⟩
    refine (rvs_const (D := complexMvNormalShaped D _) (size := [1800, 1700])
      (W := Arr.ofFn [2, 1700, 1800] fun j => circular (j.getD 2 0) (j.getD 1 0) (j.headD 0))
      (by rw [show (complexMvNormalShaped D _).rvsShape = [2] from h6]; rfl) (fun i g => ?_) h2 (i := i)
      (j := [k.val, b, a]) (by rw [show (complexMvNormalShaped D _).shape = _ from h5]; exact hi)
      hin).trans ((Arr.ofFn_get hin).trans rfl)
    refine congrArg Except.ok (Prod.ext (Arr.ext rfl fun j hj => ?_) rfl)
    have hj : inB [2, 1700, 1800] j = true := hj
    refine (Arr.ofFn_get hj).trans ?_
    obtain ⟨k, j, rfl, hk, hj'⟩ := inB_cons_elim hj
    rw [Arr.ofFn_get hj]
    have hk4 : inB [4, 1700, 1800] (k :: j) = true := (inB_cons ..).2 ⟨by omega, hj'⟩
    have hk4' : inB [4, 1700, 1800] ((k + 2) :: j) = true := (inB_cons ..).2 ⟨by omega, hj'⟩
    simp only [List.headD_cons, List.tail_cons]
    erw [Arr.ofFn_get hk4, Arr.ofFn_get hk4']
    have m1 : k % 2 = k := Nat.mod_eq_of_lt hk
    simp only [List.headD_cons, Nat.add_mod_right, m1, hk, if_true, List.getD_cons_succ]
    rw [if_neg (by omega), mul_comm]
    exact Complex.re_add_im _
  have I1 : Complex.I ≠ 1 := fun h => by simpa using congrArg Complex.im h
  have I2 : star Complex.I ≠ 1 := fun h => by simpa using congrArg Complex.im h
  have I3 : Complex.I ^ 2 ≠ 1 := by rw [Complex.I_sq]; norm_num
  have I4 : Complex.I * star Complex.I = 1 := by simp
  have q : ∀ n : ℕ, 4 ∣ n → Complex.I ^ n = 1 := fun n ⟨q, hq⟩ => by rw [hq, pow_mul, Complex.I_pow_four, one_pow]
  have s1 : ∀ n : ℕ, 4 ∣ n → ∑ k ∈ Finset.range n, Complex.I ^ k = 0 := fun n hn => powers_sum I1 (q n hn)
  have s2 : ∀ n : ℕ, 4 ∣ n → ∑ k ∈ Finset.range n, star Complex.I ^ k = 0 := fun n hn =>
    powers_sum I2 (by rw [← star_pow, q n hn, star_one])
  have s3 : ∀ n : ℕ, 4 ∣ n → ∑ k ∈ Finset.range n, (Complex.I ^ 2) ^ k = 0 := fun n hn =>
    powers_sum I3 (by rw [← pow_mul, mul_comm, pow_mul, q n hn, one_pow])
  have d1 : 4 ∣ 1700 := by decide
  have d2 : 4 ∣ 1800 := by decide
  have m1 : ∀ k : Fin 2, average 1800 1700 (fun a b => circular a b k.val) = 0 := by
    intro k
    fin_cases k
    · refine (average_mul (fun _ => 1) (fun b => Complex.I ^ b) fun a b => ?_).trans ?_
      · simp [circular]
      · rw [s1 _ d1, mul_zero, zero_div]
    · refine (average_mul (fun a => Complex.I ^ a) (fun _ => 1) fun a b => ?_).trans ?_
      · simp [circular]
      · rw [s1 _ d2, zero_mul, zero_div]
  have m2 : ∀ k l : Fin 2, average 1800 1700 (fun a b => circular a b k.val * star (circular a b l.val)) =
      (1 : Matrix (Fin 2) (Fin 2) ℂ) k l := by
    intro k l
    fin_cases k <;> fin_cases l
    · refine (average_mul (fun _ => 1) (fun _ => 1) fun a b => ?_).trans ?_
      · simp [circular, ← mul_pow]
      · simp
    · refine (average_mul (fun a => star Complex.I ^ a) (fun b => Complex.I ^ b) fun a b => ?_).trans ?_
      · simp [circular, mul_comm]
      · rw [s1 _ d1, mul_zero, zero_div]; rfl
    · refine (average_mul (fun a => Complex.I ^ a) (fun b => star Complex.I ^ b) fun a b => ?_).trans ?_
      · simp [circular]
      · rw [s1 _ d2, zero_mul, zero_div]; rfl
    · refine (average_mul (fun _ => 1) (fun _ => 1) fun a b => ?_).trans ?_
      · simp [circular, ← mul_pow]
      · simp
  have m3 : ∀ k l : Fin 2, average 1800 1700 (fun a b => circular a b k.val * circular a b l.val) = 0 := by
    intro k l
    fin_cases k <;> fin_cases l
    · refine (average_mul (fun _ => 1) (fun b => (Complex.I ^ 2) ^ b) fun a b => ?_).trans ?_
      · simp only [circular, ← pow_mul, ← pow_add]; rw [one_mul, two_mul]; rfl
      · rw [s3 _ d1, mul_zero, zero_div]
    · refine (average_mul (fun a => Complex.I ^ a) (fun b => Complex.I ^ b) fun a b => ?_).trans ?_
      · simp [circular, mul_comm]
      · rw [s1 _ d1, mul_zero, zero_div]
    · refine (average_mul (fun a => Complex.I ^ a) (fun b => Complex.I ^ b) fun a b => ?_).trans ?_
      · simp [circular]
      · rw [s1 _ d1, mul_zero, zero_div]
    · refine (average_mul (fun a => (Complex.I ^ 2) ^ a) (fun _ => 1) fun a b => ?_).trans ?_
      · simp only [circular, ← pow_mul, ← pow_add]; rw [mul_one, two_mul]; rfl
      · rw [s3 _ d2, zero_mul, zero_div]
  have near : ∀ {p q : ℝ} (z : ℂ), 0 ≤ p → 0 ≤ q → Near p q z z := fun z hp hq => by
    rw [Near, sub_self, norm_zero]; positivity
  simp only [e1, e2, e3, sub_zero]
  rw [average_congr (fun a ha b hb => hr a ha b hb k), average_congr (f := fun a b => r.get (k.val :: b :: a :: i) *
      star (r.get (l.val :: b :: a :: i))) (h := fun a b => circular a b k.val * star (circular a b l.val))
      (fun a ha b hb => by rw [hr a ha b hb, hr a ha b hb]),
    average_congr (f := fun a b => r.get (k.val :: b :: a :: i) * r.get (l.val :: b :: a :: i))
      (h := fun a b => circular a b k.val * circular a b l.val)
      (fun a ha b hb => by rw [hr a ha b hb, hr a ha b hb]), m1, m2, m3]
  refine ⟨near 0 (by norm_num) (by norm_num), ?_, near 0 (by norm_num) (by norm_num)⟩
  have hre : (((1 : Matrix (Fin 2) (Fin 2) ℂ) k l).re : ℂ) = (1 : Matrix (Fin 2) (Fin 2) ℂ) k l := by
    rw [Matrix.one_apply]; split <;> simp
  rw [hre]
  exact near _ (by norm_num) (by norm_num)

end Efax
