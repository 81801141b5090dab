import Verif.Props.Fisher
import Mathlib.Analysis.Calculus.FDeriv.Mul
import Mathlib.Analysis.Matrix.Normed
import Mathlib.Analysis.Matrix.PosDef

/-!
# The Fisher information matrix of the circularly symmetric complex normal distribution (C42)

It is positive definite, and holds the covariances of the statistics at the coordinates of Hermitian
matrices.  The flat vector has further coordinates, for the imaginary parts of the diagonal, whose
statistics are zero: there the matrix holds the squared absolute values of the variance matrix, where it
should be zero.
-/

namespace Efax

open MeasureTheory Spec Matrix
open scoped ComplexOrder

section

variable {R : Type} [CommRing R] {d : ℕ}

/-- `x` is added to entry `j` of the diagonal. -/
def bump (A : Matrix (Fin d) (Fin d) R) (j : Fin d) (x : R) : Matrix (Fin d) (Fin d) R :=
  A + Matrix.single j j x

theorem bump_apply (A : Matrix (Fin d) (Fin d) R) (j : Fin d) (x : R) (r c : Fin d) :
    bump A j x r c = A r c + if r = j ∧ c = j then x else 0 := by
  rw [bump, Matrix.add_apply, Matrix.single_apply]
  congr 1
  exact if_congr ⟨fun h => ⟨h.1.symm, h.2.symm⟩, fun h => ⟨h.1.symm, h.2.symm⟩⟩ rfl rfl

end

section

variable {d : ℕ}

/-- The coordinate of the imaginary part of an entry of the diagonal. -/
def diagIm (j : Fin d) : Fin ((d + 1).choose 2 + (d + 1).choose 2) :=
  Fin.natAdd _ ⟨(triu d).idxOf (j.1, j.1), triu_lt le_rfl j.2⟩

theorem idx_triu_inj {r c r' c' : ℕ} (h : r ≤ c) (hc : c < d)
    (e : (triu d).idxOf (r, c) = (triu d).idxOf (r', c')) : r = r' ∧ c = c' := by
  have h1 : (r, c) ∈ triu d := mem_triu.2 ⟨h, hc⟩
  have := (List.idxOf_inj h1).1 e
  exact ⟨congrArg Prod.fst this, congrArg Prod.snd this⟩

theorem ofReIm_diag (y : Fin ((d + 1).choose 2 + (d + 1).choose 2) → ℝ) (j : Fin d) (t : ℝ)
    (k : Fin ((d + 1).choose 2)) :
    ofReIm _ (y + t • Pi.single (diagIm j) 1) k =
      ofReIm _ y k + if k.1 = (triu d).idxOf (j.1, j.1) then (t : ℂ) * Complex.I else 0 := by
  have h1 : (Pi.single (diagIm j) 1 : Fin ((d + 1).choose 2 + (d + 1).choose 2) → ℝ) (Fin.castAdd _ k) = 0 := by
    rw [Pi.single_eq_of_ne]
    intro e
    have : k.1 = (d + 1).choose 2 + (triu d).idxOf (j.1, j.1) := congrArg Fin.val e
    have := k.2
    omega
  have h2 : (Pi.single (diagIm j) 1 : Fin ((d + 1).choose 2 + (d + 1).choose 2) → ℝ) (Fin.natAdd _ k) =
      if k.1 = (triu d).idxOf (j.1, j.1) then 1 else 0 := by
    split
    · next e =>
      have : Fin.natAdd _ k = diagIm j := by
        refine congrArg _ (Fin.ext e)
      rw [this, Pi.single_eq_same]
    · next e =>
      rw [Pi.single_eq_of_ne]
      intro e'
      have : (d + 1).choose 2 + k.1 = (d + 1).choose 2 + (triu d).idxOf (j.1, j.1) := congrArg Fin.val e'
      omega
  refine Complex.ext ?_ ?_
  · change y _ + t * _ = y _ + _
    rw [h1]; split <;> simp
  · change y _ + t * _ = y _ + _
    rw [h2]; split <;> simp

theorem ofUpperC_diag (y : Fin ((d + 1).choose 2 + (d + 1).choose 2) → ℝ) (j : Fin d) (t : ℝ) :
    ofUpperC (ofReIm _ (y + t • Pi.single (diagIm j) 1)) =
      bump (ofUpperC (ofReIm _ y)) j ((t : ℂ) * Complex.I) := by
  ext r c
  rw [bump_apply]
  simp only [ofUpperC, Matrix.of_apply]
  by_cases h : r.1 ≤ c.1
  · rw [dif_pos h, dif_pos h, ofReIm_diag]
    congr 1
    refine if_congr ⟨fun e => ?_, ?_⟩ rfl rfl
    · obtain ⟨e1, e2⟩ := idx_triu_inj h c.2 e
      exact ⟨Fin.ext e1, Fin.ext e2⟩
    · rintro ⟨rfl, rfl⟩; rfl
  · rw [dif_neg h, dif_neg h, ofReIm_diag, if_neg, if_neg]
    · simp
    · rintro ⟨rfl, rfl⟩; exact h le_rfl
    · intro e
      obtain ⟨e1, e2⟩ := idx_triu_inj (Nat.le_of_lt (Nat.lt_of_not_le h)) r.2 e
      omega

theorem ofFlatC_injective {z : Fin ((d + 1).choose 2 + (d + 1).choose 2) → ℝ} (h : ofFlatC d z = 0) :
    z = 0 := by
  rw [← reIm_ofReIm z, ← upper_ofUpperC (ofReIm _ z), ← ofFlatC_apply, h, ← map_zero (ofFlatC d),
    ofFlatC_apply, upper_ofUpperC, reIm_ofReIm]

theorem ofFlatC_enc {q : Matrix (Fin d) (Fin d) ℂ} (h : q.IsHermitian) :
    ofFlatC d (reIm (upper q)) = q := by
  rw [ofFlatC_apply, ofReIm_reIm, ofUpperC_upper (hermOff_of h)]

/-- The coordinate of an imaginary part of the diagonal. -/
theorem ofFlatC_diagIm (j : Fin d) : ofFlatC d (Pi.single (diagIm j) 1) = Matrix.single j j Complex.I := by
  have := ofUpperC_diag (d := d) 0 j 1
  rw [zero_add, one_smul, ← ofFlatC_apply, ← ofFlatC_apply, map_zero, bump, zero_add] at this
  simpa using this

/-- The other coordinates move the parameter along Hermitian matrices. -/
theorem ofFlatC_hermitian {k : Fin ((d + 1).choose 2 + (d + 1).choose 2)} (h : ∀ j, k ≠ diagIm j) :
    (ofFlatC d (Pi.single k 1)).IsHermitian := by
  ext r c
  rw [Matrix.conjTranspose_apply]
  simp only [ofFlatC_apply, ofUpperC, Matrix.of_apply]
  rcases lt_trichotomy r.1 c.1 with hl | he | hl
  · rw [dif_neg (by omega), dif_pos (by omega), star_star]
  · obtain rfl : r = c := Fin.ext he
    rw [dif_pos le_rfl]
    refine Complex.conj_eq_iff_im.2 ?_
    change (Pi.single k (1 : ℝ) : _ → ℝ) (diagIm r) = 0
    rw [Pi.single_eq_of_ne (h r).symm]
  · rw [dif_pos (by omega), dif_neg (by omega)]

end

section

open scoped Matrix.Norms.Operator

/-- The derivative of the inverse of a matrix. -/
theorem inverse_perturb {d : ℕ} {A : Matrix (Fin d) (Fin d) ℂ} (h : IsUnit A) (V : Matrix (Fin d) (Fin d) ℂ)
    (φ : Matrix (Fin d) (Fin d) ℂ →ₗ[ℝ] ℝ) :
    HasDerivAt (fun t : ℝ => φ (A + t • V)⁻¹) (-φ (A⁻¹ * V * A⁻¹)) 0 := by
  obtain ⟨u, rfl⟩ := h
  have h1 := hasFDerivAt_ringInverse (𝕜 := ℝ) u
  have e0 : (u : Matrix (Fin d) (Fin d) ℂ) = u + (0 : ℝ) • V := by rw [zero_smul, add_zero]
  rw [e0] at h1
  have h2 : HasDerivAt (fun t : ℝ => (u : Matrix (Fin d) (Fin d) ℂ) + t • V) V 0 := by
    have := ((hasDerivAt_id (0 : ℝ)).smul_const V).const_add (u : Matrix (Fin d) (Fin d) ℂ)
    rwa [one_smul] at this
  have h3 := h1.comp_hasDerivAt (0 : ℝ) h2
  have h4 := (LinearMap.toContinuousLinearMap φ).hasFDerivAt.comp_hasDerivAt (0 : ℝ) h3
  refine (h4.congr_deriv ?_).congr_of_eventuallyEq (Filter.Eventually.of_forall fun t => ?_)
  · refine Eq.trans ?_ (map_neg φ _)
    simp only [ContinuousLinearMap.neg_apply, ContinuousLinearMap.mulLeftRight_apply, Matrix.coe_units_inv]
    rfl
  · simp [Matrix.nonsing_inv_eq_ringInverse]

end


/-- The pairing of matrices with a conjugate. -/
noncomputable def rePair {d : ℕ} (W : Matrix (Fin d) (Fin d) ℂ) : Matrix (Fin d) (Fin d) ℂ →ₗ[ℝ] ℝ where
  toFun X := (∑ i, ∑ j, W i j * star (X i j)).re
  map_add' X Y := by
    simp only [Matrix.add_apply, star_add, mul_add, Finset.sum_add_distrib, Complex.add_re]
  map_smul' t X := by
    simp only [Matrix.smul_apply, star_smul, star_trivial, mul_smul_comm, ← Finset.smul_sum, Complex.smul_re,
      RingHom.id_apply]

theorem rePair_apply {d : ℕ} (W X : Matrix (Fin d) (Fin d) ℂ) :
    rePair W X = (∑ i, ∑ j, W i j * star (X i j)).re := rfl

/-- The derivatives of the expectation parameters of the circularly symmetric complex normal
distribution, in all directions. -/
theorem circular_grad {d : ℕ} {q : Matrix (Fin d) (Fin d) ℂ} (hq : (-q).PosDef)
    (W V : Matrix (Fin d) (Fin d) ℂ) :
    deriv (fun t : ℝ => (cmvCircular d).dot W ((cmvCircular d).toExp (q + t • V))) 0 =
      rePair W ((-q)⁻¹ * V * (-q)⁻¹) := by
  have h := inverse_perturb hq.isUnit (-V) (rePair W)
  have e : (fun t : ℝ => (cmvCircular d).dot W ((cmvCircular d).toExp (q + t • V))) =
      fun t : ℝ => rePair W (-q + t • -V)⁻¹ := by
    funext t
    rw [rePair_apply, show -q + t • -V = -(q + t • V) by rw [smul_neg, neg_add]]
    rfl
  rw [e, h.deriv]
  simp

/-- The pairing is a trace. -/
theorem rePair_trace {d : ℕ} (W X : Matrix (Fin d) (Fin d) ℂ) : rePair W X = (W * Xᴴ).trace.re := by
  simp only [rePair_apply, trace, diag, mul_apply, conjTranspose_apply]

theorem rePair_square {d : ℕ} {S B : Matrix (Fin d) (Fin d) ℂ} (hS : S = Bᴴ * B)
    (W V : Matrix (Fin d) (Fin d) ℂ) : rePair W (S * V * S) = rePair (B * W * Bᴴ) (B * V * Bᴴ) := by
  subst hS
  rw [rePair_trace, rePair_trace]
  simp only [conjTranspose_mul, conjTranspose_conjTranspose]
  congr 1
  calc (W * (Bᴴ * B * (Vᴴ * (Bᴴ * B)))).trace
      = ((W * Bᴴ * B * Vᴴ * Bᴴ) * B).trace := by simp only [Matrix.mul_assoc]
    _ = (B * (W * Bᴴ * B * Vᴴ * Bᴴ)).trace := trace_mul_comm _ _
    _ = _ := by simp only [Matrix.mul_assoc]

theorem rePair_symm {d : ℕ} (W V : Matrix (Fin d) (Fin d) ℂ) : rePair W V = rePair V W := by
  simp only [rePair_apply, Complex.re_sum]
  refine Finset.sum_congr rfl fun i _ => Finset.sum_congr rfl fun j _ => ?_
  simp [Complex.mul_re]; ring

theorem rePair_self {d : ℕ} (W : Matrix (Fin d) (Fin d) ℂ) : 0 ≤ rePair W W ∧ (rePair W W = 0 → W = 0) := by
  have e : rePair W W = ∑ i, ∑ j, Complex.normSq (W i j) := by
    simp only [rePair_apply, Complex.re_sum]
    refine Finset.sum_congr rfl fun i _ => Finset.sum_congr rfl fun j _ => ?_
    simp [Complex.mul_re, Complex.normSq_apply]
  have h0 : ∀ i, 0 ≤ ∑ j, Complex.normSq (W i j) := fun i =>
    Finset.sum_nonneg fun j _ => Complex.normSq_nonneg _
  rw [e]
  refine ⟨Finset.sum_nonneg fun i _ => h0 i, fun h => ?_⟩
  ext i j
  have h1 := (Finset.sum_eq_zero_iff_of_nonneg fun i _ => h0 i).1 h i (Finset.mem_univ _)
  have h2 := (Finset.sum_eq_zero_iff_of_nonneg fun j _ => Complex.normSq_nonneg _).1 h1 j (Finset.mem_univ _)
  exact Complex.normSq_eq_zero.1 h2

section

variable [MachEps] {search : Cls → List Val → Except Err (List Val)} {d : ℕ}

theorem circular_gradMatrix {q : Matrix (Fin d) (Fin d) ℂ} (hq : (-q).PosDef)
    (a b : Fin ((d + 1).choose 2 + (d + 1).choose 2)) :
    gradMatrix (cmvCircular d) (ofFlatC d) q a b =
      rePair (ofFlatC d (Pi.single a 1)) ((-q)⁻¹ * ofFlatC d (Pi.single b 1) * (-q)⁻¹) := by
  rw [gradMatrix_apply, circular_grad hq]

theorem circular_posDef {q : Matrix (Fin d) (Fin d) ℂ} (hq : (-q).PosDef) :
    (gradMatrix (cmvCircular d) (ofFlatC d) q).PosDef := by
  obtain ⟨B, hB, hdet⟩ := posDef_square hq.inv
  have hu : IsUnit B := (isUnit_iff_isUnit_det _).2 (isUnit_iff_ne_zero.2 hdet)
  have e : ∀ a b, gradMatrix (cmvCircular d) (ofFlatC d) q a b =
      rePair (B * ofFlatC d (Pi.single a 1) * Bᴴ) (B * ofFlatC d (Pi.single b 1) * Bᴴ) := fun a b => by
    rw [circular_gradMatrix hq, rePair_square hB]
  refine Matrix.PosDef.of_dotProduct_mulVec_pos ?_ fun z hz => ?_
  · ext a b
    rw [Matrix.conjTranspose_apply, star_trivial, e, e, rePair_symm]
  · have hz' : ofFlatC d z = ∑ k, z k • ofFlatC d (Pi.single k 1) := by
      conv_lhs => rw [← Finset.univ_sum_single z]
      rw [map_sum]
      refine Finset.sum_congr rfl fun k _ => ?_
      rw [← map_smul]
      congr 1
      ext l
      by_cases h : l = k
      · subst h; simp
      · simp [h]
    have hT : B * ofFlatC d z * Bᴴ = ∑ k, z k • (B * ofFlatC d (Pi.single k 1) * Bᴴ) := by
      rw [hz', Matrix.mul_sum, Matrix.sum_mul]
      exact Finset.sum_congr rfl fun k _ => by rw [Matrix.mul_smul, Matrix.smul_mul]
    have hs : star z ⬝ᵥ gradMatrix (cmvCircular d) (ofFlatC d) q *ᵥ z =
        rePair (B * ofFlatC d z * Bᴴ) (B * ofFlatC d z * Bᴴ) := by
      conv_rhs => rw [hT, map_sum]
      simp only [map_smul, rePair_symm (∑ k, z k • (B * ofFlatC d (Pi.single k 1) * Bᴴ)), map_sum,
        dotProduct, mulVec, star_trivial, smul_eq_mul, Finset.mul_sum]
      have hc : ∀ a b, rePair (z a • (B * ofFlatC d (Pi.single a 1) * Bᴴ)) (B * ofFlatC d (Pi.single b 1) * Bᴴ) =
          z a * rePair (B * ofFlatC d (Pi.single a 1) * Bᴴ) (B * ofFlatC d (Pi.single b 1) * Bᴴ) := fun a b => by
        rw [rePair_symm, map_smul, smul_eq_mul, rePair_symm]
      rw [Finset.sum_comm]
      refine Finset.sum_congr rfl fun a _ => Finset.sum_congr rfl fun b _ => ?_
      rw [e, rePair_symm, hc]
      ring
    rw [hs]
    refine lt_of_le_of_ne (rePair_self _).1 fun h => hz ?_
    have h0 := (rePair_self _).2 h.symm
    refine ofFlatC_injective ?_
    have hu' : IsUnit Bᴴ := (isUnit_conjTranspose _).2 hu
    have h1 := hu'.mul_left_eq_zero.1 h0
    exact hu.mul_right_eq_zero.1 h1

/-- The Fisher information matrix of the circularly symmetric complex normal distribution. -/
theorem fisher_circular (rs : List ℕ) (p : List ℕ → Unit) {q : List ℕ → Matrix (Fin d) (Fin d) ℂ}
    (hq : ∀ i, inB rs i = true → (-q i).PosDef) :
    fisherMatrix (library search) (.mk .ccsnNP (layCM d rs p q) .nil) =
      .ok (matrices rs fun i => gradMatrix (cmvCircular d) (ofFlatC d) (q i)) := by
  refine fisherMatrix_grad (P := Unit) (F := fun _ => cmvCircular d)
    (nat := fun rs p q => .mk .ccsnNP (layCM d rs p q) .nil)
    (exp := fun rs p q => .mk .ccsnEP (layCM d rs p q) .nil) (dm := fun _ _ => True)
    (enc := fun q => reIm (upper q)) (dec := ofFlatC d)
    (flatten_circular d rs p q) (fun _ _ => rfl) (fun i _ z => unflatten_circular d (fun _ => p i) z)
    (fun _ => rfl) ((C51_cmv_circular d).shape rs p q) (fun p q => (C51_cmv_circular d).logNormalizer [] p q)
    (fun p q _ => ?_) (simple_dot (.cmvCircular d)) (fun i hi => ofFlatC_enc ?_)
    fun i hi => ⟨trivial, fun _ => Filter.Eventually.of_forall fun _ => trivial⟩
  · simp only [Dist.toExp, ClassTable.isJoint, ClassTable.expCls, Cls.isJoint, Cls.expCls, Library.toExp]
    have h := (C51_cmv_circular d).toExp [] p q fun _ _ => trivial
    refine (congrArg (fun x => x >>= _) h).trans ?_
    rfl
  · have := (hq i hi).isHermitian.neg
    rwa [neg_neg] at this

omit [MachEps] in
theorem sum_single (j : Fin d) (x : ℂ) (X : Fin d → Fin d → ℂ) :
    ∑ i, ∑ k, (Matrix.single j j x : Matrix (Fin d) (Fin d) ℂ) i k * X i k = x * X j j := by
  simp [Matrix.single_apply, ite_and]

omit [MachEps] in
theorem circular_diagIm {q : Matrix (Fin d) (Fin d) ℂ} (hq : (-q).PosDef) (j k : Fin d) :
    rePair (Matrix.single j j Complex.I) ((-q)⁻¹ * Matrix.single k k Complex.I * (-q)⁻¹) =
      Complex.normSq ((-q)⁻¹ j k) := by
  have hS : (-q)⁻¹ k j = star ((-q)⁻¹ j k) := (hq.inv.isHermitian.apply k j).symm
  have e : ((-q)⁻¹ * Matrix.single k k Complex.I * (-q)⁻¹) j j = Complex.I * ((-q)⁻¹ j k * (-q)⁻¹ k j) := by
    simp only [Matrix.mul_apply, Matrix.single_apply, ite_and]
    simp
    ring
  rw [rePair_apply, sum_single j Complex.I fun a b => star (((-q)⁻¹ * Matrix.single k k Complex.I * (-q)⁻¹) a b),
    e, hS]
  simp [Complex.normSq_apply]

omit [MachEps] in
theorem circular_diagIm_zero {q V : Matrix (Fin d) (Fin d) ℂ} (hq : (-q).PosDef) (hV : V.IsHermitian)
    (j : Fin d) : rePair (Matrix.single j j Complex.I) ((-q)⁻¹ * V * (-q)⁻¹) = 0 := by
  have hS := hq.inv.isHermitian
  have hH : ((-q)⁻¹ * V * (-q)⁻¹).IsHermitian := by
    rw [IsHermitian, conjTranspose_mul, conjTranspose_mul, hS.eq, hV.eq, Matrix.mul_assoc]
  have := Complex.conj_eq_iff_im.1 (hH.apply j j)
  rw [rePair_apply, sum_single j Complex.I fun a b => star (((-q)⁻¹ * V * (-q)⁻¹) a b)]
  simp [this]

/-- **C42**, the circularly symmetric complex normal distribution, of every number of dimensions and every
batch shape.  Coordinate `k` of the flat vector moves the parameter in the direction `u k`, a Hermitian
matrix or an imaginary number on the diagonal.  The matrix is positive definite, `jeffreys_prior()` is the
square root of its determinant, and at the Hermitian coordinates it holds the covariances of the
statistics.  The entries that couple the two sorts of coordinates are zero; those of two imaginary numbers
on the diagonal are the squared absolute values of the entries of the variance `(-q)⁻¹`. -/
theorem C42_circular (d : ℕ) : ∃ u : Fin ((d + 1).choose 2 + (d + 1).choose 2) → Matrix (Fin d) (Fin d) ℂ,
    (∀ p q, ∃ fl y, flatten (.mk .ccsnNP (layCM d [] p q) .nil : Dist Cls) false = .ok (fl, y) ∧
      y.rshape = [(d + 1).choose 2 + (d + 1).choose 2] ∧
      ∀ k : Fin ((d + 1).choose 2 + (d + 1).choose 2), fl.unflatten
        (unitVector ((d + 1).choose 2 + (d + 1).choose 2) k) =
        .ok (.mk .ccsnNP (layCM d [] p fun _ => u k) .nil)) ∧
    (∀ k, (u k).IsHermitian ∨ ∃ j, u k = Matrix.single j j Complex.I) ∧
    (∀ j, ∃ k, u k = Matrix.single j j Complex.I) ∧
    ∀ rs p (q : List ℕ → Matrix (Fin d) (Fin d) ℂ), (∀ i, inB rs i = true → (-q i).PosDef) →
      ∃ M : List ℕ → Matrix (Fin ((d + 1).choose 2 + (d + 1).choose 2))
        (Fin ((d + 1).choose 2 + (d + 1).choose 2)) ℝ,
      fisherMatrix (library search) (.mk .ccsnNP (layCM d rs p q) .nil) = .ok (matrices rs M) ∧
      jeffreysPrior (library search) (.mk .ccsnNP (layCM d rs p q) .nil) =
        .ok (scalars rs fun i => Real.sqrt (M i).det) ∧
      ∀ i, inB rs i = true → (M i).PosDef ∧
        (∀ k l, (u k).IsHermitian → (u l).IsHermitian →
          HasCov volume ((cmvCircular d).pdf (q i)) (fun x => (cmvCircular d).dot (u k) ((cmvCircular d).stat x))
            (fun x => (cmvCircular d).dot (u l) ((cmvCircular d).stat x)) (M i k l)) ∧
        (∀ k l j, u k = Matrix.single j j Complex.I → (u l).IsHermitian → M i k l = 0) ∧
        ∀ k l j j', u k = Matrix.single j j Complex.I → u l = Matrix.single j' j' Complex.I →
          M i k l = Complex.normSq ((-q i)⁻¹ j j') := by
  refine ⟨fun k => ofFlatC d (Pi.single k 1), fun p q => ⟨_, _, flatten_circular d [] p q, rfl, fun k => ?_⟩,
    fun k => ?_, fun j => ⟨diagIm j, ofFlatC_diagIm j⟩, fun rs p q hq => ⟨_, fisher_circular rs p hq,
      jeffreys_flat (fisher_circular rs p hq), fun i hi => ⟨circular_posDef (hq i hi), fun k l hk hl => ?_,
      fun k l j hk hl => ?_, fun k l j j' hk hl => ?_⟩⟩⟩
  · rw [unitVector_eq]
    exact unflatten_circular d p _
  · by_cases h : ∃ j, k = diagIm j
    · obtain ⟨j, rfl⟩ := h
      exact .inr ⟨j, ofFlatC_diagIm j⟩
    · exact .inl (ofFlatC_hermitian fun j hj => h ⟨j, hj⟩)
  · exact (cmvCircular_regular d).toLocallyRegular.gradMatrix_cov (hq i hi) hk hl
  · have hk : ofFlatC d (Pi.single k 1) = _ := hk
    rw [circular_gradMatrix (hq i hi), hk]
    exact circular_diagIm_zero (hq i hi) hl j
  · have hk : ofFlatC d (Pi.single k 1) = _ := hk
    have hl : ofFlatC d (Pi.single l 1) = _ := hl
    rw [circular_gradMatrix (hq i hi), hk, hl]
    exact circular_diagIm (hq i hi) j j'

-- Such batches exist.
example : ∀ i, inB [2] i = true → (-(-1 : Matrix (Fin 3) (Fin 3) ℂ)).PosDef := fun _ _ => by
  rw [neg_neg]; exact Matrix.PosDef.one

omit [MachEps] in
theorem dot_single (j : Fin d) (z : ℂ) (x : Fin d → ℂ) :
    (cmvCircular d).dot (Matrix.single j j z) ((cmvCircular d).stat x) = z.re * Complex.normSq (x j) := by
  have := sum_single j z fun a b => vecMulVec x (star x) a b
  refine (congrArg Complex.re this).trans ?_
  rw [vecMulVec_apply]
  simp [Complex.normSq_apply, mul_comm]

theorem layCM_inj {p : List ℕ → Unit} {A B : Matrix (Fin d) (Fin d) ℂ}
    (h : (Dist.mk Cls.ccsnNP (layCM d [] p fun _ => A) .nil : Dist Cls) =
      .mk .ccsnNP (layCM d [] p fun _ => B) .nil) : A = B := by
  have h1 : layCM d [] p (fun _ => A) = layCM d [] p fun _ => B := (Dist.mk.inj h).2.1
  have h2 : (matrices [] fun _ => A) = matrices [] fun _ => B := Val.complex.inj (List.cons.inj h1).1
  ext r c
  rw [← Calc.matrices_get (rs := []) (fun _ => A) r c (i := []) rfl, h2,
    Calc.matrices_get (rs := []) (fun _ => B) r c (i := []) rfl]

/-- C42 is violated for the circularly symmetric complex normal distribution: the flat vector has
coordinates for the imaginary parts of the diagonal.  Their statistics are zero, but the Fisher information
matrix gives them positive variances. -/
theorem C42_not_flat_circular : ¬FlatFisher (library search)
    (fun rs p q => .mk .ccsnNP (layCM (d + 1) rs p q) .nil) ((d + 2).choose 2 + (d + 2).choose 2)
    (fun _ => cmvCircular (d + 1)) volume (fun _ => cmvCircularDom (d + 1)) := by
  rintro ⟨u', hu', h'⟩
  obtain ⟨u, hu, -, hj, h⟩ := C42_circular (search := search) (d + 1)
  have h1 : (-(-1 : Matrix (Fin (d + 1)) (Fin (d + 1)) ℂ)).PosDef := by rw [neg_neg]; exact Matrix.PosDef.one
  have hue : ∀ k, u' k = u k := by
    intro k
    obtain ⟨fl, y, a1, -, a3⟩ := hu' (fun _ => ()) (fun _ => -1) h1
    obtain ⟨fl', y', b1, -, b3⟩ := hu (fun _ => ()) fun _ => -1
    obtain ⟨rfl, rfl⟩ := Prod.mk.inj (Except.ok.inj (a1.symm.trans b1))
    exact layCM_inj (Except.ok.inj ((a3 k).symm.trans (b3 k)))
  obtain ⟨k, hk⟩ := hj 0
  obtain ⟨M, hM, -, hM'⟩ := h [] (fun _ => ()) (fun _ => -1) fun _ _ => h1
  obtain ⟨A, hA, -, hA'⟩ := h' [] (fun _ => ()) (fun _ => -1) fun _ _ => h1
  obtain ⟨-, -, -, hd⟩ := hM' [] rfl
  have e := hd k k 0 0 hk hk
  have hc := (hA' [] rfl).2 k k
  have hAM : A [] = M [] := by
    have := Except.ok.inj (hA.symm.trans hM)
    ext r c
    rw [← Calc.matrices_get (rs := []) A r c (i := []) rfl, this,
      Calc.matrices_get (rs := []) M r c (i := []) rfl]
  rw [hAM, e, hue, hk] at hc
  have hz : ∀ x, (cmvCircular (d + 1)).dot (Matrix.single 0 0 Complex.I) ((cmvCircular (d + 1)).stat x) = 0 := by
    intro x
    rw [dot_single]
    simp
  simp only [hz] at hc
  obtain ⟨a, b, ha, hb, hab⟩ := hc
  have ha0 : a = 0 := by rw [← ha.2]; simp
  subst ha0
  have := hab.2
  simp at this

/-- With one dimension and the parameter `-r` (the variance is `1 / r`), the Fisher information of the only
parameter is `r⁻²`, so that Jeffreys' prior is `r⁻¹`; but `jeffreys_prior()` returns `r⁻²`. -/
theorem C42_circular_jeffreys {r : ℝ} (hr : 0 < r) :
    jeffreysPrior (library search) (.mk .ccsnNP (layCM 1 [] (fun _ => ()) fun _ => Matrix.of fun _ _ => -(r : ℂ)) .nil) =
      .ok (scalars [] fun _ => (r ^ 2)⁻¹) ∧
    HasCov volume ((cmvCircular 1).pdf (Matrix.of fun _ _ => -(r : ℂ))) (fun x => Complex.normSq (x 0))
      (fun x => Complex.normSq (x 0)) ((r ^ 2)⁻¹) := by
  have hq : (-(Matrix.of fun _ _ => -(r : ℂ) : Matrix (Fin 1) (Fin 1) ℂ)).PosDef := by
    have e : -(Matrix.of fun _ _ => -(r : ℂ) : Matrix (Fin 1) (Fin 1) ℂ) = diagonal fun _ => (r : ℂ) := by
      ext i j
      obtain rfl := Subsingleton.elim i j
      simp
    rw [e]
    exact Matrix.PosDef.diagonal fun _ => by exact_mod_cast hr
  have hS : (-(Matrix.of fun _ _ => -(r : ℂ) : Matrix (Fin 1) (Fin 1) ℂ))⁻¹ = Matrix.of fun _ _ => ((r : ℂ))⁻¹ := by
    rw [Matrix.inv_subsingleton]
    ext i j
    obtain rfl := Subsingleton.elim i j
    simp
  obtain ⟨D, hD⟩ : ∃ D : (Fin 2 → ℝ) →ₗ[ℝ] Matrix (Fin 1) (Fin 1) ℂ, D = ofFlatC 1 := ⟨_, rfl⟩
  have hz : ∀ z : Fin 2 → ℝ, D z = Matrix.of fun _ _ => (⟨z 0, z 1⟩ : ℂ) := by
    intro z
    rw [hD]
    ext i j
    obtain rfl := Subsingleton.elim i 0
    obtain rfl := Subsingleton.elim j 0
    rfl
  have hG : ∀ a b : Fin 2, gradMatrix (cmvCircular 1) D (Matrix.of fun _ _ => -(r : ℂ)) a b =
      rePair (D (Pi.single a 1)) ((-(Matrix.of fun _ _ => -(r : ℂ)))⁻¹ * D (Pi.single b 1) *
        (-(Matrix.of fun _ _ => -(r : ℂ)))⁻¹) := by
    intro a b
    rw [hD]
    exact circular_gradMatrix hq (d := 1) a b
  have hM : ∀ a b : Fin 2, gradMatrix (cmvCircular 1) D (Matrix.of fun _ _ => -(r : ℂ)) a b =
      if a = b then (r ^ 2)⁻¹ else 0 := by
    intro a b
    rw [hG, hS, hz, hz, rePair_apply]
    fin_cases a <;> fin_cases b <;> simp [Matrix.mul_apply, ← Complex.ofReal_inv] <;> ring
  refine ⟨?_, ?_⟩
  · have h := jeffreys_flat (fisher_circular (search := search) [] (fun _ => ())
      (q := fun _ => Matrix.of fun _ _ => -(r : ℂ)) fun _ _ => hq)
    refine h.trans (congrArg Calc.ok (congrArg (scalars []) (funext fun _ => ?_)))
    have hd := Matrix.det_fin_two (gradMatrix (cmvCircular 1) D (Matrix.of fun _ _ => -(r : ℂ)))
    rw [hM, hM, hM, hM, hD] at hd
    refine (congrArg Real.sqrt hd).trans ?_
    simp only [if_true, zero_ne_one, one_ne_zero, if_false, mul_zero, sub_zero]
    exact Real.sqrt_mul_self (by positivity)
  · have e : D (Pi.single 0 1) = Matrix.single 0 0 1 := by
      rw [hz]
      ext i j
      obtain rfl := Subsingleton.elim i 0
      obtain rfl := Subsingleton.elim j 0
      refine Complex.ext ?_ ?_ <;> simp
    have hh : D (Pi.single 0 1) ∈ hermitianDirs 1 := by
      rw [e]
      change (Matrix.single 0 0 1 : Matrix (Fin 1) (Fin 1) ℂ).IsHermitian
      rw [IsHermitian, conjTranspose_single, star_one]
    have h := (cmvCircular_regular 1).toLocallyRegular.gradMatrix_cov hq hh hh
    have e' : ∀ x, (cmvCircular 1).dot (D (Pi.single 0 1)) ((cmvCircular 1).stat x) =
        Complex.normSq (x 0) := fun x => by rw [e, dot_single]; simp
    rw [hM, if_pos rfl] at h
    simp only [e'] at h
    exact h

end

end Efax
