import Verif.Props.FisherJoint
import Verif.Lemmas.Gradients
import Verif.Spec.ExpEntropy

/-!
# Flat coordinates of expectation parameters
-/

namespace Efax

open Spec Calc Filter Topology

noncomputable section

variable [MachEps] {solve : Solver} {search : Cls → List Val → Except Err (List Val)}

/-- The joint distribution of parts, for expectation parameters. -/
def CoordsParts.jointE {P N : Type} [AddCommGroup N] [Module ℝ N]
    {nats : List ℕ → (List ℕ → P) → (List ℕ → N) → Subs Cls} {n : ℕ} {good : N → Prop}
    (b : CoordsParts nats n good) : Coords (fun rs p q => .mk .jointE [] (nats rs p q)) n good where
  enc := b.enc
  dec := b.dec
  dec_enc := b.dec_enc
  enc_dec := b.enc_dec
  dec_good := b.dec_good
  infos base := by
    obtain ⟨l, h⟩ := b.infos base
    obtain ⟨k, hk⟩ := b.names
    refine ⟨l ++ [⟨base, .jointE, 1, k⟩], fun rs p q => Dist.walk_ok (h rs p q) ?_⟩
    rw [← hk rs p q]
    rfl
  fixed rs p q q' base := by
    simp only [Dist.paramList]
    rw [b.fixed rs p q q']
  fits rs p q h := ⟨⟨1, rfl, trivial⟩, b.fits rs p q h⟩
  blocks rs p q base h := by
    obtain ⟨A, h1, h2⟩ := b.blocks rs p q base h
    refine ⟨A ++ [[]], Dist.walk_ok h1 rfl, ?_⟩
    simpa using h2

/-- Flat coordinates of the expectation parameters of a kind, in which the dot product is linear and the expected
carrier measure is differentiable.  If `flat` and if `to_nat()` has a closed form, `to_nat()` is the inverse of
`to_exp()` along the lines. -/
def HasFlatE {K : Kind Cls} (S : Setting K) (n : ℕ) (flat : Prop) : Prop :=
  ∃ (_ : AddCommGroup K.E) (_ : Module ℝ K.E) (good : K.E → Prop) (_ : Coords K.exp n good),
    (∀ p q, S.ok p → q ∈ S.dom p → good ((K.F p).toExp q)) ∧
    (∀ p v χ w (t : ℝ), (K.F p).dot v (χ + t • w) = (K.F p).dot v χ + t * (K.F p).dot v w) ∧
    (K.ent → ∀ p q w, S.ok p → q ∈ S.dom p →
      DifferentiableAt ℝ (fun t : ℝ => K.ecm p ((K.F p).toExp q + t • w)) 0) ∧
    (flat → S.closed → ∀ p q w, S.ok p → q ∈ S.dom p → good w → ∀ᶠ t in 𝓝 (0 : ℝ),
      K.domE p ((K.F p).toExp q + t • w) ∧ K.toNat p ((K.F p).toExp q + t • w) ∈ S.dom p ∧
        (K.F p).toExp (K.toNat p ((K.F p).toExp q + t • w)) = (K.F p).toExp q + t • w)

/-- `HasFlatE` for parts. -/
def HasFlatEParts {R : Parts Cls} (S : Settings R) (n : ℕ) (flat : Prop) : Prop :=
  ∃ (_ : AddCommGroup R.E) (_ : Module ℝ R.E) (good : R.E → Prop) (_ : CoordsParts R.exp n good),
    (∀ p q, S.ok p → q ∈ S.dom p → good ((R.F p).toExp q)) ∧
    (∀ p v χ w (t : ℝ), (R.F p).dot v (χ + t • w) = (R.F p).dot v χ + t * (R.F p).dot v w) ∧
    (R.ent → ∀ p q w, S.ok p → q ∈ S.dom p →
      DifferentiableAt ℝ (fun t : ℝ => R.ecm p ((R.F p).toExp q + t • w)) 0) ∧
    (flat → S.closed → ∀ p q w, S.ok p → q ∈ S.dom p → good w → ∀ᶠ t in 𝓝 (0 : ℝ),
      R.domE p ((R.F p).toExp q + t • w) ∧ R.toNat p ((R.F p).toExp q + t • w) ∈ S.dom p ∧
        (R.F p).toExp (R.toNat p ((R.F p).toExp q + t • w)) = (R.F p).toExp q + t • w)

theorem expDot_real (v χ w t : ℝ) : v * (χ + t * w) = v * χ + t * (v * w) := by ring

theorem expDot_vec {d : ℕ} (v χ w : Fin d → ℝ) (t : ℝ) :
    ∑ i, v i * (χ i + t * w i) = ∑ i, v i * χ i + t * ∑ i, v i * w i := by
  rw [Finset.mul_sum, ← Finset.sum_add_distrib]
  exact Finset.sum_congr rfl fun i _ => by ring

theorem expDot_vecC {d : ℕ} (v χ w : Fin d → ℂ) (t : ℝ) :
    (∑ i, v i * (χ i + t • w i)).re = (∑ i, v i * χ i).re + t * (∑ i, v i * w i).re := by
  rw [← Complex.re_ofReal_mul, ← Complex.add_re, Finset.mul_sum, ← Finset.sum_add_distrib]
  congr 1
  exact Finset.sum_congr rfl fun i _ => by rw [Complex.real_smul]; ring

theorem expDot_mat {d : ℕ} (v χ w : Matrix (Fin d) (Fin d) ℝ) (t : ℝ) :
    ∑ i, ∑ j, v i j * (χ i j + t * w i j) = ∑ i, ∑ j, v i j * χ i j + t * ∑ i, ∑ j, v i j * w i j := by
  simp only [expDot_vec]
  rw [Finset.mul_sum, ← Finset.sum_add_distrib]

theorem expDot_matC {d : ℕ} (v χ w : Matrix (Fin d) (Fin d) ℂ) (t : ℝ) :
    (∑ i, ∑ j, v i j * (χ i j + t • w i j)).re =
      (∑ i, ∑ j, v i j * χ i j).re + t * (∑ i, ∑ j, v i j * w i j).re := by
  simp only [Complex.re_sum (s := Finset.univ) (f := fun i => ∑ j, _)]
  simp only [expDot_vecC]
  rw [Finset.mul_sum, ← Finset.sum_add_distrib]

theorem normSq_line (a b : ℂ) : Differentiable ℝ fun t : ℝ => Complex.normSq (a + t • b) := by
  have : (fun t : ℝ => Complex.normSq (a + t • b)) = fun t : ℝ => (a.re + t * b.re) * (a.re + t * b.re) +
      (a.im + t * b.im) * (a.im + t * b.im) := by
    funext t
    simp [Complex.normSq_apply]
  rw [this]
  fun_prop

omit [MachEps] in
open scoped ComplexOrder in
theorem circular_hermOff {d : ℕ} {q : Matrix (Fin d) (Fin d) ℂ} (h : (-q).PosDef) :
    HermOff ((cmvCircular d).toExp q) := by
  refine hermOff_of (?_ : ((-q)⁻¹.map (starRingEnd ℂ)).IsHermitian)
  have := h.inv.isHermitian
  rw [Matrix.IsHermitian] at this ⊢
  ext i j
  have h2 := congrFun (congrFun this j) i
  simp only [Matrix.conjTranspose_apply, Matrix.map_apply] at h2 ⊢
  rw [← h2]
  simp

def Raw.complexNormalE : Raw .complexNormalEP layCSC (2 + 1 + 2) fun _ => True where
  enc := encCSC
  dec := decCSC
  dec_enc q _ := decCSC_encCSC q
  enc_dec := encCSC_decCSC
  dec_good _ := trivial
  fl _ _ := flRaw .complexNormalEP 1 []
  flat rs p q hq := by
    have e1 := (codecC (mn := Arr.full [] 0) (mx := none) (d := 1)).flat rs (fun i => (q i).1) fun _ _ => trivial
    have e2 := (codecS (mn := some (Ring.openMin 0)) (mx := none) (g := 1) (d := 1)).flat rs (fun i => (q i).2.1)
      fun _ _ => trivial
    have e3 : ∀ mx, _ := fun mx => (codecC (mn := Arr.full [] 0) (mx := mx) (d := 1)).flat rs
      (fun i => (q i).2.2) fun _ _ => trivial
    simp [flatten, Dist.walk, Subs.walk, makeFlat, parametersFlat, nodeParams, ClassTable.fields, layCSC, 
      Dist.cls, Dist.vals, Dist.subs, Dict.ofList, Dict.set, makeFlatFields, ClassTable.adjust, Cls.adjust, Cls.fields,
      Ring.complexField, Ring.mkReal, e1, e2, e3, Dict.get, Dict.get?,
      Bind.bind, Except.bind, append_vectors', List.foldlM, pure, Except.pure,
      reduceAppend, infosOf, makeInfo, ClassTable.dimensions, Cls.dimensions, Cls.isMultidimensional, parameters, Dist.paramList, Subs.paramList,
      keep, flRaw, Subs.names]
    rfl
  flAt rs p i hi := rfl
  unflat rs p z := by
    have hl : (vectors rs z).lastDim = .ok (2 + 1 + 2) := rfl
    have e1 := (codecC (mn := Arr.full [] 0) (mx := none) (d := 1)).unflat rs fun i => firstPart 2 1 (firstPart (2 + 1) 2 (z i))
    have e2 := (codecS (mn := some (Ring.openMin 0)) (mx := none) (g := 1) (d := 1)).unflat rs fun i =>
      lastPart 2 1 (firstPart (2 + 1) 2 (z i))
    have e3 : ∀ mx, _ := fun mx => (codecC (mn := Arr.full [] 0) (mx := mx) (d := 1)).unflat rs fun i =>
      lastPart (2 + 1) 2 (z i)
    have n1 : ∀ mx, _ := fun mx => (codecC (mn := Arr.full [] 0) (mx := mx) (d := 1)).num
    have n2 := (codecS (mn := some (Ring.openMin 0)) (mx := none) (g := 1) (d := 1)).num
    have s1 : (vectors rs z).slice 0 2 = .ok (vectors rs fun i => firstPart 2 1 (firstPart (2 + 1) 2 (z i))) :=
      slice_left (m := 2) (n := 1 + 2) rs z
    have s2 := slice_middle (l := 2) (m := 1) (n := 2) rs z
    have s3 := slice_right (m := 2 + 1) (n := 2) rs z
    simp [Flattener.unflatten, flRaw, hl, unflattenStep, supportOf, ClassTable.fields, Cls.fields, keep, Dict.ofList,
      Dict.set, Dict.keys, unflattenFields, ClassTable.adjust, Cls.adjust, n1, n2, s1, s2, s3, e1, e2, e3,
      Ring.complexField, Ring.mkReal, Bind.bind, Except.bind,
      gatherSubs, construct, ClassTable.isJoint, Cls.isJoint, Dict.merge, argOf, Dict.get?, getDist, Dict.get, pure,
      Except.pure]
    rfl

theorem line_of {N E : Type} [AddCommGroup E] [Module ℝ E] [TopologicalSpace E] [ContinuousAdd E]
    [ContinuousSMul ℝ E] {toExp : N → E} {toNat : E → N} {dom : Set N} {mdom : Set E}
    (h : Inverses toExp toNat dom mdom) (ho : IsOpen mdom) {q : N} (hq : q ∈ dom) {w : E} :
    ∀ᶠ t in 𝓝 (0 : ℝ), True ∧ toNat (toExp q + t • w) ∈ dom ∧ toExp (toNat (toExp q + t • w)) = toExp q + t • w := by
  have hc : Continuous fun t : ℝ => toExp q + t • w := by fun_prop
  have h0 : toExp q + (0 : ℝ) • w ∈ mdom := by
    rw [zero_smul, add_zero]
    exact (h.1 q hq).1
  exact (hc.continuousAt.eventually_mem (ho.mem_nhds h0)).mono fun t ht => ⟨trivial, h.2 _ ht⟩

theorem isOpen_diagonal {d : ℕ} : IsOpen {χ : (Fin d → ℝ) × (Fin d → ℝ) | ∀ i, χ.1 i ^ 2 < χ.2 i} := by
  rw [Set.setOf_forall]
  exact isOpen_iInter_of_finite fun i => isOpen_lt (by fun_prop) (by fun_prop)

theorem mvNormal_line {d : ℕ} {q w : (Fin d → ℝ) × Matrix (Fin d) (Fin d) ℝ} (hq : q ∈ mvNormalDom d)
    (hw : w.2.IsSymm) : ∀ᶠ t in 𝓝 (0 : ℝ), True ∧ mvNormalToNat ((mvNormal d).toExp q + t • w) ∈ mvNormalDom d ∧
      (mvNormal d).toExp (mvNormalToNat ((mvNormal d).toExp q + t • w)) = (mvNormal d).toExp q + t • w := by
  set χ := (mvNormal d).toExp q with hχ
  have hV : (χ.2 - Matrix.vecMulVec χ.1 χ.1).PosDef := (C31_mv_normal.1 q hq).1
  obtain ⟨δ, hδ, h⟩ := (mvNormal_regular d).finitelyOpen (0, -(χ.2 - Matrix.vecMulVec χ.1 χ.1))
    (show (- -(χ.2 - Matrix.vecMulVec χ.1 χ.1)).PosDef by rwa [neg_neg]) 2
    ![(0, -(w.2 - Matrix.vecMulVec χ.1 w.1 - Matrix.vecMulVec w.1 χ.1)), (0, Matrix.vecMulVec w.1 w.1)]
    (fun k => by
      fin_cases k
      · change (-(w.2 - Matrix.vecMulVec χ.1 w.1 - Matrix.vecMulVec w.1 χ.1)).IsSymm
        ext i j
        have := hw.apply j i
        simp only [Matrix.transpose_apply, Matrix.neg_apply, Matrix.sub_apply, Matrix.vecMulVec_apply, this]
        ring
      · change (Matrix.vecMulVec w.1 w.1).IsSymm
        ext i j
        simp only [Matrix.transpose_apply, Matrix.vecMulVec_apply]
        ring)
  have h1 : ∀ᶠ t in 𝓝 (0 : ℝ), |t| < δ := by
    have := (continuous_abs : Continuous fun t : ℝ => |t|).tendsto 0
    rw [abs_zero] at this
    exact this.eventually_lt_const hδ
  have h2 : ∀ᶠ t in 𝓝 (0 : ℝ), |t ^ 2| < δ := by
    have : Tendsto (fun t : ℝ => |t ^ 2|) (𝓝 0) (𝓝 |(0 : ℝ) ^ 2|) := by
      have : Continuous fun t : ℝ => |t ^ 2| := by fun_prop
      exact this.tendsto 0
    rw [zero_pow two_ne_zero, abs_zero] at this
    exact this.eventually_lt_const hδ
  filter_upwards [h1, h2] with t e1 e2
  have := h ![t, t ^ 2] fun k => by
    fin_cases k
    · exact e1.le
    · exact e2.le
  refine ⟨trivial, C31_mv_normal.2 _ ?_⟩
  have h3 : (-((0, -(χ.2 - Matrix.vecMulVec χ.1 χ.1)) + ∑ k, (![t, t ^ 2] : Fin 2 → ℝ) k •
    (![(0, -(w.2 - Matrix.vecMulVec χ.1 w.1 - Matrix.vecMulVec w.1 χ.1)), (0, Matrix.vecMulVec w.1 w.1)] :
      Fin 2 → (Fin d → ℝ) × Matrix (Fin d) (Fin d) ℝ) k).2).PosDef := this
  have e : (-((0, -(χ.2 - Matrix.vecMulVec χ.1 χ.1)) + ∑ k, (![t, t ^ 2] : Fin 2 → ℝ) k •
    (![(0, -(w.2 - Matrix.vecMulVec χ.1 w.1 - Matrix.vecMulVec w.1 χ.1)), (0, Matrix.vecMulVec w.1 w.1)] :
      Fin 2 → (Fin d → ℝ) × Matrix (Fin d) (Fin d) ℝ) k).2) =
      (χ + t • w).2 - Matrix.vecMulVec (χ + t • w).1 (χ + t • w).1 := by
    rw [Fin.sum_univ_two]
    ext i j
    simp [Matrix.vecMulVec_apply]
    ring
  rw [e] at h3
  exact h3

theorem hasFlatE_simple (hs : solve.For search) (s : Simple) (h1 : s ≠ .chi) (h2 : s ≠ .chiSquare)
    (h3 : ∀ d, s ≠ .vonMisesFisher d) {flat : Prop} (h4 : flat → ∀ d, s ≠ .cmvCircular d) :
    ∃ n, HasFlatE (s.setting solve) n flat := by
  have hw := (simple_ok hs s).wfE
  cases s with
  | chi => exact absurd rfl h1
  | chiSquare => exact absurd rfl h2
  | vonMisesFisher d => exact absurd rfl (h3 d)
  | bernoulli =>
    refine ⟨_, inferInstanceAs (AddCommGroup (ℝ)), inferInstanceAs (Module ℝ (ℝ)), fun _ => True, (Raw.one codecS rfl rfl rfl fun _ _ => rfl : Raw .bernoulliEP layS 1 _).coords hw
      ⟨_, fun _ _ _ => rfl⟩ (fun _ _ _ _ => rfl) (fun _ _ _ _ => fits_loops ⟨⟨_, rfl, ⟨_, rfl, rfl, nofun⟩, trivial⟩, trivial⟩),
      fun _ _ _ _ => trivial, fun (p : Unit) (v χ w : ℝ) t => ?_, fun he (p : Unit) (q w : ℝ) hp hq => ?_, fun hf hc _ _ w hp hq hw => ?_⟩
    · exact expDot_real v χ w t
    · exact differentiableAt_const _
    · exact line_of C31_bernoulli isOpen_Ioo hq
  | geometric =>
    refine ⟨_, inferInstanceAs (AddCommGroup (ℝ)), inferInstanceAs (Module ℝ (ℝ)), fun _ => True, (Raw.one codecS rfl rfl rfl fun _ _ => rfl : Raw .geometricEP layS 1 _).coords hw
      ⟨_, fun _ _ _ => rfl⟩ (fun _ _ _ _ => rfl) (fun _ _ _ _ => fits_loops ⟨⟨_, rfl, ⟨_, rfl, rfl, nofun⟩, trivial⟩, trivial⟩),
      fun _ _ _ _ => trivial, fun (p : Unit) (v χ w : ℝ) t => ?_, fun he (p : Unit) (q w : ℝ) hp hq => ?_, fun hf hc _ _ w hp hq hw => ?_⟩
    · exact expDot_real v χ w t
    · exact differentiableAt_const _
    · exact line_of C31_geometric isOpen_Ioi hq
  | exponential =>
    refine ⟨_, inferInstanceAs (AddCommGroup (ℝ)), inferInstanceAs (Module ℝ (ℝ)), fun _ => True, (Raw.one codecS rfl rfl rfl fun _ _ => rfl : Raw .exponentialEP layS 1 _).coords hw
      ⟨_, fun _ _ _ => rfl⟩ (fun _ _ _ _ => rfl) (fun _ _ _ _ => fits_loops ⟨⟨_, rfl, ⟨_, rfl, rfl, nofun⟩, trivial⟩, trivial⟩),
      fun _ _ _ _ => trivial, fun (p : Unit) (v χ w : ℝ) t => ?_, fun he (p : Unit) (q w : ℝ) hp hq => ?_, fun hf hc _ _ w hp hq hw => ?_⟩
    · exact expDot_real v χ w t
    · exact differentiableAt_const _
    · exact line_of C31_exponential isOpen_Ioi hq
  | poisson =>
    refine ⟨_, inferInstanceAs (AddCommGroup (ℝ)), inferInstanceAs (Module ℝ (ℝ)), fun _ => True, (Raw.one codecS rfl rfl rfl fun _ _ => rfl : Raw .poissonEP layS 1 _).coords hw
      ⟨_, fun _ _ _ => rfl⟩ (fun _ _ _ _ => rfl) (fun _ _ _ _ => fits_loops ⟨⟨_, rfl, ⟨_, rfl, rfl, nofun⟩, trivial⟩, trivial⟩),
      fun _ _ _ _ => trivial, fun (p : Unit) (v χ w : ℝ) t => ?_, fun he (p : Unit) (q w : ℝ) hp hq => ?_, fun hf hc _ _ w hp hq hw => ?_⟩
    · exact expDot_real v χ w t
    · exact absurd he id
    · exact line_of C31_poisson isOpen_Ioi hq
  | logarithmic =>
    refine ⟨_, inferInstanceAs (AddCommGroup (ℝ)), inferInstanceAs (Module ℝ (ℝ)), fun _ => True, (Raw.one codecS rfl rfl rfl fun _ _ => rfl : Raw .logarithmicEP layS 1 _).coords hw
      ⟨_, fun _ _ _ => rfl⟩ (fun _ _ _ _ => rfl) (fun _ _ _ _ => fits_loops ⟨⟨_, rfl, ⟨_, rfl, rfl, nofun⟩, trivial⟩, trivial⟩),
      fun _ _ _ _ => trivial, fun (p : Unit) (v χ w : ℝ) t => ?_, fun he (p : Unit) (q w : ℝ) hp hq => ?_, fun hf hc _ _ w hp hq hw => ?_⟩
    · exact expDot_real v χ w t
    · exact absurd he id
    · exact absurd hc id
  | rayleigh =>
    refine ⟨_, inferInstanceAs (AddCommGroup (ℝ)), inferInstanceAs (Module ℝ (ℝ)), fun _ => True, (Raw.one codecS rfl rfl rfl fun _ _ => rfl : Raw .rayleighEP layS 1 _).coords hw
      ⟨_, fun _ _ _ => rfl⟩ (fun _ _ _ _ => rfl) (fun _ _ _ _ => fits_loops ⟨⟨_, rfl, ⟨_, rfl, rfl, nofun⟩, trivial⟩, trivial⟩),
      fun _ _ _ _ => trivial, fun (p : Unit) (v χ w : ℝ) t => ?_, fun he (p : Unit) (q w : ℝ) hp hq => ?_, fun hf hc _ _ w hp hq hw => ?_⟩
    · exact expDot_real v χ w t
    · have hq : q < 0 := hq
      have h : (-1 / q + (0 : ℝ) * w) * 0.5 ≠ 0 := by
        have : 0 < -1 / q := div_pos_of_neg_of_neg (by norm_num) hq
        rw [zero_mul, add_zero]; positivity
      change DifferentiableAt ℝ (fun t : ℝ => 0.5 * Real.log ((-1 / q + t * w) * 0.5) +
        (1.5 * Real.log 2 - 0.5 * Real.eulerMascheroniConstant)) 0
      fun_prop (disch := assumption)
    · exact line_of C31_rayleigh isOpen_Ioi hq
  | unitNormal =>
    refine ⟨_, inferInstanceAs (AddCommGroup (ℝ)), inferInstanceAs (Module ℝ (ℝ)), fun _ => True, (Raw.one codecS rfl rfl rfl fun _ _ => rfl : Raw .unitNormalEP layS 1 _).coords hw
      ⟨_, fun _ _ _ => rfl⟩ (fun _ _ _ _ => rfl) (fun _ _ _ _ => fits_loops ⟨⟨_, rfl, ⟨_, rfl, rfl, nofun⟩, trivial⟩, trivial⟩),
      fun _ _ _ _ => trivial, fun (p : Unit) (v χ w : ℝ) t => ?_, fun he (p : Unit) (q w : ℝ) hp hq => ?_, fun hf hc _ _ w hp hq hw => ?_⟩
    · exact expDot_real v χ w t
    · change DifferentiableAt ℝ (fun t : ℝ => -0.5 * ((q + t * w) ^ 2 + 1)) 0
      fun_prop
    · exact line_of C31_unit_normal isOpen_univ hq
  | multinomial d =>
    refine ⟨_, inferInstanceAs (AddCommGroup (Fin (d + 1) → ℝ)), inferInstanceAs (Module ℝ (Fin (d + 1) → ℝ)), fun _ => True, (Raw.one codecV rfl rfl rfl fun _ _ => rfl : Raw .multinomialEP (layV (d + 1)) (d + 1) _).coords hw
      ⟨_, fun _ _ _ => rfl⟩ (fun _ _ _ _ => rfl) (fun _ _ _ _ => fits_loops ⟨⟨_, rfl, ⟨_, rfl, rfl, nofun⟩, trivial⟩, trivial⟩),
      fun _ _ _ _ => trivial, fun (p : Unit) (v χ w : Fin (d + 1) → ℝ) t => ?_, fun he (p : Unit) (q w : Fin (d + 1) → ℝ) hp hq => ?_, fun hf hc _ _ w hp hq hw => ?_⟩
    · exact expDot_vec v χ w t
    · exact differentiableAt_const _
    · exact line_of (C31_multinomial d) (isOpen_simplex _) hq
  | dirichlet d =>
    refine ⟨_, inferInstanceAs (AddCommGroup (Fin (d + 1) → ℝ)), inferInstanceAs (Module ℝ (Fin (d + 1) → ℝ)), fun _ => True, (Raw.one codecV rfl rfl rfl fun _ _ => rfl : Raw .dirichletEP (layV (d + 1)) (d + 1) _).coords hw
      ⟨_, fun _ _ _ => rfl⟩ (fun _ _ _ _ => rfl) (fun _ _ _ _ => fits_loops ⟨⟨_, rfl, ⟨_, rfl, rfl, nofun⟩, trivial⟩, trivial⟩),
      fun _ _ _ _ => trivial, fun (p : Unit) (v χ w : Fin (d + 1) → ℝ) t => ?_, fun he (p : Unit) (q w : Fin (d + 1) → ℝ) hp hq => ?_, fun hf hc _ _ w hp hq hw => ?_⟩
    · exact expDot_vec v χ w t
    · exact differentiableAt_const _
    · exact absurd hc id
  | beta =>
    refine ⟨_, inferInstanceAs (AddCommGroup (Fin 2 → ℝ)), inferInstanceAs (Module ℝ (Fin 2 → ℝ)), fun _ => True, (Raw.one codecV rfl rfl rfl fun _ _ => rfl : Raw .betaEP (layV 2) 2 _).coords hw
      ⟨_, fun _ _ _ => rfl⟩ (fun _ _ _ _ => rfl) (fun _ _ _ _ => fits_loops ⟨⟨_, rfl, ⟨_, rfl, rfl, nofun⟩, trivial⟩, trivial⟩),
      fun _ _ _ _ => trivial, fun (p : Unit) (v χ w : Fin 2 → ℝ) t => ?_, fun he (p : Unit) (q w : Fin 2 → ℝ) hp hq => ?_, fun hf hc _ _ w hp hq hw => ?_⟩
    · exact expDot_vec v χ w t
    · exact differentiableAt_const _
    · exact absurd hc id
  | mvUnit d =>
    refine ⟨_, inferInstanceAs (AddCommGroup (Fin d → ℝ)), inferInstanceAs (Module ℝ (Fin d → ℝ)), fun _ => True, (Raw.one codecV rfl rfl rfl fun _ _ => rfl : Raw .mvUnitNormalEP (layV d) d _).coords hw
      ⟨_, fun _ _ _ => rfl⟩ (fun _ _ _ _ => rfl) (fun _ _ _ _ => fits_loops ⟨⟨_, rfl, ⟨_, rfl, rfl, nofun⟩, trivial⟩, trivial⟩),
      fun _ _ _ _ => trivial, fun (p : Unit) (v χ w : Fin d → ℝ) t => ?_, fun he (p : Unit) (q w : Fin d → ℝ) hp hq => ?_, fun hf hc _ _ w hp hq hw => ?_⟩
    · exact expDot_vec v χ w t
    · change DifferentiableAt ℝ (fun t : ℝ => -0.5 * (∑ i, (q i + t * w i) ^ 2 + d)) 0
      fun_prop
    · exact line_of C31_mv_unit isOpen_univ hq
  | complexUnit =>
    refine ⟨_, inferInstanceAs (AddCommGroup (ℂ)), inferInstanceAs (Module ℝ (ℂ)), fun _ => True, (Raw.one codecC rfl rfl rfl fun _ _ => rfl : Raw .complexUnitNormalEP layC 2 _).coords hw
      ⟨_, fun _ _ _ => rfl⟩ (fun _ _ _ _ => rfl) (fun _ _ _ _ => fits_loops ⟨⟨_, rfl, ⟨_, rfl, rfl, nofun⟩, trivial⟩, trivial⟩),
      fun _ _ _ _ => trivial, fun (p : Unit) (v χ w : ℂ) t => ?_, fun he (p : Unit) (q w : ℂ) hp hq => ?_, fun hf hc _ _ w hp hq hw => ?_⟩
    · change (v * (χ + t • w)).re = (v * χ).re + t * (v * w).re
      rw [Complex.real_smul, ← Complex.re_ofReal_mul, ← Complex.add_re]
      ring_nf
    · exact (((normSq_line _ w).add_const 1).neg) 0
    · exact line_of C31_complex_unit isOpen_univ hq
  | cmvUnit d =>
    refine ⟨_, inferInstanceAs (AddCommGroup (Fin d → ℂ)), inferInstanceAs (Module ℝ (Fin d → ℂ)), fun _ => True, (Raw.one codecCV rfl rfl rfl fun _ _ => rfl : Raw .cmvUnitNormalEP (layCV d) (d + d) _).coords hw
      ⟨_, fun _ _ _ => rfl⟩ (fun _ _ _ _ => rfl) (fun _ _ _ _ => fits_loops ⟨⟨_, rfl, ⟨_, rfl, rfl, nofun⟩, trivial⟩, trivial⟩),
      fun _ _ _ _ => trivial, fun (p : Unit) (v χ w : Fin d → ℂ) t => ?_, fun he (p : Unit) (q w : Fin d → ℂ) hp hq => ?_, fun hf hc _ _ w hp hq hw => ?_⟩
    · exact expDot_vecC v χ w t
    · exact ((((Differentiable.fun_sum fun i _ => normSq_line _ (w i)).add_const (d : ℝ)).neg) : Differentiable ℝ _) 0
    · exact line_of C31_cmv_unit isOpen_univ hq
  | gamma =>
    refine ⟨_, inferInstanceAs (AddCommGroup (ℝ × ℝ)), inferInstanceAs (Module ℝ (ℝ × ℝ)), _, (Raw.two codecS codecS rfl rfl (by decide) rfl (fun _ => rfl) fun _ _ _ => rfl :
      Raw .gammaEP laySS 2 _).coords hw
      ⟨_, fun _ _ _ => rfl⟩ (fun _ _ _ _ => rfl) (fun _ _ _ _ => fits_loops ⟨⟨_, rfl, ⟨_, rfl, rfl, nofun⟩, ⟨_, rfl, rfl, nofun⟩, trivial⟩, trivial⟩),
      fun _ _ _ _ => ⟨trivial, trivial⟩, fun (p : Unit) (v χ w : ℝ × ℝ) t => ?_, fun he (p : Unit) (q w : ℝ × ℝ) hp hq => ?_, fun hf hc _ _ w hp hq hw => ?_⟩
    · change v.1 * (χ.1 + t * w.1) + v.2 * (χ.2 + t * w.2) = v.1 * χ.1 + v.2 * χ.2 + t * (v.1 * w.1 + v.2 * w.2)
      ring
    · exact differentiableAt_const _
    · exact absurd hc id
  | normal =>
    refine ⟨_, inferInstanceAs (AddCommGroup (ℝ × ℝ)), inferInstanceAs (Module ℝ (ℝ × ℝ)), _, (Raw.two codecS codecS rfl rfl (by decide) rfl (fun _ => rfl) fun _ _ _ => rfl :
      Raw .normalEP laySS 2 _).coords hw
      ⟨_, fun _ _ _ => rfl⟩ (fun _ _ _ _ => rfl) (fun _ _ _ _ => fits_loops ⟨⟨_, rfl, ⟨_, rfl, rfl, nofun⟩, ⟨_, rfl, rfl, nofun⟩, trivial⟩, trivial⟩),
      fun _ _ _ _ => ⟨trivial, trivial⟩, fun (p : Unit) (v χ w : ℝ × ℝ) t => ?_, fun he (p : Unit) (q w : ℝ × ℝ) hp hq => ?_, fun hf hc _ _ w hp hq hw => ?_⟩
    · change v.1 * (χ.1 + t * w.1) + v.2 * (χ.2 + t * w.2) = v.1 * χ.1 + v.2 * χ.2 + t * (v.1 * w.1 + v.2 * w.2)
      ring
    · exact differentiableAt_const _
    · exact line_of C31_normal (isOpen_lt (by fun_prop) (by fun_prop)) hq
  | genDirichlet d =>
    refine ⟨_, inferInstanceAs (AddCommGroup ((Fin d → ℝ) × (Fin d → ℝ))), inferInstanceAs (Module ℝ ((Fin d → ℝ) × (Fin d → ℝ))), _, (Raw.two codecV codecV rfl rfl (by decide) rfl (fun _ => rfl) fun _ _ _ => rfl :
      Raw .genDirichletEP (layVV d) (d + d) _).coords hw
      ⟨_, fun _ _ _ => rfl⟩ (fun _ _ _ _ => rfl) (fun _ _ _ _ => fits_loops ⟨⟨_, rfl, ⟨_, rfl, rfl, nofun⟩, ⟨_, rfl, rfl, nofun⟩, trivial⟩, trivial⟩),
      fun _ _ _ _ => ⟨trivial, trivial⟩, fun (p : Unit) (v χ w : (Fin d → ℝ) × (Fin d → ℝ)) t => ?_, fun he (p : Unit) (q w : (Fin d → ℝ) × (Fin d → ℝ)) hp hq => ?_, fun hf hc _ _ w hp hq hw => ?_⟩
    · exact (congrArg₂ (· + ·) (expDot_vec v.1 χ.1 w.1 t) (expDot_vec v.2 χ.2 w.2 t)).trans
        ((add_add_add_comm ..).trans (congrArg _ (mul_add ..).symm))
    · exact differentiableAt_const _
    · exact absurd hc id
  | mvDiagonal d =>
    refine ⟨_, inferInstanceAs (AddCommGroup ((Fin d → ℝ) × (Fin d → ℝ))), inferInstanceAs (Module ℝ ((Fin d → ℝ) × (Fin d → ℝ))), _, (Raw.two codecV codecV rfl rfl (by decide) rfl (fun _ => rfl) fun _ _ _ => rfl :
      Raw .diagonalNormalEP (layVV d) (d + d) _).coords hw
      ⟨_, fun _ _ _ => rfl⟩ (fun _ _ _ _ => rfl) (fun _ _ _ _ => fits_loops ⟨⟨_, rfl, ⟨_, rfl, rfl, nofun⟩, ⟨_, rfl, rfl, nofun⟩, trivial⟩, trivial⟩),
      fun _ _ _ _ => ⟨trivial, trivial⟩, fun (p : Unit) (v χ w : (Fin d → ℝ) × (Fin d → ℝ)) t => ?_, fun he (p : Unit) (q w : (Fin d → ℝ) × (Fin d → ℝ)) hp hq => ?_, fun hf hc _ _ w hp hq hw => ?_⟩
    · exact (congrArg₂ (· + ·) (expDot_vec v.1 χ.1 w.1 t) (expDot_vec v.2 χ.2 w.2 t)).trans
        ((add_add_add_comm ..).trans (congrArg _ (mul_add ..).symm))
    · exact differentiableAt_const _
    · exact line_of C31_mv_diagonal isOpen_diagonal hq
  | mvIsotropic d =>
    refine ⟨_, inferInstanceAs (AddCommGroup ((Fin d → ℝ) × ℝ)), inferInstanceAs (Module ℝ ((Fin d → ℝ) × ℝ)), _, (Raw.two codecV codecS rfl rfl (by decide) rfl (fun _ => rfl) fun _ _ _ => rfl :
      Raw .isotropicNormalEP (layVS d) (d + 1) _).coords hw
      ⟨_, fun _ _ _ => rfl⟩ (fun _ _ _ _ => rfl) (fun _ _ _ _ => fits_loops ⟨⟨_, rfl, ⟨_, rfl, rfl, nofun⟩, ⟨_, rfl, rfl, nofun⟩, trivial⟩, trivial⟩),
      fun _ _ _ _ => ⟨trivial, trivial⟩, fun (p : Unit) (v χ w : (Fin d → ℝ) × ℝ) t => ?_, fun he (p : Unit) (q w : (Fin d → ℝ) × ℝ) hp hq => ?_, fun hf hc _ _ w hp hq hw => ?_⟩
    · exact (congrArg₂ (· + ·) (expDot_vec v.1 χ.1 w.1 t) ((mul_add v.2 χ.2 (t * w.2)).trans
        (congrArg _ (mul_left_comm ..)))).trans ((add_add_add_comm ..).trans (congrArg _ (mul_add ..).symm))
    · exact differentiableAt_const _
    · obtain ⟨d, rfl⟩ := Nat.exists_eq_succ_of_ne_zero (ne_of_gt (show 0 < d from hp))
      exact line_of C31_mv_isotropic (isOpen_lt (by fun_prop) (by fun_prop)) hq
  | negativeBinomial =>
    refine ⟨_, inferInstanceAs (AddCommGroup (ℝ)), inferInstanceAs (Module ℝ (ℝ)), fun _ => True, (Raw.varFixed codecS rfl rfl (by decide) rfl (fun _ _ _ => rfl)
      fun _ _ _ hi => int_at hi _ : Raw .negativeBinomialEP laySFixedInt 1 _).coords hw
      ⟨_, fun _ _ _ => rfl⟩ (fun _ _ _ _ => rfl) (fun _ _ _ _ => fits_loops ⟨⟨_, rfl, ⟨_, rfl, rfl, nofun⟩, trivial⟩, trivial⟩),
      fun _ _ _ _ => trivial, fun _ (v χ w : ℝ) t => ?_, fun he _ (q w : ℝ) hp hq => ?_, fun hf hc _ _ w hp hq hw => ?_⟩
    · exact expDot_real v χ w t
    · exact absurd he id
    · exact line_of (C31_negative_binomial hp) isOpen_Ioi hq
  | weibull =>
    refine ⟨_, inferInstanceAs (AddCommGroup (ℝ)), inferInstanceAs (Module ℝ (ℝ)), fun _ => True, (Raw.fixedVar codecS rfl rfl (by decide) rfl (fun _ _ _ => rfl)
      fun _ _ _ hi => real_at hi _ : Raw .weibullEP layFixedS 1 _).coords hw
      ⟨_, fun _ _ _ => rfl⟩ (fun _ _ _ _ => rfl) (fun _ _ _ _ => fits_loops ⟨⟨_, rfl, ⟨_, rfl, rfl, nofun⟩, trivial⟩, trivial⟩),
      fun _ _ _ _ => trivial, fun _ (v χ w : ℝ) t => ?_, fun he (p : ℝ) (q w : ℝ) hp hq => ?_, fun hf hc _ _ w hp hq hw => ?_⟩
    · exact expDot_real v χ w t
    · have hq : q < 0 := hq
      have h : (-1 / q + (0 : ℝ) * w) ≠ 0 := by
        have : 0 < -1 / q := div_pos_of_neg_of_neg (by norm_num) hq
        rw [zero_mul, add_zero]; positivity
      change DifferentiableAt ℝ (fun t : ℝ => (1 - 1 / p) * Real.log (-1 / q + t * w) -
        Real.eulerMascheroniConstant * (1 - 1 / p)) 0
      fun_prop (disch := assumption)
    · exact line_of (C31_weibull _) isOpen_Ioi hq
  | mvFixed d =>
    refine ⟨_, inferInstanceAs (AddCommGroup (Fin d → ℝ)), inferInstanceAs (Module ℝ (Fin d → ℝ)), fun _ => True, (Raw.varFixed codecV rfl rfl (by decide) rfl (fun _ _ _ => rfl)
      fun _ _ _ hi => real_at hi _ : Raw .fixedVarianceNormalEP (layVFixed d) d _).coords hw
      ⟨_, fun _ _ _ => rfl⟩ (fun _ _ _ _ => rfl) (fun _ _ _ _ => fits_loops ⟨⟨_, rfl, ⟨_, rfl, rfl, nofun⟩, trivial⟩, trivial⟩),
      fun _ _ _ _ => trivial, fun _ (v χ w : Fin d → ℝ) t => ?_, fun he (p : ℝ) (q w : Fin d → ℝ) hp hq => ?_, fun hf hc _ _ w hp hq hw => ?_⟩
    · exact expDot_vec v χ w t
    · change DifferentiableAt ℝ (fun t : ℝ => -0.5 * ((∑ i, (q i * p + t * w i) ^ 2) / p + d)) 0
      fun_prop
    · exact line_of (C31_mv_fixed hp) isOpen_univ hq
  | complexNormal =>
    refine ⟨_, inferInstanceAs (AddCommGroup (ℂ × ℝ × ℂ)), inferInstanceAs (Module ℝ (ℂ × ℝ × ℂ)), _,
      Raw.complexNormalE.coords hw
      ⟨_, fun _ _ _ => rfl⟩ (fun _ _ _ _ => rfl) (fun _ _ _ _ => fits_loops ⟨⟨_, rfl, ⟨_, rfl, rfl, nofun⟩, ⟨_, rfl, rfl, nofun⟩, ⟨_, rfl, rfl, nofun⟩, trivial⟩, trivial⟩),
      fun _ _ _ _ => trivial, fun (p : Unit) (v χ w : ℂ × ℝ × ℂ) t => ?_, fun he (p : Unit) q w hp hq => ?_, fun hf hc _ _ w hp hq hw => ?_⟩
    · have e : ∀ a b c : ℂ, (a * (b + t • c)).re = (a * b).re + t * (a * c).re := fun a b c => by
        rw [Complex.real_smul, ← Complex.re_ofReal_mul, ← Complex.add_re]
        ring_nf
      change (v.1 * (χ.1 + t • w.1)).re + v.2.1 * (χ.2.1 + t * w.2.1) + (v.2.2 * (χ.2.2 + t • w.2.2)).re =
        (v.1 * χ.1).re + v.2.1 * χ.2.1 + (v.2.2 * χ.2.2).re +
          t * ((v.1 * w.1).re + v.2.1 * w.2.1 + (v.2.2 * w.2.2).re)
      rw [e, e]
      ring
    · exact differentiableAt_const _
    · exact line_of C31_complex_normal (isOpen_lt (by fun_prop) (by fun_prop)) hq
  | mvNormal d =>
    refine ⟨_, inferInstanceAs (AddCommGroup ((Fin d → ℝ) × Matrix (Fin d) (Fin d) ℝ)),
      inferInstanceAs (Module ℝ ((Fin d → ℝ) × Matrix (Fin d) (Fin d) ℝ)), _,
      (Raw.two codecV codecM rfl rfl (by decide) rfl (fun _ => rfl) fun _ _ _ => rfl :
      Raw .mvNormalEP (layVM d) (d + (d + 1).choose 2) _).coords hw ⟨_, fun _ _ _ => rfl⟩ (fun _ _ _ _ => rfl)
      (fun _ _ _ h => fits_loops ⟨⟨_, rfl, ⟨_, rfl, rfl, nofun⟩, ⟨_, rfl, ⟨rfl, nofun⟩,
        isSymm_matrices fun i hi => (h i hi).2⟩, trivial⟩, trivial⟩),
      fun _ q _ h => ⟨trivial, mvNormal_second_symm h⟩,
      fun (p : Unit) (v χ w : (Fin d → ℝ) × Matrix (Fin d) (Fin d) ℝ) t => ?_, fun he (p : Unit) q w hp hq => ?_, fun hf hc _ _ w hp hq hw => ?_⟩
    · exact (congrArg₂ (· + ·) (expDot_vec v.1 χ.1 w.1 t) (expDot_mat v.2 χ.2 w.2 t)).trans
        ((add_add_add_comm ..).trans (congrArg _ (mul_add ..).symm))
    · exact differentiableAt_const _
    · exact mvNormal_line hq hw.2
  | cmvCircular d =>
    refine ⟨_, inferInstanceAs (AddCommGroup (Matrix (Fin d) (Fin d) ℂ)), inferInstanceAs (Module ℝ (Matrix (Fin d) (Fin d) ℂ)),
      HermOff, (Raw.one codecCM rfl rfl rfl fun _ _ => rfl : Raw .ccsnEP (layCM d) _ _).coords hw
      ⟨d, fun _ _ _ => rfl⟩ (fun _ _ _ _ => rfl) (fun rs _ q h => ⟨⟨d, rfl, ⟨_, rfl, _, codecCM.flat rs q h, ?_,
        (codecCM.unflat rs _).trans (congrArg (fun a => Except.ok (Val.complex a)) (matrices_eq fun i hi =>
          codecCM.dec_enc _ (h i hi)))⟩, trivial⟩, trivial⟩),
      fun _ q _ h => circular_hermOff h,
      fun (p : Unit) (v χ w : Matrix (Fin d) (Fin d) ℂ) t => ?_, fun he (p : Unit) q w hp hq => ?_, fun hf hc _ _ w hp hq hw => ?_⟩
    · refine congrArg (fun k => k :: rs) ?_
      rw [← Support.numElements_eq_coords]
      exact (Nat.mul_two _).symm
    · exact expDot_matC v χ w t
    · exact differentiableAt_const _
    · exact absurd rfl (h4 hf d)
theorem HasFlatEParts.cons {name : String} {K : Kind Cls} {R : Parts Cls} {S : Setting K} {T : Settings R}
    {m n : ℕ} {flat : Prop} (h : HasFlatE S m flat) (h' : HasFlatEParts T n flat) :
    HasFlatEParts (Settings.cons name S T) (m + n) flat := by
  obtain ⟨G, M, MS, μ, ok, dom, dirs, closed⟩ := S
  obtain ⟨G', M', MS', μ', ok', dom', dirs', closed'⟩ := T
  obtain ⟨i1, i2, good, f, h1, h2, h3, h4⟩ := h
  obtain ⟨i1', i2', good', g, h1', h2', h3', h4'⟩ := h'
  refine ⟨inferInstanceAs (AddCommGroup (K.E × R.E)), inferInstanceAs (Module ℝ (K.E × R.E)), _,
    CoordsParts.cons name f g, fun p q hp hq => ⟨h1 _ _ hp.1 hq.1, h1' _ _ hp.2 hq.2⟩,
    fun p v χ w t => ?_, fun he p q w hp hq => ?_, fun hf hc p q w hp hq hw => ?_⟩
  · refine (congrArg₂ (· + ·) (h2 p.1 v.1 χ.1 w.1 t) (h2' p.2 v.2 χ.2 w.2 t)).trans ?_
    exact (add_add_add_comm ..).trans (congrArg _ (mul_add ..).symm)
  · exact (h3 he.1 p.1 q.1 w.1 hp.1 hq.1).add (h3' he.2 p.2 q.2 w.2 hp.2 hq.2)
  · filter_upwards [h4 hf hc.1 p.1 q.1 w.1 hp.1 hq.1 hw.1, h4' hf hc.2 p.2 q.2 w.2 hp.2 hq.2 hw.2] with t e e'
    exact ⟨⟨e.1, e'.1⟩, ⟨e.2.1, e'.2.1⟩, Prod.ext e.2.2 e'.2.2⟩

theorem HasFlatEParts.joint {R : Parts Cls} {T : Settings R} {n : ℕ} {flat : Prop} (h : HasFlatEParts T n flat) :
    HasFlatE (Setting.joint .jointN .jointE T) n flat := by
  obtain ⟨G, M, MS, μ, ok, dom, dirs, closed⟩ := T
  obtain ⟨i1, i2, good, f, h1, h2, h3, h4⟩ := h
  exact ⟨i1, i2, good, f.jointE, h1, h2, h3, h4⟩

theorem hasFlatEParts {flat : Prop} : (l : List (String × Σ K : Kind Cls, Setting K)) →
    (∀ s ∈ l, ∃ n, HasFlatE s.2.2 n flat) → ∃ n, HasFlatEParts (Settings.ofList l) n flat
  | [], _ => ⟨0, inferInstanceAs (AddCommGroup Unit), inferInstanceAs (Module ℝ Unit), fun _ => True,
      CoordsParts.nil, fun _ _ _ _ => trivial, fun _ _ _ _ t => ((congrArg _ (mul_zero t)).trans (add_zero 0)).symm,
      fun _ _ _ _ _ _ => differentiableAt_const _,
      fun _ _ _ _ _ _ _ _ => Eventually.of_forall fun _ => ⟨trivial, trivial, rfl⟩⟩
  | s :: l, h => by
    obtain ⟨m, hm⟩ := h s List.mem_cons_self
    obtain ⟨n, hn⟩ := hasFlatEParts l fun t ht => h t (List.mem_cons_of_mem _ ht)
    exact ⟨m + n, HasFlatEParts.cons hm hn⟩

theorem hasFlatE (hs : solve.For search) {K : Kind Cls} {S : Setting K} {flat : Prop}
    (h : PlainSetting solve flat K S) : ∃ n, HasFlatE S n flat := by
  induction h with
  | simple s h1 h2 h3 h4 => exact hasFlatE_simple hs s h1 h2 h3 h4
  | @joint l _ _ _ ih =>
    obtain ⟨n, hn⟩ := hasFlatEParts l ih
    exact ⟨n, hn.joint⟩

end

end Efax
