import Verif.Lemmas.FlatKind
import Verif.Spec.FlatSetting
import Verif.Props.Analysis
import Verif.Props.FisherCircular
import Mathlib.LinearAlgebra.Matrix.SchurComplement

/-!
# The Fisher information matrix of all distributions, simple and joint (C77)
-/

namespace Efax

open MeasureTheory Spec Set

variable [MachEps] {solve : Solver} {search : Cls → List Val → Except Err (List Val)}

theorem flat_library {K : Kind Cls} {S : Setting K} (h : FlatSetting solve K S) :
    LibrarySetting solve K S := by
  induction h with
  | simple s _ => exact .simple s
  | joint h0 hn _ ih => exact .joint h0 hn ih

/-- `LibrarySetting`, without the circularly symmetric complex normal distributions if `flat`. -/
inductive CoordSetting (solve : Solver) (flat : Prop) : (K : Kind Cls) → Setting K → Prop
  | simple (s : Simple) (h : flat → ∀ d, s ≠ .cmvCircular d) :
      CoordSetting solve flat (s.kind solve) (s.setting solve)
  | joint {l : List (String × Σ K : Kind Cls, Setting K)} (h0 : l ≠ []) (hn : (l.map Prod.fst).Nodup)
      (hS : ∀ s ∈ l, CoordSetting solve flat s.2.1 s.2.2) :
      CoordSetting solve flat (.joint .jointN .jointE (.ofList (partsOf l))) (.joint _ _ (.ofList l))

theorem flat_coord {K : Kind Cls} {S : Setting K} (h : FlatSetting solve K S) :
    CoordSetting solve True K S := by
  induction h with
  | simple s h => exact .simple s fun _ => h
  | joint h0 hn _ ih => exact .joint h0 hn ih

theorem library_coord {K : Kind Cls} {S : Setting K} (h : LibrarySetting solve K S) :
    CoordSetting solve False K S := by
  induction h with
  | simple s => exact .simple s False.elim
  | joint h0 hn _ ih => exact .joint h0 hn ih

/-- Flat coordinates of a kind (if `flat`, in the directions of its setting), in which the derivatives of
the expectation parameters are a positive definite matrix. -/
def HasCoords {K : Kind Cls} (S : Setting K) (n : ℕ) (flat : Prop) : Prop :=
  letI := S.grp
  letI := S.mod
  ∃ good, ∃ f : Coords K.nat n good, (∀ p q, S.ok p → q ∈ S.dom p → good q) ∧
    (flat → ∀ z, f.dec z ∈ S.dirs) ∧ (∀ p, S.ok p → ∀ χ, (K.F p).dot 0 χ = 0) ∧
    ∀ p q, S.ok p → q ∈ S.dom p → (gradMatrix (K.F p) f.dec q).PosDef

/-- `HasCoords` for parts. -/
def HasCoordsParts {R : Parts Cls} (S : Settings R) (n : ℕ) (flat : Prop) : Prop :=
  letI := S.grp
  letI := S.mod
  ∃ good, ∃ f : CoordsParts R.nat n good, (∀ p q, S.ok p → q ∈ S.dom p → good q) ∧
    (flat → ∀ z, f.dec z ∈ S.dirs) ∧ (∀ p, S.ok p → ∀ χ, (R.F p).dot 0 χ = 0) ∧
    ∀ p q, S.ok p → q ∈ S.dom p → (gradMatrix (R.F p) f.dec q).PosDef

/-- Flat coordinates in the directions of the setting. -/
def HasFlat {K : Kind Cls} (S : Setting K) (n : ℕ) : Prop :=
  letI := S.grp
  letI := S.mod
  ∃ good, ∃ f : Coords K.nat n good, (∀ p q, S.ok p → q ∈ S.dom p → good q) ∧ ∀ z, f.dec z ∈ S.dirs

theorem HasFlat.coords {K : Kind Cls} {S : Setting K} {n : ℕ} (h : HasFlat S n) (hL : S.Lawful) (flat : Prop) :
    HasCoords S n flat := by
  obtain ⟨G, M, MS, μ, ok, dom, dirs, closed⟩ := S
  obtain ⟨good, f, h1, h2⟩ := h
  refine ⟨good, f, h1, fun _ => h2, fun p hp χ => ?_, fun p q hp hq =>
    (hL.regular p hp).gradMatrix_posDef (hL.minimal p hp) f.enc_dec h2 hq⟩
  have := (hL.regular p hp).dot_zero_smul 0 0 χ
  rwa [zero_smul, zero_mul] at this

theorem isSymm_matrices {d : ℕ} {rs : List ℕ} {f : List ℕ → Matrix (Fin d) (Fin d) ℝ}
    (h : ∀ i, inB rs i = true → (f i).IsSymm) : Spec.IsSymm false d rs (.real (matrices rs f)) := by
  intro r c j hr hc hj
  rw [Calc.matrices_get f ⟨r, hr⟩ ⟨c, hc⟩ hj, Calc.matrices_get f ⟨c, hc⟩ ⟨r, hr⟩ hj]
  exact (h j hj).apply _ _

theorem hasFlat_simple (hs : solve.For search) (s : Simple) (h : ∀ d, s ≠ .cmvCircular d) :
    ∃ n, HasFlat (s.setting solve) n := by
  have hw := (simple_ok hs s).wfN
  cases s with
  | cmvCircular d => exact absurd rfl (h d)
  | bernoulli =>
    exact ⟨_, _, (Raw.one codecS rfl rfl rfl fun _ _ => rfl : Raw .bernoulliNP layS 1 _).coords hw
      ⟨_, fun _ _ _ => rfl⟩ (fun _ _ _ _ => rfl) (fun _ _ _ _ => fits_loops ⟨⟨_, rfl, ⟨_, rfl, rfl, nofun⟩, trivial⟩, trivial⟩),
      fun _ _ _ _ => trivial, fun _ => trivial⟩
  | poisson =>
    exact ⟨_, _, (Raw.one codecS rfl rfl rfl fun _ _ => rfl : Raw .poissonNP layS 1 _).coords hw
      ⟨_, fun _ _ _ => rfl⟩ (fun _ _ _ _ => rfl) (fun _ _ _ _ => fits_loops ⟨⟨_, rfl, ⟨_, rfl, rfl, nofun⟩, trivial⟩, trivial⟩),
      fun _ _ _ _ => trivial, fun _ => trivial⟩
  | geometric =>
    exact ⟨_, _, (Raw.one codecS rfl rfl rfl fun _ _ => rfl : Raw .geometricNP layS 1 _).coords hw
      ⟨_, fun _ _ _ => rfl⟩ (fun _ _ _ _ => rfl) (fun _ _ _ _ => fits_loops ⟨⟨_, rfl, ⟨_, rfl, rfl, nofun⟩, trivial⟩, trivial⟩),
      fun _ _ _ _ => trivial, fun _ => trivial⟩
  | logarithmic =>
    exact ⟨_, _, (Raw.one codecS rfl rfl rfl fun _ _ => rfl : Raw .logarithmicNP layS 1 _).coords hw
      ⟨_, fun _ _ _ => rfl⟩ (fun _ _ _ _ => rfl) (fun _ _ _ _ => fits_loops ⟨⟨_, rfl, ⟨_, rfl, rfl, nofun⟩, trivial⟩, trivial⟩),
      fun _ _ _ _ => trivial, fun _ => trivial⟩
  | exponential =>
    exact ⟨_, _, (Raw.one codecS rfl rfl rfl fun _ _ => rfl : Raw .exponentialNP layS 1 _).coords hw
      ⟨_, fun _ _ _ => rfl⟩ (fun _ _ _ _ => rfl) (fun _ _ _ _ => fits_loops ⟨⟨_, rfl, ⟨_, rfl, rfl, nofun⟩, trivial⟩, trivial⟩),
      fun _ _ _ _ => trivial, fun _ => trivial⟩
  | chiSquare =>
    exact ⟨_, _, (Raw.one codecS rfl rfl rfl fun _ _ => rfl : Raw .chiSquareNP layS 1 _).coords hw
      ⟨_, fun _ _ _ => rfl⟩ (fun _ _ _ _ => rfl) (fun _ _ _ _ => fits_loops ⟨⟨_, rfl, ⟨_, rfl, rfl, nofun⟩, trivial⟩, trivial⟩),
      fun _ _ _ _ => trivial, fun _ => trivial⟩
  | chi =>
    exact ⟨_, _, (Raw.one codecS rfl rfl rfl fun _ _ => rfl : Raw .chiNP layS 1 _).coords hw
      ⟨_, fun _ _ _ => rfl⟩ (fun _ _ _ _ => rfl) (fun _ _ _ _ => fits_loops ⟨⟨_, rfl, ⟨_, rfl, rfl, nofun⟩, trivial⟩, trivial⟩),
      fun _ _ _ _ => trivial, fun _ => trivial⟩
  | rayleigh =>
    exact ⟨_, _, (Raw.one codecS rfl rfl rfl fun _ _ => rfl : Raw .rayleighNP layS 1 _).coords hw
      ⟨_, fun _ _ _ => rfl⟩ (fun _ _ _ _ => rfl) (fun _ _ _ _ => fits_loops ⟨⟨_, rfl, ⟨_, rfl, rfl, nofun⟩, trivial⟩, trivial⟩),
      fun _ _ _ _ => trivial, fun _ => trivial⟩
  | unitNormal =>
    exact ⟨_, _, (Raw.one codecS rfl rfl rfl fun _ _ => rfl : Raw .unitNormalNP layS 1 _).coords hw
      ⟨_, fun _ _ _ => rfl⟩ (fun _ _ _ _ => rfl) (fun _ _ _ _ => fits_loops ⟨⟨_, rfl, ⟨_, rfl, rfl, nofun⟩, trivial⟩, trivial⟩),
      fun _ _ _ _ => trivial, fun _ => trivial⟩
  | negativeBinomial =>
    exact ⟨_, _, (Raw.varFixed codecS rfl rfl (by decide) rfl (fun _ _ _ => rfl)
      fun _ _ _ hi => int_at hi _ : Raw .negativeBinomialNP laySFixedInt 1 _).coords hw
      ⟨_, fun _ _ _ => rfl⟩ (fun _ _ _ _ => rfl) (fun _ _ _ _ => fits_loops ⟨⟨_, rfl, ⟨_, rfl, rfl, nofun⟩, trivial⟩, trivial⟩),
      fun _ _ _ _ => trivial, fun _ => trivial⟩
  | weibull =>
    exact ⟨_, _, (Raw.fixedVar codecS rfl rfl (by decide) rfl (fun _ _ _ => rfl)
      fun _ _ _ hi => real_at hi _ : Raw .weibullNP layFixedS 1 _).coords hw
      ⟨_, fun _ _ _ => rfl⟩ (fun _ _ _ _ => rfl) (fun _ _ _ _ => fits_loops ⟨⟨_, rfl, ⟨_, rfl, rfl, nofun⟩, trivial⟩, trivial⟩),
      fun _ _ _ _ => trivial, fun _ => trivial⟩
  | multinomial d =>
    exact ⟨_, _, (Raw.one codecV rfl rfl rfl fun _ _ => rfl : Raw .multinomialNP (layV (d + 1)) (d + 1) _).coords hw
      ⟨_, fun _ _ _ => rfl⟩ (fun _ _ _ _ => rfl) (fun _ _ _ _ => fits_loops ⟨⟨_, rfl, ⟨_, rfl, rfl, nofun⟩, trivial⟩, trivial⟩),
      fun _ _ _ _ => trivial, fun _ => trivial⟩
  | dirichlet d =>
    exact ⟨_, _, (Raw.one codecV rfl rfl rfl fun _ _ => rfl : Raw .dirichletNP (layV (d + 1)) (d + 1) _).coords hw
      ⟨_, fun _ _ _ => rfl⟩ (fun _ _ _ _ => rfl) (fun _ _ _ _ => fits_loops ⟨⟨_, rfl, ⟨_, rfl, rfl, nofun⟩, trivial⟩, trivial⟩),
      fun _ _ _ _ => trivial, fun _ => trivial⟩
  | beta =>
    exact ⟨_, _, (Raw.one codecV rfl rfl rfl fun _ _ => rfl : Raw .betaNP (layV 2) 2 _).coords hw
      ⟨_, fun _ _ _ => rfl⟩ (fun _ _ _ _ => rfl) (fun _ _ _ _ => fits_loops ⟨⟨_, rfl, ⟨_, rfl, rfl, nofun⟩, trivial⟩, trivial⟩),
      fun _ _ _ _ => trivial, fun _ => trivial⟩
  | mvUnit d =>
    exact ⟨_, _, (Raw.one codecV rfl rfl rfl fun _ _ => rfl : Raw .mvUnitNormalNP (layV d) d _).coords hw
      ⟨_, fun _ _ _ => rfl⟩ (fun _ _ _ _ => rfl) (fun _ _ _ _ => fits_loops ⟨⟨_, rfl, ⟨_, rfl, rfl, nofun⟩, trivial⟩, trivial⟩),
      fun _ _ _ _ => trivial, fun _ => trivial⟩
  | vonMisesFisher d =>
    exact ⟨_, _, (Raw.one codecE rfl rfl rfl fun _ _ => rfl : Raw .vonMisesFisherNP (layE d) d _).coords hw
      ⟨_, fun _ _ _ => rfl⟩ (fun _ _ _ _ => rfl) (fun _ _ _ _ => fits_loops ⟨⟨_, rfl, ⟨_, rfl, rfl, nofun⟩, trivial⟩, trivial⟩),
      fun _ _ _ _ => trivial, fun _ => trivial⟩
  | complexUnit =>
    exact ⟨_, _, (Raw.one codecC rfl rfl rfl fun _ _ => rfl : Raw .complexUnitNormalNP layC 2 _).coords hw
      ⟨_, fun _ _ _ => rfl⟩ (fun _ _ _ _ => rfl) (fun _ _ _ _ => fits_loops ⟨⟨_, rfl, ⟨_, rfl, rfl, nofun⟩, trivial⟩, trivial⟩),
      fun _ _ _ _ => trivial, fun _ => trivial⟩
  | cmvUnit d =>
    exact ⟨_, _, (Raw.one codecCV rfl rfl rfl fun _ _ => rfl : Raw .cmvUnitNormalNP (layCV d) (d + d) _).coords hw
      ⟨_, fun _ _ _ => rfl⟩ (fun _ _ _ _ => rfl) (fun _ _ _ _ => fits_loops ⟨⟨_, rfl, ⟨_, rfl, rfl, nofun⟩, trivial⟩, trivial⟩),
      fun _ _ _ _ => trivial, fun _ => trivial⟩
  | mvFixed d =>
    exact ⟨_, _, (Raw.varFixed codecV rfl rfl (by decide) rfl (fun _ _ _ => rfl)
      fun _ _ _ hi => real_at hi _ : Raw .fixedVarianceNormalNP (layVFixed d) d _).coords hw
      ⟨_, fun _ _ _ => rfl⟩ (fun _ _ _ _ => rfl) (fun _ _ _ _ => fits_loops ⟨⟨_, rfl, ⟨_, rfl, rfl, nofun⟩, trivial⟩, trivial⟩),
      fun _ _ _ _ => trivial, fun _ => trivial⟩
  | gamma =>
    exact ⟨_, _, (Raw.two codecS codecS rfl rfl (by decide) rfl (fun _ => rfl) fun _ _ _ => rfl :
      Raw .gammaNP laySS 2 _).coords hw
      ⟨_, fun _ _ _ => rfl⟩ (fun _ _ _ _ => rfl) (fun _ _ _ _ => fits_loops ⟨⟨_, rfl, ⟨_, rfl, rfl, nofun⟩, ⟨_, rfl, rfl, nofun⟩, trivial⟩, trivial⟩),
      fun _ _ _ _ => ⟨trivial, trivial⟩, fun _ => trivial⟩
  | normal =>
    exact ⟨_, _, (Raw.two codecS codecS rfl rfl (by decide) rfl (fun _ => rfl) fun _ _ _ => rfl :
      Raw .normalNP laySS 2 _).coords hw
      ⟨_, fun _ _ _ => rfl⟩ (fun _ _ _ _ => rfl) (fun _ _ _ _ => fits_loops ⟨⟨_, rfl, ⟨_, rfl, rfl, nofun⟩, ⟨_, rfl, rfl, nofun⟩, trivial⟩, trivial⟩),
      fun _ _ _ _ => ⟨trivial, trivial⟩, fun _ => trivial⟩
  | genDirichlet d =>
    exact ⟨_, _, (Raw.two codecV codecV rfl rfl (by decide) rfl (fun _ => rfl) fun _ _ _ => rfl :
      Raw .genDirichletNP (layVV d) (d + d) _).coords hw
      ⟨_, fun _ _ _ => rfl⟩ (fun _ _ _ _ => rfl) (fun _ _ _ _ => fits_loops ⟨⟨_, rfl, ⟨_, rfl, rfl, nofun⟩, ⟨_, rfl, rfl, nofun⟩, trivial⟩, trivial⟩),
      fun _ _ _ _ => ⟨trivial, trivial⟩, fun _ => trivial⟩
  | mvDiagonal d =>
    exact ⟨_, _, (Raw.two codecV codecV rfl rfl (by decide) rfl (fun _ => rfl) fun _ _ _ => rfl :
      Raw .diagonalNormalNP (layVV d) (d + d) _).coords hw
      ⟨_, fun _ _ _ => rfl⟩ (fun _ _ _ _ => rfl) (fun _ _ _ _ => fits_loops ⟨⟨_, rfl, ⟨_, rfl, rfl, nofun⟩, ⟨_, rfl, rfl, nofun⟩, trivial⟩, trivial⟩),
      fun _ _ _ _ => ⟨trivial, trivial⟩, fun _ => trivial⟩
  | mvIsotropic d =>
    exact ⟨_, _, (Raw.two codecV codecS rfl rfl (by decide) rfl (fun _ => rfl) fun _ _ _ => rfl :
      Raw .isotropicNormalNP (layVS d) (d + 1) _).coords hw
      ⟨_, fun _ _ _ => rfl⟩ (fun _ _ _ _ => rfl) (fun _ _ _ _ => fits_loops ⟨⟨_, rfl, ⟨_, rfl, rfl, nofun⟩, ⟨_, rfl, rfl, nofun⟩, trivial⟩, trivial⟩),
      fun _ _ _ _ => ⟨trivial, trivial⟩, fun _ => trivial⟩
  | complexNormal =>
    exact ⟨_, _, Raw.complexNormal.coords hw
      ⟨_, fun _ _ _ => rfl⟩ (fun _ _ _ _ => rfl) (fun _ _ _ _ => fits_loops ⟨⟨_, rfl, ⟨_, rfl, rfl, nofun⟩, ⟨_, rfl, rfl, nofun⟩, ⟨_, rfl, rfl, nofun⟩, trivial⟩, trivial⟩),
      fun _ _ _ _ => trivial, fun _ => trivial⟩
  | mvNormal d =>
    exact ⟨_, _, (Raw.two codecV codecM rfl rfl (by decide) rfl (fun _ => rfl) fun _ _ _ => rfl :
      Raw .mvNormalNP (layVM d) (d + (d + 1).choose 2) _).coords hw ⟨_, fun _ _ _ => rfl⟩ (fun _ _ _ _ => rfl)
      (fun _ _ _ h => fits_loops ⟨⟨_, rfl, ⟨_, rfl, rfl, nofun⟩, ⟨_, rfl, ⟨rfl, nofun⟩,
        isSymm_matrices fun i hi => (h i hi).2⟩, trivial⟩, trivial⟩),
      fun _ q _ h => ⟨trivial, (mvNormal_regular d).mem_dirs q h⟩, fun _ => ofUpper_symm _⟩

/-- The circularly symmetric complex normal distribution. -/
theorem hasCoords_circular (hs : solve.For search) (d : ℕ) :
    HasCoords ((Simple.cmvCircular d).setting solve) ((d + 1).choose 2 + (d + 1).choose 2) False := by
  have hw := (simple_ok hs (.cmvCircular d)).wfN
  refine ⟨HermOff, (Raw.one codecCM rfl rfl rfl fun _ _ => rfl : Raw .ccsnNP (layCM d) _ _).coords hw
    ⟨d, fun _ _ _ => rfl⟩ (fun _ _ _ _ => rfl) (fun rs _ q h => ⟨⟨d, rfl, ⟨_, rfl, _, codecCM.flat rs q h, ?_,
      (codecCM.unflat rs _).trans (congrArg (fun a => Except.ok (Val.complex a)) (matrices_eq fun i hi =>
        codecCM.dec_enc _ (h i hi)))⟩, trivial⟩, trivial⟩),
    fun _ q _ h => hermOff_of ((cmvCircular_regular d).mem_dirs q h), False.elim, fun _ _ χ => ?_,
    fun _ q _ h => circular_posDef h⟩
  · refine congrArg (fun k => k :: rs) ?_
    rw [← Support.numElements_eq_coords]
    exact (Nat.mul_two _).symm
  · have := (cmvCircular_regular d).toLocallyRegular.dot_zero_smul 0 0 χ
    rwa [zero_smul, zero_mul] at this

theorem hasCoords_simple (hs : solve.For search) (s : Simple) {flat : Prop}
    (h : flat → ∀ d, s ≠ .cmvCircular d) : ∃ n, HasCoords (s.setting solve) n flat := by
  by_cases hc : ∃ d, s = .cmvCircular d
  · obtain ⟨d, rfl⟩ := hc
    obtain rfl : flat = False := eq_false fun hf => h hf d rfl
    exact ⟨_, hasCoords_circular hs d⟩
  · obtain ⟨n, hn⟩ := hasFlat_simple hs s fun d hd => hc ⟨d, hd⟩
    exact ⟨n, hn.coords (simple_lawful s) flat⟩

omit [MachEps] in
theorem blockDiag_det {m n : ℕ} (A : Matrix (Fin m) (Fin m) ℝ) (B : Matrix (Fin n) (Fin n) ℝ) :
    (blockDiag A B).det = A.det * B.det := by
  rw [blockDiag, Matrix.det_reindex_self, Matrix.det_fromBlocks_zero₂₁]

omit [MachEps] in
theorem blockDiag_posDef {m n : ℕ} {A : Matrix (Fin m) (Fin m) ℝ} {B : Matrix (Fin n) (Fin n) ℝ}
    (hA : A.PosDef) (hB : B.PosDef) : (blockDiag A B).PosDef := by
  have hs : (Matrix.fromBlocks A 0 0 B).PosSemidef := by
    have : Invertible A := hA.isUnit.invertible
    have h := (Matrix.PosDef.fromBlocks₁₁ (0 : Matrix (Fin m) (Fin n) ℝ) B hA).2 (by
      simpa using hB.posSemidef)
    simpa using h
  have hs' : (blockDiag A B).PosSemidef := hs.submatrix _
  refine (hs'.posDef_iff_isUnit).2 ((Matrix.isUnit_iff_isUnit_det _).2 ?_)
  rw [blockDiag_det]
  exact isUnit_iff_ne_zero.2 (mul_pos hA.det_pos hB.det_pos).ne'

theorem HasCoordsParts.cons {name : String} {K : Kind Cls} {R : Parts Cls} {S : Setting K} {T : Settings R}
    {m n : ℕ} {flat : Prop} (h : HasCoords S m flat) (h' : HasCoordsParts T n flat) :
    HasCoordsParts (Settings.cons name S T) (m + n) flat := by
  obtain ⟨G, M, MS, μ, ok, dom, dirs, closed⟩ := S
  obtain ⟨G', M', MS', μ', ok', dom', dirs', closed'⟩ := T
  obtain ⟨good, f, h1, h2, h3, h4⟩ := h
  obtain ⟨good', g, h1', h2', h3', h4'⟩ := h'
  refine ⟨_, CoordsParts.cons name f g, fun p q hp hq => ⟨h1 _ _ hp.1 hq.1, h1' _ _ hp.2 hq.2⟩,
    fun hf z => ⟨h2 hf _, h2' hf _⟩, fun p hp χ => ?_, fun p q hp hq => ?_⟩
  · refine (congrArg₂ (· + ·) (h3 _ hp.1 χ.1) (h3' _ hp.2 χ.2)).trans (add_zero 0)
  · have e := gradMatrix_prod (h3 _ hp.1) (h3' _ hp.2) f.dec g.dec q
    have hP := blockDiag_posDef (h4 p.1 q.1 hp.1 hq.1) (h4' p.2 q.2 hp.2 hq.2)
    rw [blockDiag, ← e] at hP
    exact hP

theorem HasCoordsParts.joint {R : Parts Cls} {T : Settings R} {n : ℕ} {flat : Prop}
    (h : HasCoordsParts T n flat) : HasCoords (Setting.joint .jointN .jointE T) n flat := by
  obtain ⟨G, M, MS, μ, ok, dom, dirs, closed⟩ := T
  obtain ⟨good, f, h1, h2, h3, h4⟩ := h
  exact ⟨good, f.joint, h1, h2, h3, h4⟩

theorem hasCoordsParts {flat : Prop} : (l : List (String × Σ K : Kind Cls, Setting K)) →
    (∀ s ∈ l, ∃ n, HasCoords s.2.2 n flat) → ∃ n, HasCoordsParts (Settings.ofList l) n flat
  | [], _ => ⟨0, _, CoordsParts.nil, fun _ _ _ _ => trivial, fun _ _ => trivial, fun _ _ _ => rfl,
      fun _ _ _ _ => Matrix.PosDef.of_dotProduct_mulVec_pos (Matrix.ext fun i => i.elim0)
        fun z hz => absurd (funext fun i => i.elim0) hz⟩
  | s :: l, h => by
    obtain ⟨m, hm⟩ := h s List.mem_cons_self
    obtain ⟨n, hn⟩ := hasCoordsParts l fun t ht => h t (List.mem_cons_of_mem _ ht)
    exact ⟨m + n, HasCoordsParts.cons hm hn⟩

theorem hasCoords (hs : solve.For search) {flat : Prop} {K : Kind Cls} {S : Setting K}
    (h : CoordSetting solve flat K S) : ∃ n, HasCoords S n flat := by
  induction h with
  | simple s h => exact hasCoords_simple hs s h
  | @joint l _ _ _ ih =>
    obtain ⟨n, hn⟩ := hasCoordsParts l ih
    exact ⟨n, hn.joint⟩

/-- **C77.** `_fisher_information_matrix()` of every distribution, simple or joint, of every batch shape,
is positive definite; it holds the covariances of the statistics, at all flat coordinates that move the
parameters within the family; and `jeffreys_prior()` is the square root of its determinant. -/
theorem C77_fisher (hs : solve.For search) {K : Kind Cls} {S : Setting K} (hK : LibrarySetting solve K S) :
    ∃ n, @FlatFisherIn _ _ _ _ _ S.grp S.mod S.ms (library search) K.nat n K.F S.μ
      (fun p => {q | S.ok p ∧ q ∈ S.dom p ∧ S.ExactNear p q}) S.dirs := by
  obtain ⟨n, hc⟩ := hasCoords hs (library_coord hK)
  have hL := library_lawful hK
  have hO := C51_library hs hK.kind
  have hx := library_indexed hs hK.kind
  obtain ⟨G, M, MS, μ, ok, dom, dirs, closed⟩ := S
  obtain ⟨good, f, h1, -, -, h4⟩ := hc
  exact ⟨n, f.flatFisherIn hO.wfN (fun t i p q hi => hx.nat [] t i p q hi) hO.shapeN hO.logNormalizer
    hO.toExp (fun rs p q χ => hO.dotCalc rs p p q χ)
    (fun p q h => ⟨⟨_, h.2.1, hL.regular p h.1⟩, h4 p q h.1 h.2.1⟩) (fun p q h => h1 p q h.1 h.2.1)
    fun p q h => h.2.2⟩

/-- **C77.** Without circularly symmetric complex normal distributions, all flat coordinates move the
parameters within the family: the matrix is the covariance matrix of the statistics. -/
theorem C77_flat (hs : solve.For search) {K : Kind Cls} {S : Setting K} (hK : FlatSetting solve K S) :
    ∃ n, @FlatFisher _ _ _ _ _ S.ms (library search) K.nat n K.F S.μ
      (fun p => {q | S.ok p ∧ q ∈ S.dom p ∧ S.ExactNear p q}) := by
  obtain ⟨n, hc⟩ := hasCoords hs (flat_coord hK)
  have hL := library_lawful (flat_library hK)
  have hO := C51_library hs (flat_library hK).kind
  have hx := library_indexed hs (flat_library hK).kind
  obtain ⟨G, M, MS, μ, ok, dom, dirs, closed⟩ := S
  obtain ⟨good, f, h1, h2, -, -⟩ := hc
  exact ⟨n, f.flatFisher hO.wfN (fun t i p q hi => hx.nat [] t i p q hi) hO.shapeN hO.logNormalizer
    hO.toExp (fun rs p q χ => hO.dotCalc rs p p q χ)
    (fun p q h => ⟨_, h.2.1, hL.regular p h.1, hL.minimal p h.1⟩) (fun p q h => h1 p q h.1 h.2.1)
    (h2 trivial) fun p q h => h.2.2⟩

theorem fisher_blocks {P P' N N' E E' X X' : Type} [AddCommGroup N] [Module ℝ N] [AddCommGroup N']
    [Module ℝ N'] {nat : List ℕ → (List ℕ → P) → (List ℕ → N) → Dist Cls}
    {nats : List ℕ → (List ℕ → P') → (List ℕ → N') → Subs Cls} {m n : ℕ} {good : N → Prop}
    {good' : N' → Prop} (f : Coords nat m good) (g : CoordsParts nats n good') {name : String}
    {L : Library Cls} {F : P → ExpFam N E X} {F' : P' → ExpFam N' E' X'}
    {joint : List ℕ → (List ℕ → P × P') → (List ℕ → N × N') → Dist Cls}
    {exp : List ℕ → (List ℕ → P × P') → (List ℕ → E × E') → Dist Cls} {dm : P × P' → N × N' → Prop}
    (hj : ∀ rs p q, joint rs p q = .mk .jointN [] (.cons name (nat rs (fun i => (p i).1) fun i => (q i).1)
      (nats rs (fun i => (p i).2) fun i => (q i).2)))
    (hw : ∀ rs p q, WF (joint rs p q))
    (hx : ∀ t i p q, inB t i = true → Indexes i.reverse (joint t p q)
      (joint [] (fun j => p (j ++ i)) fun j => q (j ++ i)))
    (hsh : ∀ rs p q, (joint rs p q).shape L = .ok rs)
    (hlog : ∀ rs p q, (joint rs p q).logNormalizer L =
      .ok (scalars rs fun i => (F (p i).1).logNormalizer (q i).1 + (F' (p i).2).logNormalizer (q i).2))
    (hexp : ∀ rs p q, (∀ i, inB rs i = true → dm (p i) (q i)) → (joint rs p q).toExp L.toExp =
      .ok (exp rs p fun i => ((F (p i).1).toExp (q i).1, (F' (p i).2).toExp (q i).2)))
    (hdot : ∀ rs p q χ, paramDot (joint rs p q) (exp rs p χ) =
      .ok (scalars rs fun i => (F (p i).1).dot (q i).1 (χ i).1 + (F' (p i).2).dot (q i).2 (χ i).2))
    {rs : List ℕ} {p : List ℕ → P × P'} {q : List ℕ → N × N'}
    (hq : ∀ i, inB rs i = true → good (q i).1 ∧ good' (q i).2)
    (hz : ∀ i, inB rs i = true → (∀ χ, (F (p i).1).dot 0 χ = 0) ∧ ∀ χ, (F' (p i).2).dot 0 χ = 0)
    (hdm : ∀ i, inB rs i = true → ∀ v : N × N', ∀ᶠ t in nhds (0 : ℝ), dm (p i) (q i + t • v)) :
    fisherMatrix L (joint rs p q) = .ok (matrices rs fun i => blockDiag
      (gradMatrix (F (p i).1) f.dec (q i).1) (gradMatrix (F' (p i).2) g.dec (q i).2)) := by
  obtain rfl : joint = _ := funext fun rs => funext fun p => funext fun q => hj rs p q
  refine ((CoordsParts.cons name f g).joint.fisher_grad (F := fun p => prodFam (F p.1) (F' p.2)) (dm := dm) hw hx hsh
    hlog hexp hdot rs p q hq hdm).trans (congrArg _ (matrices_eq fun i hi => ?_))
  exact gradMatrix_prod (hz i hi).1 (hz i hi).2 f.dec g.dec (q i)

/-- **C77.** The Fisher information matrix of a joint distribution is block diagonal, with the matrices of
the first part and of the joint distribution of the other parts; its Jeffreys prior is their product. -/
theorem C77_joint_blocks (hs : solve.For search) {name : String} {K : Kind Cls} {S : Setting K}
    (hK : LibrarySetting solve K S) {l : List (String × Σ K : Kind Cls, Setting K)} (h0 : l ≠ [])
    (hn : (name :: l.map Prod.fst).Nodup) (hS : ∀ s ∈ l, LibrarySetting solve s.2.1 s.2.2)
    {rs : List ℕ} {p : List ℕ → K.P} {q : List ℕ → K.N} (hq : S.InsideNear rs p q)
    {p' : List ℕ → (Parts.ofList (partsOf l)).P} {q' : List ℕ → (Parts.ofList (partsOf l)).N}
    (hq' : (Setting.joint .jointN .jointE (Settings.ofList l)).InsideNear rs p' q') :
    ∃ (m n : ℕ) (A : List ℕ → Matrix (Fin m) (Fin m) ℝ) (B : List ℕ → Matrix (Fin n) (Fin n) ℝ)
      (a b : List ℕ → ℝ),
      fisherMatrix (library search) (K.nat rs p q) = .ok (matrices rs A) ∧
      fisherMatrix (library search) (.mk .jointN [] ((Parts.ofList (partsOf l)).nat rs p' q')) =
        .ok (matrices rs B) ∧
      fisherMatrix (library search)
        (.mk .jointN [] (.cons name (K.nat rs p q) ((Parts.ofList (partsOf l)).nat rs p' q'))) =
        .ok (matrices rs fun i => blockDiag (A i) (B i)) ∧
      jeffreysPrior (library search) (K.nat rs p q) = .ok (scalars rs a) ∧
      jeffreysPrior (library search) (.mk .jointN [] ((Parts.ofList (partsOf l)).nat rs p' q')) =
        .ok (scalars rs b) ∧
      jeffreysPrior (library search)
        (.mk .jointN [] (.cons name (K.nat rs p q) ((Parts.ofList (partsOf l)).nat rs p' q'))) =
        .ok (scalars rs fun i => a i * b i) := by
  have hR : LibrarySetting solve _ _ := .joint h0 (List.nodup_cons.1 hn).2 hS
  have hJ : LibrarySetting solve (.joint .jointN .jointE (.ofList (partsOf (⟨name, K, S⟩ :: l))))
      (.joint _ _ (.ofList (⟨name, K, S⟩ :: l))) :=
    .joint (List.cons_ne_nil _ _) hn fun s hs => by
      rcases List.mem_cons.1 hs with rfl | hs
      · exact hK
      · exact hS s hs
  have hO := C51_library hs hK.kind
  have hx := library_indexed hs hK.kind
  have hO' := C51_library hs hR.kind
  have hx' := library_indexed hs hR.kind
  have hO'' := C51_library hs hJ.kind
  have hx'' := library_indexed hs hJ.kind
  obtain ⟨m, hc⟩ := hasCoords hs (library_coord hK)
  obtain ⟨n, hc'⟩ := hasCoordsParts l fun s h => hasCoords hs (library_coord (hS s h))
  suffices h : ∃ (A : List ℕ → Matrix (Fin m) (Fin m) ℝ) (B : List ℕ → Matrix (Fin n) (Fin n) ℝ),
      (∀ i, inB rs i = true → 0 ≤ (A i).det) ∧
      fisherMatrix (library search) (K.nat rs p q) = .ok (matrices rs A) ∧
      fisherMatrix (library search) (.mk .jointN [] ((Parts.ofList (partsOf l)).nat rs p' q')) =
        .ok (matrices rs B) ∧
      fisherMatrix (library search)
        (.mk .jointN [] (.cons name (K.nat rs p q) ((Parts.ofList (partsOf l)).nat rs p' q'))) =
        .ok (matrices rs fun i => blockDiag (A i) (B i)) by
    obtain ⟨A, B, hdet, h1, h2, h3⟩ := h
    refine ⟨m, n, A, B, _, _, h1, h2, h3, jeffreys_flat h1, jeffreys_flat h2, (jeffreys_flat h3).trans ?_⟩
    refine congrArg Except.ok (Arr.ext rfl fun i hi => ?_)
    have hi : inB rs i = true := hi
    rw [scalars, scalars, Arr.ofFn_get hi, Arr.ofFn_get hi, blockDiag_det, Real.sqrt_mul (hdet i hi)]
  obtain ⟨G, M, MS, μ, ok, dom, dirs, closed⟩ := S
  obtain ⟨good, f, h1, -, h3, h4⟩ := hc
  unfold HasCoordsParts at hc'
  generalize Settings.ofList l = T at hc' hq'
  obtain ⟨G', M', MS', μ', ok', dom', dirs', closed'⟩ := T
  obtain ⟨good', g, h1', -, h3', -⟩ := hc'
  refine ⟨_, _, fun i hi => (h4 _ _ (hq i hi).1 (hq i hi).2.1).det_pos.le,
    f.fisher_grad hO.wfN (fun t i p q hi => hx.nat [] t i p q hi) hO.shapeN hO.logNormalizer
      hO.toExp (fun rs p q χ => hO.dotCalc rs p p q χ)
      rs p q (fun i hi => h1 _ _ (hq i hi).1 (hq i hi).2.1) fun i hi => (hq i hi).2.2,
    g.joint.fisher_grad hO'.wfN (fun t i p q hi => hx'.nat [] t i p q hi) hO'.shapeN hO'.logNormalizer
      hO'.toExp (fun rs p q χ => hO'.dotCalc rs p p q χ)
      rs p' q' (fun i hi => h1' _ _ (hq' i hi).1 (hq' i hi).2.1) fun i hi => (hq' i hi).2.2,
    fisher_blocks f g (name := name) (fun _ _ _ => rfl) hO''.wfN (fun t i p q hi => hx''.nat [] t i p q hi)
      hO''.shapeN hO''.logNormalizer hO''.toExp (fun rs p q χ => hO''.dotCalc rs p p q χ)
      (p := fun i => (p i, p' i)) (q := fun i => (q i, q' i))
      (fun i hi => ⟨h1 _ _ (hq i hi).1 (hq i hi).2.1, h1' _ _ (hq' i hi).1 (hq' i hi).2.1⟩)
      (fun i hi => ⟨h3 _ (hq i hi).1, h3' _ (hq' i hi).1⟩)
      fun i hi v => ((hq i hi).2.2 v.1).and ((hq' i hi).2.2 v.2)⟩

theorem fisher_single {P N E X : Type} [AddCommGroup N] [Module ℝ N]
    {nat : List ℕ → (List ℕ → P) → (List ℕ → N) → Dist Cls} {m : ℕ} {good : N → Prop}
    (f : Coords nat m good) {name : String} {L : Library Cls} {F : P → ExpFam N E X}
    {joint : List ℕ → (List ℕ → P × Unit) → (List ℕ → N × Unit) → Dist Cls}
    {exp : List ℕ → (List ℕ → P × Unit) → (List ℕ → E × Unit) → Dist Cls} {dm : P × Unit → N × Unit → Prop}
    (hj : ∀ rs p q, joint rs p q =
      .mk .jointN [] (.cons name (nat rs (fun i => (p i).1) fun i => (q i).1) .nil))
    (hw : ∀ rs p q, WF (joint rs p q))
    (hx : ∀ t i p q, inB t i = true → Indexes i.reverse (joint t p q)
      (joint [] (fun j => p (j ++ i)) fun j => q (j ++ i)))
    (hsh : ∀ rs p q, (joint rs p q).shape L = .ok rs)
    (hlog : ∀ rs p q, (joint rs p q).logNormalizer L =
      .ok (scalars rs fun i => (F (p i).1).logNormalizer (q i).1 + 0))
    (hexp : ∀ rs p q, (∀ i, inB rs i = true → dm (p i) (q i)) → (joint rs p q).toExp L.toExp =
      .ok (exp rs p fun i => ((F (p i).1).toExp (q i).1, ())))
    (hdot : ∀ rs p q χ, paramDot (joint rs p q) (exp rs p χ) =
      .ok (scalars rs fun i => (F (p i).1).dot (q i).1 (χ i).1 + 0))
    {rs : List ℕ} {p : List ℕ → P × Unit} {q : List ℕ → N × Unit}
    (hq : ∀ i, inB rs i = true → good (q i).1)
    (hdm : ∀ i, inB rs i = true → ∀ v : N × Unit, ∀ᶠ t in nhds (0 : ℝ), dm (p i) (q i + t • v)) :
    fisherMatrix L (joint rs p q) = .ok (matrices rs fun i => gradMatrix (F (p i).1) f.dec (q i).1) := by
  obtain rfl : joint = _ := funext fun rs => funext fun p => funext fun q => hj rs p q
  refine ((CoordsParts.cons name f CoordsParts.nil).joint.fisher_grad (dm := dm)
    (F := fun p => prodFam (F p.1) unitFam) hw hx hsh hlog hexp hdot rs p q
    (fun i hi => ⟨hq i hi, trivial⟩) hdm).trans (congrArg _ (matrices_eq fun i hi => ?_))
  ext a b
  rw [gradMatrix_apply, gradMatrix_apply]
  congr 1
  funext t
  exact add_zero _

/-- **C77.** A joint distribution of a single part has the Fisher information matrix of that part. -/
theorem C77_joint_single (hs : solve.For search) {name : String} {K : Kind Cls} {S : Setting K}
    (hK : LibrarySetting solve K S) {rs : List ℕ} {p : List ℕ → K.P} {q : List ℕ → K.N}
    (hq : S.InsideNear rs p q) :
    fisherMatrix (library search) (.mk .jointN [] (.cons name (K.nat rs p q) .nil)) =
      fisherMatrix (library search) (K.nat rs p q) ∧
    jeffreysPrior (library search) (.mk .jointN [] (.cons name (K.nat rs p q) .nil)) =
      jeffreysPrior (library search) (K.nat rs p q) := by
  have hJ : LibrarySetting solve (.joint .jointN .jointE (.ofList (partsOf [⟨name, K, S⟩])))
      (.joint _ _ (.ofList [⟨name, K, S⟩])) :=
    .joint (List.cons_ne_nil _ _) (List.nodup_singleton _) fun s hs => by
      rw [List.mem_singleton.1 hs]
      exact hK
  have hO := C51_library hs hK.kind
  have hx := library_indexed hs hK.kind
  have hO' := C51_library hs hJ.kind
  have hx' := library_indexed hs hJ.kind
  obtain ⟨m, hc⟩ := hasCoords hs (library_coord hK)
  obtain ⟨G, M, MS, μ, ok, dom, dirs, closed⟩ := S
  obtain ⟨good, f, h1, -⟩ := hc
  have hg : ∀ i, inB rs i = true → good (q i) := fun i hi => h1 _ _ (hq i hi).1 (hq i hi).2.1
  have e := (fisher_single f (name := name) (fun _ _ _ => rfl) hO'.wfN
    (fun t i p q hi => hx'.nat [] t i p q hi) hO'.shapeN hO'.logNormalizer hO'.toExp
    (fun rs p q χ => hO'.dotCalc rs p p q χ) (p := fun i => (p i, ()))
    (q := fun i => (q i, ())) hg fun i hi v => ((hq i hi).2.2 v.1).mono fun t ht => ⟨ht, trivial⟩).trans
    (f.fisher_grad hO.wfN (fun t i p q hi => hx.nat [] t i p q hi)
    hO.shapeN hO.logNormalizer hO.toExp (fun rs p q χ => hO.dotCalc rs p p q χ) rs p q hg
    fun i hi => (hq i hi).2.2).symm
  exact ⟨e, congrArg (fun x => (Calc.det x).map Real.sqrt) e⟩

/-- **C77.** `to_exp()` is exact near all parameters of the simple distributions other than the logarithmic
one; near those strictly between its limits, of the logarithmic distribution; and near those of a joint
distribution if it is exact near those of all parts. -/
theorem C77_exact_near :
    (∀ s : Simple, s ≠ .logarithmic → ∀ p q, (s.setting solve).ExactNear p q) ∧
    (∀ q ∈ Set.Ioo logProbabilityFloor logProbabilityCeiling,
      (Simple.logarithmic.setting solve).ExactNear () q) ∧
    (∀ q : ℝ, (Simple.logarithmic.setting solve).ExactNear () q →
      q ∈ Set.Ioo logProbabilityFloor logProbabilityCeiling) ∧
    (∀ p q, (Setting.joint Cls.jointN Cls.jointE (Settings.ofList [])).ExactNear p q) ∧
    ∀ (name : String) (K : Kind Cls) (S : Setting K) (l : List (String × Σ K : Kind Cls, Setting K))
      (p : K.P) (q : K.N) (p' : (Parts.ofList (partsOf l)).P) (q' : (Parts.ofList (partsOf l)).N),
      (Setting.joint Cls.jointN Cls.jointE (Settings.ofList (⟨name, K, S⟩ :: l))).ExactNear (p, p') (q, q') ↔
        S.ExactNear p q ∧ (Setting.joint Cls.jointN Cls.jointE (Settings.ofList l)).ExactNear p' q' := by
  refine ⟨fun s hs p q => ?_, fun q hq v => ?_, fun q h => ?_, fun p q v => .of_forall fun _ => trivial,
    fun name K S l p q p' q' => ?_⟩
  · cases s
    case logarithmic => exact absurd rfl hs
    all_goals exact fun v => .of_forall fun _ => trivial
  · have hc : ∀ w : ℝ, Filter.Tendsto (fun t : ℝ => q + t * w) (nhds 0) (nhds q) := fun w => by
      have : Continuous fun t : ℝ => q + t * w := by fun_prop
      simpa using this.tendsto 0
    exact ((hc v).eventually (isOpen_Ioo.mem_nhds hq)).mono fun t ht => ⟨ht.1.le, ht.2.le⟩
  · have h1 : ∀ᶠ t in nhds (0 : ℝ), logProbabilityFloor ≤ q + t * 1 ∧ q + t * 1 ≤ logProbabilityCeiling :=
      h (show ℝ from 1)
    obtain ⟨e, he, h2⟩ := Metric.eventually_nhds_iff.1 h1
    have ha := h2 (y := e / 2) (by rw [Real.dist_eq, sub_zero, abs_of_pos (half_pos he)]; linarith)
    have hb := h2 (y := -(e / 2)) (by rw [Real.dist_eq, sub_zero, abs_neg, abs_of_pos (half_pos he)]; linarith)
    exact ⟨by linarith [hb.1], by linarith [ha.2]⟩
  · constructor
    · intro h
      refine ⟨fun v => ?_, fun v => ?_⟩
      · exact (h (v, (Settings.ofList l).grp.toZero.zero)).mono fun t ht => ht.1
      · exact (h (S.grp.toZero.zero, v)).mono fun t ht => ht.2
    · exact fun h v => (h.1 v.1).and (h.2 v.2)

-- The joint distribution of a normal distribution and a nested joint distribution is such a kind, and
-- has valid parameters.
example (solve : Solver) : FlatSetting solve _ (.joint .jointN .jointE (.ofList
    [("a", ⟨_, Simple.normal.setting solve⟩), ("b", ⟨_, .joint .jointN .jointE (.ofList
      [("c", ⟨_, Simple.gamma.setting solve⟩), ("d", ⟨_, (Simple.mvNormal 3).setting solve⟩)])⟩)])) :=
  .joint (by simp) (by simp) fun s hs => by
    simp only [List.mem_cons, List.not_mem_nil, or_false] at hs
    rcases hs with rfl | rfl
    · exact .simple .normal nofun
    · exact .joint (by simp) (by simp) fun s hs => by
        simp only [List.mem_cons, List.not_mem_nil, or_false] at hs
        rcases hs with rfl | rfl
        · exact .simple .gamma nofun
        · exact .simple (.mvNormal 3) nofun

-- A joint distribution with a circularly symmetric complex normal part.
example (solve : Solver) : LibrarySetting solve _ (.joint .jointN .jointE (.ofList
    [("a", ⟨_, Simple.normal.setting solve⟩), ("b", ⟨_, (Simple.cmvCircular 2).setting solve⟩)])) :=
  .joint (by simp) (by simp) fun s hs => by
    simp only [List.mem_cons, List.not_mem_nil, or_false] at hs
    rcases hs with rfl | rfl
    · exact .simple .normal
    · exact .simple (.cmvCircular 2)

example (solve : Solver) : (Setting.joint .jointN .jointE (Settings.ofList
    [("a", ⟨_, Simple.normal.setting solve⟩), ("c", ⟨_, Simple.gamma.setting solve⟩)])).InsideNear [2]
    (fun _ => ((), (), ())) (fun _ => ((1, -1), (-1, 1), ())) := fun _ _ =>
  ⟨⟨trivial, trivial, trivial⟩, by
    refine ⟨?_, ?_, trivial⟩
    · change ((1, -1) : ℝ × ℝ) ∈ normalDom
      norm_num [normalDom]
    · change ((-1, 1) : ℝ × ℝ) ∈ gammaDom
      norm_num [gammaDom], fun v => .of_forall fun _ => ⟨trivial, trivial, trivial⟩⟩

-- The logarithmic distribution: −1 lies strictly between the limits, −60 does not.
example : (-1 : ℝ) ∈ Set.Ioo logProbabilityFloor logProbabilityCeiling := by
  norm_num [logProbabilityFloor, logProbabilityCeiling]

example : (-60 : ℝ) ∉ Set.Ioo logProbabilityFloor logProbabilityCeiling := by
  norm_num [logProbabilityFloor]

end Efax
