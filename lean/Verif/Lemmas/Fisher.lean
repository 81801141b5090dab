import Verif.Lemmas.Raw
import Verif.Spec.Fisher
import Verif.Lemmas.ExpFam2

/-! # The Fisher information in flat coordinates -/

namespace Efax

open MeasureTheory Spec Calc

/-- A covariance matrix is positive definite if no non-trivial combination of the quantities is
constant. -/
theorem posDef_of_cov {X : Type} [MeasurableSpace X] {μ : Measure X} {n : ℕ} {f : X → ℝ}
    {g : Fin n → X → ℝ} {M : Matrix (Fin n) (Fin n) ℝ} (hf : ∀ x, 0 < f x)
    (h : ∀ k l, HasCov μ f (g k) (g l) (M k l))
    (hmin : ∀ (z : Fin n → ℝ) c, (∀ᵐ x ∂μ, ∑ k, z k * g k x = c) → z = 0) : M.PosDef := by
  have hm : ∀ k, ∃ m, HasMean μ f (g k) m := fun k => ⟨_, (h k k).choose_spec.choose_spec.1⟩
  choose m hm using hm
  have hc : ∀ k l, HasMean μ f (fun x => (g k x - m k) * (g l x - m l)) (M k l) := by
    intro k l
    obtain ⟨a, b, ha, hb, hab⟩ := h k l
    rwa [ha.unique (hm k), hb.unique (hm l)] at hab
  refine Matrix.PosDef.of_dotProduct_mulVec_pos ?_ fun z hz => ?_
  · ext k l
    exact (hc l k).unique ((hc k l).congr (fun x => mul_comm _ _) rfl)
  · have hq : HasMean μ f (fun x => (∑ k, z k * (g k x - m k)) ^ 2) (star z ⬝ᵥ (M.mulVec z)) := by
      have := HasMean.sum Finset.univ (f := f) (μ := μ)
        (g := fun k x => ∑ l, (z k * z l) * ((g k x - m k) * (g l x - m l)))
        (a := fun k => ∑ l, (z k * z l) * M k l)
        fun k _ => HasMean.sum Finset.univ fun l _ => (hc k l).const_mul _
      refine this.congr (fun x => ?_) ?_
      · rw [sq, Finset.sum_mul_sum]
        exact Finset.sum_congr rfl fun k _ => Finset.sum_congr rfl fun l _ => by ring
      · simp only [dotProduct, Matrix.mulVec, star_trivial, Finset.mul_sum]
        exact Finset.sum_congr rfl fun k _ => Finset.sum_congr rfl fun l _ => by ring
    have h0 : ∀ x, 0 ≤ (∑ k, z k * (g k x - m k)) ^ 2 * f x := fun x =>
      mul_nonneg (sq_nonneg _) (hf x).le
    rw [← hq.2]
    refine lt_of_le_of_ne (integral_nonneg h0) fun he => hz ?_
    have := (integral_eq_zero_iff_of_nonneg h0 hq.1).1 he.symm
    refine hmin z (∑ k, z k * m k) ?_
    filter_upwards [this] with x hx
    have hx : (∑ k, z k * (g k x - m k)) ^ 2 * f x = 0 := hx
    have hx := pow_eq_zero_iff (two_ne_zero) |>.1 ((mul_eq_zero.1 hx).resolve_right (hf x).ne')
    have : ∑ k, z k * (g k x - m k) = ∑ k, z k * g k x - ∑ k, z k * m k := by
      rw [← Finset.sum_sub_distrib]
      exact Finset.sum_congr rfl fun k _ => by ring
    linarith

theorem vectors_nudge {n : ℕ} (z : Fin n → ℝ) (k : Fin n) (t : ℝ) :
    (vectors [] fun _ => z).nudge k t = vectors [] fun _ => z + t • Pi.single k 1 := by
  refine Arr.ext rfl fun i hi => ?_
  have hi : inB [n] i = true := hi
  cases i with
  | nil => simp [inB] at hi
  | cons l i =>
    obtain ⟨hl, hi'⟩ := (inB_cons ..).1 hi
    rw [Arr.nudge, Arr.ofFn_get (show inB (vectors [] fun _ => z).rshape (l :: i) = true from hi),
      Calc.vectors_get _ hl hi', Calc.vectors_get _ hl hi']
    have : i = [] := by cases i with
      | nil => rfl
      | cons _ _ => simp [inB] at hi'
    subst this
    by_cases h : l = k.1
    · subst h; simp
    · have h' : (⟨l, hl⟩ : Fin n) ≠ k := fun e => h (congrArg Fin.val e)
      simp [h, h']

theorem unitVector_eq (n : ℕ) (k : Fin n) : unitVector n k = vectors [] fun _ => Pi.single k 1 := by
  refine Arr.ext rfl fun i hi => ?_
  have hi : inB [n] i = true := hi
  cases i with
  | nil => simp [inB] at hi
  | cons l i =>
    obtain ⟨hl, hi'⟩ := (inB_cons ..).1 hi
    rw [unitVector, Arr.ofFn_get hi, Calc.vectors_get _ hl hi']
    have : i = [] := by cases i with
      | nil => rfl
      | cons _ _ => simp [inB] at hi'
    subst this
    by_cases h : l = k.1
    · subst h; simp
    · have h' : (⟨l, hl⟩ : Fin n) ≠ k := fun e => h (congrArg Fin.val e)
      simp [h, h']

theorem vmapMatrix_ok {n : ℕ} {rs : List ℕ} {f : List ℕ → Except Err (Arr ℝ)}
    {M : List ℕ → Matrix (Fin n) (Fin n) ℝ}
    (h : ∀ i, inB rs i = true → f i = .ok (matrices [] fun _ => M i)) :
    vmapMatrix n rs f = .ok (matrices rs M) := by
  rw [vmapMatrix, if_pos fun i hi => ⟨_, h i hi, rfl⟩]
  refine congrArg _ (Arr.ext rfl fun i hi => ?_)
  have hi : inB (n :: n :: rs) i = true := hi
  match i, hi with
  | [], hi => simp [inB] at hi
  | [_], hi => simp [inB] at hi
  | c :: r :: i, hi =>
    rw [matrices, Arr.ofFn_get hi, Arr.ofFn_get hi]
    obtain ⟨hc, hi⟩ := (inB_cons ..).1 hi
    obtain ⟨hr, hi⟩ := (inB_cons ..).1 hi
    simp only [h i hi, hr, hc, and_self, dif_pos]
    rw [matrices, Arr.ofFn_get ((inB_cons ..).2 ⟨hc, (inB_cons ..).2 ⟨hr, rfl⟩⟩)]
    simp only [hr, hc, and_self, dif_pos]

variable [MachEps]

theorem vectors_at {α : Type} [Inhabited α] {n : ℕ} {rs i : List ℕ} (hi : inB rs i = true)
    (y : List ℕ → Fin n → α) : (vectors rs y).index i.reverse = .ok (vectors [] fun _ => y i) := by
  refine (vectors_index (s := []) hi y).trans ?_
  refine congrArg _ (Arr.ext rfl fun j hj => ?_)
  have hj : inB [n] j = true := hj
  cases j with
  | nil => simp [inB] at hj
  | cons k j =>
    obtain ⟨hk, hj⟩ := (inB_cons ..).1 hj
    rw [Calc.vectors_get _ hk hj, Calc.vectors_get _ hk hj, inB_nil_iff.1 hj, List.nil_append]

theorem matrices_eq {α : Type} [Inhabited α] {d : ℕ} {rs : List ℕ}
    {f g : List ℕ → Matrix (Fin d) (Fin d) α} (h : ∀ i, inB rs i = true → f i = g i) :
    matrices rs f = matrices rs g := by
  refine Arr.ext rfl fun i hi => ?_
  have hi : inB (d :: d :: rs) i = true := hi
  match i, hi with
  | [], hi => simp [inB] at hi
  | [_], hi => simp [inB] at hi
  | c :: r :: i, hi =>
    rw [matrices, matrices, Arr.ofFn_get hi, Arr.ofFn_get hi]
    simp only [h i ((inB_cons ..).1 ((inB_cons ..).1 hi).2).2]

theorem jeffreys_flat {L : Library Cls} {p : Dist Cls} {n : ℕ} {rs : List ℕ}
    {M : List ℕ → Matrix (Fin n) (Fin n) ℝ} (h : fisherMatrix L p = .ok (matrices rs M)) :
    jeffreysPrior L p = .ok (scalars rs fun i => Real.sqrt (M i).det) := by
  rw [jeffreysPrior, h]
  refine (congrArg (Calc.map Real.sqrt) (Calc.det_matrices rs M)).trans ?_
  refine congrArg ok (Arr.ext rfl fun i hi => ?_)
  have hi : inB rs i = true := hi
  rw [Arr.map_get hi, scalars, scalars, Arr.ofFn_get hi, Arr.ofFn_get hi]

omit [MachEps] in
theorem mapM_range_ok {β : Type} {n : ℕ} {f : ℕ → Except Err β} (h : ∀ k, k < n → ∃ b, f k = .ok b) :
    ∃ l, (List.range n).mapM f = .ok l := by
  have : ∀ l : List ℕ, (∀ k ∈ l, k < n) → ∃ r, l.mapM f = .ok r := by
    intro l hl
    induction l with
    | nil => exact ⟨[], rfl⟩
    | cons a l ih =>
      obtain ⟨b, hb⟩ := h a (hl a List.mem_cons_self)
      obtain ⟨r, hr⟩ := ih fun k hk => hl k (List.mem_cons_of_mem _ hk)
      exact ⟨b :: r, by rw [List.mapM_cons, hb]; simp only [hr, Bind.bind, Except.bind]; rfl⟩
  exact this _ fun k hk => List.mem_range.1 hk

/-- The Fisher information matrix, if the gradient at the entry `i` of the batch is `g i`. -/
theorem fisherMatrix_flat {L : Library Cls} {p : Dist Cls} {n : ℕ} {rs : List ℕ} {fl : Flattener Cls}
    {y : List ℕ → Fin n → ℝ} {fli : List ℕ → Flattener Cls} {g : List ℕ → (Fin n → ℝ) → Fin n → ℝ}
    (hflat : flatten p false = .ok (fl, vectors rs y))
    (hsh : p.shape L = .ok rs) (hat : ∀ i, inB rs i = true → fl.at i = .ok (fli i))
    (hg : ∀ i, inB rs i = true → ∀ k : Fin n,
      flatGradient L (fli i) (vectors [] fun _ => y i) n k = .ok (scalars [] fun _ => g i (y i) k) ∧
      ∀ l : Fin n, ∀ᶠ t in nhds (0 : ℝ), flatGradient L (fli i)
        (vectors [] fun _ => y i + t • Pi.single l 1) n k =
          .ok (scalars [] fun _ => g i (y i + t • Pi.single l 1) k)) :
    fisherMatrix L p = .ok (matrices rs fun i => Matrix.of fun a b =>
      deriv (fun t : ℝ => g i (y i + t • Pi.single b 1) a) 0) := by
  have hl : (vectors rs y).lastDim = .ok n := rfl
  simp only [fisherMatrix, hflat, Bind.bind, Except.bind, hl, hsh]
  refine vmapMatrix_ok fun i hi => ?_
  simp only [hat i hi, vectors_at hi y]
  have hl' : (vectors [] fun _ => y i).lastDim = .ok n := rfl
  obtain ⟨r, hr⟩ := mapM_range_ok (n := n)
    (f := fun k => flatGradient L (fli i) (vectors [] fun _ => y i) n k)
    fun k hk => ⟨_, (hg i hi ⟨k, hk⟩).1⟩
  simp only [flatHessian, Bind.bind, Except.bind, hl', hr]
  refine congrArg _ (Arr.ext rfl fun j hj => ?_)
  have hj : inB [n, n] j = true := hj
  match j, hj with
  | [], hj => simp [inB] at hj
  | [_], hj => simp [inB] at hj
  | _ :: _ :: _ :: _, hj => simp [inB] at hj
  | [b, a], hj =>
    rw [Arr.ofFn_get hj, matrices, Arr.ofFn_get hj]
    obtain ⟨hb, hj⟩ := (inB_cons ..).1 hj
    obtain ⟨ha, hj⟩ := (inB_cons ..).1 hj
    simp only [ha, hb, and_self, dif_pos, Matrix.of_apply]
    refine Filter.EventuallyEq.deriv_eq ?_
    filter_upwards [(hg i hi ⟨a, ha⟩).2 ⟨b, hb⟩] with t ht
    have e1 := vectors_nudge (y i) ⟨b, hb⟩ t
    simp only at e1 ht
    rw [e1, ht]
    simp only [scalarOf]
    rw [scalars, Arr.ofFn_get rfl]

/-- The derivatives of the expectation parameters in the directions `dec` of the flat coordinates. -/
noncomputable def gradMatrix {N E X : Type} [AddCommGroup N] [Module ℝ N] {n : ℕ} (F : ExpFam N E X)
    (dec : (Fin n → ℝ) →ₗ[ℝ] N) (q : N) : Matrix (Fin n) (Fin n) ℝ :=
  Matrix.of fun a b => deriv (fun t : ℝ =>
    F.dot (dec (Pi.single a 1)) (F.toExp (q + t • dec (Pi.single b 1)))) 0

omit [MachEps] in
theorem gradMatrix_apply {N E X : Type} [AddCommGroup N] [Module ℝ N] {n : ℕ} (F : ExpFam N E X)
    (dec : (Fin n → ℝ) →ₗ[ℝ] N) (q : N) (a b : Fin n) : gradMatrix F dec q a b = deriv (fun t : ℝ =>
      F.dot (dec (Pi.single a 1)) (F.toExp (q + t • dec (Pi.single b 1)))) 0 := rfl

/-- The Fisher information matrix, by the custom rule of differentiation of the log-normalizer. -/
theorem fisherMatrix_grad {P N E X : Type} [AddCommGroup N] [Module ℝ N] {L : Library Cls}
    {nat : List ℕ → (List ℕ → P) → (List ℕ → N) → Dist Cls}
    {exp : List ℕ → (List ℕ → P) → (List ℕ → E) → Dist Cls} {F : P → ExpFam N E X}
    {dm : P → N → Prop} {n : ℕ} {enc : N → Fin n → ℝ} {dec : (Fin n → ℝ) →ₗ[ℝ] N}
    {fl : Flattener Cls} {fli : List ℕ → Flattener Cls} {rs : List ℕ} {p : List ℕ → P} {q : List ℕ → N}
    {pi : List ℕ → List ℕ → P}
    (hflat : flatten (nat rs p q) false = .ok (fl, vectors rs fun i => enc (q i)))
    (hat : ∀ i, inB rs i = true → fl.at i = .ok (fli i))
    (hun : ∀ i, inB rs i = true → ∀ z, (fli i).unflatten (vectors [] fun _ => z) =
      .ok (nat [] (pi i) fun _ => dec z)) (hpi : ∀ i, pi i [] = p i)
    (hsh : (nat rs p q).shape L = .ok rs)
    (hlog : ∀ p q, (nat [] p q).logNormalizer L = .ok (scalars [] fun i => (F (p i)).logNormalizer (q i)))
    (hexp : ∀ p q, dm (p []) (q []) →
      (nat [] p q).toExp L.toExp = .ok (exp [] p fun i => (F (p i)).toExp (q i)))
    (hdot : ∀ p q χ, paramDot (nat [] p q) (exp [] p χ) =
      .ok (scalars [] fun i => (F (p i)).dot (q i) (χ i)))
    (hde : ∀ i, inB rs i = true → dec (enc (q i)) = q i)
    (hdm : ∀ i, inB rs i = true → dm (p i) (q i) ∧
      ∀ z, ∀ᶠ t in nhds (0 : ℝ), dm (p i) (q i + t • dec z)) :
    fisherMatrix L (nat rs p q) = .ok (matrices rs fun i => gradMatrix (F (p i)) dec (q i)) := by
  have hgr : ∀ i, inB rs i = true → ∀ (z : Fin n → ℝ) (k : Fin n), dm (p i) (dec z) →
      flatGradient L (fli i) (vectors [] fun _ => z) n k =
        .ok (scalars [] fun _ => (F (p i)).dot (dec (Pi.single k 1)) ((F (p i)).toExp (dec z))) := by
    intro i hi z k hz
    have hb : Arr.basis n k = vectors [] fun _ => Pi.single k 1 := unitVector_eq n k
    have e1 := hlog (pi i) fun _ => dec z
    have e2 := hexp (pi i) (fun _ => dec z) (by rw [hpi]; exact hz)
    have e3 := hdot (pi i) (fun _ => dec (Pi.single k 1)) fun j => (F (pi i j)).toExp (dec z)
    simp only [flatGradient, flatLogNormalizer, hun i hi, hb, Bind.bind, Except.bind, e1, e2, e3]
    refine (if_neg fun h => h rfl).trans (congrArg _ (Arr.ext rfl fun j hj => ?_))
    have hj : inB [] j = true := hj
    rw [scalars, scalars, Arr.ofFn_get hj, Arr.ofFn_get hj, inB_nil_iff.1 hj, hpi]
  refine (fisherMatrix_flat (g := fun i z k => (F (p i)).dot (dec (Pi.single k 1)) ((F (p i)).toExp (dec z)))
    hflat hsh hat fun i hi k => ⟨hgr i hi _ k ?_, fun l => ?_⟩).trans ?_
  · rw [hde i hi]; exact (hdm i hi).1
  · filter_upwards [(hdm i hi).2 (Pi.single l 1)] with t ht
    refine hgr i hi _ k ?_
    rw [map_add, map_smul, hde i hi]
    exact ht
  · refine congrArg _ (matrices_eq fun i hi => ?_)
    ext a b
    simp only [Matrix.of_apply, gradMatrix_apply, map_add, map_smul, hde i hi]

omit [MachEps] in
/-- In the directions of the domain of a regular family, the matrix holds the covariances of the
statistics. -/
theorem Spec.LocallyRegular.gradMatrix_cov {N E X : Type} [AddCommGroup N] [Module ℝ N] [MeasurableSpace X]
    {F : ExpFam N E X} {μ : Measure X} {D : Set N} {dirs : Submodule ℝ N} (R : LocallyRegular F μ D dirs)
    {n : ℕ} {dec : (Fin n → ℝ) →ₗ[ℝ] N} {q : N} (hq : q ∈ D) {a b : Fin n}
    (ha : dec (Pi.single a 1) ∈ dirs) (hb : dec (Pi.single b 1) ∈ dirs) :
    HasCov μ (F.pdf q) (fun x => F.dot (dec (Pi.single a 1)) (F.stat x))
      (fun x => F.dot (dec (Pi.single b 1)) (F.stat x)) (gradMatrix F dec q a b) := by
  obtain ⟨c, h1, h2, -⟩ := R.fisherCorrect _ hq _ ha _ hb
  have : gradMatrix F dec q a b = c := by
    rw [gradMatrix_apply, ← h2.deriv]
    refine Filter.EventuallyEq.deriv_eq ?_
    filter_upwards [R.is_open q hq _ hb] with t ht
    exact (R.gradient _ ht _ ha).deriv.symm
  rwa [this]

omit [MachEps] in
/-- In the directions of the domain of a regular, minimal family, the matrix is positive definite. -/
theorem Spec.LocallyRegular.gradMatrix_posDef {N E X : Type} [AddCommGroup N] [Module ℝ N]
    [MeasurableSpace X] {F : ExpFam N E X} {μ : Measure X} {D : Set N} {dirs : Submodule ℝ N}
    (R : LocallyRegular F μ D dirs) (RM : Minimal F μ dirs) {n : ℕ} {dec : (Fin n → ℝ) →ₗ[ℝ] N}
    {enc : N → Fin n → ℝ} (hed : ∀ z, enc (dec z) = z) (hdirs : ∀ z, dec z ∈ dirs) {q : N} (hq : q ∈ D) :
    (gradMatrix F dec q).PosDef := by
  refine posDef_of_cov (fun x => F.pdf_pos _ x)
    (fun k l => R.gradMatrix_cov hq (hdirs (Pi.single k 1)) (hdirs (Pi.single l 1))) fun z c hz => ?_
  have hdec : dec z = ∑ k, z k • dec (Pi.single k 1) := by
    conv_lhs => rw [← Finset.univ_sum_single z]
    rw [map_sum]
    refine Finset.sum_congr rfl fun k _ => ?_
    rw [← map_smul]
    congr 1
    ext l
    by_cases h : l = k
    · subst h; simp
    · simp [h]
  have hdot : ∀ w, F.dot (dec z) w = ∑ k, z k * F.dot (dec (Pi.single k 1)) w := by
    intro w
    rw [hdec]
    let φ : N →+ ℝ := AddMonoidHom.mk' (fun v => F.dot v w) fun a b => R.dot_plus a b w
    have := map_sum φ (fun k => z k • dec (Pi.single k 1)) Finset.univ
    exact this.trans (Finset.sum_congr rfl fun k _ => R.dot_zero_smul _ _ _)
  have h0 := RM (dec z) (hdirs z) c (by
    filter_upwards [hz] with x hx
    rw [hdot, hx])
  rw [← hed z, h0, ← map_zero dec, hed]

/-- The Fisher information in flat coordinates, from the matrix of derivatives. -/
theorem flatFisherIn_of {P N E X : Type} [AddCommGroup N] [Module ℝ N] [MeasurableSpace X] {L : Library Cls}
    {nat : List ℕ → (List ℕ → P) → (List ℕ → N) → Dist Cls} {F : P → ExpFam N E X} {μ : Measure X}
    {dom : P → Set N} {dirs : Submodule ℝ N} {n : ℕ} {dec : (Fin n → ℝ) →ₗ[ℝ] N}
    (hco : ∀ p q, q [] ∈ dom (p []) → ∃ fl y, flatten (nat [] p q) false = .ok (fl, y) ∧ y.rshape = [n] ∧
      ∀ z : Fin n → ℝ, fl.unflatten (vectors [] fun _ => z) = .ok (nat [] p fun _ => dec z))
    (hfm : ∀ rs p q, (∀ i, inB rs i = true → q i ∈ dom (p i)) →
      fisherMatrix L (nat rs p q) = .ok (matrices rs fun i => gradMatrix (F (p i)) dec (q i)))
    (R : ∀ p q, q ∈ dom p → (∃ D, q ∈ D ∧ LocallyRegular (F p) μ D dirs) ∧ (gradMatrix (F p) dec q).PosDef) :
    FlatFisherIn L nat n F μ dom dirs := by
  refine ⟨fun k => dec (Pi.single k 1), fun p q hq => ?_, fun rs p q hq => ?_⟩
  · obtain ⟨fl, y, h1, h2, h3⟩ := hco p q hq
    exact ⟨fl, y, h1, h2, fun k => by rw [unitVector_eq]; exact h3 _⟩
  refine ⟨_, hfm rs p q hq, jeffreys_flat (hfm rs p q hq), fun i hi => ?_⟩
  obtain ⟨⟨D, hD, RR⟩, hP⟩ := R _ _ (hq i hi)
  exact ⟨hP, fun k l hk hl => RR.gradMatrix_cov hD hk hl⟩

/-- The Fisher information in flat coordinates of a family that is regular in all directions of the
coordinates. -/
theorem flatFisher_of {P N E X : Type} [AddCommGroup N] [Module ℝ N] [MeasurableSpace X] {L : Library Cls}
    {nat : List ℕ → (List ℕ → P) → (List ℕ → N) → Dist Cls} {F : P → ExpFam N E X} {μ : Measure X}
    {dom : P → Set N} {dirs : Submodule ℝ N} {n : ℕ} {enc : N → Fin n → ℝ} {dec : (Fin n → ℝ) →ₗ[ℝ] N}
    (hco : ∀ p q, q [] ∈ dom (p []) → ∃ fl y, flatten (nat [] p q) false = .ok (fl, y) ∧ y.rshape = [n] ∧
      ∀ z : Fin n → ℝ, fl.unflatten (vectors [] fun _ => z) = .ok (nat [] p fun _ => dec z))
    (hfm : ∀ rs p q, (∀ i, inB rs i = true → q i ∈ dom (p i)) →
      fisherMatrix L (nat rs p q) = .ok (matrices rs fun i => gradMatrix (F (p i)) dec (q i)))
    (R : ∀ p q, q ∈ dom p → ∃ D, q ∈ D ∧ LocallyRegular (F p) μ D dirs ∧ Minimal (F p) μ dirs)
    (hed : ∀ z, enc (dec z) = z) (hdirs : ∀ z, dec z ∈ dirs) : FlatFisher L nat n F μ dom := by
  refine ⟨fun k => dec (Pi.single k 1), fun p q hq => ?_, fun rs p q hq => ?_⟩
  · obtain ⟨fl, y, h1, h2, h3⟩ := hco p q hq
    exact ⟨fl, y, h1, h2, fun k => by rw [unitVector_eq]; exact h3 _⟩
  refine ⟨_, hfm rs p q hq, jeffreys_flat (hfm rs p q hq), fun i hi => ?_⟩
  obtain ⟨D, hD, RR, RM⟩ := R _ _ (hq i hi)
  exact ⟨RR.gradMatrix_posDef RM hed hdirs hD, fun k l => RR.gradMatrix_cov hD (hdirs _) (hdirs _)⟩

theorem Raw.flatFisher {P N E X : Type} [AddCommGroup N] [Module ℝ N] [MeasurableSpace X] {c c' : Cls}
    {lay : Layout P N} {n : ℕ} {good : N → Prop} (r : Raw c lay n good) {L : Library Cls}
    {F : P → ExpFam N E X} {μ : Measure X} {dom : P → Set N} {dirs : Submodule ℝ N} {m : NatMethods}
    {exp : Layout P E} {fixed : List ℕ → (List ℕ → P) → Dict String Val}
    {obs : List ℕ → (List ℕ → X) → Val → Prop} {dm : P → N → Prop}
    (hr : Refines m lay exp fixed obs F dm) (hm : L.nat c = some m) (hj : Cls.isJoint c = false)
    (he : Cls.expCls c = some c')
    (hdot : ∀ p q χ, paramDot (.mk c (lay [] p q) .nil) (.mk c' (exp [] p χ) .nil) =
      .ok (scalars [] fun i => (F (p i)).dot (q i) (χ i)))
    (R : ∀ p q, q ∈ dom p → ∃ D, q ∈ D ∧ LocallyRegular (F p) μ D dirs ∧ Minimal (F p) μ dirs ∧
      ∀ q ∈ D, dm p q)
    (hgood : ∀ p q, q ∈ dom p → good q) (hdirs : ∀ z, r.dec z ∈ dirs) :
    FlatFisher L (fun rs p q => .mk c (lay rs p q) .nil) n F μ dom := by
  refine flatFisher_of (enc := r.enc) (dec := r.dec) (fun p q hq => ?_) (fun rs p q hq => ?_)
    (fun p q hq => let ⟨D, h1, h2, h3, _⟩ := R p q hq; ⟨D, h1, h2, h3⟩) r.enc_dec hdirs
  · refine ⟨_, _, r.flat [] p q fun i hi => ?_, rfl, fun z => r.unflat [] _ _⟩
    rw [inB_nil_iff.1 hi]; exact hgood _ _ hq
  refine fisherMatrix_grad (nat := fun rs p q => .mk c (lay rs p q) .nil)
    (exp := fun rs p χ => .mk c' (exp rs p χ) .nil) (dm := dm)
    (r.flat rs p q fun i hi => hgood _ _ (hq i hi)) (r.flAt rs p)
    (fun i _ z => r.unflat [] _ _) (fun _ => rfl) ?_ (fun p q => ?_)
    (fun p q h => ?_) hdot (fun i hi => r.dec_enc _ (hgood _ _ (hq i hi))) fun i hi => ?_
  · simp only [Dist.shape, ClassTable.isJoint, hj, Library.shape, hm]
    exact hr.shape rs p q
  · simp only [Dist.logNormalizer, ClassTable.isJoint, ClassTable.expCls, hj, he, Library.logNormalizer, hm]
    exact hr.logNormalizer [] p q
  · simp only [Dist.toExp, ClassTable.isJoint, ClassTable.expCls, hj, he, Library.toExp, hm]
    rw [hr.toExp [] p q fun i hi => by rw [inB_nil_iff.1 hi]; exact h]
    rfl
  · obtain ⟨D, hD, RR, -, hd⟩ := R _ _ (hq i hi)
    exact ⟨hd _ hD, fun z => (RR.is_open _ hD _ (hdirs z)).mono fun t ht => hd _ ht⟩

theorem diagonal_matrices {n : ℕ} (M : Matrix (Fin n) (Fin n) ℝ) :
    (matrices [] fun _ => M).diagonal = .ok (vectors [] fun _ k => M k k) := by
  simp only [Arr.diagonal, matrices_rshape, List.reverse_cons, List.reverse_nil, List.nil_append,
    List.cons_append, min_self]
  refine congrArg _ (Arr.ext rfl fun i hi => ?_)
  have hi : inB [n] i = true := hi
  cases i with
  | nil => simp [inB] at hi
  | cons k i =>
    rw [Arr.ofFn_get hi]
    obtain ⟨hk, hi'⟩ := (inB_cons ..).1 hi
    rw [Calc.vectors_get _ hk hi', inB_nil_iff.1 hi']
    exact Calc.matrices_get (fun _ => M) ⟨k, hk⟩ ⟨k, hk⟩ (i := []) rfl

end Efax
