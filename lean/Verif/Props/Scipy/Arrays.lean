import Verif.Lemmas.ShapedArrays
import Verif.Props.Scipy.Shaped
import Verif.Props.Scipy.Normal

/-!
# C60: arrays of complex normal and multivariate normal distributions
-/

namespace Efax

open Scipy Spec MeasureTheory

variable {α G : Type} [Inhabited α]

theorem getD_rshape {a : Option (Arr α)} {rs : List ℕ} {f : List ℕ → α} (h : ∀ x ∈ a, x.rshape = rs) :
    (a.getD (Arr.ofFn rs f)).rshape = rs := by
  cases a with
  | none => rfl
  | some x => exact h x rfl

theorem getD_full_rshape {a : Option (Arr α)} {rs : List ℕ} {y : α} (h : ∀ x ∈ a, x.rshape = rs) :
    (a.getD (Arr.full rs y)).rshape = rs := getD_rshape h

theorem getD_get {a : Option (Arr α)} {rs i : List ℕ} {x : α} (hi : inB rs i = true) :
    (a.getD (Arr.full rs x)).get i = scalarAt a x i := by
  cases a with
  | none => exact Arr.ofFn_get hi
  | some x => rfl

variable {mean : Option (Arr ℂ)} {variance : Option (Arr ℝ)} {pseudo : Option (Arr ℂ)} {rs : List ℕ}

theorem complexNormalShape_eq (hm : ∀ a ∈ mean, a.rshape = rs) (hv : ∀ a ∈ variance, a.rshape = rs)
    (hp : ∀ a ∈ pseudo, a.rshape = rs) (hne : mean.isSome ∨ variance.isSome ∨ pseudo.isSome) :
    complexNormalShape mean variance pseudo = .ok rs := by
  cases mean with
  | some m => exact congrArg _ (hm m rfl)
  | none =>
    cases variance with
    | some v => exact congrArg _ (hv v rfl)
    | none =>
      cases pseudo with
      | some p => exact congrArg _ (hp p rfl)
      | none => simp at hne

theorem complexNormalCheck_eq (hm : ∀ a ∈ mean, a.rshape = rs) (hv : ∀ a ∈ variance, a.rshape = rs)
    (hp : ∀ a ∈ pseudo, a.rshape = rs) {i : List ℕ} (hi : List.Forall₂ (· < ·) i rs.reverse) :
    complexNormalCheck (mean.getD (Arr.full rs 0)) (variance.getD (Arr.full rs 1))
      (pseudo.getD (Arr.full rs 0)) i =
    complexNormalInit (scalarAt variance 1 i.reverse) (scalarAt pseudo 0 i.reverse) := by
  rw [complexNormalCheck, scalarOf_index (getD_full_rshape hm) hi, scalarOf_index (getD_full_rshape hv) hi,
    scalarOf_index (getD_full_rshape hp) hi]
  simp only [Bind.bind, Except.bind]
  rw [getD_get (inB_of_forall₂ hi), getD_get (inB_of_forall₂ hi)]

theorem complexNormalNew_eq (hm : ∀ a ∈ mean, a.rshape = rs) (hv : ∀ a ∈ variance, a.rshape = rs)
    (hp : ∀ a ∈ pseudo, a.rshape = rs) (hne : mean.isSome ∨ variance.isSome ∨ pseudo.isSome)
    {D : Shaped ComplexNormalData} : complexNormalNew mean variance pseudo = .ok D ↔
      (∀ i, inB rs i = true → (Textbook.complexCov (scalarAt variance 1 i) (scalarAt pseudo 0 i)).PosSemidef) ∧
      D = ⟨rs.reverse, [], fun i => ⟨(mean.getD (Arr.full rs 0)).get i.reverse,
          (variance.getD (Arr.full rs 1)).get i.reverse, (pseudo.getD (Arr.full rs 0)).get i.reverse⟩⟩ := by
  have hc : (∀ i ∈ ndindex rs.reverse, complexNormalCheck (mean.getD (Arr.full rs 0))
      (variance.getD (Arr.full rs 1)) (pseudo.getD (Arr.full rs 0)) i = .ok ()) ↔
      ∀ i, inB rs i = true →
        (Textbook.complexCov (scalarAt variance 1 i) (scalarAt pseudo 0 i)).PosSemidef := by
    constructor
    · intro h i hi
      have := h i.reverse (mem_ndindex.2 (forall₂_of_inB hi))
      rw [complexNormalCheck_eq hm hv hp (forall₂_of_inB hi), List.reverse_reverse,
        C58_complex_normal_accepts] at this
      exact this
    · intro h i hi
      rw [complexNormalCheck_eq hm hv hp (mem_ndindex.1 hi), C58_complex_normal_accepts]
      exact h _ (inB_of_forall₂ (mem_ndindex.1 hi))
  unfold complexNormalNew
  rw [complexNormalShape_eq hm hv hp hne, ← hc, ← forM_ok]
  simp only [Bind.bind, Except.bind]
  cases (ndindex rs.reverse).forM (complexNormalCheck (mean.getD (Arr.full rs 0))
      (variance.getD (Arr.full rs 1)) (pseudo.getD (Arr.full rs 0))) with
  | error e => simp
  | ok u => simp [eq_comm]

/-- The constructor of an array of complex normal distributions accepts, where the shapes agree, exactly the
parameters of distributions.  The properties give back the parameters, with the standard ones for those
that were left out. -/
theorem C60_complex_new (hm : ∀ a ∈ mean, a.rshape = rs) (hv : ∀ a ∈ variance, a.rshape = rs)
    (hp : ∀ a ∈ pseudo, a.rshape = rs) (hne : mean.isSome ∨ variance.isSome ∨ pseudo.isSome) :
    ((∃ D, complexNormalNew mean variance pseudo = .ok D) ↔ ∀ i, inB rs i = true →
      (Textbook.complexCov (scalarAt variance 1 i) (scalarAt pseudo 0 i)).PosSemidef) ∧
    ∀ D, complexNormalNew mean variance pseudo = .ok D → D.shape = rs.reverse ∧ D.rvsShape = [] ∧
      complexNormalMeans D = .ok (Arr.ofFn rs (scalarAt mean 0)) ∧
      complexNormalVariances D = .ok (Arr.ofFn rs (scalarAt variance 1)) ∧
      complexNormalPseudoVariances D = .ok (Arr.ofFn rs (scalarAt pseudo 0)) := by
  refine ⟨⟨fun ⟨D, h⟩ => ((complexNormalNew_eq hm hv hp hne).1 h).1, fun h =>
    ⟨_, (complexNormalNew_eq hm hv hp hne).2 ⟨h, rfl⟩⟩⟩, fun D h => ?_⟩
  obtain ⟨-, rfl⟩ := (complexNormalNew_eq hm hv hp hne).1 h
  refine ⟨rfl, rfl, ?_, ?_, ?_⟩ <;>
  · refine fill_scalars fun i hi => ?_
    simp only [List.reverse_reverse]
    rw [getD_get hi]

/-- Without arguments there is no distribution. -/
theorem C60_complex_new_none : complexNormalNew none none none = .error .valueError := by
  simp only [complexNormalNew, complexNormalShape, Bind.bind, Except.bind]

theorem complexNormal_frozen_pdf {c : ComplexNormalData} {draw : List ℕ → G → Arr ℝ × G}
    (h : ‖c.pseudoVariance‖ < c.variance) {y : Arr ℂ} {z : ℂ} (hy : y.rshape = []) (hz : y.get [] = z) :
    (c.frozen draw).pdf y =
      .ok (Arr.full [] (Textbook.complexNormal c.mean c.variance c.pseudoVariance z)) := by
  simp only [ComplexNormalData.frozen]
  rw [hy]
  refine densities_nil ?_
  rw [hz]
  exact C58_complex_normal_pdf h _ _

/-- The densities of an array of distributions at one observation for each. -/
theorem shaped_pdf {rs : List ℕ} {D : Shaped (Frozen α G)} {x : Arr α} {p : List ℕ → ℝ}
    (hs : D.shape = rs.reverse) (hx : x.rshape = rs)
    (h : ∀ i, inB rs i = true → ∀ y : Arr α, y.rshape = [] → y.get [] = x.get i →
      (D.objects i.reverse).pdf y = .ok (Arr.full [] (p i))) : D.pdf x = .ok (Arr.ofFn rs p) := by
  by_cases hrs : rs = []
  · subst hrs
    rw [C60_pdf_single _ _ hs]
    have := h [] rfl x hx rfl
    rw [List.reverse_nil] at this
    rw [this]
    refine congrArg _ (Arr.ext rfl fun j hj => ?_)
    have hj : inB [] j = true := hj
    obtain rfl : j = [] := by simpa using inB_length hj
    rfl
  · rw [Shaped.pdf, if_neg (by rw [hs]; simpa using hrs), hs]
    refine fill_scalars fun i hi => ?_
    rw [index_of (s := rs.reverse) (t := []) (by simp [hx]) (forall₂_of_inB hi)]
    refine h i hi _ rfl ?_
    exact (Arr.ofFn_get rfl).trans (by simp)

/-- The density of an array of complex normal distributions at one observation for each. -/
theorem C60_complex_pdf (hm : ∀ a ∈ mean, a.rshape = rs) (hv : ∀ a ∈ variance, a.rshape = rs)
    (hp : ∀ a ∈ pseudo, a.rshape = rs) (hne : mean.isSome ∨ variance.isSome ∨ pseudo.isSome)
    (hd : ∀ i, inB rs i = true → ‖scalarAt pseudo 0 i‖ < scalarAt variance 1 i)
    (draw : List ℕ → List ℕ → G → Arr ℝ × G) {x : Arr ℂ} (hx : x.rshape = rs) :
    ∃ D, complexNormalNew mean variance pseudo = .ok D ∧
      (complexNormalShaped D draw).pdf x = .ok (Arr.ofFn rs fun i =>
        Textbook.complexNormal (scalarAt mean 0 i) (scalarAt variance 1 i) (scalarAt pseudo 0 i) (x.get i)) := by
  refine ⟨_, (complexNormalNew_eq hm hv hp hne).2 ⟨fun i hi => complexCov_posSemidef.2 (hd i hi).le, rfl⟩, ?_⟩
  refine shaped_pdf (by simp only [complexNormalShaped]) hx fun i hi y hy he => ?_
  simp only [complexNormalShaped, List.reverse_reverse]
  rw [getD_get hi, getD_get hi, getD_get hi]
  exact complexNormal_frozen_pdf (hd i hi) hy he

/-- One complex normal distribution at any number of observations.  Axes of length one are dropped. -/
theorem C60_complex_pdf_single {m : Arr ℂ} {v : Arr ℝ} {p : Arr ℂ} (hm : m.rshape = []) (hv : v.rshape = [])
    (hp : p.rshape = []) (hd : ‖p.get []‖ < v.get []) (draw : List ℕ → List ℕ → G → Arr ℝ × G) (x : Arr ℂ) :
    ∃ D, complexNormalNew (some m) (some v) (some p) = .ok D ∧
      (complexNormalShaped D draw).pdf x = .ok (Arr.ofFn x.rshape fun j =>
        Textbook.complexNormal (m.get []) (v.get []) (p.get []) (x.get j)).squeeze := by
  refine ⟨_, (complexNormalNew_eq (rs := []) (by simpa using hm) (by simpa using hv) (by simpa using hp)
    (by simp)).2 ⟨fun i hi => ?_, rfl⟩, ?_⟩
  · obtain rfl : i = [] := by simpa using inB_length hi
    exact complexCov_posSemidef.2 hd.le
  · rw [C60_pdf_single _ _ rfl]
    exact densities_ok fun j _ => C58_complex_normal_pdf hd _ _

/-- The entropies of an array of complex normal distributions. -/
theorem C60_complex_entropy (hm : ∀ a ∈ mean, a.rshape = rs) (hv : ∀ a ∈ variance, a.rshape = rs)
    (hp : ∀ a ∈ pseudo, a.rshape = rs) (hne : mean.isSome ∨ variance.isSome ∨ pseudo.isSome)
    (hd : ∀ i, inB rs i = true → ‖scalarAt pseudo 0 i‖ < scalarAt variance 1 i)
    (draw : List ℕ → List ℕ → G → Arr ℝ × G) :
    ∃ D e, complexNormalNew mean variance pseudo = .ok D ∧
      (complexNormalShaped D draw).entropy = .ok (Arr.ofFn rs e) ∧ ∀ i, inB rs i = true →
        IsCrossEntropy volume
          (Textbook.complexNormal (scalarAt mean 0 i) (scalarAt variance 1 i) (scalarAt pseudo 0 i))
          (Textbook.complexNormal (scalarAt mean 0 i) (scalarAt variance 1 i) (scalarAt pseudo 0 i)) (e i) := by
  choose! e he using fun i (hi : inB rs i = true) => C58_complex_normal_entropy (hd i hi) (scalarAt mean 0 i)
  refine ⟨_, e, (complexNormalNew_eq hm hv hp hne).2
    ⟨fun i hi => complexCov_posSemidef.2 (hd i hi).le, rfl⟩, ?_, fun i hi => (he i hi).2⟩
  refine fill_scalars fun i hi => ?_
  simp only [complexNormalShaped, List.reverse_reverse, ComplexNormalData.frozen]
  rw [getD_get hi, getD_get hi, (he i hi).1]
  rfl

/-- `as_multivariate_normal` gives objects whose `rvs` raises whenever there is a distribution: the shape
`()` of one complex number is passed on as the shape of its two parts. -/
theorem C60_complex_as_multivariate_violated {D : Shaped ComplexNormalData} (hm : ∀ a ∈ mean, a.rshape = rs)
    (hv : ∀ a ∈ variance, a.rshape = rs) (hp : ∀ a ∈ pseudo, a.rshape = rs)
    (hne : mean.isSome ∨ variance.isSome ∨ pseudo.isSome)
    (h : complexNormalNew mean variance pseudo = .ok D) (h0 : 0 ∉ rs)
    {draw : List ℕ → List ℕ → G → Arr ℝ × G}
    (hd : ∀ i size g, (draw i size g).1.rshape = (size ++ [2]).reverse) (size : Option (ℕ ⊕ List ℕ)) (g : G) :
    (complexNormalAsMultivariate D draw).rvs size g = .error .valueError := by
  obtain ⟨-, rfl⟩ := (complexNormalNew_eq hm hv hp hne).1 h
  obtain ⟨l, hl⟩ := ndindex_cons (s := rs.reverse) (by simpa using h0)
  refine fillM_error hl (C60_mvn_rvs (hd _ _ _)) ?_
  rw [hd, List.reverse_append, List.reverse_append]
  exact assignable_cons_self (by norm_num) _

/-! ### Examples -/

-- Two complex normal distributions with the variances 1 and 2 and standard means and pseudo-variances.
example : ∃ D, complexNormalNew none (some (Arr.ofFn [2] fun i => (i.headD 0 : ℝ) + 1)) none = .ok D ∧
    complexNormalMeans D = .ok (Arr.ofFn [2] fun _ => 0) ∧
    (complexNormalShaped D fun _ size (g : ℕ) => (Arr.full (size ++ [2]).reverse 0, g)).pdf (Arr.full [2] 0) =
      .ok (Arr.ofFn [2] fun i => Textbook.complexNormal 0
        ((Arr.ofFn [2] fun i => (i.headD 0 : ℝ) + 1).get i) 0 ((Arr.full [2] (0 : ℂ)).get i)) := by
  have hv : ∀ a ∈ some (Arr.ofFn [2] fun i => (i.headD 0 : ℝ) + 1), a.rshape = [2] := by
    intro a ha
    cases ha
    rfl
  obtain ⟨D, h1, h2⟩ := C60_complex_pdf (mean := none) (pseudo := none) (by simp) hv (by simp)
    (.inr (.inl rfl)) (fun i hi => by
      change ‖(0 : ℂ)‖ < (Arr.ofFn [2] fun i => (i.headD 0 : ℝ) + 1).get i
      rw [Arr.ofFn_get hi, norm_zero]
      positivity) (fun _ size (g : ℕ) => (Arr.full (size ++ [2]).reverse 0, g)) (x := Arr.full [2] 0) rfl
  exact ⟨D, h1, ((C60_complex_new (mean := none) (pseudo := none) (by simp) hv (by simp)
    (.inr (.inl rfl))).2 D h1).2.2.1, h2⟩

-- A pseudo-variance that is too large is rejected.
example : ¬ ∃ D, complexNormalNew none (some (Arr.full [3] 1)) (some (Arr.full [3] 2)) = .ok D := by
  rw [(C60_complex_new (rs := [3]) (by simp) (by rintro a ⟨⟩; rfl) (by rintro a ⟨⟩; rfl)
    (.inr (.inl rfl))).1]
  intro h
  have := complexCov_posSemidef.1 (h [0] rfl)
  change ‖(2 : ℂ)‖ ≤ 1 at this
  norm_num at this

-- Four observations of one distribution.
example : ∃ D, complexNormalNew (some (Arr.full [] 0)) (some (Arr.full [] 1)) (some (Arr.full [] 0)) = .ok D ∧
    (complexNormalShaped D fun _ size (g : ℕ) => (Arr.full (size ++ [2]).reverse 0, g)).pdf (Arr.full [4] 0) =
      .ok (Arr.ofFn [4] fun j => Textbook.complexNormal 0 1 0 ((Arr.full [4] 0).get j)).squeeze :=
  C60_complex_pdf_single (m := Arr.full [] 0) (v := Arr.full [] 1) (p := Arr.full [] 0) rfl rfl rfl (by
    change ‖(0 : ℂ)‖ < 1
    simp) _ (Arr.full [4] 0)

example : ∃ D e, complexNormalNew none (some (Arr.full [3] 1)) none = .ok D ∧
    (complexNormalShaped D fun _ size (g : ℕ) => (Arr.full (size ++ [2]).reverse 0, g)).entropy =
      .ok (Arr.ofFn [3] e) := by
  obtain ⟨D, e, h1, h2, -⟩ := C60_complex_entropy (rs := [3]) (mean := none)
    (variance := some (Arr.full [3] 1)) (pseudo := none) (by simp) (by rintro a ⟨⟩; rfl) (by simp)
    (.inr (.inl rfl)) (fun i hi => by
      change ‖(0 : ℂ)‖ < (Arr.full [3] 1).get i
      rw [Arr.full, Arr.ofFn_get hi]
      simp) (fun _ size (g : ℕ) => (Arr.full (size ++ [2]).reverse 0, g))
  exact ⟨D, e, h1, h2⟩

-- No draws from the real and imaginary parts of one standard complex normal distribution.
example : ∃ D, complexNormalNew none (some (Arr.full [] 1)) none = .ok D ∧
    (complexNormalAsMultivariate D fun _ size (g : ℕ) => (Arr.full (size ++ [2]).reverse 0, g)).rvs none 0 =
      .error .valueError := by
  have hv : ∀ a ∈ some (Arr.full [] (1 : ℝ)), a.rshape = [] := by
    rintro a ⟨⟩
    rfl
  obtain ⟨D, h⟩ := (C60_complex_new (rs := []) (mean := none) (pseudo := none) (by simp) hv (by simp)
    (.inr (.inl rfl))).1.2 fun i hi => by
      obtain rfl : i = [] := by simpa using inB_length hi
      refine complexCov_posSemidef.2 ?_
      change ‖(0 : ℂ)‖ ≤ 1
      simp
  exact ⟨D, h, C60_complex_as_multivariate_violated (rs := []) (mean := none) (pseudo := none) (by simp) hv
    (by simp) (.inr (.inl rfl)) h (by simp) (fun _ _ _ => rfl) _ _⟩

end Efax
