import Verif.Props.Samples

/-!
# C01-C06: flattening and unflattening whole distributions
-/

namespace Efax

open Spec

variable [MachEps]

theorem flatten_eq_ok {p : Dist Cls} {mapped : Bool} {fl : Flattener Cls} {y : Arr ℝ}
    (h : flatten p mapped = .ok (fl, y)) : infosOf p = .ok fl.infos ∧
      fl.fixedParameters = parameters p (some true) ∧ fl.mappedToPlane = mapped := by
  simp only [flatten, bind, Except.bind] at h
  cases h1 : p.walk (makeFlat mapped) [] with
  | error e => rw [h1] at h; cases h
  | ok A =>
    rw [h1] at h
    cases h2 : reduceAppend A.flatten with
    | error e => simp only [h2] at h; cases h
    | ok z =>
      simp only [h2] at h
      cases h3 : infosOf p with
      | error e => simp only [h3] at h; cases h
      | ok L => simp only [h3] at h; cases h; exact ⟨rfl, rfl, rfl⟩

/-- **C01.** In plane-mapped mode, flattening a distribution whose variable parameters lie strictly
inside their supports and unflattening the result with the returned flattener gives back the same
object. -/
theorem C01_flatten_unflatten_mapped {p : Dist Cls} {batch : List ℕ} (hw : WF p)
    (hp : FitsAll true batch p) :
    ∃ fl y, flatten p true = .ok (fl, y) ∧ fl.unflatten y = .ok p := by
  obtain ⟨fl, y, h1, _, h2, _⟩ := flatten_unflatten hw hp
  exact ⟨fl, y, h1, h2⟩

/-- Non-vacuity of C01: a nested joint distribution with batch shape (3,). -/
example : WF Samples.joint ∧ FitsAll true [3] Samples.joint :=
  ⟨Samples.joint_wf, Samples.joint_fits true⟩

/-- **C02.** In raw mode the same holds whatever the values of the parameters; matrices must be
symmetric (Hermitian) as declared. -/
theorem C02_flatten_unflatten_raw {p : Dist Cls} {batch : List ℕ} (hw : WF p)
    (hp : EachDeclared (fun d s v => Fits s false d batch v) p) :
    ∃ fl y, flatten p false = .ok (fl, y) ∧ fl.unflatten y = .ok p := by
  obtain ⟨fl, y, h1, _, h2, _⟩ := flatten_unflatten hw (fitsAll_of_declared hw hp)
  exact ⟨fl, y, h1, h2⟩

/-- Non-vacuity of C02: a gamma distribution with a positive "negative rate". -/
example : WF (.mk .gammaNP [Samples.c [3] 7, Samples.c [3] (-9)] .nil : Dist Cls) ∧
    EachDeclared (fun d s v => Fits s false d [3] v)
      (.mk .gammaNP [Samples.c [3] 7, Samples.c [3] (-9)] .nil : Dist Cls) := by
  refine ⟨by simp [WF, WFs, ClassTable.fields, ClassTable.isJoint, Cls.fields, Cls.isJoint,
    Subs.names], ⟨1, rfl, ?_⟩, trivial⟩
  intro fv hfv
  simp only [varPairs, ClassTable.fields, Cls.fields] at hfv
  simp at hfv
  rcases hfv with rfl | rfl <;> exact ⟨rfl, fun h => absurd h (by simp)⟩

/-- **C03.** If a flattener made from a distribution accepts an array (of any batch shape),
flattening the result in the same mode returns the same flattener and the same array. -/
theorem C03_unflatten_flatten {p q : Dist Cls} {mapped : Bool} {fl : Flattener Cls} {y₀ y : Arr ℝ}
    (hw : WF p) (hfl : flatten p mapped = .ok (fl, y₀)) (hq : fl.unflatten y = .ok q) :
    flatten q mapped = .ok (fl, y) := by
  obtain ⟨h1, h2, h3⟩ := flatten_eq_ok hfl
  subst h3
  cases hs : y.rshape with
  | nil => simp [Flattener.unflatten, Arr.lastDim, hs, bind, Except.bind] at hq
  | cons n batch =>
    have hdec := unflatten_decode hw h1 h2 hs
    by_cases hn : n = flatSize p
    · rcases hdec.1 hn with ⟨q', h4, _, _, _, _, h5⟩ | ⟨_, h4⟩
      · rw [hq] at h4; cases h4; exact h5
      · rw [hq] at h4; cases h4
    · rcases hdec.2 hn with h4 | ⟨_, h4⟩ <;> (rw [hq] at h4; cases h4)

/-- **C03**, consequence: no two arrays give the same distribution. -/
theorem C03_unflatten_injective {p q : Dist Cls} {mapped : Bool} {fl : Flattener Cls}
    {y₀ y y' : Arr ℝ} (hw : WF p) (hfl : flatten p mapped = .ok (fl, y₀))
    (hq : fl.unflatten y = .ok q) (hq' : fl.unflatten y' = .ok q) : y = y' := by
  have h1 := C03_unflatten_flatten hw hfl hq
  have h2 := C03_unflatten_flatten hw hfl hq'
  rw [h1] at h2
  cases h2
  rfl

/-- Non-vacuity of C03: the hypotheses hold for the nested joint distribution. -/
example : ∃ fl y₀ y q, WF Samples.joint ∧ flatten Samples.joint true = .ok (fl, y₀) ∧
    fl.unflatten y = .ok q := by
  obtain ⟨fl, y, h1, h2⟩ := C01_flatten_unflatten_mapped Samples.joint_wf (Samples.joint_fits true)
  exact ⟨fl, y, y, _, Samples.joint_wf, h1, h2⟩

/-- **C03**, the other half: an array of the right length is accepted if no variable parameter is
complex or disk-bounded. -/
theorem C03_unflatten_accepts {p : Dist Cls} {mapped : Bool} {fl : Flattener Cls} {y₀ y : Arr ℝ}
    {batch : List ℕ} (hw : WF p) (hfl : flatten p mapped = .ok (fl, y₀))
    (hs : mapped = true → ¬ HasSingular p) (hy : y.rshape = flatSize p :: batch) :
    ∃ q, fl.unflatten y = .ok q ∧ WF q ∧ SameTree p q ∧
      parameters q (some true) = parameters p (some true) := by
  obtain ⟨h1, h2, h3⟩ := flatten_eq_ok hfl
  subst h3
  rcases (unflatten_decode hw h1 h2 hy).1 rfl with ⟨q, h4, h5, h6, _, h7, _⟩ | ⟨⟨hm, h4⟩, _⟩
  · exact ⟨q, h4, h5, h6, h7⟩
  · exact absurd h4 (hs hm)

/-- Non-vacuity: the nested joint distribution has no singular parameter. -/
example : ¬ HasSingular Samples.joint := by
  simp [Samples.joint, Samples.gamma, Samples.weibull, Samples.normal2, HasSingular, HasSingulars,
    varFields, ClassTable.fields, Cls.fields, Singular, Support.ring, Ring.negativeSupport,
    Ring.mkReal, Ring.realField]

/-- **C04.** The flattened array has shape (*batch, N) where N (`Spec.flatSize`) is the sum of the
coordinates of the declared supports; this holds in both modes. -/
theorem C04_flattened_shape {p : Dist Cls} {mapped : Bool} {batch : List ℕ} {fl : Flattener Cls}
    {y : Arr ℝ} (hw : WF p) (hp : FitsAll mapped batch p) (h : flatten p mapped = .ok (fl, y)) :
    y.rshape = flatSize p :: batch := by
  obtain ⟨fl', y', h1, h2, _⟩ := flatten_unflatten hw hp
  rw [h] at h1
  cases h1
  exact h2

/-- Non-vacuity of C04: the nested joint distribution has 2 + (1 + (2 + 3)) coordinates. -/
example : WF Samples.joint ∧ FitsAll false [3] Samples.joint ∧ flatSize Samples.joint = 8 ∧
    ∃ fl y, flatten Samples.joint false = .ok (fl, y) ∧ y.rshape = [8, 3] := by
  have h8 : flatSize Samples.joint = 8 := by
    simp [Samples.joint, Samples.gamma, Samples.weibull, Samples.normal2, flatSize, flatSizes,
      varFields, ClassTable.fields, ClassTable.dimensions, Cls.dimensions, Cls.isMultidimensional,
      Cls.fields, coords, Samples.c, Val.lastDim, Val.rshape, Arr.full, Arr.ofFn,
      Ring.negativeSupport, Ring.mkReal, Ring.realField]
  obtain ⟨fl, y, h1, h2, _⟩ := flatten_unflatten Samples.joint_wf (Samples.joint_fits false)
  exact ⟨Samples.joint_wf, Samples.joint_fits false, h8, fl, y, h1, by rw [h2, h8]⟩

/-- **C05.** An array whose last axis has a length other than N is rejected with `ValueError`.  (If
a complex or disk-bounded parameter is decoded from the origin in mapped mode, the model reports
the NaN as soon as it arises.) -/
theorem C05_wrong_length_rejected {p : Dist Cls} {mapped : Bool} {fl : Flattener Cls} {y₀ y : Arr ℝ}
    {n : ℕ} {batch : List ℕ} (hw : WF p) (hfl : flatten p mapped = .ok (fl, y₀))
    (hy : y.rshape = n :: batch) (hn : n ≠ flatSize p) :
    fl.unflatten y = .error .valueError ∨
      mapped = true ∧ HasSingular p ∧ fl.unflatten y = .error .nonFinite := by
  obtain ⟨h1, h2, h3⟩ := flatten_eq_ok hfl
  subst h3
  rcases (unflatten_decode hw h1 h2 hy).2 hn with h | ⟨h, h'⟩
  · exact .inl h
  · exact .inr ⟨h.1, h.2, h'⟩

/-- **C05.** An array of length N is never rejected. -/
theorem C05_right_length_accepted {p : Dist Cls} {mapped : Bool} {fl : Flattener Cls} {y₀ y : Arr ℝ}
    {batch : List ℕ} (hw : WF p) (hfl : flatten p mapped = .ok (fl, y₀))
    (hy : y.rshape = flatSize p :: batch) :
    (∃ q, fl.unflatten y = .ok q) ∨
      mapped = true ∧ HasSingular p ∧ fl.unflatten y = .error .nonFinite := by
  obtain ⟨h1, h2, h3⟩ := flatten_eq_ok hfl
  subst h3
  rcases (unflatten_decode hw h1 h2 hy).1 rfl with ⟨q, h, _⟩ | ⟨h, h'⟩
  · exact .inl ⟨q, h⟩
  · exact .inr ⟨h.1, h.2, h'⟩

/-- Non-vacuity of C05: arrays of lengths 7, 8 and 9 for the nested joint distribution. -/
example : ∃ fl y₀, flatten Samples.joint true = .ok (fl, y₀) ∧
    (Arr.full [7, 5] (0 : ℝ)).rshape = 7 :: [5] ∧ flatSize Samples.joint = 8 := by
  obtain ⟨fl, y, h1, h2⟩ := C01_flatten_unflatten_mapped Samples.joint_wf (Samples.joint_fits true)
  refine ⟨fl, y, h1, rfl, ?_⟩
  simp [Samples.joint, Samples.gamma, Samples.weibull, Samples.normal2, flatSize, flatSizes,
      varFields, ClassTable.fields, ClassTable.dimensions, Cls.dimensions, Cls.isMultidimensional,
      Cls.fields, coords, Samples.c, Val.lastDim, Val.rshape, Arr.full, Arr.ofFn,
      Ring.negativeSupport, Ring.mkReal, Ring.realField]

/-- **C06**, whole distributions.  Whatever array is unflattened in plane-mapped mode, every entry
of every variable real parameter of the result lies strictly inside the interval of its support. -/
theorem C06_unflatten_in_support {p q : Dist Cls} {fl : Flattener Cls} {y₀ y : Arr ℝ} (hw : WF p)
    (hfl : flatten p true = .ok (fl, y₀)) (hq : fl.unflatten y = .ok q)
    {k : Path} {f : Field} {v : Val} (hk : ParamAt q k f v) (hf : f.fixed = false)
    {mn mx : Option ℝ} {g : ℝ} (hr : f.support = .scalar (.real mn mx g) ∨
      f.support = .vector (.real mn mx g)) :
    ∃ a, v = .real a ∧ ∀ i, inB a.rshape i = true →
      (∀ m ∈ mn, m < a.get i) ∧ (∀ M ∈ mx, a.get i < M) := by
  obtain ⟨h1, h2, h3⟩ := flatten_eq_ok hfl
  cases hs : y.rshape with
  | nil => simp [Flattener.unflatten, Arr.lastDim, hs, bind, Except.bind] at hq
  | cons n batch =>
    have hdec := unflatten_decode hw h1 h2 hs
    have hl : WF q ∧ LiesAll true batch q := by
      by_cases hn : n = flatSize p
      · rcases hdec.1 hn with ⟨q', h4, h5, _, h6, _⟩ | ⟨_, h4⟩
        · rw [hq] at h4; cases h4; rw [h3] at h6; exact ⟨h5, h6⟩
        · rw [hq] at h4; cases h4
      · rcases hdec.2 hn with h4 | ⟨_, h4⟩ <;> (rw [hq] at h4; cases h4)
    obtain ⟨d, hd⟩ := (declared_of_liesAll hl.1 hl.2).at hk hf
    rcases hr with hr | hr
    · rw [hr] at hd
      obtain ⟨h5, h6⟩ : InRing _ true [] batch v := hd
      cases v with
      | real a => exact ⟨a, rfl, fun i hi => h6 rfl i (h5 ▸ hi)⟩
      | complex a => exact h6.elim
      | bool a => exact h6.elim
      | int a => exact h6.elim
    · rw [hr] at hd
      obtain ⟨h5, h6⟩ : InRing _ true [d] batch v := hd
      cases v with
      | real a => exact ⟨a, rfl, fun i hi => h6 rfl i (h5 ▸ hi)⟩
      | complex a => exact h6.elim
      | bool a => exact h6.elim
      | int a => exact h6.elim

/-- Non-vacuity of C06: the negative rate of the gamma distribution inside the nested joint. -/
example : ∃ fl y, flatten Samples.joint true = .ok (fl, y) ∧ fl.unflatten y = .ok Samples.joint ∧
    ParamAt Samples.joint ["g", "negative_rate"]
      ⟨"negative_rate", .scalar (.real none (some (Ring.openMax 0)) 1), false⟩
      (Samples.c [3] (-1)) := by
  obtain ⟨fl, y, h1, h2⟩ := C01_flatten_unflatten_mapped Samples.joint_wf (Samples.joint_fits true)
  refine ⟨fl, y, h1, h2, .sub (d := Samples.gamma) (by simp [Subs.toList]) ?_⟩
  exact .here (c := Cls.gammaNP) (f := ⟨"negative_rate", _, false⟩) (i := 0) rfl rfl

end Efax
