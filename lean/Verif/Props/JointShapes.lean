import Verif.Props.Broadcast

/-!
# C97: the parts of a joint distribution may have different shapes
-/

namespace Efax

open Spec Calc ClassTable

variable [MachEps]

/-- A joint distribution of two parts with one real parameter each. -/
def twoParts (j c c' : Cls) (a b : Arr ℝ) : Dist Cls :=
  .mk j [] (.cons "x" (.mk c [.real a] .nil) (.cons "y" (.mk c' [.real b] .nil) .nil))

omit [MachEps] in
theorem dotField_reals {a b : Arr ℝ} (h : a.rshape = b.rshape) :
    ∃ z, dotField (.real a) (.real b) 0 = .ok z ∧ z.rshape = a.rshape ∧
      ∀ j, inB a.rshape j = true → z.get j = a.get j * b.get j := by
  have e : bcast (Val.real a).rshape (Val.real b).rshape = .ok a.rshape := by
    show bcast a.rshape b.rshape = _
    rw [← h, bcast_self]
  simp only [dotField, e, Bind.bind, Except.bind, Arr.sumAxes]
  refine ⟨_, rfl, rfl, fun j hj => ?_⟩
  have hj' : inB b.rshape j = true := h ▸ hj
  rw [Arr.map_get (by exact hj), Arr.ofFn_get hj, toC_get, toC_get]
  show ((entry (.real a) (bidx a.rshape j)) * entry (.real b) (bidx b.rshape j)).re = _
  rw [bidx_self hj, bidx_self hj']
  show (((a.get j : ℝ) : ℂ) * ((b.get j : ℝ) : ℂ)).re = _
  simp

/-- **C97.** `parameter_dot_product` of joint distributions whose parts have different shapes: the result has the shape
to which the shapes of the parts broadcast, and each part contributes the entry that broadcasting puts there.
Without such a shape, it is a `ValueError`. -/
theorem C97_joint_parts {a a' b b' : Arr ℝ} {rs ss : List ℕ} (ha : a.rshape = rs) (ha' : a'.rshape = rs)
    (hb : b.rshape = ss) (hb' : b'.rshape = ss) :
    (∀ r, Broadcast rs ss r → ∃ z,
      paramDot (twoParts .jointN .poissonNP .exponentialNP a b) (twoParts .jointE .poissonEP .exponentialEP a' b') =
        .ok z ∧ z.rshape = r ∧ ∀ j, inB r j = true → z.get j =
          a.get (along rs j) * a'.get (along rs j) + b.get (along ss j) * b'.get (along ss j)) ∧
    ((¬∃ r, Broadcast rs ss r) →
      paramDot (twoParts .jointN .poissonNP .exponentialNP a b) (twoParts .jointE .poissonEP .exponentialEP a' b') =
        .error .valueError) := by
  obtain ⟨z, z1, z2, z3⟩ := dotField_reals (ha.trans ha'.symm)
  obtain ⟨w, w1, w2, w3⟩ := dotField_reals (hb.trans hb'.symm)
  have e : paramDot (twoParts .jointN .poissonNP .exponentialNP a b)
      (twoParts .jointE .poissonEP .exponentialEP a' b') = addArr z w := by
    simp only [paramDot, parametersS, twoParts, Dist.paramList, Subs.paramList, nodeParams, fields, Cls.fields]
    simp [keep, Dict.ofList, Dict.values, Dict.set, zipStrict, dotPair, Support.axes, Bind.bind, Except.bind, z1, w1,
      reduceAdd, List.mapM_cons, Pure.pure, Except.pure]
    cases addArr z w <;> rfl
  have inR : ∀ {s t r j : List ℕ}, bcast s t = .ok r → inB r j = true → inB s (bidx s j) = true :=
    fun h hj => (wider_of_bcast h).1.inB hj
  rw [e]
  refine ⟨fun r hr => ?_, fun h => ?_⟩
  · have hr' := bcast_iff.2 hr
    have e2 : bcast z.rshape w.rshape = .ok r := by rw [z2, w2, ha, hb, hr']
    simp only [addArr, e2, Bind.bind, Except.bind]
    refine ⟨_, rfl, rfl, fun j hj => ?_⟩
    rw [Arr.ofFn_get hj, z2, w2, ha, hb, along_eq, along_eq, z3, w3]
    · rw [hb]; exact inR ((bcast_comm _ _).trans hr') hj
    · rw [ha]; exact inR hr' hj
  · cases e3 : bcast z.rshape w.rshape with
    | ok r =>
      rw [z2, w2, ha, hb] at e3
      exact absurd ⟨r, bcast_iff.1 e3⟩ h
    | error x =>
      simp only [addArr, e3, Bind.bind, Except.bind]
      rw [bcast_error e3]


omit [MachEps] in
example : Broadcast [1] [3] [3] := by
  rw [← bcast_iff]
  rfl

/-- Non-vacuity: parts of shapes 1 and 3, and parts of shapes 2 and 3. -/
example (a a' b b' c c' : Arr ℝ) (ha : a.rshape = [1]) (ha' : a'.rshape = [1]) (hb : b.rshape = [3])
    (hb' : b'.rshape = [3]) (hc : c.rshape = [2]) (hc' : c'.rshape = [2]) :
    (∃ z, paramDot (twoParts .jointN .poissonNP .exponentialNP a b)
      (twoParts .jointE .poissonEP .exponentialEP a' b') = .ok z ∧ z.rshape = [3] ∧
      z.get [2] = a.get [0] * a'.get [0] + b.get [2] * b'.get [2]) ∧
    paramDot (twoParts .jointN .poissonNP .exponentialNP c b)
      (twoParts .jointE .poissonEP .exponentialEP c' b') = .error .valueError := by
  obtain ⟨z, h1, h2, h3⟩ := (C97_joint_parts ha ha' hb hb').1 [3] (bcast_iff.1 rfl)
  refine ⟨⟨z, h1, h2, h3 [2] rfl⟩, (C97_joint_parts hc hc' hb hb').2 ?_⟩
  rintro ⟨r, hr⟩
  have := bcast_iff.2 hr
  simp [bcast, Bind.bind, Except.bind] at this

end Efax
