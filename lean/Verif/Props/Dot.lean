import Verif.Lemmas.Dot
import Verif.Props.Samples

/-!
# C18: `parameter_dot_product`
-/

namespace Efax

open ClassTable Spec

variable {C : Type} [ClassTable C]

/-- **C18.** For distributions with matching structure the dot product is defined, has the batch
shape, and is the sum over all variable parameters of all sub-distributions of the real part of the
sum of products. -/
theorem C18_dot {batch : List ℕ} {x y : Dist C} (hx : WF x) (hy : WF y) (h : DotMatch batch x y) :
    ∃ r, paramDot x y = .ok r ∧ r.rshape = batch ∧
      ∀ j, inB batch j = true → r.get j = treeDot x y j := paramDot_ok hx hy h

mutual
theorem DotMatch.lin {a b : ℝ} {batch : List ℕ} : {x₁ x₂ x₃ y : Dist C} → WF x₁ → WF x₂ → WF x₃ →
    LinComb a b x₁ x₂ x₃ → DotMatch batch x₁ y → DotMatch batch x₂ y ∧ DotMatch batch x₃ y
  | .mk c v₁ s₁, .mk c₂ v₂ s₂, .mk c₃ v₃ s₃, .mk c' v' s', w1, w2, w3, h, hm => by
    obtain ⟨⟨rfl, t2⟩, ⟨rfl, t3⟩, h⟩ := h
    have hs := DotMatches.lin (a := a) (b := b) w1.2.2.2 w2.2.2.2 w3.2.2.2 t2 t3
      (fun n d₁ d₂ d₃ m1 m2 m3 k f u₁ u₂ u₃ hf p1 p2 p3 =>
        h (n :: k) f u₁ u₂ u₃ hf (.sub m1 p1) (.sub m2 p2) (.sub m3 p3)) hm.2
    have key : ∀ (fs : List Field) (v₁ v₂ v₃ : List Val) (M : List (Field × Val)),
        v₁.length = fs.length → v₂.length = fs.length → v₃.length = fs.length →
        (∀ (i : ℕ) (f : Field) w₁ w₂ w₃, fs[i]? = some f → v₁[i]? = some w₁ → v₂[i]? = some w₂ →
          v₃[i]? = some w₃ → f.fixed = false → w₁.rshape = w₂.rshape ∧ w₁.rshape = w₃.rshape) →
        List.Forall₂ (FieldMatch batch) ((fs.zip v₁).filter fun fv => !fv.1.fixed) M →
        List.Forall₂ (FieldMatch batch) ((fs.zip v₂).filter fun fv => !fv.1.fixed) M ∧
        List.Forall₂ (FieldMatch batch) ((fs.zip v₃).filter fun fv => !fv.1.fixed) M := by
      intro fs
      induction fs with
      | nil => intro v₁ v₂ v₃ M _ _ _ _ hM; exact ⟨by simpa using hM, by simpa using hM⟩
      | cons f fs ih =>
        intro v₁ v₂ v₃ M l1 l2 l3 h hM
        obtain ⟨w₁, v₁, rfl⟩ := List.exists_of_length_succ _ l1
        obtain ⟨w₂, v₂, rfl⟩ := List.exists_of_length_succ _ l2
        obtain ⟨w₃, v₃, rfl⟩ := List.exists_of_length_succ _ l3
        have ih' := fun M => ih v₁ v₂ v₃ M (by simpa using l1) (by simpa using l2)
          (by simpa using l3)
          (fun i f w₁ w₂ w₃ e0 e1 e2 e3 => h (i + 1) f w₁ w₂ w₃ (by simpa using e0)
            (by simpa using e1) (by simpa using e2) (by simpa using e3))
        simp only [List.zip_cons_cons, List.filter_cons] at hM ⊢
        cases hf : f.fixed with
        | true =>
          simp only [hf, Bool.not_true, Bool.false_eq_true, if_false] at hM ⊢
          exact ih' M hM
        | false =>
          simp only [hf, Bool.not_false, if_true] at hM ⊢
          cases hM with
          | cons hm hM =>
            obtain ⟨e1, e2⟩ := h 0 f w₁ w₂ w₃ rfl rfl rfl rfl hf
            obtain ⟨g1, g2, s, g3, g4⟩ := hm
            exact ⟨.cons ⟨g1, e1 ▸ g2, s, g3, e1 ▸ g4⟩ (ih' _ hM).1,
              .cons ⟨g1, e2 ▸ g2, s, g3, e2 ▸ g4⟩ (ih' _ hM).2⟩
    have hk := key (fields c) v₁ v₂ v₃ (freeFields c' v') w1.1 w2.1 w3.1
      (fun i f u₁ u₂ u₃ e0 e1 e2 e3 hf => by
        have := h [f.name] f u₁ u₂ u₃ hf (.here e0 e1) (.here e0 e2) (.here e0 e3)
        exact ⟨this.1, this.2.1⟩) hm.1
    exact ⟨⟨hk.1, hs.1⟩, ⟨hk.2, hs.2⟩⟩
theorem DotMatches.lin {a b : ℝ} {batch : List ℕ} : {s₁ s₂ s₃ t : Subs C} → WFs s₁ → WFs s₂ →
    WFs s₃ → SameTrees s₁ s₂ → SameTrees s₁ s₃ →
    (∀ n d₁ d₂ d₃, (n, d₁) ∈ s₁.toList → (n, d₂) ∈ s₂.toList → (n, d₃) ∈ s₃.toList →
      ∀ k f v₁ v₂ v₃, f.fixed = false → ParamAt d₁ k f v₁ →
      ParamAt d₂ k f v₂ → ParamAt d₃ k f v₃ → v₁.rshape = v₂.rshape ∧ v₁.rshape = v₃.rshape ∧
      ∀ i, inB v₁.rshape i = true → entry v₃ i = a * entry v₁ i + b * entry v₂ i) →
    DotMatches batch s₁ t → DotMatches batch s₂ t ∧ DotMatches batch s₃ t
  | .nil, .nil, .nil, .nil, _, _, _, _, _, _, _ => ⟨trivial, trivial⟩
  | .cons n d₁ r₁, .cons n₂ d₂ r₂, .cons n₃ d₃ r₃, .cons n' d' r', w1, w2, w3, t2, t3, h, hm => by
    obtain ⟨rfl, t2, u2⟩ := t2
    obtain ⟨rfl, t3, u3⟩ := t3
    obtain ⟨rfl, m1, m2⟩ := hm
    have h1 := DotMatch.lin (a := a) (b := b) w1.1 w2.1 w3.1 ⟨t2, t3, h n d₁ d₂ d₃
      (by simp [Subs.toList]) (by simp [Subs.toList]) (by simp [Subs.toList])⟩ m1
    have h2 := DotMatches.lin (a := a) (b := b) w1.2 w2.2 w3.2 u2 u3 (fun n e₁ e₂ e₃ a1 a2 a3 =>
        h n e₁ e₂ e₃ (by simp [Subs.toList, a1]) (by simp [Subs.toList, a2])
          (by simp [Subs.toList, a3])) m2
    exact ⟨⟨rfl, h1.1, h2.1⟩, ⟨rfl, h1.2, h2.2⟩⟩
end

/-- **C18.** Linearity in the natural parameters: if the variable parameters of `x₃` are
`a x₁ + b x₂`, then all dot products are defined and
`parameter_dot_product(x₃, y) = a parameter_dot_product(x₁, y) + b parameter_dot_product(x₂, y)`. -/
theorem C18_linear_left {a b : ℝ} {batch : List ℕ} {x₁ x₂ x₃ y : Dist C} (h1 : WF x₁) (h2 : WF x₂)
    (h3 : WF x₃) (hy : WF y) (hl : LinComb a b x₁ x₂ x₃) (hm : DotMatch batch x₁ y) :
    ∃ r₁ r₂ r₃, paramDot x₁ y = .ok r₁ ∧ paramDot x₂ y = .ok r₂ ∧ paramDot x₃ y = .ok r₃ ∧
      r₁.rshape = batch ∧ r₂.rshape = batch ∧ r₃.rshape = batch ∧
      ∀ j, inB batch j = true → r₃.get j = a * r₁.get j + b * r₂.get j := by
  obtain ⟨m2, m3⟩ := DotMatch.lin h1 h2 h3 hl hm
  obtain ⟨r₁, e1, s1, g1⟩ := paramDot_ok h1 hy hm
  obtain ⟨r₂, e2, s2, g2⟩ := paramDot_ok h2 hy m2
  obtain ⟨r₃, e3, s3, g3⟩ := paramDot_ok h3 hy m3
  refine ⟨r₁, r₂, r₃, e1, e2, e3, s1, s2, s3, fun j hj => ?_⟩
  rw [g1 j hj, g2 j hj, g3 j hj]
  exact treeDot_lin h1 h2 h3 hl hm j

/-- **C18.** The dot product is symmetric (it sees only the numbers of axes of the supports). -/
theorem C18_symm {batch : List ℕ} {x y : Dist C} (hx : WF x) (hy : WF y) (h : DotMatch batch x y) :
    paramDot x y = paramDot y x := by
  obtain ⟨r, e, s, g⟩ := paramDot_ok hx hy h
  obtain ⟨r', e', s', g'⟩ := paramDot_ok hy hx h.symm
  rw [e, e']
  congr 1
  refine Arr.ext (s.trans s'.symm) fun j hj => ?_
  rw [s] at hj
  rw [g j hj, g' j hj]
  exact treeDot_symm h j

/-- **C18.** Linearity in the expectation parameters. -/
theorem C18_linear_right {a b : ℝ} {batch : List ℕ} {x y₁ y₂ y₃ : Dist C} (hx : WF x) (h1 : WF y₁)
    (h2 : WF y₂) (h3 : WF y₃) (hl : LinComb a b y₁ y₂ y₃) (hm : DotMatch batch x y₁) :
    ∃ r₁ r₂ r₃, paramDot x y₁ = .ok r₁ ∧ paramDot x y₂ = .ok r₂ ∧ paramDot x y₃ = .ok r₃ ∧
      r₁.rshape = batch ∧ r₂.rshape = batch ∧ r₃.rshape = batch ∧
      ∀ j, inB batch j = true → r₃.get j = a * r₁.get j + b * r₂.get j := by
  obtain ⟨m2, m3⟩ := DotMatch.lin h1 h2 h3 hl hm.symm
  rw [C18_symm hx h1 hm, C18_symm hx h2 m2.symm, C18_symm hx h3 m3.symm]
  exact C18_linear_left h1 h2 h3 hx hl hm.symm

/-- **C18.** Fixed parameters are ignored: changing them on either side changes nothing. -/
theorem C18_fixed_ignored {x x' y : Dist C} (hx : WF x) (hx' : WF x') (ht : SameTree x x')
    (h : ∀ k f v v', f.fixed = false → ParamAt x k f v → ParamAt x' k f v' → v = v') :
    paramDot x y = paramDot x' y ∧ paramDot y x = paramDot y x' := paramDot_congr hx hx' ht h

/-- **C18.** On a joint distribution the dot product is the sum of the dot products of the parts. -/
theorem C18_joint {batch : List ℕ} {c c' : C} {s s' : Subs C} (hx : WF (.mk c [] s))
    (hy : WF (.mk c' [] s')) (h : DotMatch batch (.mk c [] s) (.mk c' [] s')) :
    ∃ r rs, paramDot (.mk c [] s) (.mk c' [] s') = .ok r ∧
      List.Forall₂ (fun ab r => paramDot ab.1.2 ab.2.2 = .ok r) (s.toList.zip s'.toList) rs ∧
      s.toList.length = s'.toList.length ∧
      (∀ r ∈ rs, r.rshape = batch) ∧ r.rshape = batch ∧
      ∀ j, inB batch j = true → r.get j = (rs.map fun r => r.get j).sum := by
  obtain ⟨r, e, hs, g⟩ := paramDot_ok hx hy h
  have key : ∀ (s s' : Subs C), WFs s → WFs s' → DotMatches batch s s' → ∃ rs,
      List.Forall₂ (fun ab r => paramDot ab.1.2 ab.2.2 = .ok r) (s.toList.zip s'.toList) rs ∧
      s.toList.length = s'.toList.length ∧
      (∀ r ∈ rs, r.rshape = batch) ∧
      ∀ j, inB batch j = true → subsDot s s' j = (rs.map fun r => r.get j).sum := by
    intro s
    induction s using Subs.rec (motive_1 := fun _ => True) with
    | mk => trivial
    | nil =>
      intro s' _ _ hm
      cases s' with
      | nil => exact ⟨[], .nil, rfl, by simp, by simp [subsDot]⟩
      | cons => exact absurd hm (by simp [DotMatches])
    | cons n d r _ ih =>
      intro s' h1 h2 hm
      cases s' with
      | nil => exact absurd hm (by simp [DotMatches])
      | cons n' d' r' =>
        obtain ⟨rfl, m1, m2⟩ := hm
        obtain ⟨x, x1, x2, x3⟩ := paramDot_ok h1.1 h2.1 m1
        obtain ⟨rs, r1, r2, r3, r4⟩ := ih r' h1.2 h2.2 m2
        refine ⟨x :: rs, .cons x1 r1, by simp [Subs.toList, r2], ?_, fun j hj => ?_⟩
        · intro y hy
          rcases List.mem_cons.1 hy with rfl | hy
          · exact x2
          · exact r3 y hy
        · rw [subsDot, r4 j hj, ← x3 j hj]; simp
  obtain ⟨rs, r1, r2, r3, r4⟩ := key s s' hx.2.2.2 hy.2.2.2 h.2
  refine ⟨r, rs, e, r1, r2, r3, hs, fun j hj => ?_⟩
  rw [g j hj, ← r4 j hj, treeDot]
  simp [freeFields]

mutual
theorem Dist.free_spec {base : Path} : (x : Dist C) →
    (x.paramList (some false) base).map Prod.snd = (allFree x).map fun a => (a.2, a.1.support)
  | .mk c v s => by
    rw [Dist.paramList, allFree, List.map_append, List.map_append, nodeParams_variables,
      Subs.free_spec s]
theorem Subs.free_spec {base : Path} : (s : Subs C) →
    (s.paramList (some false) base).map Prod.snd = (allFrees s).map fun a => (a.2, a.1.support)
  | .nil => by rw [Subs.paramList, allFrees]; rfl
  | .cons n d r => by
    rw [Subs.paramList, allFrees, List.map_append, List.map_append, Dist.free_spec d,
      Subs.free_spec r]
end

theorem dotPair_only_if {a b : Val × Support} {r : Arr ℝ} (h : dotPair (a, b) = .ok r) :
    b.2.axes = a.2.axes ∧ ∃ rs, bcast a.1.rshape b.1.rshape = .ok rs ∧ a.2.axes ≤ rs.length := by
  rw [dotPair] at h
  split_ifs at h with he
  refine ⟨he, ?_⟩
  rw [dotField] at h
  cases hb : bcast a.1.rshape b.1.rshape with
  | error e => rw [hb] at h; cases h
  | ok rs =>
    refine ⟨rs, rfl, ?_⟩
    simp only [hb, Bind.bind, Except.bind] at h
    by_contra hc
    have key : ∀ (n : ℕ) (x : Arr ℂ), x.rshape.length < n → ∃ e, Arr.sumAxes n x = .error e := by
      intro n
      induction n with
      | zero => intro x hx; omega
      | succ n ih =>
        intro x hx
        cases hs : x.sumLast with
        | error e => exact ⟨e, by rw [Arr.sumAxes, hs]; rfl⟩
        | ok y =>
          obtain ⟨e, he⟩ := ih y (by
            rw [Arr.sumLast] at hs
            split at hs
            · cases hs
            · rename_i hx'
              cases hs
              rw [hx'] at hx
              simpa using hx)
          exact ⟨e, by rw [Arr.sumAxes, hs]; exact he⟩
    obtain ⟨e, he⟩ := key a.2.axes (Arr.ofFn rs fun i =>
      a.1.toC.get (bidx a.1.rshape i) * b.1.toC.get (bidx b.1.rshape i)) (by simpa [Arr.ofFn] using hc)
    rw [he] at h
    cases h

/-- **C18.** The dot product is only defined if both distributions have equally many variable
parameters and corresponding ones have the same number of axes and shapes that broadcast to at least
that number of axes; otherwise an exception is raised. -/
theorem C18_only_if {x y : Dist C} (hx : WF x) (hy : WF y) {r : Arr ℝ} (h : paramDot x y = .ok r) :
    List.Forall₂ (fun a b => b.1.support.axes = a.1.support.axes ∧
      ∃ rs, bcast a.2.rshape b.2.rshape = .ok rs ∧ a.1.support.axes ≤ rs.length)
      (allFree x) (allFree y) := by
  have e1 : (parametersS x (some false)).values = (allFree x).map fun a => (a.2, a.1.support) := by
    rw [parametersS_eq hx, ← Dist.free_spec (base := [])]; rfl
  have e2 : (parametersS y (some false)).values = (allFree y).map fun a => (a.2, a.1.support) := by
    rw [parametersS_eq hy, ← Dist.free_spec (base := [])]; rfl
  rw [paramDot, e1, e2] at h
  have key : ∀ (l m : List (Field × Val)) (z : List ((Val × Support) × (Val × Support)))
      (q : List (Arr ℝ)), zipStrict (l.map fun a => (a.2, a.1.support))
        (m.map fun a => (a.2, a.1.support)) = .ok z → z.mapM dotPair = .ok q →
      List.Forall₂ (fun a b => b.1.support.axes = a.1.support.axes ∧
        ∃ rs, bcast a.2.rshape b.2.rshape = .ok rs ∧ a.1.support.axes ≤ rs.length) l m := by
    intro l
    induction l with
    | nil =>
      intro m z q hz _
      cases m with
      | nil => exact .nil
      | cons b m => cases hz
    | cons a l ih =>
      intro m z q hz hq
      cases m with
      | nil => cases hz
      | cons b m =>
        simp only [List.map_cons, zipStrict, Bind.bind, Except.bind] at hz
        split at hz
        · cases hz
        · rename_i z' hz'
          cases hz
          rw [List.mapM_cons] at hq
          cases hd : dotPair ((a.2, a.1.support), (b.2, b.1.support)) with
          | error e => rw [hd] at hq; cases hq
          | ok w =>
            rw [hd] at hq
            cases hm : z'.mapM dotPair with
            | error e => rw [hm] at hq; cases hq
            | ok q' => exact .cons (dotPair_only_if hd) (ih m z' q' hz' hm)
  cases hz : zipStrict ((allFree x).map fun a => (a.2, a.1.support))
      ((allFree y).map fun a => (a.2, a.1.support)) with
  | error e => rw [hz] at h; cases h
  | ok z =>
    simp only [hz, Bind.bind, Except.bind] at h
    cases hq : z.mapM dotPair with
    | error e => rw [hq] at h; cases h
    | ok q => exact key _ _ z q hz hq

variable [MachEps]

namespace Samples

/-- The joint distribution in expectation parameters that matches `joint`. -/
def jointE : Dist Cls :=
  .mk .jointE [] (.cons "g" (.mk .gammaEP [c [3] 1, c [3] (-1)] .nil) (.cons "j"
    (.mk .jointE [] (.cons "w" (.mk .weibullEP [c [3] 2, c [3] 1] .nil)
      (.cons "n" (.mk .mvNormalEP [c [2, 3] 1, c [2, 2, 3] 2] .nil) .nil))) .nil))

theorem jointE_wf : WF jointE := by
  simp [jointE, WF, WFs, ClassTable.fields, ClassTable.isJoint, Cls.fields,
    Cls.isJoint, Subs.names]

theorem joint_match : DotMatch [3] joint jointE := by
  have e : ∀ (s t : List ℕ) (x : ℝ), ∃ u : List ℕ, u.length = s.length ∧
      (c (s ++ t) x).rshape = u ++ t := fun s t x => ⟨s, rfl, rfl⟩
  refine ⟨?_, rfl, ⟨?_, trivial⟩, rfl, ⟨?_, rfl, ⟨?_, trivial⟩, rfl, ⟨?_, trivial⟩, trivial⟩, trivial⟩
  · exact .nil
  · exact .cons ⟨rfl, rfl, [], rfl, rfl⟩ (.cons ⟨rfl, rfl, [], rfl, rfl⟩ .nil)
  · exact .nil
  · exact .cons ⟨rfl, rfl, [], rfl, rfl⟩ .nil
  · exact .cons ⟨rfl, rfl, [2], rfl, rfl⟩ (.cons ⟨rfl, rfl, [2, 2], rfl, rfl⟩ .nil)

end Samples

/-- Non-vacuity of C18: nested joint distributions with a fixed parameter; the dot product of the
gamma parts is -1 and that of the normal parts 2·5 - 4·2 = 2. -/
example : WF Samples.joint ∧ WF Samples.jointE ∧ DotMatch [3] Samples.joint Samples.jointE ∧
    LinComb 1 0 Samples.joint Samples.joint Samples.joint ∧
    treeDot Samples.joint Samples.jointE [0] = 0 := by
  refine ⟨Samples.joint_wf, Samples.jointE_wf, Samples.joint_match,
    ⟨Spec.SameTree.refl _, Spec.SameTree.refl _, fun k f v₁ v₂ v₃ _ h1 h2 h3 => ?_⟩, ?_⟩
  · rw [(ParamAt.unique Samples.joint_wf h1 h2).2, (ParamAt.unique Samples.joint_wf h3 h2).2]
    simp
  · simp [Samples.joint, Samples.jointE, Samples.gamma, Samples.weibull, Samples.normal2, treeDot,
      subsDot, freeFields, ClassTable.fields, Cls.fields, valDot, Support.axes, boxSum, entry,
      Samples.c, Arr.full, Arr.ofFn, inB, Val.rshape, Finset.sum_range_succ]
    norm_num

/-- Non-vacuity of `C18_only_if`: the product of nested joint distributions is defined, and the
product of a two-dimensional normal distribution and a gamma distribution raises. -/
example : (∃ r, paramDot Samples.joint Samples.jointE = .ok r) ∧
    ∀ r, paramDot Samples.normal2 Samples.gamma ≠ .ok r := by
  refine ⟨(C18_dot Samples.joint_wf Samples.jointE_wf Samples.joint_match).imp fun r h => h.1,
    fun r h => ?_⟩
  have := C18_only_if (by simp [Samples.normal2, WF, WFs, ClassTable.fields, ClassTable.isJoint,
    Cls.fields, Cls.isJoint, Subs.names]) (by simp [Samples.gamma, WF, WFs, ClassTable.fields,
    ClassTable.isJoint, Cls.fields, Cls.isJoint, Subs.names]) h
  simp [allFree, allFrees, freeFields, Samples.normal2, Samples.gamma, ClassTable.fields, Cls.fields,
    Support.axes] at this

end Efax
