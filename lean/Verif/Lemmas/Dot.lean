import Verif.Lemmas.Tree3
import Verif.Model.Tools
import Verif.Spec.Dot

/-! # Lemmas about the dot product -/

namespace Efax

open ClassTable Spec

variable {C : Type} [ClassTable C]

theorem boxSum_congr {rs : List ℕ} {g h : List ℕ → ℂ} (e : ∀ i, inB rs i = true → g i = h i) :
    boxSum rs g = boxSum rs h := by
  induction rs generalizing g h with
  | nil => exact e [] rfl
  | cons n rs ih =>
    refine Finset.sum_congr rfl fun k hk => ih fun i hi => e _ ?_
    rw [inB_cons, hi]
    simpa using hk

theorem boxSum_lin (rs : List ℕ) (g h : List ℕ → ℂ) (a b : ℂ) :
    boxSum rs (fun i => a * g i + b * h i) = a * boxSum rs g + b * boxSum rs h := by
  induction rs generalizing g h with
  | nil => rfl
  | cons n rs ih =>
    simp only [boxSum, ih, Finset.mul_sum, Finset.sum_add_distrib]

/-- Summing over the first axis inside. -/
theorem boxSum_inner (n : ℕ) (rs : List ℕ) (g : List ℕ → ℂ) :
    boxSum (n :: rs) g = boxSum rs fun i => ∑ k ∈ Finset.range n, g (k :: i) := by
  induction rs generalizing g with
  | nil => rfl
  | cons m rs ih =>
    rw [boxSum, boxSum]
    simp only [boxSum]
    rw [Finset.sum_comm]
    refine Finset.sum_congr rfl fun l _ => ?_
    have := ih fun i => g (i.headD 0 :: l :: i.tail)
    simpa [boxSum] using this

theorem sumAxes_ok {s batch : List ℕ} {a : Arr ℂ} (h : a.rshape = s ++ batch) :
    ∃ r, Arr.sumAxes s.length a = .ok r ∧ r.rshape = batch ∧
      ∀ j, inB batch j = true → r.get j = boxSum s fun i => a.get (i ++ j) := by
  induction s generalizing a with
  | nil => exact ⟨a, rfl, h, fun j _ => rfl⟩
  | cons n s ih =>
    have h1 : a.sumLast = .ok (Arr.ofFn (s ++ batch) fun i => ∑ k ∈ Finset.range n, a.get (k :: i)) := by
      simp [Arr.sumLast, h]
    obtain ⟨r, r1, r2, r3⟩ := ih (a := Arr.ofFn (s ++ batch) fun i =>
      ∑ k ∈ Finset.range n, a.get (k :: i)) rfl
    refine ⟨r, ?_, r2, fun j hj => ?_⟩
    · rw [List.length_cons, Arr.sumAxes, h1]
      exact r1
    · rw [r3 j hj, boxSum_inner]
      refine boxSum_congr fun i hi => ?_
      rw [Arr.ofFn_get (by simp [inB_append (inB_length hi), hi, hj])]
      rfl

theorem toC_rshape (v : Val) : v.toC.rshape = v.rshape := by
  cases v <;> rfl

theorem toC_get (v : Val) (i : List ℕ) : v.toC.get i = entry v i := by
  by_cases h : inB v.rshape i = true
  · cases v with
    | real a => exact Arr.map_get (f := fun x : ℝ => (x : ℂ)) (a := a) h
    | complex a => rfl
    | bool a => exact Arr.map_get (f := fun b : Bool => if b then (1 : ℂ) else 0) (a := a) h
    | int a => exact Arr.map_get (f := fun x : ℤ => (x : ℂ)) (a := a) h
  · have h : inB v.rshape i = false := by simpa using h
    rw [v.toC.junk i (by rwa [toC_rshape])]
    cases v with
    | real a => simp [entry, a.junk i h]; rfl
    | complex a => simp [entry, a.junk i h]
    | bool a => simp [entry, a.junk i h]; rfl
    | int a => simp [entry, a.junk i h]; rfl

theorem entry_out (v : Val) {i : List ℕ} (h : inB v.rshape i = false) : entry v i = 0 := by
  rw [← toC_get, v.toC.junk i (by rwa [toC_rshape])]; rfl

theorem dotPair_ok {batch : List ℕ} {a b : Field × Val} (h : FieldMatch batch a b) :
    ∃ r, dotPair ((a.2, a.1.support), (b.2, b.1.support)) = .ok r ∧ r.rshape = batch ∧
      ∀ j, inB batch j = true → r.get j = valDot a.1.support.axes a.2 b.2 j := by
  obtain ⟨h1, h2, s, h3, h4⟩ := h
  obtain ⟨r, r1, r2, r3⟩ := sumAxes_ok (a := Arr.ofFn a.2.rshape fun i => a.2.toC.get i * b.2.toC.get i)
    (s := s) (batch := batch) h4
  refine ⟨r.map Complex.re, ?_, r2, fun j hj => ?_⟩
  · have e : (Arr.ofFn a.2.rshape fun i => a.2.toC.get (bidx a.2.rshape i) * b.2.toC.get (bidx a.2.rshape i)) =
        Arr.ofFn a.2.rshape fun i => a.2.toC.get i * b.2.toC.get i :=
      Arr.ext rfl fun i hi => by
        have hi : inB a.2.rshape i = true := hi
        rw [Arr.ofFn_get hi, Arr.ofFn_get hi, bidx_self hi]
    simp only [dotPair, h1, if_true, dotField, ← h2, bcast_self, Bind.bind, Except.bind, e, ← h3, r1]
  · rw [Arr.map_get (by rw [r2]; exact hj), r3 j hj, valDot, h4, ← h3, List.take_left]
    congr 1
    refine boxSum_congr fun i hi => ?_
    rw [Arr.ofFn_get (by simp [h4, inB_append (inB_length hi), hi, hj]), toC_get, toC_get]

/-- The list that `parameters(x, fixed=False, support=True).values()` yields. -/
theorem nodeParams_variables (c : C) (v : List Val) (base : Path) :
    ((nodeParams (some false) c v).map fun nv => (base ++ [nv.1], nv.2)).map Prod.snd =
      (freeFields c v).map fun a => (a.2, a.1.support) := by
  rw [nodeParams, freeFields, List.map_map, List.map_map]
  have : (fun fv : Field × Val => keep (some false) fv.1) = fun fv : Field × Val => !fv.1.fixed := by
    funext fv
    cases h : fv.1.fixed <;> simp [keep, h]
  rw [this]
  rfl

/-- What the two lists of parameters have to satisfy. -/
def ListMatch (batch : List ℕ) (a b : Val × Support) (g : List ℕ → ℝ) : Prop :=
  ∃ r, dotPair (a, b) = .ok r ∧ r.rshape = batch ∧ ∀ j, inB batch j = true → r.get j = g j

theorem listMatch_zip {batch : List ℕ} {la lb : List (Val × Support)} {gs : List (List ℕ → ℝ)}
    (hl : la.length = lb.length) (hg : la.length = gs.length)
    (h : ∀ (i : ℕ) a b g, la[i]? = some a → lb[i]? = some b → gs[i]? = some g → ListMatch batch a b g) :
    ∃ rs, (la.zip lb).mapM dotPair = .ok rs ∧ rs.length = gs.length ∧
      (∀ r ∈ rs, r.rshape = batch) ∧
      ∀ j, inB batch j = true → (rs.map fun r => r.get j) = gs.map fun g => g j := by
  induction la generalizing lb gs with
  | nil =>
    cases gs with
    | nil => exact ⟨[], rfl, rfl, by simp, by simp⟩
    | cons => simp at hg
  | cons a la ih =>
    cases lb with
    | nil => simp at hl
    | cons b lb =>
      cases gs with
      | nil => simp at hg
      | cons g gs =>
        obtain ⟨r, h1, h2, h3⟩ := h 0 a b g rfl rfl rfl
        obtain ⟨rs, r1, r2, r3, r4⟩ := ih (by simpa using hl) (by simpa using hg)
          (fun i a b g ha hb hg => h (i + 1) a b g (by simpa using ha) (by simpa using hb)
            (by simpa using hg))
        refine ⟨r :: rs, ?_, by simp [r2], ?_, fun j hj => ?_⟩
        · rw [List.zip_cons_cons, List.mapM_cons, h1, r1]; rfl
        · intro x hx
          rcases List.mem_cons.1 hx with rfl | hx
          · exact h2
          · exact r3 x hx
        · rw [List.map_cons, List.map_cons, r4 j hj, h3 j hj]

theorem reduceAdd_ok {batch : List ℕ} {rs : List (Arr ℝ)} (hne : rs ≠ [])
    (h : ∀ r ∈ rs, r.rshape = batch) : ∃ r, reduceAdd rs = .ok r ∧ r.rshape = batch ∧
      ∀ j, inB batch j = true → r.get j = (rs.map fun r => r.get j).sum := by
  have key : ∀ (rs : List (Arr ℝ)) (a : Arr ℝ), a.rshape = batch → (∀ r ∈ rs, r.rshape = batch) →
      ∃ r, rs.foldlM addArr a = .ok r ∧ r.rshape = batch ∧
        ∀ j, inB batch j = true → r.get j = a.get j + (rs.map fun r => r.get j).sum := by
    intro rs
    induction rs with
    | nil => intro a ha _; exact ⟨a, rfl, ha, by simp⟩
    | cons x rs ih =>
      intro a ha hr
      have hx := hr x (by simp)
      obtain ⟨r, r1, r2, r3⟩ := ih (Arr.ofFn a.rshape fun i => a.get i + x.get i) ha
        (fun r hr' => hr r (by simp [hr']))
      refine ⟨r, ?_, r2, fun j hj => ?_⟩
      · have e : addArr a x = .ok (Arr.ofFn a.rshape fun i => a.get i + x.get i) := by
          simp only [addArr, ha, hx, bcast_self, Bind.bind, Except.bind]
          exact congrArg Except.ok (Arr.ext rfl fun i hi => by
            have hi : inB batch i = true := hi
            rw [Arr.ofFn_get hi, Arr.ofFn_get hi, bidx_self hi])
        rw [List.foldlM_cons, e]
        exact r1
      · rw [r3 j hj, Arr.ofFn_get (by rw [ha]; exact hj)]
        simp [add_assoc]
  cases rs with
  | nil => exact absurd rfl hne
  | cons a rs =>
    obtain ⟨r, r1, r2, r3⟩ := key rs a (h a (by simp)) (fun r hr => h r (by simp [hr]))
    exact ⟨r, r1, r2, fun j hj => by rw [r3 j hj]; simp⟩

mutual
/-- All pairs of corresponding variable parameters. -/
def Dist.pairs : Dist C → Dist C → List ((Field × Val) × (Field × Val))
  | .mk c v s, .mk c' v' s' => (freeFields c v).zip (freeFields c' v') ++ Subs.pairs s s'
def Subs.pairs : Subs C → Subs C → List ((Field × Val) × (Field × Val))
  | .cons _ d r, .cons _ d' r' => Dist.pairs d d' ++ Subs.pairs r r'
  | _, _ => []
end

theorem forall₂_zip {A B : Type} {R : A → B → Prop} {l : List A} {m : List B}
    (h : List.Forall₂ R l m) : (∀ ab ∈ l.zip m, R ab.1 ab.2) ∧ (l.zip m).map Prod.fst = l ∧
      (l.zip m).map Prod.snd = m := by
  induction h with
  | nil => simp
  | cons h _ ih =>
    refine ⟨?_, by simp [ih.2.1], by simp [ih.2.2]⟩
    intro ab hab
    rcases List.mem_cons.1 hab with rfl | hab
    · exact h
    · exact ih.1 ab hab

mutual
theorem Dist.pairs_spec {batch : List ℕ} {base base' : Path} : {x y : Dist C} → DotMatch batch x y →
    (∀ ab ∈ x.pairs y, FieldMatch batch ab.1 ab.2) ∧
    (x.paramList (some false) base).map Prod.snd =
      (x.pairs y).map (fun ab => (ab.1.2, ab.1.1.support)) ∧
    (y.paramList (some false) base').map Prod.snd =
      (x.pairs y).map (fun ab => (ab.2.2, ab.2.1.support)) ∧
    ∀ j, treeDot x y j =
      ((x.pairs y).map fun ab => valDot ab.1.1.support.axes ab.1.2 ab.2.2 j).sum
  | .mk c v s, .mk c' v' s', h => by
    obtain ⟨h1, h2⟩ := h
    obtain ⟨s1, s2, s3, s4⟩ := Subs.pairs_spec (base := base) (base' := base') h2
    obtain ⟨f1, f2, f3⟩ := forall₂_zip h1
    refine ⟨?_, ?_, ?_, fun j => ?_⟩
    · intro ab hab
      rw [Dist.pairs, List.mem_append] at hab
      exact hab.elim (f1 ab) (s1 ab)
    · rw [Dist.paramList, Dist.pairs, List.map_append, List.map_append, ← s2, nodeParams_variables]
      conv_lhs => rw [← f2]
      rw [List.map_map]; rfl
    · rw [Dist.paramList, Dist.pairs, List.map_append, List.map_append, ← s3, nodeParams_variables]
      conv_lhs => rw [← f3]
      rw [List.map_map]; rfl
    · rw [treeDot, Dist.pairs, List.map_append, List.sum_append, s4 j, List.zip, List.map_zipWith]
theorem Subs.pairs_spec {batch : List ℕ} {base base' : Path} : {s t : Subs C} →
    DotMatches batch s t →
    (∀ ab ∈ s.pairs t, FieldMatch batch ab.1 ab.2) ∧
    (s.paramList (some false) base).map Prod.snd =
      (s.pairs t).map (fun ab => (ab.1.2, ab.1.1.support)) ∧
    (t.paramList (some false) base').map Prod.snd =
      (s.pairs t).map (fun ab => (ab.2.2, ab.2.1.support)) ∧
    ∀ j, subsDot s t j =
      ((s.pairs t).map fun ab => valDot ab.1.1.support.axes ab.1.2 ab.2.2 j).sum
  | .nil, .nil, _ => by simp [Subs.pairs, Subs.paramList, subsDot]
  | .cons n d r, .cons n' d' r', h => by
    obtain ⟨rfl, h1, h2⟩ := h
    obtain ⟨s1, s2, s3, s4⟩ := Subs.pairs_spec (base := base) (base' := base') h2
    obtain ⟨d1, d2, d3, d4⟩ := Dist.pairs_spec (base := base ++ [n]) (base' := base' ++ [n]) h1
    refine ⟨?_, ?_, ?_, fun j => ?_⟩
    · intro ab hab
      rw [Subs.pairs, List.mem_append] at hab
      exact hab.elim (d1 ab) (s1 ab)
    · rw [Subs.paramList, Subs.pairs, List.map_append, List.map_append, s2, d2]
    · rw [Subs.paramList, Subs.pairs, List.map_append, List.map_append, s3, d3]
    · rw [subsDot, Subs.pairs, List.map_append, List.sum_append, s4 j, d4 j]
end

mutual
theorem Dist.has_variables {base : Path} : {p : Dist C} → WF p → p.paramList (some false) base ≠ []
  | .mk c v s, h => by
    by_cases hj : isJoint c = true
    · have := Subs.has_variables (base := base) (h.2.1.1 hj) h.2.2.2
      rw [Dist.paramList]
      simp [this]
    · obtain ⟨f, hf, hv⟩ := has_variable c (by simpa using hj)
      obtain ⟨i, hi, hfi⟩ := List.getElem_of_mem hf
      have hm : (f.name, v[i]'(h.1 ▸ hi), f.support) ∈ nodeParams (some false) c v := by
        rw [nodeParams, List.mem_map]
        refine ⟨(f, v[i]'(h.1 ▸ hi)), ?_, rfl⟩
        rw [List.mem_filter]
        refine ⟨?_, by simp [keep, hv]⟩
        rw [List.mem_iff_getElem]
        exact ⟨i, by simp [hi, h.1], by simp [hfi]⟩
      rw [Dist.paramList]
      intro e
      rw [List.append_eq_nil_iff, List.map_eq_nil_iff] at e
      rw [e.1] at hm
      simp at hm
theorem Subs.has_variables {base : Path} : {s : Subs C} → s ≠ .nil → WFs s →
    s.paramList (some false) base ≠ []
  | .nil, h, _ => absurd rfl h
  | .cons n d r, _, h => by
    have := Dist.has_variables (base := base ++ [n]) h.1
    rw [Subs.paramList]
    simp [this]
end

theorem paramDot_ok {batch : List ℕ} {x y : Dist C} (hx : WF x) (hy : WF y)
    (h : DotMatch batch x y) : ∃ r, paramDot x y = .ok r ∧ r.rshape = batch ∧
      ∀ j, inB batch j = true → r.get j = treeDot x y j := by
  obtain ⟨h1, h2, h3, h4⟩ := Dist.pairs_spec (base := []) (base' := []) h
  have e1 : (parametersS x (some false)).values =
      (x.pairs y).map (fun ab => (ab.1.2, ab.1.1.support)) := by
    rw [parametersS_eq hx, ← h2]; rfl
  have e2 : (parametersS y (some false)).values =
      (x.pairs y).map (fun ab => (ab.2.2, ab.2.1.support)) := by
    rw [parametersS_eq hy, ← h3]; rfl
  obtain ⟨rs, r1, r2, r3, r4⟩ := listMatch_zip (batch := batch)
    (la := (x.pairs y).map (fun ab => (ab.1.2, ab.1.1.support)))
    (lb := (x.pairs y).map (fun ab => (ab.2.2, ab.2.1.support)))
    (gs := (x.pairs y).map fun ab j => valDot ab.1.1.support.axes ab.1.2 ab.2.2 j)
    (by simp) (by simp) (by
      intro i a b g ha hb hg
      rw [List.getElem?_map] at ha hb hg
      cases hi : (x.pairs y)[i]? with
      | none => rw [hi] at ha; cases ha
      | some ab =>
        rw [hi] at ha hb hg
        simp only [Option.map_some, Option.some.injEq] at ha hb hg
        subst ha hb hg
        exact dotPair_ok (h1 ab (List.mem_of_getElem? hi)))
  have hne : rs ≠ [] := by
    rintro rfl
    have : x.pairs y = [] := by simpa using r2.symm
    have h5 := Dist.has_variables (base := []) hx
    rw [this] at h2
    simp at h2
    exact h5 h2
  obtain ⟨r, t1, t2, t3⟩ := reduceAdd_ok hne r3
  refine ⟨r, ?_, t2, fun j hj => ?_⟩
  · rw [paramDot, e1, e2, zipStrict_ok (by simp)]
    change ((_ : List _).mapM dotPair >>= reduceAdd) = _
    rw [r1]
    exact t1
  · rw [t3 j hj, r4 j hj, h4 j, List.map_map]
    rfl

/-! ## Symmetry -/

mutual
theorem Spec.DotMatch.symm {batch : List ℕ} : {x y : Dist C} → DotMatch batch x y → DotMatch batch y x
  | .mk _ _ _, .mk _ _ _, h => by
    refine ⟨List.Forall₂.flip (h.1.imp ?_), Spec.DotMatches.symm h.2⟩
    rintro a b ⟨h1, h2, s, h3, h4⟩
    exact ⟨h1.symm, h2.symm, s, h3.trans h1.symm, h2 ▸ h4⟩
theorem Spec.DotMatches.symm {batch : List ℕ} : {s t : Subs C} → DotMatches batch s t →
    DotMatches batch t s
  | .nil, .nil, _ => trivial
  | .cons _ _ _, .cons _ _ _, h => ⟨h.1.symm, Spec.DotMatch.symm h.2.1, Spec.DotMatches.symm h.2.2⟩
end

theorem valDot_symm {n : ℕ} {x y : Val} (h : x.rshape = y.rshape) (j : List ℕ) :
    valDot n x y j = valDot n y x j := by
  simp only [valDot, h, mul_comm]

theorem zipWith_symm {batch : List ℕ} {l m : List (Field × Val)}
    (h : List.Forall₂ (FieldMatch batch) l m) (j : List ℕ) :
    List.zipWith (fun a b => valDot a.1.support.axes a.2 b.2 j) l m =
      List.zipWith (fun a b => valDot a.1.support.axes a.2 b.2 j) m l := by
  induction h with
  | nil => rfl
  | cons h _ ih => rw [List.zipWith_cons_cons, List.zipWith_cons_cons, ih, h.1, valDot_symm h.2.1]

mutual
theorem treeDot_symm {batch : List ℕ} : {x y : Dist C} → DotMatch batch x y → ∀ j,
    treeDot x y j = treeDot y x j
  | .mk _ _ _, .mk _ _ _, h, j => by
    rw [treeDot, treeDot, zipWith_symm h.1, subsDot_symm h.2]
theorem subsDot_symm {batch : List ℕ} : {s t : Subs C} → DotMatches batch s t → ∀ j,
    subsDot s t j = subsDot t s j
  | .nil, .nil, _, _ => rfl
  | .cons _ _ _, .cons _ _ _, h, j => by
    rw [subsDot, subsDot, treeDot_symm h.2.1, subsDot_symm h.2.2]
end

/-! ## Linearity -/

theorem valDot_lin {n : ℕ} {x₁ x₂ x₃ y : Val} {a b : ℝ} (h2 : x₁.rshape = x₂.rshape)
    (h3 : x₁.rshape = x₃.rshape)
    (h : ∀ i, inB x₁.rshape i = true → entry x₃ i = a * entry x₁ i + b * entry x₂ i) (j : List ℕ) :
    valDot n x₃ y j = a * valDot n x₁ y j + b * valDot n x₂ y j := by
  have h' : ∀ i, entry x₃ i = a * entry x₁ i + b * entry x₂ i := by
    intro i
    by_cases hi : inB x₁.rshape i = true
    · exact h i hi
    · have hi : inB x₁.rshape i = false := by simpa using hi
      rw [entry_out x₃ (h3 ▸ hi), entry_out x₁ hi, entry_out x₂ (h2 ▸ hi)]
      simp
  have e : ∀ i : List ℕ, entry x₃ (i ++ j) * entry y (i ++ j) =
      a * (entry x₁ (i ++ j) * entry y (i ++ j)) + b * (entry x₂ (i ++ j) * entry y (i ++ j)) := by
    intro i; rw [h']; ring
  simp only [valDot, e, boxSum_lin, ← h2, ← h3]
  simp

theorem nodeDot_lin {a b : ℝ} (j : List ℕ) : ∀ (fs : List Field) (v₁ v₂ v₃ : List Val)
    (M : List (Field × Val)), v₁.length = fs.length → v₂.length = fs.length → v₃.length = fs.length →
    (∀ (i : ℕ) (f : Field) w₁ w₂ w₃, fs[i]? = some f → v₁[i]? = some w₁ → v₂[i]? = some w₂ → v₃[i]? = some w₃ →
      f.fixed = false → w₁.rshape = w₂.rshape ∧ w₁.rshape = w₃.rshape ∧
      ∀ i, inB w₁.rshape i = true → entry w₃ i = a * entry w₁ i + b * entry w₂ i) →
    (List.zipWith (fun a b => valDot a.1.support.axes a.2 b.2 j)
        ((fs.zip v₃).filter fun fv => !fv.1.fixed) M).sum =
      a * (List.zipWith (fun a b => valDot a.1.support.axes a.2 b.2 j)
        ((fs.zip v₁).filter fun fv => !fv.1.fixed) M).sum +
      b * (List.zipWith (fun a b => valDot a.1.support.axes a.2 b.2 j)
        ((fs.zip v₂).filter fun fv => !fv.1.fixed) M).sum := by
  intro fs
  induction fs with
  | nil => intro v₁ v₂ v₃ M _ _ _ _; simp
  | cons f fs ih =>
    intro v₁ v₂ v₃ M l1 l2 l3 h
    obtain ⟨w₁, v₁, rfl⟩ := List.exists_of_length_succ _ l1
    obtain ⟨w₂, v₂, rfl⟩ := List.exists_of_length_succ _ l2
    obtain ⟨w₃, v₃, rfl⟩ := List.exists_of_length_succ _ l3
    have ih' := fun M => ih v₁ v₂ v₃ M (by simpa using l1) (by simpa using l2) (by simpa using l3)
      (fun i f w₁ w₂ w₃ e0 e1 e2 e3 => h (i + 1) f w₁ w₂ w₃ (by simpa using e0) (by simpa using e1)
        (by simpa using e2) (by simpa using e3))
    simp only [List.zip_cons_cons, List.filter_cons]
    cases hf : f.fixed with
    | true => simpa using ih' M
    | false =>
      cases M with
      | nil => simp
      | cons m M =>
        obtain ⟨e1, e2, e3⟩ := h 0 f w₁ w₂ w₃ rfl rfl rfl rfl hf
        simp only [Bool.not_false, if_true, List.zipWith_cons_cons, List.sum_cons]
        rw [ih' M, valDot_lin e1 e2 e3]
        ring

mutual
theorem treeDot_lin {a b : ℝ} {batch : List ℕ} : {x₁ x₂ x₃ y : Dist C} → WF x₁ → WF x₂ → WF x₃ →
    LinComb a b x₁ x₂ x₃ → DotMatch batch x₁ y → ∀ j,
    treeDot x₃ y j = a * treeDot x₁ y j + b * treeDot x₂ y j
  | .mk c v₁ s₁, .mk c₂ v₂ s₂, .mk c₃ v₃ s₃, .mk c' v' s', w1, w2, w3, h, hm, j => by
    obtain ⟨⟨rfl, t2⟩, ⟨rfl, t3⟩, h⟩ := h
    have := subsDot_lin (a := a) (b := b) w1.2.2.2 w2.2.2.2 w3.2.2.2 w1.2.2.1 t2 t3
      (fun n d₁ d₂ d₃ m1 m2 m3 k f u₁ u₂ u₃ hf p1 p2 p3 =>
        h (n :: k) f u₁ u₂ u₃ hf (.sub m1 p1) (.sub m2 p2) (.sub m3 p3)) hm.2 j
    simp only [treeDot, freeFields]
    rw [this, nodeDot_lin j (fields c) v₁ v₂ v₃ _ w1.1 w2.1 w3.1
        (fun i f u₁ u₂ u₃ e0 e1 e2 e3 hf =>
          h [f.name] f u₁ u₂ u₃ hf (.here e0 e1) (.here e0 e2) (.here e0 e3))]
    ring
theorem subsDot_lin {a b : ℝ} {batch : List ℕ} : {s₁ s₂ s₃ t : Subs C} → WFs s₁ → WFs s₂ → WFs s₃ →
    s₁.names.Nodup → SameTrees s₁ s₂ → SameTrees s₁ s₃ →
    (∀ n d₁ d₂ d₃, (n, d₁) ∈ s₁.toList → (n, d₂) ∈ s₂.toList → (n, d₃) ∈ s₃.toList →
      ∀ k f v₁ v₂ v₃, f.fixed = false → ParamAt d₁ k f v₁ →
      ParamAt d₂ k f v₂ → ParamAt d₃ k f v₃ → v₁.rshape = v₂.rshape ∧ v₁.rshape = v₃.rshape ∧
      ∀ i, inB v₁.rshape i = true → entry v₃ i = a * entry v₁ i + b * entry v₂ i) →
    DotMatches batch s₁ t → ∀ j, subsDot s₃ t j = a * subsDot s₁ t j + b * subsDot s₂ t j
  | .nil, .nil, .nil, .nil, _, _, _, _, _, _, _, _, _ => by simp [subsDot]
  | .cons n d₁ r₁, .cons n₂ d₂ r₂, .cons n₃ d₃ r₃, .cons n' d' r', w1, w2, w3, hn, t2, t3, h, hm, j => by
    obtain ⟨rfl, t2, u2⟩ := t2
    obtain ⟨rfl, t3, u3⟩ := t3
    obtain ⟨rfl, m1, m2⟩ := hm
    simp only [Subs.names, List.nodup_cons] at hn
    rw [subsDot, subsDot, subsDot,
      treeDot_lin (a := a) (b := b) w1.1 w2.1 w3.1 ⟨t2, t3, h n d₁ d₂ d₃ (by simp [Subs.toList])
        (by simp [Subs.toList]) (by simp [Subs.toList])⟩ m1 j,
      subsDot_lin (a := a) (b := b) w1.2 w2.2 w3.2 hn.2 u2 u3 (fun n e₁ e₂ e₃ a1 a2 a3 =>
        h n e₁ e₂ e₃ (by simp [Subs.toList, a1]) (by simp [Subs.toList, a2])
          (by simp [Subs.toList, a3])) m2 j]
    ring
end

/-! ## Fixed parameters do not matter -/

theorem variables_congr : ∀ (fs : List Field) (v w : List Val), v.length = fs.length →
    w.length = fs.length →
    (∀ (i : ℕ) (f : Field) a b, fs[i]? = some f → v[i]? = some a → w[i]? = some b → f.fixed = false → a = b) →
    ((fs.zip v).filter fun fv => !fv.1.fixed) = (fs.zip w).filter fun fv => !fv.1.fixed := by
  intro fs
  induction fs with
  | nil => simp
  | cons f fs ih =>
    intro v w l1 l2 h
    obtain ⟨x, v, rfl⟩ := List.exists_of_length_succ _ l1
    obtain ⟨y, w, rfl⟩ := List.exists_of_length_succ _ l2
    have ih' := ih v w (by simpa using l1) (by simpa using l2)
      (fun i f a b e0 e1 e2 => h (i + 1) f a b (by simpa using e0) (by simpa using e1)
        (by simpa using e2))
    simp only [List.zip_cons_cons, List.filter_cons, ih']
    cases hf : f.fixed with
    | true => simp
    | false => rw [h 0 f x y rfl rfl rfl hf]

mutual
theorem Dist.varList_congr {base : Path} : {x x' : Dist C} → WF x → WF x' → SameTree x x' →
    (∀ k f v v', f.fixed = false → ParamAt x k f v → ParamAt x' k f v' → v = v') →
    (x.paramList (some false) base).map Prod.snd = (x'.paramList (some false) base).map Prod.snd
  | .mk c v s, .mk c' v' s', hw, hw', ht, h => by
    obtain ⟨rfl, ht⟩ := ht
    rw [Dist.paramList, Dist.paramList, List.map_append, List.map_append, nodeParams_variables,
      nodeParams_variables, Subs.varList_congr hw.2.2.2 hw'.2.2.2 ht
        (fun n d d' m1 m2 k f u u' hf p1 p2 => h (n :: k) f u u' hf (.sub m1 p1) (.sub m2 p2)),
      freeFields, freeFields, variables_congr (fields c) v v' hw.1 hw'.1 (fun i f u u' e0 e1 e2 hf =>
        h [f.name] f u u' hf (.here e0 e1) (.here e0 e2))]
theorem Subs.varList_congr {base : Path} : {s s' : Subs C} → WFs s → WFs s' → SameTrees s s' →
    (∀ n d d', (n, d) ∈ s.toList → (n, d') ∈ s'.toList →
      ∀ k f v v', f.fixed = false → ParamAt d k f v → ParamAt d' k f v' → v = v') →
    (s.paramList (some false) base).map Prod.snd = (s'.paramList (some false) base).map Prod.snd
  | .nil, .nil, _, _, _, _ => rfl
  | .cons n d r, .cons n' d' r', hw, hw', ht, h => by
    obtain ⟨rfl, t1, t2⟩ := ht
    rw [Subs.paramList, Subs.paramList, List.map_append, List.map_append,
      Dist.varList_congr hw.1 hw'.1 t1 (h n d d' (by simp [Subs.toList]) (by simp [Subs.toList])),
      Subs.varList_congr hw.2 hw'.2 t2 (fun n e e' m1 m2 =>
        h n e e' (by simp [Subs.toList, m1]) (by simp [Subs.toList, m2]))]
end

theorem paramDot_congr {x x' y : Dist C} (hx : WF x) (hx' : WF x') (ht : SameTree x x')
    (h : ∀ k f v v', f.fixed = false → ParamAt x k f v → ParamAt x' k f v' → v = v') :
    paramDot x y = paramDot x' y ∧ paramDot y x = paramDot y x' := by
  have : (parametersS x (some false)).values = (parametersS x' (some false)).values := by
    rw [parametersS_eq hx, parametersS_eq hx']
    exact Dist.varList_congr hx hx' ht h
  simp only [paramDot, this, and_self]

end Efax
