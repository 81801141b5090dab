import Verif.Lemmas.Kind
import Verif.Props.Statistics
import Verif.Props.Dot
import Verif.Props.Trees

/-! # The derived methods on batches -/

namespace Efax

open ClassTable Calc Spec

variable {C : Type} [ClassTable C]

theorem Arr.eq_scalars {rs : List ℕ} {a : Arr ℝ} {f : List ℕ → ℝ} (h : a.rshape = rs)
    (h' : ∀ i, inB rs i = true → a.get i = f i) : a = scalars rs f := by
  refine Arr.ext h fun i hi => ?_
  rw [h] at hi
  rw [h' i hi, scalars, Arr.ofFn_get hi]

theorem scalars_congr {rs : List ℕ} {f g : List ℕ → ℝ} (h : ∀ i, inB rs i = true → f i = g i) :
    scalars rs f = scalars rs g :=
  Arr.eq_scalars (a := scalars rs f) rfl fun i hi => by rw [scalars, Arr.ofFn_get hi, h i hi]

theorem scalars_sub (rs : List ℕ) (f g : List ℕ → ℝ) :
    (ok (scalars rs f) - ok (scalars rs g) : Calc ℝ) = ok (scalars rs fun i => f i - g i) := by
  calc_simp

theorem scalars_neg (rs : List ℕ) (f : List ℕ → ℝ) :
    (-ok (scalars rs f) : Calc ℝ) = ok (scalars rs fun i => -f i) := by
  calc_simp

theorem map_toC_rshape {v w : List Val} (h : v.map Val.toC = w.map Val.toC) (fs : List Field) :
    List.Forall₂ (fun a b : Field × Val => a.1 = b.1 ∧ a.2.toC = b.2.toC)
      ((fs.zip v).filter fun fv => !fv.1.fixed) ((fs.zip w).filter fun fv => !fv.1.fixed) := by
  induction fs generalizing v w with
  | nil => exact .nil
  | cons f fs ih =>
    cases v with
    | nil =>
      cases w with
      | nil => exact .nil
      | cons => simp at h
    | cons a v =>
      cases w with
      | nil => simp at h
      | cons b w =>
        simp only [List.map_cons, List.cons.injEq] at h
        simp only [List.zip_cons_cons]
        by_cases hf : f.fixed = true
        · rw [List.filter_cons_of_neg (by simp [hf]), List.filter_cons_of_neg (by simp [hf])]
          exact ih h.2
        · rw [List.filter_cons_of_pos (by simp [hf]), List.filter_cons_of_pos (by simp [hf])]
          exact .cons ⟨rfl, h.1⟩ (ih h.2)

mutual
theorem Spec.SameC.wf : {d e : Dist C} → SameC d e → WF e → WF d
  | .mk c v s, .mk c' v' s', h, w => by
    obtain ⟨rfl, h1, h2⟩ := h
    obtain ⟨w1, w2, w3, w4⟩ := w
    obtain ⟨g1, g2, g3⟩ := SameCs.wf h2 w4
    refine ⟨?_, w2.trans (not_congr g2).symm, g1 ▸ w3, g3⟩
    have := congrArg List.length h1
    simp only [List.length_map] at this
    rw [this, w1]
theorem Spec.SameCs.wf : {d e : Subs C} → SameCs d e → WFs e → d.names = e.names ∧ (d = .nil ↔ e = .nil) ∧ WFs d
  | .nil, .nil, _, _ => ⟨rfl, Iff.rfl, trivial⟩
  | .cons n d r, .cons n' d' r', h, w => by
    obtain ⟨rfl, h1, h2⟩ := h
    obtain ⟨w1, w2⟩ := w
    obtain ⟨g1, g2, g3⟩ := SameCs.wf h2 w2
    exact ⟨congrArg (n :: ·) g1, by simp, SameC.wf h1 w1, g3⟩
end

mutual
theorem Spec.SameC.dotMatch {rs : List ℕ} : {x d e : Dist C} → SameC d e → DotMatch rs x e → DotMatch rs x d
  | .mk a u t, .mk c v s, .mk c' v' s', h, w => by
    obtain ⟨rfl, h1, h2⟩ := h
    obtain ⟨w1, w2⟩ := w
    refine ⟨?_, SameCs.dotMatch h2 w2⟩
    have key := map_toC_rshape h1 (fields c)
    change List.Forall₂ _ (freeFields c v) (freeFields c v') at key
    generalize freeFields c v' = l' at key w1
    generalize freeFields c v = l at key
    generalize freeFields a u = m at w1
    induction w1 generalizing l with
    | nil => cases key; exact .nil
    | cons hm _ ih =>
      cases key with
      | cons hk hks =>
        refine .cons ?_ (ih _ hks)
        obtain ⟨k1, k2⟩ := hk
        obtain ⟨m1, m2, m3⟩ := hm
        refine ⟨k1 ▸ m1, ?_, m3⟩
        rw [m2, ← toC_rshape, ← k2, toC_rshape]
theorem Spec.SameCs.dotMatch {rs : List ℕ} : {x d e : Subs C} → SameCs d e → DotMatches rs x e →
    DotMatches rs x d
  | .nil, .nil, .nil, _, _ => trivial
  | .nil, .cons _ _ _, .cons _ _ _, _, h => h.elim
  | .cons _ _ _, .nil, .nil, _, h => h.elim
  | .cons m y t, .cons n d r, .cons n' d' r', h, w => by
    obtain ⟨rfl, h1, h2⟩ := h
    obtain ⟨rfl, w1, w2⟩ := w
    exact ⟨rfl, SameC.dotMatch h1 w1, SameCs.dotMatch h2 w2⟩
end

mutual
theorem Spec.SameC.treeDot {j : List ℕ} : {x d e : Dist C} → SameC d e → treeDot x d j = treeDot x e j
  | .mk a u t, .mk c v s, .mk c' v' s', h => by
    obtain ⟨rfl, h1, h2⟩ := h
    rw [Spec.treeDot, Spec.treeDot, SameCs.subsDot h2]
    congr 2
    have key := map_toC_rshape h1 (fields c)
    change List.Forall₂ _ (freeFields c v) (freeFields c v') at key
    generalize freeFields c v' = l' at key
    generalize freeFields c v = l at key
    generalize freeFields a u = m
    induction key generalizing m with
    | nil => rfl
    | cons hk _ ih =>
      cases m with
      | nil => rfl
      | cons b m =>
        rw [List.zipWith_cons_cons, List.zipWith_cons_cons, ih]
        simp only [valDot, ← toC_get, hk.2]
theorem Spec.SameCs.subsDot {j : List ℕ} : {x d e : Subs C} → SameCs d e → subsDot x d j = subsDot x e j
  | .nil, .nil, .nil, _ => rfl
  | .nil, .cons _ _ _, .cons _ _ _, _ => rfl
  | .cons _ _ _, .nil, .nil, _ => rfl
  | .cons m y t, .cons n d r, .cons n' d' r', h => by
    obtain ⟨rfl, h1, h2⟩ := h
    rw [Spec.subsDot, Spec.subsDot, SameC.treeDot h1, SameCs.subsDot h2]
end

theorem dotCalc_eq {rs : List ℕ} {x y : Dist C} (hx : WF x) (hy : WF y) (h : DotMatch rs x y)
    {f : List ℕ → ℝ} (hf : ∀ i, inB rs i = true → treeDot x y i = f i) :
    dotCalc x y = ok (scalars rs f) := by
  obtain ⟨r, h1, h2, h3⟩ := paramDot_ok hx hy h
  rw [dotCalc, h1]
  exact congrArg ok (Arr.eq_scalars h2 fun i hi => (h3 i hi).trans (hf i hi))

namespace Spec.Kind.Ok

variable {L : Library C} {K : Kind C}

theorem dotCalc (h : K.Ok L) (rs : List ℕ) (p p' : List ℕ → K.P) (q : List ℕ → K.N)
    (χ : List ℕ → K.E) : Efax.dotCalc (K.nat rs p q) (K.exp rs p' χ) =
      ok (scalars rs fun i => (K.F (p i)).dot (q i) (χ i)) :=
  dotCalc_eq (h.wfN _ _ _) (h.wfE _ _ _) (h.dotMatch _ _ _ _ _) (h.dot _ _ _ _ _)

theorem estimator (h : K.Ok L) (rs : List ℕ) (p : List ℕ → K.P) (q : List ℕ → K.N) :
    ∃ est, createEstimatorFromNatural (K.nat rs p q) = .ok est := by
  obtain ⟨l, h1, h2⟩ := h.infos rs p q []
  have h3 : infosOf (K.nat rs p q) = .ok l := h1
  have h4 : infosToExp l = .ok (l.map fun i => { i with cls := (expCls i.cls).getD i.cls }) := by
    refine mapM_ok fun i hi => ?_
    obtain ⟨c, hc⟩ := Option.isSome_iff_exists.1 (h2 i hi)
    simp [hc]
  exact ⟨_, by rw [createEstimatorFromNatural, h3]; simp only [Bind.bind, Except.bind, h4]; rfl⟩

theorem difference (h : K.Ok L) (rs : List ℕ) (p : List ℕ → K.P) (a b : List ℕ → K.N) :
    ∃ d, paramMap valSub (K.nat rs p a) [K.nat rs p b] = .ok d ∧ WF d ∧
      LinComb 1 (-1) (K.nat rs p a) (K.nat rs p b) d := by
  obtain ⟨l, h1, _⟩ := h.infos rs p a []
  obtain ⟨s1, s2⟩ := h.same rs p a p b
  have hsub : ∀ v w, SameDtype v w → ∃ r, valSub [v, w] = .ok r ∧ r.rshape = v.rshape ∧
      w.rshape = v.rshape ∧
      ∀ i, inB v.rshape i = true → Spec.entry r i = 1 * Spec.entry v i + (-1) * Spec.entry w i := by
    intro v w hvw
    cases v <;> cases w <;> simp only [SameDtype] at hvw
    case real.real x y =>
      have e : (ok x - ok y : Calc ℝ) = ok (Arr.ofFn x.rshape fun i => x.get i - y.get i) := by
        have hx : x = Arr.ofFn x.rshape x.get := Arr.ext rfl fun i hi => (Arr.ofFn_get hi).symm
        have hy : y = Arr.ofFn x.rshape y.get :=
          Arr.ext hvw.symm fun i hi => (Arr.ofFn_get (hvw ▸ hi)).symm
        conv_lhs => rw [hx, hy]
        exact scalars_sub x.rshape x.get y.get
      refine ⟨.real (Arr.ofFn x.rshape fun i => x.get i - y.get i), by rw [valSub, e]; rfl, rfl, hvw.symm, fun i hi => ?_⟩
      have hi : inB x.rshape i = true := hi
      simp [Spec.entry, Arr.ofFn_get hi, sub_eq_add_neg]
    case complex.complex x y =>
      have e : (ok x - ok y : Calc ℂ) = ok (Arr.ofFn x.rshape fun i => x.get i - y.get i) := by
        have hx : x = scalars x.rshape x.get := Arr.ext rfl fun i hi => (Arr.ofFn_get hi).symm
        have hy : y = scalars x.rshape y.get :=
          Arr.ext hvw.symm fun i hi => (Arr.ofFn_get (hvw ▸ hi)).symm
        have : (ok (scalars x.rshape x.get) - ok (scalars x.rshape y.get) : Calc ℂ) =
            ok (scalars x.rshape fun i => x.get i - y.get i) := by
          calc_simp
        rw [← hx, ← hy] at this
        exact this
      refine ⟨.complex (Arr.ofFn x.rshape fun i => x.get i - y.get i), by
          change Val.ofC (ok x - ok y) = _
          rw [e]; rfl, rfl,
        hvw.symm, fun i hi => ?_⟩
      have hi : inB x.rshape i = true := hi
      simp [Spec.entry, Arr.ofFn_get hi, sub_eq_add_neg]
  obtain ⟨d, d1, d2, d3, d4⟩ := C16_map (x := K.nat rs p a) (ys := [K.nat rs p b]) (h.wfN _ _ _)
    (by rintro y hy; rw [List.mem_singleton.1 hy]; exact ⟨h.wfN _ _ _, s1⟩) (infos := l) h1 (op := valSub)
    (fun k f v vs hv hf hvs => by
      cases hvs with
      | cons hw hnil =>
        cases hnil
        obtain ⟨r, hr, _⟩ := hsub v _ (s2 k f v _ hf hv hw)
        exact ⟨r, hr⟩)
  refine ⟨d, d1, d2, s1, d3, fun k f v₁ v₂ v₃ hf p1 p2 p3 => ?_⟩
  have := (d4 k f v₃).1 p3
  rw [hf] at this
  obtain ⟨v, vs, q1, q2, q3⟩ := this
  cases q2 with
  | cons q2 hnil =>
    cases hnil
    have e1 := (ParamAt.unique (h.wfN _ _ _) q1 p1).2
    have e2 := (ParamAt.unique (h.wfN _ _ _) q2 p2).2
    subst e1 e2
    obtain ⟨r, g1, g2, g3, g4⟩ := hsub _ _ (s2 k f _ _ hf p1 p2)
    rw [q3] at g1
    cases g1
    exact ⟨g3.symm, g2.symm, by simpa using g4⟩

end Spec.Kind.Ok

end Efax
