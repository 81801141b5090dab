import Verif.Lemmas.Kind2
import Verif.Lemmas.Sampling

/-! # Observations with more axes than the distribution -/

namespace Efax

open ClassTable Calc Spec

variable {C : Type} [ClassTable C]

/-- `v'` is `v`, repeated along the new axes `ss`. -/
def SpreadVal (rs ss : List ℕ) (v v' : Val) : Prop :=
  ∃ s, v.rshape = s ++ rs ∧ v'.rshape = s ++ rs ++ ss ∧
    ∀ i, inB (s ++ rs ++ ss) i = true → v'.toC.get i = v.toC.get (i.take (s ++ rs).length)

mutual
/-- The variable parameters of the second are those of the first, repeated. -/
def SpreadDist (rs ss : List ℕ) : Dist C → Dist C → Prop
  | .mk c v s, .mk c' v' s' =>
    List.Forall₂ (fun a b => a.1 = b.1 ∧ SpreadVal rs ss a.2 b.2) (freeFields c v) (freeFields c' v') ∧
      SpreadSubs rs ss s s'
/-- `SpreadDist` for all sub-distributions. -/
def SpreadSubs (rs ss : List ℕ) : Subs C → Subs C → Prop
  | .nil, .nil => True
  | .cons n d r, .cons n' d' r' => n = n' ∧ SpreadDist rs ss d d' ∧ SpreadSubs rs ss r r'
  | _, _ => False
end

theorem dotField_spread {rs ss : List ℕ} {a a' b : Val} (h : SpreadVal rs ss a a')
    (hb : a'.rshape = b.rshape) (n : ℕ) : dotField a b n = dotField a' b n := by
  obtain ⟨s, h1, h2, h3⟩ := h
  have e : (Arr.ofFn (s ++ rs ++ ss) fun i => a.toC.get (bidx (s ++ rs) i) *
        b.toC.get (bidx (s ++ rs ++ ss) i)) =
      Arr.ofFn (s ++ rs ++ ss) fun i => a'.toC.get (bidx (s ++ rs ++ ss) i) *
        b.toC.get (bidx (s ++ rs ++ ss) i) :=
    Arr.ext rfl fun i hi => by
      have hi : inB (s ++ rs ++ ss) i = true := hi
      rw [Arr.ofFn_get hi, Arr.ofFn_get hi, bidx_self hi, h3 i hi, bidx_append hi]
  simp only [dotField, ← hb, h1, h2, bcast_append, bcast_self, Bind.bind, Except.bind, e]

mutual
theorem SpreadDist.paramList {rs ss : List ℕ} {base base' : Path} : {x y : Dist C} → SpreadDist rs ss x y →
    List.Forall₂ (fun a b : Path × Val × Support => a.2.2 = b.2.2 ∧ SpreadVal rs ss a.2.1 b.2.1)
      (x.paramList (some false) base) (y.paramList (some false) base')
  | .mk c v s, .mk c' v' s', h => by
    obtain ⟨h1, h2⟩ := h
    rw [Dist.paramList, Dist.paramList]
    refine List.rel_append ?_ (SpreadSubs.paramList h2)
    have e := nodeParams_variables c v base
    have e' := nodeParams_variables c' v' base'
    have key : List.Forall₂ (fun a b : Val × Support => a.2 = b.2 ∧ SpreadVal rs ss a.1 b.1)
        (((nodeParams (some false) c v).map fun nv => (base ++ [nv.1], nv.2)).map Prod.snd)
        (((nodeParams (some false) c' v').map fun nv => (base' ++ [nv.1], nv.2)).map Prod.snd) := by
      rw [e, e', List.forall₂_map_left_iff, List.forall₂_map_right_iff]
      exact h1.imp fun a b hab => ⟨by rw [hab.1], hab.2⟩
    rw [List.forall₂_map_left_iff, List.forall₂_map_right_iff] at key
    exact key
theorem SpreadSubs.paramList {rs ss : List ℕ} {base base' : Path} : {x y : Subs C} →
    SpreadSubs rs ss x y →
    List.Forall₂ (fun a b : Path × Val × Support => a.2.2 = b.2.2 ∧ SpreadVal rs ss a.2.1 b.2.1)
      (x.paramList (some false) base) (y.paramList (some false) base')
  | .nil, .nil, _ => .nil
  | .cons n d r, .cons n' d' r', h => by
    obtain ⟨rfl, h1, h2⟩ := h
    rw [Subs.paramList, Subs.paramList]
    exact List.rel_append (SpreadDist.paramList h1) (SpreadSubs.paramList h2)
end

mutual
/-- The same variable parameters, as complex numbers. -/
def SameFree : Dist C → Dist C → Prop
  | .mk c v s, .mk c' v' s' => c = c' ∧ v.length = v'.length ∧
    List.Forall₂ (fun a b : Field × Val => a.1 = b.1 ∧ a.2.toC = b.2.toC) (freeFields c v)
      (freeFields c v') ∧ SameFrees s s'
/-- `SameFree` for all sub-distributions. -/
def SameFrees : Subs C → Subs C → Prop
  | .nil, .nil => True
  | .cons n d r, .cons n' d' r' => n = n' ∧ SameFree d d' ∧ SameFrees r r'
  | _, _ => False
end

mutual
theorem Spec.SameC.sameFree : {d e : Dist C} → SameC d e → SameFree d e
  | .mk c v s, .mk c' v' s', h => by
    obtain ⟨rfl, h1, h2⟩ := h
    refine ⟨rfl, ?_, map_toC_rshape h1 (fields c), SameCs.sameFrees h2⟩
    have := congrArg List.length h1
    simpa only [List.length_map] using this
theorem Spec.SameCs.sameFrees : {d e : Subs C} → SameCs d e → SameFrees d e
  | .nil, .nil, _ => trivial
  | .cons _ _ _, .cons _ _ _, h => ⟨h.1, SameC.sameFree h.2.1, SameCs.sameFrees h.2.2⟩
end

mutual
theorem SameFree.wf : {d e : Dist C} → SameFree d e → WF e → WF d
  | .mk c v s, .mk c' v' s', h, w => by
    obtain ⟨rfl, h0, h1, h2⟩ := h
    obtain ⟨w1, w2, w3, w4⟩ := w
    obtain ⟨g1, g2, g3⟩ := SameFrees.wf h2 w4
    exact ⟨by rw [h0, w1], w2.trans (not_congr g2).symm, g1 ▸ w3, g3⟩
theorem SameFrees.wf : {d e : Subs C} → SameFrees d e → WFs e →
    d.names = e.names ∧ (d = .nil ↔ e = .nil) ∧ WFs d
  | .nil, .nil, _, _ => ⟨rfl, Iff.rfl, trivial⟩
  | .cons n d r, .cons n' d' r', h, w => by
    obtain ⟨rfl, h1, h2⟩ := h
    obtain ⟨w1, w2⟩ := w
    obtain ⟨g1, g2, g3⟩ := SameFrees.wf h2 w2
    exact ⟨congrArg (n :: ·) g1, by simp, SameFree.wf h1 w1, g3⟩
end

mutual
theorem SameFree.dotMatch {rs : List ℕ} : {x d e : Dist C} → SameFree d e → DotMatch rs x e → DotMatch rs x d
  | .mk a u t, .mk c v s, .mk c' v' s', h, w => by
    obtain ⟨rfl, _, key, h2⟩ := h
    obtain ⟨w1, w2⟩ := w
    refine ⟨?_, SameFrees.dotMatch h2 w2⟩
    generalize freeFields c v' = l' at key w1
    generalize freeFields c v = l at key
    generalize freeFields a u = m at w1
    induction w1 generalizing l with
    | nil => cases key; exact .nil
    | cons hm _ ih =>
      cases key with
      | cons hk hks =>
        refine .cons ?_ (ih _ hks)
        obtain ⟨k1, k2⟩ := hk
        obtain ⟨m1, m2, m3⟩ := hm
        refine ⟨k1 ▸ m1, ?_, m3⟩
        rw [m2, ← toC_rshape, ← k2, toC_rshape]
theorem SameFrees.dotMatch {rs : List ℕ} : {x d e : Subs C} → SameFrees d e → DotMatches rs x e →
    DotMatches rs x d
  | .nil, .nil, .nil, _, _ => trivial
  | .nil, .cons _ _ _, .cons _ _ _, _, h => h.elim
  | .cons _ _ _, .nil, .nil, _, h => h.elim
  | .cons m y t, .cons n d r, .cons n' d' r', h, w => by
    obtain ⟨rfl, h1, h2⟩ := h
    obtain ⟨rfl, w1, w2⟩ := w
    exact ⟨rfl, SameFree.dotMatch h1 w1, SameFrees.dotMatch h2 w2⟩
end

mutual
theorem SameFree.treeDot {j : List ℕ} : {x d e : Dist C} → SameFree d e →
    Spec.treeDot x d j = Spec.treeDot x e j
  | .mk a u t, .mk c v s, .mk c' v' s', h => by
    obtain ⟨rfl, _, key, h2⟩ := h
    rw [Spec.treeDot, Spec.treeDot, SameFrees.subsDot h2]
    congr 2
    generalize freeFields c v' = l' at key
    generalize freeFields c v = l at key
    generalize freeFields a u = m
    induction key generalizing m with
    | nil => rfl
    | cons hk _ ih =>
      cases m with
      | nil => rfl
      | cons b m =>
        rw [List.zipWith_cons_cons, List.zipWith_cons_cons, ih]
        simp only [valDot, ← toC_get, hk.2]
theorem SameFrees.subsDot {j : List ℕ} : {x d e : Subs C} → SameFrees d e →
    Spec.subsDot x d j = Spec.subsDot x e j
  | .nil, .nil, .nil, _ => rfl
  | .nil, .cons _ _ _, .cons _ _ _, _ => rfl
  | .cons _ _ _, .nil, .nil, _ => rfl
  | .cons m y t, .cons n d r, .cons n' d' r', h => by
    obtain ⟨rfl, h1, h2⟩ := h
    rw [Spec.subsDot, Spec.subsDot, SameFree.treeDot h1, SameFrees.subsDot h2]
end

theorem zip_mapM_spread {rs ss : List ℕ} {la la' lb : List (Val × Support)}
    (h : List.Forall₂ (fun a b : Val × Support => a.2 = b.2 ∧ SpreadVal rs ss a.1 b.1) la la')
    (h' : List.Forall₂ (fun a b : Val × Support => a.1.rshape = b.1.rshape) la' lb) :
    (la.zip lb).mapM dotPair = (la'.zip lb).mapM dotPair := by
  induction h generalizing lb with
  | nil => rfl
  | cons hab _ ih =>
    cases h' with
    | cons hb hbs =>
      rename_i a b l l' _ x lb
      have e1 : dotPair (a, x) = dotPair (b, x) := by
        simp only [dotPair, hab.1, dotField_spread hab.2 hb]
      rw [List.zip_cons_cons, List.zip_cons_cons, List.mapM_cons, List.mapM_cons, e1, ih hbs]

theorem paramDot_spread {rs ss : List ℕ} {x x' y : Dist C} (hs : SpreadDist rs ss x x')
    (wx : WF x) (wx' : WF x') (wy : WF y) (h : DotMatch (rs ++ ss) x' y) :
    paramDot x y = paramDot x' y := by
  have e : ∀ z : Dist C, WF z → (parametersS z (some false)).values =
      (z.paramList (some false) []).map Prod.snd := by
    intro z wz
    rw [parametersS_eq wz]
    rfl
  obtain ⟨p1, p2, p3, _⟩ := Dist.pairs_spec (base := []) (base' := []) h
  have k1 : List.Forall₂ (fun a b : Val × Support => a.2 = b.2 ∧ SpreadVal rs ss a.1 b.1)
      (parametersS x (some false)).values (parametersS x' (some false)).values := by
    rw [e x wx, e x' wx', List.forall₂_map_left_iff, List.forall₂_map_right_iff]
    exact hs.paramList
  have k2 : List.Forall₂ (fun a b : Val × Support => a.1.rshape = b.1.rshape)
      (parametersS x' (some false)).values (parametersS y (some false)).values := by
    rw [e x' wx', e y wy, p2, p3, List.forall₂_map_left_iff, List.forall₂_map_right_iff, List.forall₂_same]
    exact fun ab hab => (p1 ab hab).2.1
  have l1 := k1.length_eq
  have key := zip_mapM_spread k1 k2
  simp only [paramDot, zipStrict_ok (l1.trans k2.length_eq), zipStrict_ok k2.length_eq, Bind.bind,
    Except.bind, key]

/-- `c` has the entries `f`, up to broadcasting to the shape `big`. -/
def FillsUp (big : List ℕ) (c : Calc ℝ) (f : List ℕ → ℝ) : Prop :=
  ∃ ts us g, ts ++ us = big ∧ c = ok (scalars ts g) ∧
    ∀ i, inB big i = true → g (i.take ts.length) = f i

theorem FillsUp.of_scalars {big : List ℕ} {c : Calc ℝ} {f : List ℕ → ℝ} (h : c = ok (scalars big f)) :
    FillsUp big c f :=
  ⟨big, [], f, List.append_nil _, h, fun i hi => by rw [List.take_of_length_le (inB_length hi).le]⟩

theorem bin_scalars_left (op : ℝ → ℝ → ℝ) (rs ss : List ℕ) (f g : List ℕ → ℝ) :
    bin op (ok (scalars rs f)) (ok (scalars (rs ++ ss) g)) =
      ok (scalars (rs ++ ss) fun i => op (f (i.take rs.length)) (g i)) := by
  simp only [bin, bind_ok, scalars, Arr.ofFn_rshape, bcast_append]
  refine ok_ofFn_congr fun j hj => ?_
  rw [bidx_self hj, bidx_append hj, Arr.ofFn_get hj, Arr.ofFn_get (inB_take hj)]

theorem FillsUp.add {big : List ℕ} {c d : Calc ℝ} {f g : List ℕ → ℝ} (h : FillsUp big c f)
    (h' : FillsUp big d g) : FillsUp big (c + d) fun i => f i + g i := by
  obtain ⟨ts, us, f', e1, rfl, e2⟩ := h
  obtain ⟨ts', us', g', e1', rfl, e2'⟩ := h'
  rcases List.prefix_or_prefix_of_prefix (l₁ := ts) (l₂ := ts') (l₃ := big) ⟨us, e1⟩ ⟨us', e1'⟩ with
    ⟨v, rfl⟩ | ⟨v, rfl⟩
  · refine ⟨ts ++ v, us', _, e1', bin_scalars_left (· + ·) ts v f' g', fun i hi => ?_⟩
    beta_reduce
    rw [← e2 i hi, ← e2' i hi, List.take_take]
    simp
  · refine ⟨ts' ++ v, us, _, e1, bin_scalars_append (· + ·) ts' v f' g', fun i hi => ?_⟩
    beta_reduce
    rw [← e2 i hi, ← e2' i hi, List.take_take]
    simp

theorem FillsUp.add_big {big : List ℕ} {c : Calc ℝ} {f g : List ℕ → ℝ} (h : FillsUp big c f) :
    ok (scalars big g) + c = ok (scalars big fun i => g i + f i) := by
  obtain ⟨ts, us, f', rfl, rfl, e2⟩ := h
  refine (bin_scalars_append (· + ·) ts us g f').trans ?_
  exact congrArg ok (scalars_congr fun i hi => by rw [e2 i hi])

theorem FillsUp.reduce {big : List ℕ} {cs : List (Calc ℝ)} {fs : List (List ℕ → ℝ)}
    (h : List.Forall₂ (FillsUp big) cs fs) (h0 : cs ≠ []) :
    FillsUp big (reduceCalc cs) fun i => (fs.map fun g => g i).sum := by
  cases h with
  | nil => exact absurd rfl h0
  | cons h hs =>
    rename_i c f cs fs
    have key : ∀ (cs : List (Calc ℝ)) (fs : List (List ℕ → ℝ)) (c : Calc ℝ) (f : List ℕ → ℝ),
        List.Forall₂ (FillsUp big) cs fs → FillsUp big c f →
        FillsUp big (cs.foldl (· + ·) c) fun i => f i + (fs.map fun g => g i).sum := by
      intro cs fs c f hs
      induction hs generalizing c f with
      | nil => intro h; simpa using h
      | cons h' _ ih =>
        intro h
        have := ih _ _ (h.add h')
        simpa [add_assoc] using this
    exact key cs fs c f hs h

end Efax
