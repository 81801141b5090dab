import Verif.Lemmas.Broadcast

/-! # Observations of other shapes than the distributions -/

namespace Efax

open ClassTable Calc Spec

/-! ### Shapes -/

theorem Wider.trans {s t r : List ℕ} (h : Wider s t) (h' : Wider t r) : Wider s r := by
  induction s generalizing t r with
  | nil => trivial
  | cons n s ih =>
    cases t with
    | nil => exact h.elim
    | cons m t =>
      cases r with
      | nil => exact h'.elim
      | cons l r =>
        refine ⟨?_, ih h.2 h'.2⟩
        have := h.1
        have := h'.1
        omega

/-- Two shapes that can be repeated to a third broadcast to one that can. -/
theorem Wider.join {s t r : List ℕ} (h : Wider s r) (h' : Wider t r) :
    ∃ u, Efax.bcast s t = .ok u ∧ Wider u r := by
  induction s generalizing t r with
  | nil => exact ⟨t, rfl, h'⟩
  | cons n s ih =>
    cases t with
    | nil => exact ⟨n :: s, rfl, h⟩
    | cons m t =>
      cases r with
      | nil => exact h.elim
      | cons l r =>
        obtain ⟨u, h1, h2⟩ := ih h.2 h'.2
        rw [Efax.bcast, h1]
        simp only [Bind.bind, Except.bind]
        have a := h.1
        have b := h'.1
        by_cases e : n = m
        · rw [if_pos e]; exact ⟨_, rfl, h.1, h2⟩
        · rw [if_neg e]
          by_cases e' : n = 1
          · rw [if_pos e']; exact ⟨_, rfl, h'.1, h2⟩
          · rw [if_neg e', if_pos (by omega)]; exact ⟨_, rfl, h.1, h2⟩

theorem Wider.bidx_bidx {s t r i : List ℕ} (h : Wider s t) (h' : Wider t r) (hi : Efax.inB r i = true) :
    bidx s (bidx t i) = bidx s i := by
  induction s generalizing t r i with
  | nil => cases i <;> cases t <;> rfl
  | cons n s ih =>
    cases t with
    | nil => exact h.elim
    | cons m t =>
      cases r with
      | nil => exact h'.elim
      | cons l r =>
        obtain ⟨k, j, rfl, hk, hj⟩ := inB_cons_elim hi
        simp only [bidx, ih h.2 h'.2 hj]
        have := h.1
        split_ifs <;> first | rfl | omega

/-! ### Arrays that are repeated -/

/-- The second value is the first, repeated along axes, whatever the types of the entries. -/
def Repeats (rs r : List ℕ) (v v' : Val) : Prop :=
  ∃ s, v.rshape = s ++ rs ∧ v'.rshape = s ++ r ∧
    ∀ i, inB (s ++ r) i = true → v'.toC.get i = v.toC.get (bidx (s ++ rs) i)

theorem Repeats.congr {rs r : List ℕ} {u v v' : Val} (h : Repeats rs r v v') (e : u.toC = v.toC) :
    Repeats rs r u v' := by
  obtain ⟨s, h1, h2, h3⟩ := h
  exact ⟨s, by rw [← toC_rshape, e, toC_rshape, h1], h2, fun i hi => by rw [h3 i hi, e]⟩

theorem Repeats.of_toC {s r : List ℕ} {u v : Val} (h : v.rshape = s ++ r) (e : u.toC = v.toC) :
    Repeats r r u v := Repeats.congr (StretchVal.refl h).2 e

theorem dotField_repeats {rs rs' r : List ℕ} (hb : bcast rs rs' = .ok r) {a a' b b' : Val}
    (h : Repeats rs r a a') (h' : Repeats rs' r b b') (he : a'.rshape = b'.rshape) (n : ℕ) :
    dotField a b n = dotField a' b' n := by
  obtain ⟨s, h1, h2, h3⟩ := h
  obtain ⟨t, g1, g2, g3⟩ := h'
  obtain rfl : s = t := List.append_cancel_right (h2.symm.trans (he.trans g2))
  have e : (Arr.ofFn (s ++ r) fun i => a.toC.get (bidx (s ++ rs) i) * b.toC.get (bidx (s ++ rs') i)) =
      Arr.ofFn (s ++ r) fun i => a'.toC.get (bidx (s ++ r) i) * b'.toC.get (bidx (s ++ r) i) :=
    Arr.ext rfl fun i hi => by
      have hi : inB (s ++ r) i = true := hi
      rw [Arr.ofFn_get hi, Arr.ofFn_get hi, bidx_self hi, h3 i hi, g3 i hi]
  simp only [dotField, h1, g1, h2, g2, bcast_prefix s hb, bcast_self, Bind.bind, Except.bind, e]

/-- `c` has the entries `f`, up to broadcasting to the shape `r`. -/
def FillsOut (r : List ℕ) (c : Calc ℝ) (f : List ℕ → ℝ) : Prop :=
  ∃ ts g, Wider ts r ∧ c = ok (scalars ts g) ∧ ∀ i, inB r i = true → g (bidx ts i) = f i

theorem FillsOut.of_scalars {r : List ℕ} {c : Calc ℝ} {f : List ℕ → ℝ} (h : c = ok (scalars r f)) :
    FillsOut r c f := ⟨r, f, .refl r, h, fun i hi => by rw [bidx_self hi]⟩

theorem FillsOut.add {r : List ℕ} {c d : Calc ℝ} {f g : List ℕ → ℝ} (h : FillsOut r c f)
    (h' : FillsOut r d g) : FillsOut r (c + d) fun i => f i + g i := by
  obtain ⟨ts, f', w, rfl, e⟩ := h
  obtain ⟨ts', g', w', rfl, e'⟩ := h'
  obtain ⟨u, hb, hu⟩ := w.join w'
  obtain ⟨v, v'⟩ := wider_of_bcast hb
  refine ⟨u, _, hu, bin_scalars_bcast (· + ·) hb f' g', fun i hi => ?_⟩
  beta_reduce
  rw [v.bidx_bidx hu hi, v'.bidx_bidx hu hi, e i hi, e' i hi]

theorem FillsOut.add_full {r : List ℕ} {c : Calc ℝ} {f g : List ℕ → ℝ} (h : FillsOut r c f) :
    ok (scalars r g) + c = ok (scalars r fun i => g i + f i) := by
  obtain ⟨ts, f', w, rfl, e⟩ := h
  refine (bin_scalars_bcast (· + ·) w.bcast' g f').trans ?_
  exact congrArg ok (scalars_congr fun i hi => by rw [bidx_self hi, e i hi])

theorem FillsOut.reduce {r : List ℕ} {cs : List (Calc ℝ)} {fs : List (List ℕ → ℝ)}
    (h : List.Forall₂ (FillsOut r) cs fs) (h0 : cs ≠ []) :
    FillsOut r (reduceCalc cs) fun i => (fs.map fun g => g i).sum := by
  cases h with
  | nil => exact absurd rfl h0
  | cons h hs =>
    rename_i c f cs fs
    have key : ∀ (cs : List (Calc ℝ)) (fs : List (List ℕ → ℝ)) (c : Calc ℝ) (f : List ℕ → ℝ),
        List.Forall₂ (FillsOut r) cs fs → FillsOut r c f →
        FillsOut r (cs.foldl (· + ·) c) fun i => f i + (fs.map fun g => g i).sum := by
      intro cs fs c f hs
      induction hs generalizing c f with
      | nil => intro h; simpa using h
      | cons h' _ ih =>
        intro h
        have := ih _ _ (h.add h')
        simpa [add_assoc] using this
    exact key cs fs c f hs h

/-! ### Distributions -/

section

variable {C : Type} [ClassTable C]

/-- The parameter of the statistics, of some shape, is repeated to the shape `r` of the result. -/
def RepeatsTo (rs r : List ℕ) (a b : Val × Support) : Prop :=
  a.2 = b.2 ∧ ∃ ts, bcast rs ts = .ok r ∧ Repeats ts r a.1 b.1

omit [ClassTable C] in
theorem zip_mapM_repeats {rs r : List ℕ} {la la' lb lb' : List (Val × Support)}
    (h : List.Forall₂ (fun a b : Val × Support => a.2 = b.2 ∧ StretchVal rs r a.1 b.1) la la')
    (h' : List.Forall₂ (RepeatsTo rs r) lb lb')
    (he : List.Forall₂ (fun a b : Val × Support => a.1.rshape = b.1.rshape) la' lb') :
    (la.zip lb).mapM dotPair = (la'.zip lb').mapM dotPair := by
  induction h generalizing lb lb' with
  | nil => cases he; cases h'; rfl
  | cons hab _ ih =>
    cases he with
    | cons e es =>
      cases h' with
      | cons hb' hbs =>
        rename_i a b l l' _ x lb y lb'
        obtain ⟨e2, ts, hb, hr⟩ := hb'
        have e1 : dotPair (a, y) = dotPair (b, x) := by
          simp only [dotPair, hab.1, e2, dotField_repeats hb hab.2.2 hr e]
        rw [List.zip_cons_cons, List.zip_cons_cons, List.mapM_cons, List.mapM_cons, e1, ih hbs es]

theorem paramDot_repeats {rs r : List ℕ} {x x' y y' : Dist C}
    (wx : WF x) (wx' : WF x') (wy : WF y) (wy' : WF y')
    (hx : List.Forall₂ (fun a b : Val × Support => a.2 = b.2 ∧ StretchVal rs r a.1 b.1) (varVals x) (varVals x'))
    (hy : List.Forall₂ (RepeatsTo rs r) (varVals y) (varVals y'))
    (h : DotMatch r x' y') : paramDot x y = paramDot x' y' := by
  obtain ⟨p1, p2, p3, _⟩ := Dist.pairs_spec (base := []) (base' := []) h
  have k : List.Forall₂ (fun a b : Val × Support => a.1.rshape = b.1.rshape) (varVals x') (varVals y') := by
    rw [varVals, varVals, p2, p3, List.forall₂_map_left_iff, List.forall₂_map_right_iff, List.forall₂_same]
    exact fun ab hab => (p1 ab hab).2.1
  have key := zip_mapM_repeats hx hy k
  simp only [paramDot, parametersS_values wx, parametersS_values wx', parametersS_values wy,
    parametersS_values wy', zipStrict_ok (hx.length_eq.trans (k.length_eq.trans hy.length_eq.symm)),
    zipStrict_ok k.length_eq, Bind.bind, Except.bind, key]

mutual
/-- The free parameters of the first are repeated to those of the second. -/
def RepeatTree (rs r : List ℕ) : Dist C → Dist C → Prop
  | .mk c v s, .mk c' v' s' => c = c' ∧ v.length = v'.length ∧
    List.Forall₂ (fun a b : Field × Val => a.1 = b.1 ∧ ∃ ts, bcast rs ts = .ok r ∧ Repeats ts r a.2 b.2)
      (freeFields c v) (freeFields c v') ∧ RepeatTrees rs r s s'
/-- `RepeatTree` for all sub-distributions. -/
def RepeatTrees (rs r : List ℕ) : Subs C → Subs C → Prop
  | .nil, .nil => True
  | .cons n d t, .cons n' d' t' => n = n' ∧ RepeatTree rs r d d' ∧ RepeatTrees rs r t t'
  | _, _ => False
end

mutual
theorem RepeatTree.wf {rs r : List ℕ} : {d e : Dist C} → RepeatTree rs r d e → WF e → WF d
  | .mk c v s, .mk c' v' s', h, w => by
    obtain ⟨rfl, h0, h1, h2⟩ := h
    obtain ⟨w1, w2, w3, w4⟩ := w
    obtain ⟨g1, g2, g3⟩ := RepeatTrees.wf h2 w4
    exact ⟨by rw [h0, w1], w2.trans (not_congr g2).symm, g1 ▸ w3, g3⟩
theorem RepeatTrees.wf {rs r : List ℕ} : {d e : Subs C} → RepeatTrees rs r d e → WFs e →
    d.names = e.names ∧ (d = .nil ↔ e = .nil) ∧ WFs d
  | .nil, .nil, _, _ => ⟨rfl, Iff.rfl, trivial⟩
  | .cons n d t, .cons n' d' t', h, w => by
    obtain ⟨rfl, h1, h2⟩ := h
    obtain ⟨w1, w2⟩ := w
    obtain ⟨g1, g2, g3⟩ := RepeatTrees.wf h2 w2
    exact ⟨congrArg (n :: ·) g1, by simp, RepeatTree.wf h1 w1, g3⟩
end

mutual
theorem RepeatTree.values {rs r : List ℕ} {base base' : Path} : {x y : Dist C} → RepeatTree rs r x y →
    List.Forall₂ (RepeatsTo rs r)
      ((x.paramList (some false) base).map Prod.snd) ((y.paramList (some false) base').map Prod.snd)
  | .mk c v s, .mk c' v' s', h => by
    obtain ⟨rfl, _, h1, h2⟩ := h
    rw [Dist.paramList, Dist.paramList, List.map_append, List.map_append, nodeParams_variables,
      nodeParams_variables]
    refine List.rel_append ?_ (RepeatTrees.values h2)
    rw [List.forall₂_map_left_iff, List.forall₂_map_right_iff]
    exact h1.imp fun a b hab => ⟨by rw [hab.1], hab.2⟩
theorem RepeatTrees.values {rs r : List ℕ} {base base' : Path} : {x y : Subs C} → RepeatTrees rs r x y →
    List.Forall₂ (RepeatsTo rs r)
      ((x.paramList (some false) base).map Prod.snd) ((y.paramList (some false) base').map Prod.snd)
  | .nil, .nil, _ => .nil
  | .cons n d t, .cons n' d' t', h => by
    obtain ⟨rfl, h1, h2⟩ := h
    rw [Subs.paramList, Subs.paramList, List.map_append, List.map_append]
    exact List.rel_append (RepeatTree.values h1) (RepeatTrees.values h2)
end

/-- The methods of a kind at observations of shape `rs'` of a batch of shape `rs`, where the shape `r` of
the result satisfies `fit r rs'`. -/
structure Spec.Kind.Broadcasts (L : Library C) (fit : List ℕ → List ℕ → Prop) (K : Kind C) : Prop where
  carrier : ∀ {rs rs' r}, bcast rs rs' = .ok r → fit r rs' → ∀ p q x t, K.obs rs' x t →
    FillsOut r ((K.nat rs p q).carrier L t) fun i => (K.F (p (bidx rs i))).carrier (x (bidx rs' i))
  stat : ∀ {rs rs' r}, bcast rs rs' = .ok r → fit r rs' → ∀ p q x t, K.obs rs' x t →
    ∃ w, StatTree expCls L.stat (K.nat rs p q) t w ∧ RepeatTree rs r w (K.exp r (fun i => p (bidx rs i))
      fun i => (K.F (p (bidx rs i))).stat (x (bidx rs' i)))

/-- `Kind.Broadcasts` for the parts of a joint distribution. -/
structure Parts.Broadcasts (L : Library C) (fit : List ℕ → List ℕ → Prop) (R : Parts C) : Prop where
  carrier : ∀ {rs rs' r}, bcast rs rs' = .ok r → fit r rs' → ∀ p q x f, f.keys.Nodup → R.obs rs' x f →
    ∃ l : List (List ℕ → ℝ), List.Forall₂ (FillsOut r) (Subs.carriers L (R.nat rs p q) f) l ∧
    l.length = R.names.length ∧
    ∀ i, (l.map fun g => g i).sum = (R.F (p (bidx rs i))).carrier (x (bidx rs' i))
  stat : ∀ {rs rs' r}, bcast rs rs' = .ok r → fit r rs' → ∀ p q x f, R.obs rs' x f →
    ∃ w, StatSubs expCls L.stat (R.nat rs p q) f w ∧ RepeatTrees rs r w (R.exp r (fun i => p (bidx rs i))
      fun i => (R.F (p (bidx rs i))).stat (x (bidx rs' i)))

variable {L : Library C} {fit : List ℕ → List ℕ → Prop}

theorem Parts.Broadcasts.nil : Parts.Broadcasts L fit (.nil : Parts C) where
  carrier _ _ _ _ _ _ _ _ := ⟨[], .nil, rfl, fun _ => rfl⟩
  stat _ _ _ _ _ _ _ := ⟨.nil, rfl, trivial⟩

theorem Parts.Broadcasts.cons {n : String} {K : Kind C} {R : Parts C} (hK : K.Broadcasts L fit)
    (hR : Parts.Broadcasts L fit R) : Parts.Broadcasts L fit (.cons n K R) where
  carrier {rs rs' r} hb hf p q x f hn h := by
    obtain ⟨⟨t, ht, ho⟩, h⟩ := h
    obtain ⟨l, h1, h2, h3⟩ := hR.carrier hb hf (fun i => (p i).2) (fun i => (q i).2) _ f hn h
    refine ⟨(fun i => (K.F (p (bidx rs i)).1).carrier (x (bidx rs' i)).1) :: l, .cons ?_ h1, ?_, fun i => ?_⟩
    · rw [Forest.get?_of_mem hn ht]
      exact hK.carrier hb hf (fun i => (p i).1) (fun i => (q i).1) _ t ho
    · simp [Parts.cons, h2]
    · simp [Parts.cons, prodFam, h3]
  stat {rs rs' r} hb hf p q x f h := by
    obtain ⟨⟨t, ht, ho⟩, h⟩ := h
    obtain ⟨w, h1, h2⟩ := hK.stat hb hf (fun i => (p i).1) (fun i => (q i).1) _ t ho
    obtain ⟨s, h3, h4⟩ := hR.stat hb hf (fun i => (p i).2) (fun i => (q i).2) _ f h
    exact ⟨.cons n w s, ⟨t, w, s, ht, h1, h3, rfl⟩, rfl, h2, h4⟩

theorem Parts.Broadcasts.ofList {l : List (String × Kind C)}
    (h : ∀ nk ∈ l, nk.2.Broadcasts L fit) : Parts.Broadcasts L fit (.ofList l) := by
  induction l with
  | nil => exact .nil
  | cons nk l ih =>
    exact .cons (h nk List.mem_cons_self) (ih fun nk h' => h nk (List.mem_cons_of_mem _ h'))

theorem Spec.Kind.Broadcasts.joint {c c' : C} (hc : isJoint c = true)
    (hc' : isJoint c' = true) (he : expCls c = some c') (hn : natCls c' = some c) {R : Parts C}
    (hO : Parts.Ok L R) (hR : Parts.Broadcasts L fit R) (h0 : R.names ≠ []) :
    (Kind.joint c c' R).Broadcasts L fit where
  carrier {rs rs' r} hb hfit p q x t h := by
    obtain ⟨f, rfl, hf, ho, hk⟩ := h
    obtain ⟨l, h1, h2, h3⟩ := hR.carrier hb hfit p q x f hf ho
    have hl : Subs.carriers L (R.nat rs p q) f ≠ [] := by
      intro e
      have := h1.length_eq
      rw [e, h2] at this
      exact h0 (List.length_eq_zero_iff.1 this.symm)
    have hnil : (f.keys.filter fun n => n ∉ (R.nat rs p q).names) = [] := by
      rw [List.filter_eq_nil_iff]
      intro n hn
      have : n ∈ (R.nat rs p q).names := (hO.namesN rs p q).symm ▸ hk n hn
      simpa using this
    simp only [Kind.joint, Dist.carrier, hc, he]
    rw [hnil, List.map_nil, List.append_nil]
    simpa only [h3] using FillsOut.reduce h1 hl
  stat {rs rs' r} hb hfit p q x t h := by
    obtain ⟨f, rfl, hf, ho, hk⟩ := h
    obtain ⟨w, h1, h2⟩ := hR.stat hb hfit p q x f ho
    refine ⟨.mk c' [] w, ⟨hc, c', w, he, by simp [hn], h1, rfl⟩, rfl, rfl, ?_, h2⟩
    simp only [freeFields, joint_fields c' hc']
    exact .nil

/-- A class whose methods act entry by entry. -/
theorem Spec.Kind.Broadcasts.simple {P N E X : Type} [Sub N] {c c' : C} {m : NatMethods}
    {nat : Layout P N} {exp : Layout P E} {fixed : List ℕ → (List ℕ → P) → Dict String Val}
    {obs : List ℕ → (List ℕ → X) → Val → Prop} {F : P → ExpFam N E X} {dom : P → N → Prop}
    {toNat : P → E → N} {ecm : P → E → ℝ} {ent : Prop} {domE : P → E → Prop}
    (hm : L.nat c = some m)
    (hj : isJoint c = false) (he : expCls c = some c')
    (hn : natCls c' = some c)
    (hl' : ∀ rs p χ, (exp rs p χ).length = (fields c').length)
    (hfix : ∀ rs p q, fixedArgs c (nat rs p q) = fixed rs p)
    (hcar : ∀ {rs rs' r}, bcast rs rs' = .ok r → fit r rs' → ∀ p q x v, obs rs' x v →
      FillsOut r (m.carrier (nat rs p q) v) fun i => (F (p (bidx rs i))).carrier (x (bidx rs' i)))
    (hst : ∀ {rs rs' r}, bcast rs rs' = .ok r → fit r rs' → ∀ p x v, obs rs' x v →
      ∃ w, m.stat v (fixed rs p) = .ok w ∧ w.length = (fields c').length ∧
      List.Forall₂ (fun a b : Field × Val => a.1 = b.1 ∧ ∃ ts, bcast rs ts = .ok r ∧ Repeats ts r a.2 b.2)
        (freeFields c' w) (freeFields c' (exp r (fun i => p (bidx rs i))
          fun i => (F (p (bidx rs i))).stat (x (bidx rs' i))))) :
    (Kind.simple c c' nat exp obs F toNat ecm ent dom domE).Broadcasts L fit where
  carrier {rs rs' r} hb hf p q x t h := by
    obtain ⟨v, rfl, h⟩ := h
    simp only [Kind.simple, Dist.carrier, hj, he, Library.carrier, hm]
    exact hcar hb hf p q x v h
  stat {rs rs' r} hb hf p q x t h := by
    obtain ⟨v, rfl, h⟩ := h
    obtain ⟨w, h1, h2, h3⟩ := hst hb hf p x v h
    refine ⟨.mk c' w .nil, ⟨hj, c', c, he, hn, ?_, by simp [Dist.cls, hn]⟩, rfl, ?_, h3, trivial⟩
    · rw [Library.stat, hm, he]
      simp only [hfix rs p q, h1]
      rfl
    · rw [h2]; exact (hl' _ _ _).symm

theorem forall₂_freeFields {R : Val → Val → Prop} {v v' : List Val} (h : List.Forall₂ R v v') (c : C) :
    List.Forall₂ (fun a b : Field × Val => a.1 = b.1 ∧ R a.2 b.2) (freeFields c v) (freeFields c v') := by
  rw [freeFields, freeFields]
  generalize fields c = fs
  induction h generalizing fs with
  | nil => simp
  | cons h _ ih =>
    cases fs with
    | nil => exact .nil
    | cons f fs =>
      rw [List.zip_cons_cons, List.zip_cons_cons, List.filter_cons, List.filter_cons]
      dsimp only
      split_ifs
      · exact .cons ⟨rfl, h⟩ (ih fs)
      · exact ih fs

/-- A class without fixed parameters whose carrier measure and statistics depend on the observation
only. -/
theorem Spec.Kind.Broadcasts.plain {N E X : Type} [Sub N] {c c' : C} {m : NatMethods}
    {nat : Layout Unit N} {exp : Layout Unit E}
    {obs : List ℕ → (List ℕ → X) → Val → Prop} {F : Unit → ExpFam N E X} {dom : Unit → N → Prop}
    {toNat : Unit → E → N} {ecm : Unit → E → ℝ} {ent : Prop} {domE : Unit → E → Prop}
    (hr : Refines m nat exp noFixed obs F dom) (hm : L.nat c = some m)
    (hj : isJoint c = false) (he : expCls c = some c')
    (hn : natCls c' = some c)
    (hl' : ∀ rs p χ, (exp rs p χ).length = (fields c').length)
    (hfix : ∀ rs p q, fixedArgs c (nat rs p q) = [])
    (hsp : (Kind.simple c c' nat exp obs F toNat ecm ent dom domE).Stretches)
    (hcar : ∀ rs rs' p q p' q' v, m.carrier (nat rs p q) v = m.carrier (nat rs' p' q') v) :
    (Kind.simple c c' nat exp obs F toNat ecm ent dom domE).Broadcasts L fit :=
  .simple (fixed := noFixed) hm hj he hn hl' hfix
    (fun {rs rs' r} hb _ p q x v h => by
      obtain ⟨w1, w2⟩ := wider_of_bcast hb
      refine ⟨rs', fun i => (F ()).carrier (x i), w2, ?_, fun i hi => rfl⟩
      rw [hcar rs rs' p q (fun _ => ()) (fun _ => q [])]
      exact hr.carrier _ _ _ _ _ h)
    (fun {rs rs' r} hb _ p x v h => by
      obtain ⟨w1, w2⟩ := wider_of_bcast hb
      obtain ⟨w, h1, h2⟩ := hr.stat rs' (fun _ => ()) x v h
      obtain ⟨_, h3, _⟩ := hsp.exp w2 (fun _ => ()) fun i => (F ()).stat (x i)
      refine ⟨w, h1, ?_, ?_⟩
      · have := congrArg List.length h2
        simp only [List.length_map] at this
        rw [this, hl']
      · have h4 : List.Forall₂ (fun a b => ∃ ts, bcast rs ts = .ok r ∧ Repeats ts r a b) w
            (exp r (fun i => p (bidx rs i)) fun i => (F (p (bidx rs i))).stat (x (bidx rs' i))) := by
          have h5 : List.Forall₂ (fun a b : Val => a.toC = b.toC) w (exp rs' (fun _ => ()) fun i => (F ()).stat (x i)) := by
            rw [← List.forall₂_eq_eq_eq, List.forall₂_map_left_iff, List.forall₂_map_right_iff] at h2
            exact h2
          exact forall₂_trans h5 h3 fun a b d e1 e2 => ⟨rs', hb, Repeats.congr e2.2 e1⟩
        exact forall₂_freeFields h4 c')

end

end Efax
