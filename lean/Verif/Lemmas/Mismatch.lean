import Verif.Props.Broadcast

/-! # Observations whose shape does not suit the distributions -/

namespace Efax

open ClassTable Calc Spec

section

variable {C : Type} [ClassTable C]

mutual
/-- The statistics of the first part whose statistics cannot be computed raise `x`. -/
def StatFails (e : C → Option C) (stat : StatFn C) (x : Err) : Dist C → Tree Val → Prop
  | .mk c vals _, .leaf v => isJoint c = false ∧ ∃ ec nc, e c = some ec ∧ natCls ec = some nc ∧
      stat nc v (fixedArgs c vals) = .error x
  | .mk _ _ subs, .node f => StatsFail e stat x subs f
/-- `StatFails` for all sub-distributions. -/
def StatsFail (e : C → Option C) (stat : StatFn C) (x : Err) : Subs C → Forest Val → Prop
  | .nil, _ => False
  | .cons n d r, f => ∃ t, (n, t) ∈ f.toList ∧
      (StatFails e stat x d t ∨ ∃ q, StatTree e stat d t q ∧ StatsFail e stat x r f)
end

section Fold

variable {e : C → Option C} {stat : StatFn C} {FP FX : Dict Path Val} {x : Err}

mutual
theorem Dist.stat_fails (he : EstimatorClasses e) {base : Path} : {p : Dist C} →
    {L : List (Info C)} → {t : Tree Val} → {con : Dict Path (Dist C)} → WF p →
    List.Forall₂ (InfoFor e) L (p.skel base) → Tree.Distinct t → ObsAt FX base (some t) →
    (∀ kv ∈ p.paramList (some true) base, FP.get? kv.1 = some kv.2.1) → StatFails e stat x p t →
    L.foldlM (statStep stat FP FX) con = .error x
  | .mk c vals subs, L, t, con, hw, hL, hd, ho, hf, hs => by
    rw [Dist.skel] at hL
    obtain ⟨A, i, rfl, hA, hi⟩ := forall₂_snoc hL
    cases t with
    | leaf v =>
      rw [StatFails] at hs
      obtain ⟨hj, ec, nc, h1, h2, h3⟩ := hs
      have hsn : subs = .nil := by
        by_contra hne
        rw [hw.2.1.2 hne] at hj
        cases hj
      subst hsn
      rw [Subs.skel] at hA
      cases hA
      have hec : i.cls = ec := Option.some.inj (hi.2.1.symm.trans h1)
      have hx : FX.get? i.path = some v := by
        have := (ho [] v).2 ⟨_, rfl, by simp [Tree.leaves]⟩
        rw [List.append_nil] at this
        rw [hi.1, this]
      have hst : statStep stat FP FX con i = .error x := by
        simp only [statStep, hx]
        rw [statLeaf_ok (base := base) (c := c) (vals := vals) hw.1 hi.2.2 hi.1 (hec ▸ h2)
          ((he c ec h1).2 nc h2) hf, h3]
        rfl
      simp only [List.nil_append, List.foldlM, hst]
      rfl
    | node f =>
      rw [StatFails] at hs
      exact foldlM_append_error (Subs.stat_fails (con := con) he hw.2.2.1 hw.2.2.2 hA hd ho.below
        (fun kv hkv => hf kv (by rw [Dist.paramList]; exact List.mem_append_right _ hkv)) hs)
theorem Subs.stat_fails (he : EstimatorClasses e) {base : Path} : {s : Subs C} →
    {L : List (Info C)} → {f : Forest Val} → {con : Dict Path (Dist C)} →
    s.names.Nodup → WFs s → List.Forall₂ (InfoFor e) L (s.skel base) → Forest.Distinct f →
    ObsBelow FX base f →
    (∀ kv ∈ s.paramList (some true) base, FP.get? kv.1 = some kv.2.1) → StatsFail e stat x s f →
    L.foldlM (statStep stat FP FX) con = .error x
  | .nil, L, f, con, _, _, hL, _, _, _, hs => by
    rw [StatsFail] at hs
    exact hs.elim
  | .cons n d rest, L, f, con, hn, hw, hL, hd, ho, hf, hs => by
    rw [Subs.skel] at hL
    obtain ⟨A, B, rfl, hA, hB⟩ := forall₂_app hL
    simp only [Subs.names, List.nodup_cons] at hn
    rw [StatsFail] at hs
    obtain ⟨t, m1, hs⟩ := hs
    have ht := (Forest.get?_mem hd.keys).1 m1
    have hfd : ∀ kv ∈ d.paramList (some true) (base ++ [n]), FP.get? kv.1 = some kv.2.1 :=
      fun kv hkv => hf kv (by rw [Subs.paramList]; exact List.mem_append_left _ hkv)
    rcases hs with hs | ⟨q, m2, m3⟩
    · exact foldlM_append_error (Dist.stat_fails (con := con) he hw.1 hA (hd.get ht)
        (ht ▸ ho.child hd n) hfd hs)
    · obtain ⟨con1, h1, h2, h3⟩ := Dist.stat_complete (con := con) he hw.1 hA (hd.get ht)
        (ht ▸ ho.child hd n) hfd m2
      rw [foldlM_append_ok h1]
      exact Subs.stat_fails (con := con1) he hn.2 hw.2 hB hd ho
        (fun kv hkv => hf kv (by rw [Subs.paramList]; exact List.mem_append_right _ hkv)) m3
end

end Fold

theorem sufficientStatistics_fails {e : C → Option C} (he : EstimatorClasses e) {stat : StatFn C}
    {p : Dist C} (hw : WF p) {est : Estimator C}
    (hL : List.Forall₂ (InfoFor e) est.infos (p.skel []))
    (hf : est.fixedParameters = parameters p (some true)) {t : Tree Val}
    (ht : Tree.Distinct t) {x : Err} (h : StatFails e stat x p t) :
    est.sufficientStatistics stat t = .error x := by
  cases t with
  | node f =>
    have := Dist.stat_fails (FX := flattenMapping f)
      (FP := est.fixedParameters) (con := []) (t := .node f) he hw hL ht (flattenMapping_obs ht)
      (by rw [hf]; exact fixed_lookup hw) h
    simp only [Estimator.sufficientStatistics, this, Bind.bind, Except.bind]
  | leaf v =>
    obtain ⟨c, vals, subs⟩ := p
    obtain ⟨infos, FP⟩ := est
    simp only at hL hf
    rw [StatFails] at h
    obtain ⟨hj, ec, nc, h1, h2, h3⟩ := h
    have hsn : subs = .nil := by
      by_contra hne
      rw [hw.2.1.2 hne] at hj
      cases hj
    subst hsn
    rw [Dist.skel] at hL
    obtain ⟨A, i, rfl, hA, hi⟩ := forall₂_snoc hL
    rw [Subs.skel] at hA
    cases hA
    have hec : i.cls = ec := Option.some.inj (hi.2.1.symm.trans h1)
    have hs : Estimator.sufficientStatistics ⟨[] ++ [i], FP⟩ stat (.leaf v) =
        (statLeaf stat FP [] i v >>= fun con => con.get []) := rfl
    rw [hs, statLeaf_ok (base := []) (c := c) (vals := vals) hw.1 hi.2.2 hi.1 (hec ▸ h2)
      ((he c ec h1).2 nc h2) (by rw [hf]; exact fixed_lookup hw), h3]
    rfl

end

section

variable [MachEps] {solve : Solver} {search : Cls → List Val → Except Err (List Val)}

theorem log_pdf_fails {L : Library Cls} {K : Kind Cls} (h : K.Ok L) {rs rs' : List ℕ} {p : List ℕ → K.P}
    {q : List ℕ → K.N} {y : List ℕ → K.X} {t : Tree Val} (ht : K.obs rs' y t) {x : Err}
    (hf : StatFails expCls L.stat x (K.nat rs p q) t) : (K.nat rs p q).logPdf L t = fail x := by
  refine logPdf_error ?_
  obtain ⟨est, he⟩ := h.estimator rs p q
  rw [he]
  have hw := h.wfN rs p q
  generalize K.nat rs p q = d at he hf hw
  refine show est.sufficientStatistics L.stat t = .error x from ?_
  cases hi : infosOf d with
  | error e => simp [createEstimatorFromNatural, hi, Bind.bind, Except.bind] at he
  | ok l =>
    cases hn : infosToExp l with
    | error e => simp [createEstimatorFromNatural, hi, hn, Bind.bind, Except.bind] at he
    | ok l' =>
      simp only [createEstimatorFromNatural, hi, hn, Bind.bind, Except.bind, Except.ok.injEq] at he
      subst he
      exact sufficientStatistics_fails estimatorClasses_expCls hw (infosToExp_for hi hn) rfl
        (h.distinct _ _ _ ht) hf

omit [MachEps] in
theorem broadcastLike_misfit {α β : Type} [Inhabited α] [Inhabited β] {rs rs' : List ℕ}
    (hb : bcast rs rs' ≠ .ok rs') (a : List ℕ → α) (b : List ℕ → β) :
    broadcastLike (ok (scalars rs a)) (ok (scalars rs' b)) = fail .valueError := by
  cases e : bcast rs rs' with
  | ok r => exact broadcastLike_short e (fun h => hb (h ▸ e)) a b
  | error x =>
    obtain rfl := bcast_error e
    simp only [broadcastLike, bind_ok, scalars, Arr.ofFn_rshape, e]

theorem negative_binomial_misfit {rs rs' : List ℕ} (hb : bcast rs rs' ≠ .ok rs') (p x : List ℕ → ℕ) {v : Val}
    (ho : v.toR = ok (scalars rs' fun i => (x i : ℝ))) : (library search).stat .negativeBinomialNP v
      [("failures", .int (scalars rs fun i => (p i : ℤ)))] = .error .valueError := by
  have h : Methods.negativeBinomialNP.stat v [("failures", .int (scalars rs fun i => (p i : ℤ)))] =
      .error .valueError := by
    have hg : Dict.get [("failures", Val.int (scalars rs fun i => (p i : ℤ)))] "failures" =
      .ok (Val.int (scalars rs fun i => (p i : ℤ))) := rfl
    simp only [Methods.negativeBinomialNP, hg, Bind.bind, Except.bind, ho]
    rw [show broadcastLike (.ok (scalars rs fun i => (p i : ℤ))) (ok (scalars rs' fun i => ((x i : ℕ) : ℝ))) =
      fail .valueError from broadcastLike_misfit hb _ _]
    rfl
  change (Methods.negativeBinomialNP.stat _ _ >>= fun w => Except.ok (Dist.mk Cls.negativeBinomialEP w .nil)) = _
  rw [h]
  rfl

theorem weibull_misfit {rs rs' : List ℕ} (hb : bcast rs rs' ≠ .ok rs') (p x : List ℕ → ℝ) {v : Val}
    (ho : v.toR = ok (scalars rs' x)) : (library search).stat .weibullNP v
      [("concentration", .real (scalars rs p))] = .error .valueError := by
  have h : Methods.weibullNP.stat v [("concentration", .real (scalars rs p))] = .error .valueError := by
    have hg : Dict.get [("concentration", Val.real (scalars rs p))] "concentration" =
      .ok (Val.real (scalars rs p)) := rfl
    simp only [Methods.weibullNP, hg, Bind.bind, Except.bind, ho, toR_real, broadcastLike_misfit hb]
    rfl
  change (Methods.weibullNP.stat _ _ >>= fun w => Except.ok (Dist.mk Cls.weibullEP w .nil)) = _
  rw [h]
  rfl

/-- At observations whose shape is not that of the result, the statistics raise `ValueError`, or they have
the shape of the observations. -/
def Misfits (L : Library Cls) (K : Kind Cls) (good : Prop) : Prop :=
  ∀ {rs rs'}, bcast rs rs' ≠ .ok rs' → ∀ p q x t, K.obs rs' x t →
    StatFails expCls L.stat .valueError (K.nat rs p q) t ∨
    good ∧ ∃ w p' χ, StatTree expCls L.stat (K.nat rs p q) t w ∧ RepeatTree [] rs' w (K.exp rs' p' χ)

theorem simple_misfits (s : Simple) : Misfits (library search) (s.kind solve)
    (s ≠ .negativeBinomial ∧ s ≠ .weibull) := by
  intro rs rs' hb p q x t ht
  by_cases h : s ≠ .negativeBinomial ∧ s ≠ .weibull
  · refine .inr ⟨h, ?_⟩
    have hb : bcast [] rs' = .ok rs' := rfl
    obtain ⟨w, h1, h2⟩ := (simple_broadcasts (solve := solve) (search := search) s
      (fit := fun _ _ => True) (.inl h)).stat hb trivial p q x t ht
    by_cases hm : ∃ d, s = .mvFixed d
    · obtain ⟨d, rfl⟩ := hm
      obtain ⟨v, rfl, ho⟩ := ht
      refine ⟨.mk .fixedVarianceNormalEP [v, .real (scalars rs p)] .nil, p, _, ⟨rfl, _, _, rfl, rfl, rfl, rfl⟩,
        rfl, rfl, List.Forall₂.cons ⟨rfl, rs', hb, Repeats.congr (stretchV (.refl rs') x).2 (toC_of_toR ho)⟩ .nil, trivial⟩
    · refine ⟨w, _, _, ?_, h2⟩
      cases s <;> first | (obtain ⟨v, rfl, ho⟩ := ht; exact h1) | exact absurd rfl h.1 | exact absurd rfl h.2 | exact absurd ⟨_, rfl⟩ hm
  · refine .inl ?_
    have hs : s = .negativeBinomial ∨ s = .weibull := by
      by_contra hs
      exact h ⟨fun e => hs (.inl e), fun e => hs (.inr e)⟩
    rcases hs with rfl | rfl
    · obtain ⟨v, rfl, ho⟩ := ht
      exact ⟨rfl, .negativeBinomialEP, .negativeBinomialNP, rfl, rfl, negative_binomial_misfit hb p x ho⟩
    · obtain ⟨v, rfl, ho⟩ := ht
      exact ⟨rfl, .weibullEP, .weibullNP, rfl, rfl, weibull_misfit hb p x ho⟩

/-- `Misfits` for the parts of a joint distribution. -/
theorem parts_misfit {L : Library Cls} {l : List (String × Kind Cls)} {good : Kind Cls → Prop}
    (h : ∀ nk ∈ l, Misfits L nk.2 (good nk.2)) {rs rs' : List ℕ} (hb : bcast rs rs' ≠ .ok rs')
    (p : List ℕ → (Parts.ofList l).P) (q : List ℕ → (Parts.ofList l).N) (x : List ℕ → (Parts.ofList l).X)
    (f : Forest Val) (hf : (Parts.ofList l).obs rs' x f) :
    StatsFail expCls L.stat .valueError ((Parts.ofList l).nat rs p q) f ∨
    (∀ nk ∈ l, good nk.2) ∧ ∃ w p' χ, StatSubs expCls L.stat ((Parts.ofList l).nat rs p q) f w ∧
      RepeatTrees [] rs' w ((Parts.ofList l).exp rs' p' χ) := by
  induction l with
  | nil => exact .inr ⟨nofun, .nil, p, fun _ => (), rfl, trivial⟩
  | cons nk l ih =>
    obtain ⟨⟨t, ht, ho⟩, hf⟩ := hf
    rcases h nk List.mem_cons_self hb (fun i => (p i).1) (fun i => (q i).1) _ t ho with
      h1 | ⟨g1, w1, p1, χ1, h1, h2⟩
    · exact .inl ⟨t, ht, .inl h1⟩
    rcases ih (fun nk h' => h nk (List.mem_cons_of_mem _ h')) (fun i => (p i).2) (fun i => (q i).2) _ hf with
      h3 | ⟨g2, w2, p2, χ2, h3, h4⟩
    · exact .inl ⟨t, ht, .inr ⟨w1, h1, h3⟩⟩
    · refine .inr ⟨?_, .cons nk.1 w1 w2, fun i => (p1 i, p2 i), fun i => (χ1 i, χ2 i),
        ⟨t, w1, w2, ht, h1, h3, rfl⟩, rfl, h2, h4⟩
      intro nk' h'
      rcases List.mem_cons.1 h' with rfl | h'
      · exact g1
      · exact g2 nk' h'

theorem library_misfits {K : Kind Cls} (hK : LibraryKind solve K) :
    Misfits (library search) K (LooseKind solve K) := by
  induction hK with
  | simple s =>
    intro rs rs' hb p q x t ht
    exact (simple_misfits s hb p q x t ht).imp id fun h => ⟨.simple h.1.1 h.1.2, h.2⟩
  | joint h0 hn hl ih =>
    intro rs rs' hb p q x t ht
    obtain ⟨f, rfl, hf, ho, hk⟩ := ht
    refine (parts_misfit ih hb p q x f ho).imp id fun ⟨h1, w, p', χ, h2, h3⟩ =>
      ⟨.joint h0 hn h1, .mk .jointE [] w, p', χ, ⟨rfl, _, w, rfl, rfl, h2, rfl⟩, rfl, rfl, .nil, h3⟩

theorem strict_library {K : Kind Cls} (hK : StrictKind solve K) : LibraryKind solve K := by
  cases hK with
  | simple => exact .simple _
  | joint hn hl hm _ => exact .joint (List.ne_nil_of_mem hm) hn hl

/-- The statistics of a kind with a negative binomial or Weibull distribution. -/
theorem strict_fails {K : Kind Cls} (hK : StrictKind solve K) {rs rs' : List ℕ} (hb : bcast rs rs' ≠ .ok rs')
    (p : List ℕ → K.P) (q : List ℕ → K.N) (x : List ℕ → K.X) (t : Tree Val) (ht : K.obs rs' x t) :
    StatFails expCls (library search).stat .valueError (K.nat rs p q) t := by
  induction hK generalizing t with
  | @simple s h =>
    refine (simple_misfits s hb p q x t ht).resolve_right fun h' => ?_
    rcases h with h | h
    · exact h'.1.1 h
    · exact h'.1.2 h
  | @joint l nk hn hl hm _ ih =>
    obtain ⟨f, rfl, -, ho, -⟩ := ht
    refine show StatsFail expCls (library search).stat .valueError ((Parts.ofList l).nat rs p q) f from ?_
    clear hn
    induction l with
    | nil => cases hm
    | cons a l ih' =>
      obtain ⟨⟨t, ht, ho'⟩, ho⟩ := ho
      rcases List.mem_cons.1 hm with rfl | hm
      · exact ⟨t, ht, .inl (ih (fun i => (p i).1) (fun i => (q i).1) _ t ho')⟩
      · rcases library_misfits (hl a List.mem_cons_self) hb (fun i => (p i).1) (fun i => (q i).1) _ t ho' with
          h1 | ⟨-, w, -, -, h1, -⟩
        · exact ⟨t, ht, .inl h1⟩
        · exact ⟨t, ht, .inr ⟨w, h1, ih' (fun nk h' => hl nk (List.mem_cons_of_mem _ h')) hm
            (fun i => (p i).2) (fun i => (q i).2) _ ho⟩⟩

/-- The values of the free parameters of statistics of shape `rs'`. -/
theorem dotCalc_misfit {L : Library Cls} {K : Kind Cls} (h : K.Ok L) (hs : K.Stretches) {rs rs' : List ℕ}
    (hb : bcast rs rs' = .error .valueError) (p p' : List ℕ → K.P) (q : List ℕ → K.N) (χ : List ℕ → K.E)
    {w : Dist Cls} (hw : RepeatTree [] rs' w (K.exp rs' p' χ)) :
    dotCalc (K.nat rs p q) w = fail .valueError := by
  obtain ⟨h0, h1⟩ := varVals_shapes h hs rs rs' p p' q χ
  have h2 : List.Forall₂ (fun a b : Val × Support => b.2.axes = a.2.axes ∧
      ∃ s, a.1.rshape = s ++ rs ∧ b.1.rshape = s ++ rs') (varVals (K.nat rs p q)) (varVals w) := by
    refine forall₂_trans h1 (List.Forall₂.flip (hw.values (base := []) (base' := []))) ?_
    rintro a b c ⟨e1, s, e2, e3⟩ ⟨e4, ts, e5, s', e6, e7, _⟩
    obtain rfl : ts = rs' := by simpa [bcast] using e5
    obtain rfl : s = s' := List.append_cancel_right (e3.symm.trans e7)
    exact ⟨by rw [e4, e1], s, e2, e6⟩
  rw [dotCalc, paramDot, parametersS_values (h.wfN _ _ _), parametersS_values (hw.wf (h.wfE _ _ _)),
    zipStrict_ok h2.length_eq]
  clear h1
  generalize varVals (K.nat rs p q) = l at h0 h2
  generalize varVals w = l' at h2
  cases h2 with
  | nil => exact absurd rfl h0
  | cons hab _ =>
    obtain ⟨g1, s, g2, g3⟩ := hab
    simp only [Bind.bind, Except.bind, List.zip_cons_cons, List.mapM_cons, dotPair, g1, if_true,
      dotField_incompatible hb g2 g3]
    rfl

end

end Efax
