import Verif.Spec.Kind
import Verif.Lemmas.Calc
import Verif.Lemmas.Dot

/-! # Joint distributions are products of their parts -/

namespace Efax

open ClassTable Calc Spec

variable {C : Type} [ClassTable C]

theorem scalars_add (rs : List ℕ) (f g : List ℕ → ℝ) :
    (ok (scalars rs f) + ok (scalars rs g) : Calc ℝ) = ok (scalars rs fun i => f i + g i) := by
  calc_simp

theorem foldl_scalars (rs : List ℕ) (l : List (List ℕ → ℝ)) (f : List ℕ → ℝ) :
    (l.map fun g => ok (scalars rs g)).foldl (· + ·) (ok (scalars rs f)) =
      ok (scalars rs fun i => f i + (l.map fun g => g i).sum) := by
  induction l generalizing f with
  | nil => simp
  | cons g l ih =>
    rw [List.map_cons, List.foldl_cons, scalars_add, ih]
    simp [add_assoc]

theorem reduceCalc_scalars (rs : List ℕ) {l : List (List ℕ → ℝ)} (h : l ≠ []) :
    reduceCalc (l.map fun g => ok (scalars rs g)) = ok (scalars rs fun i => (l.map fun g => g i).sum) := by
  cases l with
  | nil => exact absurd rfl h
  | cons f l => exact foldl_scalars rs l f

/-- `Kind.Ok` for the parts of a joint distribution. -/
structure Parts.Ok (L : Library C) (R : Parts C) : Prop where
  namesN : ∀ rs p q, (R.nat rs p q).names = R.names
  namesE : ∀ rs p χ, (R.exp rs p χ).names = R.names
  wfN : ∀ rs p q, WFs (R.nat rs p q)
  wfE : ∀ rs p χ, WFs (R.exp rs p χ)
  infos : ∀ rs p q base, ∃ l, (R.nat rs p q).walk makeInfo base = .ok l ∧
    ∀ i ∈ l, (expCls i.cls).isSome
  shapeN : R.names ≠ [] → ∀ rs p q, (R.nat rs p q).shape L = .ok rs
  shapeE : R.names ≠ [] → ∀ rs p χ, (R.exp rs p χ).shape L = .ok rs
  logNormalizer : ∀ rs p q, ∃ l : List (List ℕ → ℝ),
    Subs.logNormalizers L (R.nat rs p q) = l.map (fun g => ok (scalars rs g)) ∧
    l.length = R.names.length ∧ ∀ i, (l.map fun g => g i).sum = (R.F (p i)).logNormalizer (q i)
  toExp : ∀ rs p q, (∀ i, inB rs i = true → R.dom (p i) (q i)) →
    (R.nat rs p q).toExp L.toExp = .ok (R.exp rs p fun i => (R.F (p i)).toExp (q i))
  toNat : ∀ rs p χ, (∀ i, inB rs i = true → R.domE (p i) (χ i)) →
    (R.exp rs p χ).toNat L.toNat = .ok (R.nat rs p fun i => R.toNat (p i) (χ i))
  ecm : R.ent → ∀ rs p χ, ∃ l : List (List ℕ → ℝ),
    Subs.ecms L (R.exp rs p χ) = l.map (fun g => ok (scalars rs g)) ∧
    l.length = R.names.length ∧ ∀ i, (l.map fun g => g i).sum = R.ecm (p i) (χ i)
  carrier : ∀ rs p q x f, f.keys.Nodup → R.obs rs x f → ∃ l : List (List ℕ → ℝ),
    Subs.carriers L (R.nat rs p q) f = l.map (fun g => ok (scalars rs g)) ∧
    l.length = R.names.length ∧ ∀ i, (l.map fun g => g i).sum = (R.F (p i)).carrier (x i)
  distinct : ∀ rs x f, f.keys.Nodup → R.obs rs x f → ∀ n ∈ R.names, ∀ t, (n, t) ∈ f.toList →
    Tree.Distinct t
  stat : ∀ rs p q x f, R.obs rs x f → ∃ w, StatSubs expCls L.stat (R.nat rs p q) f w ∧
    SameCs w (R.exp rs p fun i => (R.F (p i)).stat (x i))
  dotMatch : ∀ rs p q p' χ, DotMatches rs (R.nat rs p q) (R.exp rs p' χ)
  dot : ∀ rs p q p' χ i, inB rs i = true →
    subsDot (R.nat rs p q) (R.exp rs p' χ) i = (R.F (p i)).dot (q i) (χ i)
  same : ∀ rs p q p' q', SameTrees (R.nat rs p q) (R.nat rs p' q') ∧
    ∀ n d d', (n, d) ∈ (R.nat rs p q).toList → (n, d') ∈ (R.nat rs p' q').toList →
    ∀ k f v w, f.fixed = false → ParamAt d k f v → ParamAt d' k f w → SameDtype v w
  dot_sub : ∀ p a b χ, (R.F p).dot (a - b) χ = (R.F p).dot a χ - (R.F p).dot b χ

theorem Parts.Ok.nil {L : Library C} : Parts.Ok L (.nil : Parts C) where
  namesN _ _ _ := rfl
  namesE _ _ _ := rfl
  wfN _ _ _ := trivial
  wfE _ _ _ := trivial
  infos _ _ _ _ := ⟨[], rfl, by simp⟩
  shapeN h := absurd rfl h
  shapeE h := absurd rfl h
  logNormalizer _ _ _ := ⟨[], rfl, rfl, fun _ => rfl⟩
  toExp _ _ _ _ := rfl
  toNat _ _ _ _ := rfl
  ecm _ _ _ _ := ⟨[], rfl, rfl, fun _ => rfl⟩
  carrier _ _ _ _ _ _ _ := ⟨[], rfl, rfl, fun _ => rfl⟩
  distinct _ _ _ _ _ _ h := by cases h
  stat _ _ _ _ _ _ := ⟨.nil, rfl, trivial⟩
  dotMatch _ _ _ _ _ := trivial
  dot _ _ _ _ _ _ _ := rfl
  same _ _ _ _ _ := ⟨trivial, fun _ _ _ h => by cases h⟩
  dot_sub _ _ _ _ := (sub_zero (0 : ℝ)).symm

theorem Forest.get?_of_mem {A : Type} {f : Forest A} (h : f.keys.Nodup) {n : String} {t : Tree A}
    (hm : (n, t) ∈ f.toList) : f.get? n = some t := by
  have hk : ∀ (f : Forest A) (n : String) (t : Tree A), (n, t) ∈ f.toList → n ∈ f.keys := by
    intro f n t hm
    induction f using Forest.rec (motive_1 := fun _ => True) with
    | leaf => trivial
    | node => trivial
    | nil => cases hm
    | cons k t' r _ ih =>
      rcases List.mem_cons.1 hm with h | h
      · cases h; exact List.mem_cons_self
      · exact List.mem_cons_of_mem _ (ih h)
  induction f using Forest.rec (motive_1 := fun _ => True) with
  | leaf => trivial
  | node => trivial
  | nil => cases hm
  | cons k t' r _ ih =>
    rw [Forest.keys, List.nodup_cons] at h
    rw [Forest.get?]
    rcases List.mem_cons.1 hm with e | e
    · cases e; simp
    · rw [if_neg (fun hkn : k = n => h.1 (hkn.symm ▸ hk _ _ _ e)), ih h.2 e]

theorem Parts.Ok.cons {L : Library C} {n : String} {K : Kind C} {R : Parts C} (hK : K.Ok L)
    (hR : Parts.Ok L R) (hn : n ∉ R.names) : Parts.Ok L (.cons n K R) where
  namesN rs p q := congrArg (n :: ·) (hR.namesN rs _ _)
  namesE rs p q := congrArg (n :: ·) (hR.namesE rs _ _)
  wfN _ _ _ := ⟨hK.wfN _ _ _, hR.wfN _ _ _⟩
  wfE _ _ _ := ⟨hK.wfE _ _ _, hR.wfE _ _ _⟩
  infos rs p q base := by
    obtain ⟨l, h1, h2⟩ := hK.infos rs (fun i => (p i).1) (fun i => (q i).1) (base ++ [n])
    obtain ⟨l', h3, h4⟩ := hR.infos rs (fun i => (p i).2) (fun i => (q i).2) base
    refine ⟨l ++ l', Subs.walk_ok h1 h3, fun i hi => ?_⟩
    rcases List.mem_append.1 hi with h | h
    · exact h2 i h
    · exact h4 i h
  shapeN _ rs p q := hK.shapeN rs _ _
  shapeE _ rs p q := hK.shapeE rs _ _
  logNormalizer rs p q := by
    obtain ⟨l, h1, h2, h3⟩ := hR.logNormalizer rs (fun i => (p i).2) fun i => (q i).2
    refine ⟨(fun i => (K.F (p i).1).logNormalizer (q i).1) :: l, ?_, ?_, fun i => ?_⟩
    · exact congrArg₂ List.cons (hK.logNormalizer rs _ _) h1
    · simp [Parts.cons, h2]
    · simp [Parts.cons, prodFam, h3]
  toExp rs p q h := by
    have h1 := hK.toExp rs _ _ fun i hi => (h i hi).1
    have h2 := hR.toExp rs _ _ fun i hi => (h i hi).2
    simp only [Parts.cons, Subs.toExp, h1, h2]
    rfl
  toNat rs p χ h := by
    have h1 := hK.toNat rs _ _ fun i hi => (h i hi).1
    have h2 := hR.toNat rs _ _ fun i hi => (h i hi).2
    simp only [Parts.cons, Subs.toNat, h1, h2]
    rfl
  ecm he rs p χ := by
    obtain ⟨l, h1, h2, h3⟩ := hR.ecm he.2 rs (fun i => (p i).2) fun i => (χ i).2
    refine ⟨(fun i => K.ecm (p i).1 (χ i).1) :: l, ?_, ?_, fun i => ?_⟩
    · refine congrArg₂ List.cons ?_ h1
      have := hK.entropic he.1 rs (fun i => (p i).1) fun i => (χ i).1
      rw [if_pos (by simpa using this)]
      exact hK.ecm he.1 rs _ _
    · simp [Parts.cons, h2]
    · simp [Parts.cons, h3]
  carrier rs p q x f hf h := by
    obtain ⟨⟨t, ht, ho⟩, h⟩ := h
    obtain ⟨l, h1, h2, h3⟩ := hR.carrier rs (fun i => (p i).2) (fun i => (q i).2) _ f hf h
    refine ⟨(fun i => (K.F (p i).1).carrier (x i).1) :: l, ?_, ?_, fun i => ?_⟩
    · refine congrArg₂ List.cons ?_ h1
      rw [Forest.get?_of_mem hf ht]
      exact hK.carrier rs _ _ _ t ho
    · simp [Parts.cons, h2]
    · simp [Parts.cons, prodFam, h3]
  distinct rs x f hf h m hm t ht := by
    obtain ⟨⟨t', ht', ho⟩, h⟩ := h
    rcases List.mem_cons.1 hm with rfl | hm
    · have := (Forest.get?_of_mem hf ht).symm.trans (Forest.get?_of_mem hf ht')
      cases this
      exact hK.distinct _ _ _ ho
    · exact hR.distinct _ _ f hf h m hm t ht
  stat rs p q x f h := by
    obtain ⟨⟨t, ht, ho⟩, h⟩ := h
    obtain ⟨w, h1, h2⟩ := hK.stat rs (fun i => (p i).1) (fun i => (q i).1) _ t ho
    obtain ⟨s, h3, h4⟩ := hR.stat rs (fun i => (p i).2) (fun i => (q i).2) _ f h
    exact ⟨.cons n w s, ⟨t, w, s, ht, h1, h3, rfl⟩, rfl, h2, h4⟩
  dotMatch _ _ _ _ _ := ⟨rfl, hK.dotMatch _ _ _ _ _, hR.dotMatch _ _ _ _ _⟩
  dot _ _ _ _ _ i hi := congrArg₂ (· + ·) (hK.dot _ _ _ _ _ i hi) (hR.dot _ _ _ _ _ i hi)
  same rs p q p' q' := by
    obtain ⟨h1, h2⟩ := hK.same rs (fun i => (p i).1) (fun i => (q i).1) (fun i => (p' i).1)
      (fun i => (q' i).1)
    obtain ⟨h3, h4⟩ := hR.same rs (fun i => (p i).2) (fun i => (q i).2) (fun i => (p' i).2)
      (fun i => (q' i).2)
    have hmem : ∀ (s : Subs C) (m : String) (d : Dist C), (m, d) ∈ s.toList → m ∈ s.names := by
      intro s m d h
      rw [Subs.names_eq]
      exact List.mem_map_of_mem (f := Prod.fst) h
    refine ⟨⟨rfl, h1, h3⟩, fun m d d' hd hd' => ?_⟩
    rcases List.mem_cons.1 hd with e | hd <;> rcases List.mem_cons.1 hd' with e' | hd'
    · cases e; cases e'; exact h2
    · cases e
      exact absurd (hR.namesN rs _ _ ▸ hmem _ _ _ hd') hn
    · cases e'
      exact absurd (hR.namesN rs _ _ ▸ hmem _ _ _ hd) hn
    · exact h4 m d d' hd hd'
  dot_sub p a b χ := by
    change (K.F p.1).dot (a.1 - b.1) χ.1 + (R.F p.2).dot (a.2 - b.2) χ.2 = _
    rw [hK.dot_sub, hR.dot_sub]
    simp only [Parts.cons, prodFam]
    ring

theorem Parts.Ok.ofList {L : Library C} {l : List (String × Kind C)} (h : ∀ nk ∈ l, nk.2.Ok L)
    (hn : (l.map Prod.fst).Nodup) : Parts.Ok L (.ofList l) ∧ (Parts.ofList l).names = l.map Prod.fst := by
  induction l with
  | nil => exact ⟨.nil, rfl⟩
  | cons nk l ih =>
    rw [List.map_cons, List.nodup_cons] at hn
    obtain ⟨h1, h2⟩ := ih (fun nk h' => h nk (List.mem_cons_of_mem _ h')) hn.2
    exact ⟨.cons (h nk List.mem_cons_self) h1 (h2 ▸ hn.1), congrArg (nk.1 :: ·) h2⟩

theorem Forest.distinct_of {A : Type} {f : Forest A} (h : f.keys.Nodup)
    (h' : ∀ n t, (n, t) ∈ f.toList → Tree.Distinct t) : Forest.Distinct f := by
  induction f using Forest.rec (motive_1 := fun _ => True) with
  | leaf => trivial
  | node => trivial
  | nil => trivial
  | cons k t r _ ih =>
    rw [Forest.keys, List.nodup_cons] at h
    exact ⟨h.1, h' k t List.mem_cons_self, ih h.2 fun n t hm => h' n t (List.mem_cons_of_mem _ hm)⟩

theorem Spec.Kind.Ok.joint {L : Library C} {c c' : C} (hc : isJoint c = true) (hc' : isJoint c' = true)
    (he : expCls c = some c') (hn : natCls c' = some c) (hdim : ∃ d, dimensions c [] = .ok d)
    {R : Parts C} (hR : Parts.Ok L R)
    (h0 : R.names ≠ []) (hnd : R.names.Nodup) : (Kind.joint c c' R).Ok L where
  wfN rs p q := by
    refine ⟨by rw [joint_fields c hc]; rfl, ?_, (hR.namesN rs p q).symm ▸ hnd, hR.wfN _ _ _⟩
    refine ⟨fun _ h => h0 ?_, fun _ => hc⟩
    rw [← hR.namesN rs p q, h]; rfl
  wfE rs p q := by
    refine ⟨by rw [joint_fields c' hc']; rfl, ?_, (hR.namesE rs p q).symm ▸ hnd, hR.wfE _ _ _⟩
    refine ⟨fun _ h => h0 ?_, fun _ => hc'⟩
    rw [← hR.namesE rs p q, h]; rfl
  infos rs p q base := by
    obtain ⟨l, h1, h2⟩ := hR.infos rs p q base
    obtain ⟨d, hd⟩ := hdim
    refine ⟨l ++ [⟨base, c, d, (R.nat rs p q).names⟩], Dist.walk_ok h1 ?_, fun i hi => ?_⟩
    · simp [makeInfo, Dist.cls, Dist.vals, Dist.subs, hd]; rfl
    · rcases List.mem_append.1 hi with h | h
      · exact h2 i h
      · rw [List.mem_singleton.1 h]
        simp [he]
  shapeN rs p q := by
    simp only [Kind.joint, Dist.shape, hc, if_true]
    exact hR.shapeN h0 rs p q
  shapeE rs p q := by
    simp only [Kind.joint, Dist.shape, hc', if_true]
    exact hR.shapeE h0 rs p q
  logNormalizer rs p q := by
    obtain ⟨l, h1, h2, h3⟩ := hR.logNormalizer rs p q
    have hl : l ≠ [] := by
      rintro rfl
      exact h0 (List.length_eq_zero_iff.1 h2.symm)
    simp only [Kind.joint, Dist.logNormalizer, hc, he, if_true]
    rw [h1, reduceCalc_scalars rs hl]
    simp only [h3]
  toExp rs p q h := by
    simp only [Kind.joint, Dist.toExp, hc, he, if_true]
    rw [hR.toExp rs p q h]
    rfl
  toNat rs p χ h := by
    simp only [Kind.joint, Dist.toNat, hc', hn, if_true]
    rw [hR.toNat rs p χ h]
    rfl
  entropic _ _ _ _ := .inl hc'
  ecm hent rs p χ := by
    obtain ⟨l, h1, h2, h3⟩ := hR.ecm hent rs p χ
    have hl : l ≠ [] := by
      rintro rfl
      exact h0 (List.length_eq_zero_iff.1 h2.symm)
    simp only [Kind.joint, Dist.ecm, hc', hn, if_true]
    rw [h1, reduceCalc_scalars rs hl]
    simp only [h3]
  carrier rs p q x t h := by
    obtain ⟨f, rfl, hf, ho, hk⟩ := h
    obtain ⟨l, h1, h2, h3⟩ := hR.carrier rs p q x f hf ho
    have hl : l ≠ [] := by
      rintro rfl
      exact h0 (List.length_eq_zero_iff.1 h2.symm)
    have hnil : (f.keys.filter fun n => n ∉ (R.nat rs p q).names) = [] := by
      rw [List.filter_eq_nil_iff]
      intro n hn
      have : n ∈ (R.nat rs p q).names := (hR.namesN rs p q).symm ▸ hk n hn
      simpa using this
    simp only [Kind.joint, Dist.carrier, hc, he]
    rw [hnil, h1, List.map_nil, List.append_nil, reduceCalc_scalars rs hl]
    simp only [h3]
  distinct rs x t h := by
    obtain ⟨f, rfl, hf, ho, hk⟩ := h
    refine Forest.distinct_of hf fun n t hm => hR.distinct rs x f hf ho n (hk n ?_) t hm
    have : ∀ (f : Forest Val) (n : String) (t : Tree Val), (n, t) ∈ f.toList → n ∈ f.keys := by
      intro f n t hm
      induction f using Forest.rec (motive_1 := fun _ => True) with
      | leaf => trivial
      | node => trivial
      | nil => cases hm
      | cons k t' r _ ih =>
        rcases List.mem_cons.1 hm with h | h
        · cases h; exact List.mem_cons_self
        · exact List.mem_cons_of_mem _ (ih h)
    exact this f n t hm
  stat rs p q x t h := by
    obtain ⟨f, rfl, hf, ho, hk⟩ := h
    obtain ⟨w, h1, h2⟩ := hR.stat rs p q x f ho
    exact ⟨.mk c' [] w, ⟨hc, c', w, he, by simp [hn], h1, rfl⟩, rfl, rfl, h2⟩
  dotMatch rs p q p' χ := by
    refine ⟨?_, hR.dotMatch _ _ _ _ _⟩
    simp only [freeFields, joint_fields c hc, joint_fields c' hc']
    exact .nil
  dot rs p q p' χ i hi := by
    simp only [Kind.joint, treeDot, freeFields, joint_fields c hc, joint_fields c' hc', List.zip_nil_left,
      List.filter_nil, List.zipWith_nil_left, List.sum_nil, zero_add]
    exact hR.dot _ _ _ _ _ i hi
  same rs p q p' q' := by
    obtain ⟨h1, h2⟩ := hR.same rs p q p' q'
    refine ⟨⟨rfl, h1⟩, fun k f v w hf h h' => ?_⟩
    cases h with
    | here h => simp [joint_fields c hc] at h
    | sub hm hp =>
      cases h' with
      | here h => simp [joint_fields c hc] at h
      | sub hm' hp' => exact h2 _ _ _ hm hm' _ _ _ _ hf hp hp'
  dot_sub := hR.dot_sub

end Efax
