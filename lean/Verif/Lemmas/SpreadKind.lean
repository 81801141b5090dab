import Verif.Lemmas.Spread
import Verif.Lemmas.Simple

/-! # Kinds of distributions at observations with more axes -/

namespace Efax

open ClassTable Calc Spec

section

variable {C : Type} [ClassTable C]

/-- The methods of a kind at observations with additional axes `ss`. -/
structure Spec.Kind.Spreads (L : Library C) (K : Kind C) : Prop where
  nat : ∀ rs ss p q, SpreadDist rs ss (K.nat rs p q)
    (K.nat (rs ++ ss) (fun i => p (i.take rs.length)) fun i => q (i.take rs.length))
  carrier : ∀ rs ss p q x t, K.obs (rs ++ ss) x t →
    FillsUp (rs ++ ss) ((K.nat rs p q).carrier L t) fun i => (K.F (p (i.take rs.length))).carrier (x i)
  stat : ∀ rs ss p q x t, K.obs (rs ++ ss) x t → ∃ w, StatTree expCls L.stat (K.nat rs p q) t w ∧
    SameFree w (K.exp (rs ++ ss) (fun i => p (i.take rs.length))
      fun i => (K.F (p (i.take rs.length))).stat (x i))

/-- `Kind.Spreads` for the parts of a joint distribution. -/
structure Parts.Spreads (L : Library C) (R : Parts C) : Prop where
  nat : ∀ rs ss p q, SpreadSubs rs ss (R.nat rs p q)
    (R.nat (rs ++ ss) (fun i => p (i.take rs.length)) fun i => q (i.take rs.length))
  carrier : ∀ rs ss p q x f, f.keys.Nodup → R.obs (rs ++ ss) x f → ∃ l : List (List ℕ → ℝ),
    List.Forall₂ (FillsUp (rs ++ ss)) (Subs.carriers L (R.nat rs p q) f) l ∧
    l.length = R.names.length ∧
    ∀ i, (l.map fun g => g i).sum = (R.F (p (i.take rs.length))).carrier (x i)
  stat : ∀ rs ss p q x f, R.obs (rs ++ ss) x f → ∃ w, StatSubs expCls L.stat (R.nat rs p q) f w ∧
    SameFrees w (R.exp (rs ++ ss) (fun i => p (i.take rs.length))
      fun i => (R.F (p (i.take rs.length))).stat (x i))

theorem Parts.Spreads.nil {L : Library C} : Parts.Spreads L (.nil : Parts C) where
  nat _ _ _ _ := trivial
  carrier _ _ _ _ _ _ _ _ := ⟨[], .nil, rfl, fun _ => rfl⟩
  stat _ _ _ _ _ _ _ := ⟨.nil, rfl, trivial⟩

theorem Parts.Spreads.cons {L : Library C} {n : String} {K : Kind C} {R : Parts C} (hK : K.Spreads L)
    (hR : Parts.Spreads L R) : Parts.Spreads L (.cons n K R) where
  nat _ _ _ _ := ⟨rfl, hK.nat _ _ _ _, hR.nat _ _ _ _⟩
  carrier rs ss p q x f hf h := by
    obtain ⟨⟨t, ht, ho⟩, h⟩ := h
    obtain ⟨l, h1, h2, h3⟩ := hR.carrier rs ss (fun i => (p i).2) (fun i => (q i).2) _ f hf h
    refine ⟨(fun i => (K.F (p (i.take rs.length)).1).carrier (x i).1) :: l, .cons ?_ h1, ?_, fun i => ?_⟩
    · rw [Forest.get?_of_mem hf ht]
      exact hK.carrier rs ss (fun i => (p i).1) (fun i => (q i).1) _ t ho
    · simp [Parts.cons, h2]
    · simp [Parts.cons, prodFam, h3]
  stat rs ss p q x f h := by
    obtain ⟨⟨t, ht, ho⟩, h⟩ := h
    obtain ⟨w, h1, h2⟩ := hK.stat rs ss (fun i => (p i).1) (fun i => (q i).1) _ t ho
    obtain ⟨s, h3, h4⟩ := hR.stat rs ss (fun i => (p i).2) (fun i => (q i).2) _ f h
    exact ⟨.cons n w s, ⟨t, w, s, ht, h1, h3, rfl⟩, rfl, h2, h4⟩

theorem Parts.Spreads.ofList {L : Library C} {l : List (String × Kind C)}
    (h : ∀ nk ∈ l, nk.2.Spreads L) : Parts.Spreads L (.ofList l) := by
  induction l with
  | nil => exact .nil
  | cons nk l ih =>
    exact .cons (h nk List.mem_cons_self) (ih fun nk h' => h nk (List.mem_cons_of_mem _ h'))

theorem Spec.Kind.Spreads.joint {L : Library C} {c c' : C} (hc : isJoint c = true)
    (hc' : isJoint c' = true) (he : expCls c = some c') (hn : natCls c' = some c) {R : Parts C}
    (hO : Parts.Ok L R) (hR : Parts.Spreads L R) (h0 : R.names ≠ []) : (Kind.joint c c' R).Spreads L where
  nat rs ss p q := by
    refine ⟨?_, hR.nat rs ss p q⟩
    simp only [freeFields, joint_fields c hc]
    exact .nil
  carrier rs ss p q x t h := by
    obtain ⟨f, rfl, hf, ho, hk⟩ := h
    obtain ⟨l, h1, h2, h3⟩ := hR.carrier rs ss p q x f hf ho
    have hl : Subs.carriers L (R.nat rs p q) f ≠ [] := by
      intro e
      have := h1.length_eq
      rw [e, h2] at this
      exact h0 (List.length_eq_zero_iff.1 this.symm)
    have hnil : (f.keys.filter fun n => n ∉ (R.nat rs p q).names) = [] := by
      rw [List.filter_eq_nil_iff]
      intro n hn
      have : n ∈ (R.nat rs p q).names := (hO.namesN rs p q).symm ▸ hk n hn
      simpa using this
    simp only [Kind.joint, Dist.carrier, hc, he]
    rw [hnil, List.map_nil, List.append_nil]
    simpa only [h3] using FillsUp.reduce h1 hl
  stat rs ss p q x t h := by
    obtain ⟨f, rfl, hf, ho, hk⟩ := h
    obtain ⟨w, h1, h2⟩ := hR.stat rs ss p q x f ho
    refine ⟨.mk c' [] w, ⟨hc, c', w, he, by simp [hn], h1, rfl⟩, rfl, rfl, ?_, h2⟩
    simp only [freeFields, joint_fields c' hc']
    exact .nil

/-- A class whose methods act entry by entry. -/
theorem Spec.Kind.Spreads.simple {P N E X : Type} [Sub N] {L : Library C} {c c' : C} {m : NatMethods}
    {nat : Layout P N} {exp : Layout P E} {fixed : List ℕ → (List ℕ → P) → Dict String Val}
    {obs : List ℕ → (List ℕ → X) → Val → Prop} {F : P → ExpFam N E X} {dom : P → N → Prop}
    {toNat : P → E → N} {ecm : P → E → ℝ} {ent : Prop} {domE : P → E → Prop}
    (hm : L.nat c = some m)
    (hj : isJoint c = false) (he : expCls c = some c')
    (hn : natCls c' = some c)
    (hl' : ∀ rs p χ, (exp rs p χ).length = (fields c').length)
    (hfix : ∀ rs p q, fixedArgs c (nat rs p q) = fixed rs p)
    (hsp : ∀ rs ss p q, List.Forall₂ (fun a b => a.1 = b.1 ∧ SpreadVal rs ss a.2 b.2)
      (freeFields c (nat rs p q))
      (freeFields c (nat (rs ++ ss) (fun i => p (i.take rs.length)) fun i => q (i.take rs.length))))
    (hcar : ∀ rs ss p q x v, obs (rs ++ ss) x v →
      FillsUp (rs ++ ss) (m.carrier (nat rs p q) v) fun i => (F (p (i.take rs.length))).carrier (x i))
    (hst : ∀ rs ss p x v, obs (rs ++ ss) x v → ∃ w, m.stat v (fixed rs p) = .ok w ∧
      w.length = (fields c').length ∧
      List.Forall₂ (fun a b : Field × Val => a.1 = b.1 ∧ a.2.toC = b.2.toC) (freeFields c' w)
      (freeFields c' (exp (rs ++ ss) (fun i => p (i.take rs.length))
        fun i => (F (p (i.take rs.length))).stat (x i)))) :
    (Kind.simple c c' nat exp obs F toNat ecm ent dom domE).Spreads L where
  nat rs ss p q := ⟨hsp rs ss p q, trivial⟩
  carrier rs ss p q x t h := by
    obtain ⟨v, rfl, h⟩ := h
    simp only [Kind.simple, Dist.carrier, hj, he, Library.carrier, hm]
    exact hcar rs ss p q x v h
  stat rs ss p q x t h := by
    obtain ⟨v, rfl, h⟩ := h
    obtain ⟨w, h1, h2, h3⟩ := hst rs ss p x v h
    refine ⟨.mk c' w .nil, ⟨hj, c', c, he, hn, ?_, by simp [Dist.cls, hn]⟩, rfl, ?_, h3, trivial⟩
    · rw [Library.stat, hm, he]
      simp only [hfix rs p q, h1]
      rfl
    · rw [h2]; exact (hl' _ _ _).symm

/-- A class whose carrier measure and statistics depend on the observation only. -/
theorem Spec.Kind.Spreads.plain {P N E X : Type} [Sub N] {L : Library C} {c c' : C} {m : NatMethods}
    {nat : Layout P N} {exp : Layout P E}
    {obs : List ℕ → (List ℕ → X) → Val → Prop} {F : P → ExpFam N E X} {dom : P → N → Prop}
    {toNat : P → E → N} {ecm : P → E → ℝ} {ent : Prop} {domE : P → E → Prop}
    (hr : Refines m nat exp noFixed obs F dom) (hm : L.nat c = some m)
    (hj : isJoint c = false) (he : expCls c = some c')
    (hn : natCls c' = some c)
    (hl' : ∀ rs p χ, (exp rs p χ).length = (fields c').length)
    (hfix : ∀ rs p q, fixedArgs c (nat rs p q) = [])
    (hsp : ∀ rs ss p q, List.Forall₂ (fun a b => a.1 = b.1 ∧ SpreadVal rs ss a.2 b.2)
      (freeFields c (nat rs p q))
      (freeFields c (nat (rs ++ ss) (fun i => p (i.take rs.length)) fun i => q (i.take rs.length))))
    (hcar : ∀ rs ss p q p' q' v, m.carrier (nat rs p q) v = m.carrier (nat (rs ++ ss) p' q') v) :
    (Kind.simple c c' nat exp obs F toNat ecm ent dom domE).Spreads L :=
  .simple (fixed := noFixed) hm hj he hn hl' hfix hsp
    (fun rs ss p q x v h => .of_scalars (by
      rw [hcar rs ss p q (fun i => p (i.take rs.length)) (fun i => q (i.take rs.length))]
      exact hr.carrier _ _ _ _ _ h))
    (fun rs ss p x v h => by
      obtain ⟨w, h1, h2⟩ := hr.stat (rs ++ ss) (fun i => p (i.take rs.length)) x v h
      refine ⟨w, h1, ?_, map_toC_rshape h2 (fields c')⟩
      have := congrArg List.length h2
      simp only [List.length_map] at this
      rw [this, hl'])

end

/-! ### How the layouts repeat -/

theorem spread_scalars {α : Type} [Inhabited α] (rs ss : List ℕ) (f : List ℕ → α) {i : List ℕ}
    (hi : inB (rs ++ ss) i = true) :
    (scalars (rs ++ ss) fun i => f (i.take rs.length)).get i = (scalars rs f).get (i.take rs.length) := by
  rw [scalars, scalars, Arr.ofFn_get hi, Arr.ofFn_get (inB_take hi)]

theorem spread_vectors {α : Type} [Inhabited α] {d : ℕ} (rs ss : List ℕ) (f : List ℕ → Fin d → α) {i : List ℕ}
    (hi : inB (d :: rs ++ ss) i = true) :
    (vectors (rs ++ ss) fun i => f (i.take rs.length)).get i =
      (vectors rs f).get (i.take (d :: rs).length) := by
  obtain ⟨k, j, rfl, hk, hj⟩ := inB_cons_elim hi
  rw [vectors_get (rs ++ ss) j hj _ hk, List.length_cons, List.take_succ_cons,
    vectors_get rs _ (inB_take hj) _ hk]

theorem spread_matrices {α : Type} [Inhabited α] {d : ℕ} (rs ss : List ℕ)
    (f : List ℕ → Matrix (Fin d) (Fin d) α) {i : List ℕ}
    (hi : inB (d :: d :: rs ++ ss) i = true) :
    (matrices (rs ++ ss) fun i => f (i.take rs.length)).get i =
      (matrices rs f).get (i.take (d :: d :: rs).length) := by
  obtain ⟨k, j, rfl, hk, hj⟩ := inB_cons_elim hi
  obtain ⟨l, j, rfl, hl, hj⟩ := inB_cons_elim hj
  rw [matrices_get (rs ++ ss) j hj _ hl hk, List.length_cons, List.take_succ_cons, List.length_cons,
    List.take_succ_cons, matrices_get rs _ (inB_take hj) _ hl hk]

theorem spreadVal_real {rs ss s : List ℕ} {a a' : Arr ℝ} (h : a.rshape = s ++ rs)
    (h' : a'.rshape = s ++ rs ++ ss)
    (hg : ∀ {i}, inB (s ++ rs ++ ss) i = true → a'.get i = a.get (i.take (s ++ rs).length)) :
    SpreadVal rs ss (.real a) (.real a') :=
  ⟨s, h, h', fun i hi => by simp only [toC_get, Spec.entry, hg hi]⟩

theorem spreadVal_complex {rs ss s : List ℕ} {a a' : Arr ℂ} (h : a.rshape = s ++ rs)
    (h' : a'.rshape = s ++ rs ++ ss)
    (hg : ∀ {i}, inB (s ++ rs ++ ss) i = true → a'.get i = a.get (i.take (s ++ rs).length)) :
    SpreadVal rs ss (.complex a) (.complex a') :=
  ⟨s, h, h', fun i hi => by simp only [toC_get, Spec.entry, hg hi]⟩

theorem spreadS (rs ss : List ℕ) (f : List ℕ → ℝ) : SpreadVal rs ss (.real (scalars rs f))
    (.real (scalars (rs ++ ss) fun i => f (i.take rs.length))) :=
  spreadVal_real (s := []) rfl rfl fun hi => spread_scalars rs ss f hi

theorem spreadC (rs ss : List ℕ) (f : List ℕ → ℂ) : SpreadVal rs ss (.complex (scalars rs f))
    (.complex (scalars (rs ++ ss) fun i => f (i.take rs.length))) :=
  spreadVal_complex (s := []) rfl rfl fun hi => spread_scalars rs ss f hi

theorem spreadV {d : ℕ} (rs ss : List ℕ) (f : List ℕ → Fin d → ℝ) : SpreadVal rs ss (.real (vectors rs f))
    (.real (vectors (rs ++ ss) fun i => f (i.take rs.length))) :=
  spreadVal_real (s := [d]) rfl rfl fun hi => spread_vectors rs ss f hi

theorem spreadCV {d : ℕ} (rs ss : List ℕ) (f : List ℕ → Fin d → ℂ) :
    SpreadVal rs ss (.complex (vectors rs f))
      (.complex (vectors (rs ++ ss) fun i => f (i.take rs.length))) :=
  spreadVal_complex (s := [d]) rfl rfl fun hi => spread_vectors rs ss f hi

theorem spreadM {d : ℕ} (rs ss : List ℕ) (f : List ℕ → Matrix (Fin d) (Fin d) ℝ) :
    SpreadVal rs ss (.real (matrices rs f))
      (.real (matrices (rs ++ ss) fun i => f (i.take rs.length))) :=
  spreadVal_real (s := [d, d]) rfl rfl fun hi => spread_matrices rs ss f hi

theorem spreadCM {d : ℕ} (rs ss : List ℕ) (f : List ℕ → Matrix (Fin d) (Fin d) ℂ) :
    SpreadVal rs ss (.complex (matrices rs f))
      (.complex (matrices (rs ++ ss) fun i => f (i.take rs.length))) :=
  spreadVal_complex (s := [d, d]) rfl rfl fun hi => spread_matrices rs ss f hi

end Efax
