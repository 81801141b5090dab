import Verif.Lemmas.SpreadKind
import Verif.Lemmas.TreeRel

/-! # Kinds of distributions: the mean of the statistics of many observations -/

namespace Efax

open ClassTable Calc Spec

/-- The dtype of an array. -/
def Val.tag : Val → ℕ
  | .real _ => 0
  | .complex _ => 1
  | .bool _ => 2
  | .int _ => 3

/-- `v'` is `v`, repeated along the new axes `ss`, with the same dtype. -/
def RepeatVal (rs ss : List ℕ) (v v' : Val) : Prop := SpreadVal rs ss v v' ∧ v.tag = v'.tag

theorem RepeatVal.expand {rs : List ℕ} {k : ℕ} {v v' : Val} (h : RepeatVal rs (List.replicate k 1) v v') :
    v.expand k = v' := by
  obtain ⟨⟨s, h1, h2, h3⟩, h4⟩ := h
  rw [← h1] at h2 h3
  have key : ∀ {α : Type} [Inhabited α] (a a' : Arr α), a'.rshape = a.rshape ++ List.replicate k 1 →
      (∀ i, inB a'.rshape i = true → a'.get i = a.get (i.take a.rshape.length)) → a.expand k = a' := by
    intro α _ a a' e1 e2
    refine Arr.ext e1.symm fun i hi => ?_
    have hi : inB (a.rshape ++ List.replicate k 1) i = true := hi
    rw [Arr.expand, Arr.ofFn_get hi, e2 i (by rw [e1]; exact hi)]
  simp only [toC_get] at h3
  cases v with
  | real a =>
    cases v' with
    | real a' => exact congrArg Val.real (key a a' h2 fun i hi => Complex.ofReal_injective (h3 i (by rw [← h2]; exact hi)))
    | _ => simp [Val.tag] at h4
  | complex a =>
    cases v' with
    | complex a' => exact congrArg Val.complex (key a a' h2 fun i hi => h3 i (by rw [← h2]; exact hi))
    | _ => simp [Val.tag] at h4
  | bool a =>
    cases v' with
    | bool a' =>
      refine congrArg Val.bool (key a a' h2 fun i hi => ?_)
      have := h3 i (by rw [← h2]; exact hi)
      simp only [Spec.entry, Val.rshape] at this
      by_cases e : a'.get i = true <;> by_cases e' : a.get (i.take a.rshape.length) = true <;>
        simp_all
    | _ => simp [Val.tag] at h4
  | int a =>
    cases v' with
    | int a' =>
      refine congrArg Val.int (key a a' h2 fun i hi => ?_)
      have := h3 i (by rw [← h2]; exact hi)
      simp only [Spec.entry, Val.rshape] at this
      exact_mod_cast this
    | _ => simp [Val.tag] at h4

/-- The means over the first `k` axes are equal. -/
def SameMean (k : ℕ) (v v' : Val) : Prop :=
  ∃ s b b', b.length = k ∧ b'.length = k ∧ (∀ n ∈ b, 0 < n) ∧ (∀ n ∈ b', 0 < n) ∧
    v.rshape = s ++ b ∧ v'.rshape = s ++ b' ∧ ∀ i, inB s i = true →
      (b'.prod : ℂ) * ∑ j ∈ box b, entry v (i ++ j) = b.prod * ∑ j ∈ box b', entry v' (i ++ j)

theorem prod_ne_zero {b : List ℕ} (h : ∀ n ∈ b, 0 < n) : (b.prod : ℂ) ≠ 0 := by
  have : b.prod ≠ 0 := by
    rw [Ne, List.prod_eq_zero_iff]
    intro h0
    exact absurd (h 0 h0) (lt_irrefl 0)
  exact_mod_cast this

theorem SameMean.mean {k : ℕ} {v v' : Val} (h : SameMean k v v') :
    ∃ m, v.mean (some (firstAxes k)) = .ok m ∧ AvgVal k v' m := by
  obtain ⟨s, b, b', rfl, h1, h2, h3, h4, h5, h6⟩ := h
  obtain ⟨m, m1, t, c, c1, c2, c3, c4, c5⟩ := Val.mean_first h4 h2
  obtain ⟨rfl, rfl⟩ := List.append_inj' (h4.symm.trans c3) c1.symm
  refine ⟨m, m1, s, b', h1, h3, h5, c4, fun i hi => ?_⟩
  have e1 := c5 i hi
  have e2 := h6 i hi
  rw [← e1] at e2
  have := prod_ne_zero h2
  have e3 : (b.prod : ℂ) * ((b'.prod : ℂ) * entry m i - ∑ j ∈ box b', entry v' (i ++ j)) = 0 := by
    rw [mul_sub, ← e2]
    ring
  exact sub_eq_zero.1 ((mul_eq_zero.1 e3).resolve_left this)

theorem SameMean.of_toC {v v' : Val} {s b : List ℕ} (h : v.toC = v'.toC) (hb : ∀ n ∈ b, 0 < n)
    (hs : v'.rshape = s ++ b) : SameMean b.length v v' := by
  have hr : v.rshape = v'.rshape := by
    have := congrArg Arr.rshape h
    simpa only [toC_rshape] using this
  refine ⟨s, b, b, rfl, rfl, hb, hb, hr.trans hs, hs, fun i hi => ?_⟩
  congr 1
  refine Finset.sum_congr rfl fun j _ => ?_
  rw [← toC_get, ← toC_get, h]

theorem box_ones (k : ℕ) : box (List.replicate k 1) = {List.replicate k 0} := by
  induction k with
  | zero => rfl
  | succ k ih =>
    rw [List.replicate_succ, box, ih]
    ext j
    simp [List.replicate_succ, eq_comm]

/-- A fixed parameter with axes of length one, and the same parameter repeated. -/
theorem SameMean.of_ones {α : Type} [Inhabited α] {D : Arr α → Val} {e : α → ℂ}
    (hD : ∀ a, (D a).rshape = a.rshape) (he : ∀ a i, entry (D a) i = e (a.get i))
    (rs : List ℕ) {ss : List ℕ} (hss : ∀ n ∈ ss, 0 < n) (f : List ℕ → α) :
    SameMean ss.length
      (D (scalars (rs ++ List.replicate ss.length 1) fun i => f (i.take rs.length)))
      (D (scalars (rs ++ ss) fun i => f (i.take rs.length))) := by
  refine ⟨rs, List.replicate ss.length 1, ss, by simp, rfl, ?_, hss, ?_, ?_, fun i hi => ?_⟩
  · intro n hn
    rw [List.eq_of_mem_replicate hn]
    exact Nat.one_pos
  · rw [hD]; rfl
  · rw [hD]; rfl
  · have key : ∀ b, ∀ j ∈ box b, entry (D (scalars (rs ++ b) fun i => f (i.take rs.length))) (i ++ j) =
        e (f i) := by
      intro b j hj
      rw [he, scalars, Arr.ofFn_get ((inB_append (inB_length hi)).2 ⟨hi, mem_box.1 hj⟩),
        ← inB_length hi, List.take_left]
    rw [Finset.sum_congr rfl (key _), Finset.sum_congr rfl (key _), Finset.sum_const, Finset.sum_const,
      card_box, card_box]
    simp

section

variable {C : Type} [ClassTable C]

/-- The methods of a kind, for the mean of the statistics of observations with additional axes `ss`. -/
structure Spec.Kind.Collects (L : Library C) (K : Kind C) : Prop where
  same : ∀ rs p χ χ', SameTree (K.exp rs p χ) (K.exp rs p χ')
  fixed : ∀ rs p χ χ' k f v, f.fixed = true → ParamAt (K.exp rs p χ) k f v → ParamAt (K.exp rs p χ') k f v
  exp : ∀ rs ss p χ, TreeRel (RepeatVal rs ss) (K.exp rs p χ)
    (K.exp (rs ++ ss) (fun i => p (i.take rs.length)) fun i => χ (i.take rs.length))
  stat : ∀ rs ss (p : List ℕ → K.P) (χ : List ℕ → K.E) x t, (∀ n ∈ ss, 0 < n) → K.obs (rs ++ ss) x t → ∃ w,
    StatTree some L.stat (K.exp (rs ++ List.replicate ss.length 1) (fun i => p (i.take rs.length))
      fun i => χ (i.take rs.length)) t w ∧
    TreeRel (SameMean ss.length) w (K.exp (rs ++ ss) (fun i => p (i.take rs.length))
      fun i => (K.F (p (i.take rs.length))).stat (x i))

/-- `Kind.Collects` for the parts of a joint distribution. -/
structure Parts.Collects (L : Library C) (R : Parts C) : Prop where
  same : ∀ rs p χ χ', SameTrees (R.exp rs p χ) (R.exp rs p χ')
  fixed : ∀ rs p χ χ' n d, (n, d) ∈ (R.exp rs p χ).toList → ∃ d', (n, d') ∈ (R.exp rs p χ').toList ∧
    ∀ k f v, f.fixed = true → ParamAt d k f v → ParamAt d' k f v
  exp : ∀ rs ss p χ, TreeRels (RepeatVal rs ss) (R.exp rs p χ)
    (R.exp (rs ++ ss) (fun i => p (i.take rs.length)) fun i => χ (i.take rs.length))
  stat : ∀ rs ss (p : List ℕ → R.P) (χ : List ℕ → R.E) x f, (∀ n ∈ ss, 0 < n) → R.obs (rs ++ ss) x f → ∃ w,
    StatSubs some L.stat (R.exp (rs ++ List.replicate ss.length 1) (fun i => p (i.take rs.length))
      fun i => χ (i.take rs.length)) f w ∧
    TreeRels (SameMean ss.length) w (R.exp (rs ++ ss) (fun i => p (i.take rs.length))
      fun i => (R.F (p (i.take rs.length))).stat (x i))

theorem Parts.Collects.nil {L : Library C} : Parts.Collects L (.nil : Parts C) where
  same _ _ _ _ := trivial
  fixed _ _ _ _ _ _ h := by cases h
  exp _ _ _ _ := trivial
  stat _ _ _ _ _ _ _ _ := ⟨.nil, rfl, trivial⟩

theorem Parts.Collects.cons {L : Library C} {n : String} {K : Kind C} {R : Parts C} (hK : K.Collects L)
    (hR : Parts.Collects L R) : Parts.Collects L (.cons n K R) where
  same _ _ _ _ := ⟨rfl, hK.same _ _ _ _, hR.same _ _ _ _⟩
  fixed rs p χ χ' m d h := by
    rcases List.mem_cons.1 h with h | h
    · injection h with h1 h2
      subst h1 h2
      exact ⟨_, List.mem_cons_self, hK.fixed _ _ _ _⟩
    · obtain ⟨d', h1, h2⟩ := hR.fixed rs (fun i => (p i).2) (fun i => (χ i).2) (fun i => (χ' i).2) m d h
      exact ⟨d', List.mem_cons_of_mem _ h1, h2⟩
  exp _ _ _ _ := ⟨rfl, hK.exp _ _ _ _, hR.exp _ _ _ _⟩
  stat rs ss p χ x f hss h := by
    obtain ⟨⟨t, ht, ho⟩, h⟩ := h
    obtain ⟨w, h1, h2⟩ := hK.stat rs ss (fun i => (p i).1) (fun i => (χ i).1) _ t hss ho
    obtain ⟨s, h3, h4⟩ := hR.stat rs ss (fun i => (p i).2) (fun i => (χ i).2) _ f hss h
    exact ⟨.cons n w s, ⟨t, w, s, ht, h1, h3, rfl⟩, rfl, h2, h4⟩

theorem Parts.Collects.ofList {L : Library C} {l : List (String × Kind C)}
    (h : ∀ nk ∈ l, nk.2.Collects L) : Parts.Collects L (.ofList l) := by
  induction l with
  | nil => exact .nil
  | cons nk l ih =>
    exact .cons (h nk List.mem_cons_self) (ih fun nk h' => h nk (List.mem_cons_of_mem _ h'))

theorem Spec.Kind.Collects.joint {L : Library C} {c c' : C}
    (hc' : isJoint c' = true) (hn : natCls c' = some c) {R : Parts C}
    (hR : Parts.Collects L R) : (Kind.joint c c' R).Collects L where
  same _ _ _ _ := ⟨rfl, hR.same _ _ _ _⟩
  fixed rs p χ χ' k f v hf h := by
    generalize e : (Kind.joint c c' R).exp rs p χ = d at h
    cases h with
    | here h1 h2 =>
      cases e
      simp at h2
    | sub h1 h2 =>
      cases e
      obtain ⟨d', h3, h4⟩ := hR.fixed rs p χ χ' _ _ h1
      exact .sub h3 (h4 _ _ _ hf h2)
  exp rs ss p χ := ⟨rfl, .nil, hR.exp rs ss p χ⟩
  stat rs ss p χ x t hss h := by
    obtain ⟨f, rfl, hf, ho, hk⟩ := h
    obtain ⟨w, h1, h2⟩ := hR.stat rs ss p χ x f hss ho
    exact ⟨.mk c' [] w, ⟨hc', c', w, rfl, by simp [hn], h1, rfl⟩, rfl, .nil, h2⟩

theorem Spec.Kind.Collects.simple {P N E X : Type} [Sub N] {L : Library C} {c c' : C} {m : NatMethods}
    {nat : Layout P N} {exp : Layout P E} {fixed : List ℕ → (List ℕ → P) → Dict String Val}
    {obs : List ℕ → (List ℕ → X) → Val → Prop} {F : P → ExpFam N E X} {dom : P → N → Prop}
    {toNat : P → E → N} {ecm : P → E → ℝ} {ent : Prop} {domE : P → E → Prop}
    (hm : L.nat c = some m) (hj : isJoint c' = false) (he : expCls c = some c')
    (hn : natCls c' = some c)
    (hfix : ∀ rs p χ, fixedArgs c' (exp rs p χ) = fixed rs p)
    (hrep : ∀ rs ss p χ, List.Forall₂ (RepeatVal rs ss) (exp rs p χ)
      (exp (rs ++ ss) (fun i => p (i.take rs.length)) fun i => χ (i.take rs.length)))
    (hst : ∀ rs ss (p : List ℕ → P) x v, (∀ n ∈ ss, 0 < n) → obs (rs ++ ss) x v →
      ∃ w, m.stat v (fixed (rs ++ List.replicate ss.length 1) fun i => p (i.take rs.length)) = .ok w ∧
        List.Forall₂ (SameMean ss.length) w (exp (rs ++ ss) (fun i => p (i.take rs.length))
          fun i => (F (p (i.take rs.length))).stat (x i))) :
    (Kind.simple c c' nat exp obs F toNat ecm ent dom domE).Collects L where
  same _ _ _ _ := ⟨rfl, trivial⟩
  fixed rs p χ χ' k f v hf h := by
    have e := (hfix rs p χ).trans (hfix rs p χ').symm
    generalize hd : (Kind.simple c c' nat exp obs F toNat ecm ent dom domE).exp rs p χ = d at h
    cases h with
    | sub h1 h2 =>
      cases hd
      cases h1
    | @here _ _ _ i _ _ h1 h2 =>
      cases hd
      have hm : (f.name, v) ∈ fixedArgs c' (exp rs p χ) :=
        List.mem_map.2 ⟨(f, v), List.mem_filter.2 ⟨List.mem_iff_getElem?.2
          ⟨i, List.getElem?_zip_eq_some.2 ⟨h1, h2⟩⟩, hf⟩, rfl⟩
      rw [e] at hm
      obtain ⟨⟨g, w⟩, h3, h4⟩ := List.mem_map.1 hm
      simp only [Prod.mk.injEq] at h4
      obtain ⟨h4, rfl⟩ := h4
      obtain ⟨j, h5⟩ := List.mem_iff_getElem?.1 (List.mem_of_mem_filter h3)
      obtain ⟨h6, h7⟩ := List.getElem?_zip_eq_some.1 h5
      have : g = f := (List.inj_on_of_nodup_map (names_nodup c')) (List.mem_of_getElem? h6)
        (List.mem_of_getElem? h1) h4
      subst this
      exact .here h6 h7
  exp rs ss p χ := ⟨rfl, hrep rs ss p χ, trivial⟩
  stat rs ss p χ x t hss h := by
    obtain ⟨v, rfl, h⟩ := h
    obtain ⟨w, h1, h2⟩ := hst rs ss p x v hss h
    refine ⟨.mk c' w .nil, ⟨hj, c', c, rfl, hn, ?_, by simp [Dist.cls, hn]⟩, rfl, h2, trivial⟩
    have e := hfix (rs ++ List.replicate ss.length 1) (fun i => p (i.take rs.length))
      fun i => χ (i.take rs.length)
    rw [Library.stat, hm, he]
    simp only [e, h1]
    rfl

theorem sameMean_of_toC {w e : List Val} {rs ss : List ℕ} (hss : ∀ n ∈ ss, 0 < n)
    (hs : List.Forall₂ (fun a _ => ∃ s, a.rshape = s ++ (rs ++ ss)) e e)
    (h : w.map Val.toC = e.map Val.toC) : List.Forall₂ (SameMean ss.length) w e := by
  induction e generalizing w with
  | nil =>
    cases w with
    | nil => exact .nil
    | cons => simp at h
  | cons a e ih =>
    cases w with
    | nil => simp at h
    | cons b w =>
      simp only [List.map_cons, List.cons.injEq] at h
      obtain ⟨⟨s, h1⟩, h2⟩ := List.forall₂_cons.1 hs
      exact .cons (.of_toC h.1 hss (h1.trans (List.append_assoc _ _ _).symm)) (ih h2 h.2)

/-- A class whose statistics depend on the observation only. -/
theorem Spec.Kind.Collects.plain {P N E X : Type} [Sub N] {L : Library C} {c c' : C} {m : NatMethods}
    {nat : Layout P N} {exp : Layout P E}
    {obs : List ℕ → (List ℕ → X) → Val → Prop} {F : P → ExpFam N E X} {dom : P → N → Prop}
    {toNat : P → E → N} {ecm : P → E → ℝ} {ent : Prop} {domE : P → E → Prop}
    (hr : Refines m nat exp noFixed obs F dom) (hm : L.nat c = some m)
    (hj : isJoint c' = false) (he : expCls c = some c') (hn : natCls c' = some c)
    (hfix : ∀ rs p χ, fixedArgs c' (exp rs p χ) = [])
    (hrep : ∀ rs ss p χ, List.Forall₂ (RepeatVal rs ss) (exp rs p χ)
      (exp (rs ++ ss) (fun i => p (i.take rs.length)) fun i => χ (i.take rs.length))) :
    (Kind.simple c c' nat exp obs F toNat ecm ent dom domE).Collects L :=
  .simple (fixed := noFixed) hm hj he hn hfix hrep fun rs ss p x v hss h => by
    obtain ⟨w, h1, h2⟩ := hr.stat (rs ++ ss) (fun i => p (i.take rs.length)) x v h
    refine ⟨w, h1, sameMean_of_toC (rs := rs) hss ?_ h2⟩
    have := hrep (rs ++ ss) [] (fun i => p (i.take rs.length))
      fun i => (F (p (i.take rs.length))).stat (x i)
    rw [List.forall₂_same]
    intro a ha
    obtain ⟨k, hk, rfl⟩ := List.getElem_of_mem ha
    obtain ⟨⟨s, h3, _⟩, _⟩ := (List.forall₂_iff_get.1 this).2 k hk (by rw [← this.length_eq]; exact hk)
    exact ⟨s, h3⟩

end

/-! ### The dot product with a mean -/

theorem boxSum_mul (rs : List ℕ) (c : ℂ) (g : List ℕ → ℂ) :
    c * boxSum rs g = boxSum rs fun i => c * g i := by
  induction rs generalizing g with
  | nil => rfl
  | cons n rs ih => simp only [boxSum, Finset.mul_sum, ih]

theorem boxSum_sum {ι : Type} (S : Finset ι) (rs : List ℕ) (g : ι → List ℕ → ℂ) :
    boxSum rs (fun i => ∑ j ∈ S, g j i) = ∑ j ∈ S, boxSum rs (g j) := by
  induction rs generalizing g with
  | nil => rfl
  | cons n rs ih =>
    simp only [boxSum, ih]
    exact Finset.sum_comm

theorem valDot_mean {rs ss : List ℕ} {n : ℕ} {a a' b m : Val} (h : SpreadVal rs ss a a')
    (hm : AvgVal ss.length b m) (hb : a'.rshape = b.rshape) (hn : ∃ s, s.length = n ∧ a'.rshape = s ++ (rs ++ ss))
    {i : List ℕ} (hi : inB rs i = true) :
    (ss.prod : ℝ) * valDot n a m i = ∑ j ∈ box ss, valDot n a' b (i ++ j) := by
  obtain ⟨s, h1, h2, h3⟩ := h
  obtain ⟨t, c, c1, c2, c3, c4, c5⟩ := hm
  obtain ⟨u, rfl, h4⟩ := hn
  have e1 : t ++ c = s ++ rs ++ ss := c3.symm.trans (hb.symm.trans h2)
  obtain ⟨rfl, rfl⟩ := List.append_inj' e1 c1
  have e2 : s ++ rs = u ++ rs := (List.append_inj' ((h2.symm.trans h4).trans (List.append_assoc _ _ _).symm) rfl).1
  obtain ⟨rfl, -⟩ := List.append_inj' e2 rfl
  have t1 : a.rshape.take s.length = s := by rw [h1, List.take_left]
  have t2 : a'.rshape.take s.length = s := by rw [h2, List.append_assoc, List.take_left]
  simp only [valDot, t1, t2]
  rw [← Complex.re_sum, ← boxSum_sum, ← Complex.re_ofReal_mul, boxSum_mul]
  congr 1
  refine boxSum_congr fun k hk => ?_
  have hki : inB (s ++ rs) (k ++ i) = true := (inB_append (inB_length hk)).2 ⟨hk, hi⟩
  have e3 := c5 (k ++ i) hki
  have e4 : ∀ j ∈ box c, entry a' (k ++ (i ++ j)) * entry b (k ++ (i ++ j)) =
      entry a (k ++ i) * entry b (k ++ i ++ j) := by
    intro j hj
    have hkj : inB (s ++ rs ++ c) (k ++ i ++ j) = true :=
      (inB_append (inB_length hki)).2 ⟨hki, mem_box.1 hj⟩
    have := h3 _ hkj
    rw [toC_get, toC_get, ← inB_length hki, List.take_left] at this
    rw [← List.append_assoc, this]
  rw [Finset.sum_congr rfl e4, ← Finset.mul_sum, ← e3]
  rw [Complex.ofReal_natCast]
  ring

section

variable {C : Type} [ClassTable C]

theorem freeFields_avg {k : ℕ} {c : C} {v v' : List Val} (h : List.Forall₂ (AvgVal k) v v') :
    List.Forall₂ (fun a b : Field × Val => a.1 = b.1 ∧ AvgVal k a.2 b.2) (freeFields c v)
      (freeFields c v') := by
  unfold freeFields
  generalize fields c = l
  induction h generalizing l with
  | nil => simp
  | @cons a b v v' h _ ih =>
    cases l with
    | nil => simp
    | cons f l =>
      simp only [List.zip_cons_cons, List.filter_cons]
      split_ifs
      · exact .cons ⟨rfl, h⟩ (ih l)
      · exact ih l

theorem zip_mean {rs ss i : List ℕ} (hi : inB rs i = true) {A A' B M : List (Field × Val)}
    (h1 : List.Forall₂ (fun a b => a.1 = b.1 ∧ SpreadVal rs ss a.2 b.2) A A')
    (h2 : List.Forall₂ (FieldMatch (rs ++ ss)) A' B)
    (h3 : List.Forall₂ (fun a b : Field × Val => a.1 = b.1 ∧ AvgVal ss.length a.2 b.2) B M) :
    (ss.prod : ℝ) * (List.zipWith (fun a b => valDot a.1.support.axes a.2 b.2 i) A M).sum =
      ∑ j ∈ box ss, (List.zipWith (fun a b => valDot a.1.support.axes a.2 b.2 (i ++ j)) A' B).sum := by
  induction h1 generalizing B M with
  | nil =>
    cases h2
    simp
  | @cons a a' A A' h _ ih =>
    cases h2 with
    | cons f1 f2 =>
      cases h3 with
      | cons g1 g2 =>
        simp only [List.zipWith_cons_cons, List.sum_cons, mul_add, Finset.sum_add_distrib]
        rw [ih f2 g2, h.1, valDot_mean h.2 g1.2 f1.2.1 f1.2.2 hi]

mutual
theorem treeDot_mean {rs ss i : List ℕ} (hi : inB rs i = true) : {d d' w m : Dist C} →
    SpreadDist rs ss d d' → DotMatch (rs ++ ss) d' w → TreeRel (AvgVal ss.length) w m →
    (ss.prod : ℝ) * treeDot d m i = ∑ j ∈ box ss, treeDot d' w (i ++ j)
  | .mk _ _ _, .mk _ _ _, .mk _ _ _, .mk _ _ _, h1, h2, h3 => by
    obtain ⟨rfl, h4, h5⟩ := h3
    simp only [treeDot, mul_add, Finset.sum_add_distrib]
    rw [zip_mean hi h1.1 h2.1 (freeFields_avg h4), subsDot_mean hi h1.2 h2.2 h5]
theorem subsDot_mean {rs ss i : List ℕ} (hi : inB rs i = true) : {d d' w m : Subs C} →
    SpreadSubs rs ss d d' → DotMatches (rs ++ ss) d' w → TreeRels (AvgVal ss.length) w m →
    (ss.prod : ℝ) * subsDot d m i = ∑ j ∈ box ss, subsDot d' w (i ++ j)
  | .nil, .nil, .nil, .nil, _, _, _ => by simp [subsDot]
  | .cons _ _ _, .cons _ _ _, .cons _ _ _, .cons _ _ _, h1, h2, h3 => by
    obtain ⟨rfl, a1, a2⟩ := h1
    obtain ⟨rfl, b1, b2⟩ := h2
    obtain ⟨rfl, c1, c2⟩ := h3
    simp only [subsDot, mul_add, Finset.sum_add_distrib]
    rw [treeDot_mean hi a1 b1 c1, subsDot_mean hi a2 b2 c2]
end

/-! ### The shape of a mean -/

theorem zip_match {rs ss : List ℕ} {A A' B M : List (Field × Val)}
    (h1 : List.Forall₂ (fun a b => a.1 = b.1 ∧ SpreadVal rs ss a.2 b.2) A A')
    (h2 : List.Forall₂ (FieldMatch (rs ++ ss)) A' B)
    (h3 : List.Forall₂ (fun a b : Field × Val => a.1 = b.1 ∧ AvgVal ss.length a.2 b.2) B M) :
    List.Forall₂ (FieldMatch rs) A M := by
  induction h1 generalizing B M with
  | nil =>
    cases h2
    cases h3
    exact .nil
  | @cons a a' A A' h _ ih =>
    cases h2 with
    | cons f1 f2 =>
      cases h3 with
      | cons g1 g2 =>
        refine .cons ?_ (ih f2 g2)
        obtain ⟨e, s, h1, h2, -⟩ := h
        obtain ⟨f3, f4, u, f5, f6⟩ := f1
        obtain ⟨e', t, c, c1, -, c3, c4, -⟩ := g1
        obtain ⟨rfl, rfl⟩ := List.append_inj' (c3.symm.trans (f4.symm.trans h2)) c1
        have e2 : s ++ rs = u ++ rs := (List.append_inj' ((h2.symm.trans f6).trans (List.append_assoc _ _ _).symm) rfl).1
        obtain ⟨rfl, -⟩ := List.append_inj' e2 rfl
        exact ⟨by rw [← e', f3, e], h1.trans c4.symm, s, by rw [f5, e], h1⟩

mutual
theorem dotMatch_mean {rs ss : List ℕ} : {d d' w m : Dist C} →
    SpreadDist rs ss d d' → DotMatch (rs ++ ss) d' w → TreeRel (AvgVal ss.length) w m → DotMatch rs d m
  | .mk _ _ _, .mk _ _ _, .mk _ _ _, .mk _ _ _, h1, h2, h3 => by
    obtain ⟨rfl, h4, h5⟩ := h3
    exact ⟨zip_match h1.1 h2.1 (freeFields_avg h4), subsMatch_mean h1.2 h2.2 h5⟩
theorem subsMatch_mean {rs ss : List ℕ} : {d d' w m : Subs C} →
    SpreadSubs rs ss d d' → DotMatches (rs ++ ss) d' w → TreeRels (AvgVal ss.length) w m → DotMatches rs d m
  | .nil, .nil, .nil, .nil, _, _, _ => trivial
  | .cons _ _ _, .cons _ _ _, .cons _ _ _, .cons _ _ _, h1, h2, h3 => by
    obtain ⟨rfl, a1, a2⟩ := h1
    obtain ⟨rfl, b1, b2⟩ := h2
    obtain ⟨rfl, c1, c2⟩ := h3
    exact ⟨rfl, dotMatch_mean a1 b1 c1, subsMatch_mean a2 b2 c2⟩
end

mutual
theorem TreeRel.wf' {R : Val → Val → Prop} : {d e : Dist C} → TreeRel R d e → WF d → WF e
  | .mk _ _ _, .mk _ _ _, h, hw => by
    obtain ⟨rfl, h1, h2⟩ := h
    obtain ⟨w1, w2, w3, w4⟩ := hw
    obtain ⟨n1, n2, n3⟩ := TreeRels.wf' h2 w4
    exact ⟨h1.length_eq.symm.trans w1, w2.trans (not_iff_not.2 n2), by rw [← n1]; exact w3, n3⟩
theorem TreeRels.wf' {R : Val → Val → Prop} : {d e : Subs C} → TreeRels R d e → WFs d →
    d.names = e.names ∧ (d = .nil ↔ e = .nil) ∧ WFs e
  | .nil, .nil, _, _ => ⟨rfl, Iff.rfl, trivial⟩
  | .cons _ _ _, .cons _ _ _, h, hw => by
    obtain ⟨rfl, h1, h2⟩ := h
    obtain ⟨n1, _, n3⟩ := TreeRels.wf' h2 hw.2
    refine ⟨?_, by simp, TreeRel.wf' h1 hw.1, n3⟩
    simp only [Subs.names] at n1 ⊢
    simp [Subs.toList, n1]
end

mutual
theorem TreeRel.symm {R : Val → Val → Prop} : {d e : Dist C} → TreeRel (fun a b => R b a) d e → TreeRel R e d
  | .mk _ _ _, .mk _ _ _, h => ⟨h.1.symm, h.2.1.flip, TreeRels.symm h.2.2⟩
theorem TreeRels.symm {R : Val → Val → Prop} : {d e : Subs C} → TreeRels (fun a b => R b a) d e →
    TreeRels R e d
  | .nil, .nil, _ => trivial
  | .cons _ _ _, .cons _ _ _, h => ⟨h.1.symm, TreeRel.symm h.2.1, TreeRels.symm h.2.2⟩
end

end

end Efax
