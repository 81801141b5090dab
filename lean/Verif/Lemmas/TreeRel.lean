import Verif.Props.Trees

/-! # Distributions with the same structure and related values -/

namespace Efax

open ClassTable Spec

variable {C : Type} [ClassTable C]

mutual
/-- Same structure, and the values are related. -/
def TreeRel (R : Val → Val → Prop) : Dist C → Dist C → Prop
  | .mk c v s, .mk c' v' s' => c = c' ∧ List.Forall₂ R v v' ∧ TreeRels R s s'
/-- `TreeRel` for all sub-distributions. -/
def TreeRels (R : Val → Val → Prop) : Subs C → Subs C → Prop
  | .nil, .nil => True
  | .cons n d r, .cons n' d' r' => n = n' ∧ TreeRel R d d' ∧ TreeRels R r r'
  | _, _ => False
end

mutual
theorem TreeRel.same {R : Val → Val → Prop} : {d e : Dist C} → TreeRel R d e → SameTree d e
  | .mk _ _ _, .mk _ _ _, h => by
    obtain ⟨rfl, _, h⟩ := h
    exact ⟨rfl, TreeRels.same h⟩
theorem TreeRels.same {R : Val → Val → Prop} : {d e : Subs C} → TreeRels R d e → SameTrees d e
  | .nil, .nil, _ => trivial
  | .cons _ _ _, .cons _ _ _, h => by
    obtain ⟨rfl, h1, h2⟩ := h
    exact ⟨rfl, TreeRel.same h1, TreeRels.same h2⟩
end

mutual
theorem TreeRel.wf {R : Val → Val → Prop} : {d e : Dist C} → TreeRel R d e → WF e → WF d
  | .mk _ _ _, .mk _ _ _, h, hw => by
    obtain ⟨rfl, h1, h2⟩ := h
    obtain ⟨w1, w2, w3, w4⟩ := hw
    obtain ⟨n1, n2, n3⟩ := TreeRels.wf h2 w4
    exact ⟨h1.length_eq.trans w1, w2.trans (not_iff_not.2 n2.symm), by rw [n1]; exact w3, n3⟩
theorem TreeRels.wf {R : Val → Val → Prop} : {d e : Subs C} → TreeRels R d e → WFs e →
    d.names = e.names ∧ (d = .nil ↔ e = .nil) ∧ WFs d
  | .nil, .nil, _, _ => ⟨rfl, Iff.rfl, trivial⟩
  | .cons _ _ _, .cons _ _ _, h, hw => by
    obtain ⟨rfl, h1, h2⟩ := h
    obtain ⟨n1, _, n3⟩ := TreeRels.wf h2 hw.2
    refine ⟨?_, by simp, TreeRel.wf h1 hw.1, n3⟩
    simp only [Subs.names, Subs.toList, List.map_cons] at n1 ⊢
    rw [n1]
end

mutual
/-- Relations between three distributions. -/
theorem TreeRel.split {R Q T : Val → Val → Prop} (hR : ∀ a b, R a b → ∃ c, Q a c ∧ T c b) :
    {d e : Dist C} → TreeRel R d e → ∃ f, TreeRel Q d f ∧ TreeRel T f e
  | .mk c v s, .mk c' v' s', h => by
    obtain ⟨rfl, h1, h2⟩ := h
    obtain ⟨t, t1, t2⟩ := TreeRels.split hR h2
    have : ∃ u, List.Forall₂ Q v u ∧ List.Forall₂ T u v' := by
      clear h2
      induction h1 with
      | nil => exact ⟨[], .nil, .nil⟩
      | cons h _ ih =>
        obtain ⟨u, u1, u2⟩ := ih
        obtain ⟨c, c1, c2⟩ := hR _ _ h
        exact ⟨c :: u, .cons c1 u1, .cons c2 u2⟩
    obtain ⟨u, u1, u2⟩ := this
    exact ⟨.mk c u t, ⟨rfl, u1, t1⟩, ⟨rfl, u2, t2⟩⟩
theorem TreeRels.split {R Q T : Val → Val → Prop} (hR : ∀ a b, R a b → ∃ c, Q a c ∧ T c b) :
    {d e : Subs C} → TreeRels R d e → ∃ f, TreeRels Q d f ∧ TreeRels T f e
  | .nil, .nil, _ => ⟨.nil, trivial, trivial⟩
  | .cons n _ _, .cons _ _ _, h => by
    obtain ⟨rfl, h1, h2⟩ := h
    obtain ⟨t, t1, t2⟩ := TreeRel.split hR h1
    obtain ⟨u, u1, u2⟩ := TreeRels.split hR h2
    exact ⟨.cons n t u, ⟨rfl, t1, u1⟩, ⟨rfl, t2, u2⟩⟩
end

mutual
theorem TreeRel.imp {R Q : Val → Val → Prop} (hR : ∀ a b, R a b → Q a b) :
    {d e : Dist C} → TreeRel R d e → TreeRel Q d e
  | .mk c v s, .mk c' v' s', h => ⟨h.1, h.2.1.imp hR, TreeRels.imp hR h.2.2⟩
theorem TreeRels.imp {R Q : Val → Val → Prop} (hR : ∀ a b, R a b → Q a b) :
    {d e : Subs C} → TreeRels R d e → TreeRels Q d e
  | .nil, .nil, _ => trivial
  | .cons _ _ _, .cons _ _ _, h => ⟨h.1, TreeRel.imp hR h.2.1, TreeRels.imp hR h.2.2⟩
end

theorem TreeRels.mem {R : Val → Val → Prop} {s s' : Subs C} (h : TreeRels R s s') {n : String} {e : Dist C}
    (hm : (n, e) ∈ s'.toList) : ∃ d, (n, d) ∈ s.toList ∧ TreeRel R d e := by
  induction s' using Subs.rec (motive_1 := fun _ => True) generalizing s with
  | mk => trivial
  | nil => cases hm
  | cons m d r _ ih =>
    cases s with
    | nil => exact h.elim
    | cons m' d' r' =>
      obtain ⟨rfl, h1, h2⟩ := h
      rcases List.mem_cons.1 hm with e' | hm
      · cases e'; exact ⟨d', List.mem_cons_self, h1⟩
      · obtain ⟨x, hx, hx'⟩ := ih h2 hm
        exact ⟨x, List.mem_cons_of_mem _ hx, hx'⟩

theorem TreeRels.mem' {R : Val → Val → Prop} {s s' : Subs C} (h : TreeRels R s s') {n : String} {d : Dist C}
    (hm : (n, d) ∈ s.toList) : ∃ e, (n, e) ∈ s'.toList ∧ TreeRel R d e := by
  induction s using Subs.rec (motive_1 := fun _ => True) generalizing s' with
  | mk => trivial
  | nil => cases hm
  | cons m d r _ ih =>
    cases s' with
    | nil => exact h.elim
    | cons m' d' r' =>
      obtain ⟨rfl, h1, h2⟩ := h
      rcases List.mem_cons.1 hm with e' | hm
      · cases e'; exact ⟨d', List.mem_cons_self, h1⟩
      · obtain ⟨x, hx, hx'⟩ := ih h2 hm
        exact ⟨x, List.mem_cons_of_mem _ hx, hx'⟩

theorem TreeRel.param {R : Val → Val → Prop} {d e : Dist C} (h : TreeRel R d e) {k : Path} {f : Field}
    {v' : Val} (hv : ParamAt e k f v') : ∃ v, ParamAt d k f v ∧ R v v' := by
  induction hv generalizing d with
  | @here c vals subs i f v hf hv =>
    obtain ⟨c', vals', subs'⟩ := d
    obtain ⟨rfl, h1, h2⟩ := h
    obtain ⟨b, e⟩ := List.getElem?_eq_some_iff.1 hv
    have hb : i < vals'.length := by rw [h1.length_eq]; exact b
    have := (List.forall₂_iff_get.1 h1).2 i hb b
    refine ⟨vals'[i], .here hf (by simp [hb]), ?_⟩
    simpa [e] using this
  | @sub c vals subs n d' k f v hm hp ih =>
    obtain ⟨c', vals', subs'⟩ := d
    obtain ⟨rfl, h1, h2⟩ := h
    obtain ⟨x, hx, hx'⟩ := h2.mem hm
    obtain ⟨v, h3, h4⟩ := ih hx'
    exact ⟨v, .sub hx h3, h4⟩

theorem TreeRel.param' {R : Val → Val → Prop} {d e : Dist C} (h : TreeRel R d e) {k : Path} {f : Field}
    {v : Val} (hv : ParamAt d k f v) : ∃ v', ParamAt e k f v' ∧ R v v' := by
  induction hv generalizing e with
  | @here c vals subs i f v hf hv =>
    obtain ⟨c', vals', subs'⟩ := e
    obtain ⟨rfl, h1, h2⟩ := h
    obtain ⟨b, e⟩ := List.getElem?_eq_some_iff.1 hv
    have hb : i < vals'.length := by rw [← h1.length_eq]; exact b
    have := (List.forall₂_iff_get.1 h1).2 i b hb
    exact ⟨vals'[i], .here hf (by simp [hb]), by simpa [e] using this⟩
  | @sub c vals subs n d' k f v hm hp ih =>
    obtain ⟨c', vals', subs'⟩ := e
    obtain ⟨rfl, h1, h2⟩ := h
    obtain ⟨x, hx, hx'⟩ := h2.mem' hm
    obtain ⟨v, h3, h4⟩ := ih hx'
    exact ⟨v, .sub hx h3, h4⟩

/-- Applying a function to all parameters, and assembling. -/
theorem TreeRel.rebuild {g : Val → Except Err Val} {d e : Dist C}
    (h : TreeRel (fun a b => g a = .ok b) d e) (hd : WF d) (he : WF e)
    {infos : List (Info C)} (hi : infosOf d = .ok infos) :
    ∃ ps, (parameters d none).mapM (fun kv => do (.ok (kv.1, ← g kv.2) : Except Err (Path × Val))) = .ok ps ∧
      assemble infos ps = .ok e := by
  obtain ⟨ps, q, e1, e2, e3, e4, e5⟩ := mapParams_ok (g := g) hd (infosOf_skel hi)
    fun k f v hv => by
      obtain ⟨v', _, h⟩ := h.param' hv
      exact ⟨v', h⟩
  have : e = q := SameTree.eq_of_params he e3 (h.same.symm.trans e4) fun k f v' hv => by
    obtain ⟨v, h1, h2⟩ := h.param hv
    exact (e5 k f v').2 ⟨v, h1, h2⟩
  rw [this]
  exact ⟨ps, e1, e2⟩

theorem TreeRel.expand {k : ℕ} {d e : Dist C} (h : TreeRel (fun a b => a.expand k = b) d e) (hd : WF d)
    (he : WF e) {infos : List (Info C)} (hi : infosOf d = .ok infos) : d.expand k = .ok e := by
  obtain ⟨ps, e1, e2⟩ := TreeRel.rebuild (g := fun v => .ok (v.expand k))
    (h.imp fun a b e => congrArg Except.ok e) hd he hi
  unfold Dist.expand
  simp only [Bind.bind, Except.bind] at e1 ⊢
  rw [e1, hi]
  exact e2

theorem TreeRel.mean {axis : Option (List ℤ)} {d e : Dist C}
    (h : TreeRel (fun a b => a.mean axis = .ok b) d e) (hd : WF d)
    (he : WF e) {infos : List (Info C)} (hi : infosOf d = .ok infos) : paramMean d axis = .ok e := by
  obtain ⟨ps, e1, e2⟩ := TreeRel.rebuild h hd he hi
  unfold paramMean
  rw [hi]
  change ((parameters d none).mapM (fun kv => do
        (.ok (kv.1, ← kv.2.mean axis) : Except Err (Path × Val))) >>= assemble infos) = .ok e
  rw [e1]
  exact e2

end Efax
