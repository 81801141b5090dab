import Verif.Lemmas.Diagonal
import Verif.Spec.Fisher
import Mathlib.Algebra.BigOperators.Fin
import Mathlib.Algebra.BigOperators.Intervals

/-! # Sums over the parameters of a distribution and over its flat vector -/

namespace Efax

open Spec ClassTable

section

variable {α : Type} [Inhabited α] [AddCommMonoid α]

theorem triu_sum (d : ℕ) (g : ℕ → ℕ → α) : ((triu d).map fun rc => g rc.1 rc.2).sum =
    ∑ r : Fin d, ∑ c : Fin d, if r.1 ≤ c.1 then g r.1 c.1 else 0 := by
  rw [← List.sum_toFinset _ (triu_nodup d)]
  have h : (triu d).toFinset = (Finset.range d ×ˢ Finset.range d).filter fun rc => rc.1 ≤ rc.2 := by
    ext ⟨r, c⟩
    simp only [List.mem_toFinset, mem_triu, Finset.mem_filter, Finset.mem_product, Finset.mem_range]
    omega
  rw [h, Finset.sum_filter, Finset.sum_product, Finset.sum_range]
  exact Finset.sum_congr rfl fun r _ => Finset.sum_range _

theorem gather_sum {b c : Arr α} {d : ℕ} (hb : b.rshape = [d, d]) (h : symGather b = .ok c) :
    ∃ k, c.rshape = [k] ∧ ∑ i ∈ Finset.range k, c.get [i] = entrySum b := by
  simp only [symGather, hb, if_true] at h
  obtain ⟨x, h1, h2, h3⟩ := gather_ok hb (triu d)
  obtain rfl : c = x := Except.ok.inj (h.symm.trans h1)
  refine ⟨_, h2, ?_⟩
  rw [Finset.sum_range]
  have e : ∀ i : Fin (triu d).length, c.get [i.1] = (fun rc : ℕ × ℕ => b.get [rc.2, rc.1]) (triu d)[i] :=
    fun i => h3 i.1 i.2 [] rfl
  rw [Finset.sum_congr rfl fun i _ => e i]
  refine (Fin.sum_univ_fun_getElem (triu d) fun rc => b.get [rc.2, rc.1]).trans
    ((triu_sum d fun r c => b.get [c, r]).trans ?_)
  simp only [entrySum, hb]

theorem vector_sum {b : Arr α} {d : ℕ} (hb : b.rshape = [d]) :
    ∑ i ∈ Finset.range d, b.get [i] = entrySum b := by
  simp only [entrySum, hb, Finset.sum_range]

theorem scalar_sum {b : Arr α} (hb : b.rshape = []) :
    b.newaxis.rshape = [1] ∧ ∑ i ∈ Finset.range 1, b.newaxis.get [i] = entrySum b := by
  have h : b.newaxis.rshape = [1] := by simp [Arr.newaxis, Arr.ofFn, hb]
  refine ⟨h, ?_⟩
  rw [Finset.sum_range_one]
  simp only [entrySum, hb]
  rw [Arr.newaxis, Arr.ofFn_get (by rw [hb]; rfl)]
  rfl

end

/-- The sum of the flat vector of a complex vector. -/
theorem concat_sum {c : Arr ℂ} {a : Arr ℝ} {k : ℕ} (hc : c.rshape = [k]) (h : Ring.concatReIm c = .ok a) :
    ∃ n, a.rshape = [n] ∧ ∑ i ∈ Finset.range n, a.get [i] =
      (∑ i ∈ Finset.range k, c.get [i]).re + (∑ i ∈ Finset.range k, c.get [i]).im := by
  obtain ⟨x, h1, h2, h3, h4⟩ := Arr.append_ok (a := c.map Complex.re) (b := c.map Complex.im) (n := k) (m := k)
    (rs := []) hc hc
  obtain rfl : a = x := Except.ok.inj (h.symm.trans h1)
  have hi : ∀ i ∈ Finset.range k, inB c.rshape [i] = true := fun i hi => by
    rw [hc]
    exact (inB_cons ..).2 ⟨Finset.mem_range.1 hi, rfl⟩
  refine ⟨_, h2, ?_⟩
  rw [Finset.sum_range_add, Complex.re_sum, Complex.im_sum]
  congr 1
  · refine Finset.sum_congr rfl fun i h => ?_
    rw [h3 i [] (Finset.mem_range.1 h) rfl, Arr.map_get (hi i h)]
  · refine Finset.sum_congr rfl fun i h => ?_
    rw [h4 i [] (Finset.mem_range.1 h) rfl, Arr.map_get (hi i h)]

/-- The sum of the flat vector of a parameter. -/
theorem PlainSupport.sum {s : Support} (hs : PlainSupport s) {d : ℕ} {v : Val} (h : Lies s false d [] v)
    {a : Arr ℝ} (ha : s.flattened false v = .ok a) :
    ∃ n, a.rshape = [n] ∧ ∑ i ∈ Finset.range n, a.get [i] = amount (upperSum v) := by
  have real : ∀ {b c : Arr ℝ} {k : ℕ}, c.rshape = [k] →
      ∑ i ∈ Finset.range k, c.get [i] = entrySum b → (.ok c : Except Err (Arr ℝ)) = .ok a →
      ∃ n, a.rshape = [n] ∧ ∑ i ∈ Finset.range n, a.get [i] = amount (upperSum (.real b)) := by
    intro b c k h1 h2 h3
    cases h3
    exact ⟨k, h1, h2⟩
  have cplx : ∀ {b c : Arr ℂ} {k : ℕ}, c.rshape = [k] →
      ∑ i ∈ Finset.range k, c.get [i] = entrySum b → Ring.concatReIm c = .ok a →
      ∃ n, a.rshape = [n] ∧ ∑ i ∈ Finset.range n, a.get [i] = amount (upperSum (.complex b)) := by
    intro b c k h1 h2 h3
    obtain ⟨n, h4, h5⟩ := concat_sum h1 h3
    exact ⟨n, h4, h5.trans (by rw [h2]; rfl)⟩
  match s, hs, v, h with
  | .scalar (.real _ _ _), _, .real b, h => exact real (scalar_sum h.1).1 (scalar_sum h.1).2 ha
  | .scalar (.complex _ _), _, .complex b, h => exact cplx (scalar_sum h.1).1 (scalar_sum h.1).2 ha
  | .vector (.real _ _ _), _, .real b, h => exact real h.1 (vector_sum h.1) ha
  | .vector (.complex _ _), _, .complex b, h => exact cplx h.1 (vector_sum h.1) ha
  | .symmetric (.real _ _ _) _ _ _, _, .real b, h =>
    simp only [Support.flattened, Val.liftE] at ha
    cases hc : symGather b with
    | error e => rw [hc] at ha; cases ha
    | ok c =>
      rw [hc] at ha
      obtain ⟨k, h1, h2⟩ := gather_sum h.1 hc
      exact real h1 h2 ha
  | .symmetric (.complex _ _) _ _ _, _, .complex b, h =>
    simp only [Support.flattened, Val.liftE] at ha
    cases hc : symGather b with
    | error e => rw [hc] at ha; cases ha
    | ok c =>
      rw [hc] at ha
      obtain ⟨k, h1, h2⟩ := gather_sum h.1 hc
      exact cplx h1 h2 ha

section

variable {C : Type} [ClassTable C]

/-- The sum over the parameters of one node. -/
theorem fields_sum {y : Arr ℝ} {c : C} (hp : PlainCls c) {d : ℕ} :
    ∀ {l : List (Field × Val)} {kw kw' : Dict String Val} {A : List (Arr ℝ)} {k m : ℕ},
    (∀ fv ∈ l, fv.1 ∈ varFields c) →
    EachField (fun s v => Lies s false d [] v) c l kw → kw' = kw →
    (l.map fun fv => fv.1.name).Nodup → (∀ fv ∈ l, fv.1.name ∉ kw.keys) →
    makeFlatFields false c (named l) kw' = .ok A → Blocks [] y k A m →
    ∑ i ∈ Finset.Ico k m, y.get [i] = (l.map fun fv => amount (upperSum fv.2)).sum
  | [], kw, kw', A, k, m, _, _, _, _, _, hA, bA => by
    cases hA; cases bA
    simp
  | (f, v) :: l, kw, _, A, k, m, hv, h, rfl, hn, hk, hA, bA => by
    obtain ⟨⟨s, h1, h2⟩, h3⟩ := h
    have e : named ((f, v) :: l) = (f.name, v) :: named l := rfl
    rw [e] at hA
    simp only [makeFlatFields, h1, bind, Except.bind] at hA
    cases ha : s.flattened false v with
    | error e => simp [ha] at hA
    | ok a =>
      simp only [ha] at hA
      cases hA' : makeFlatFields false c (named l) (kw.set f.name v) with
      | error e => simp [hA'] at hA
      | ok A' =>
        simp only [hA', Except.ok.injEq] at hA
        subst hA
        have hset : Dict.set kw f.name v = kw ++ [(f.name, v)] :=
          Dict.set_of_not_mem _ _ _ (hk _ List.mem_cons_self)
        obtain ⟨k1, a1, a2, a3⟩ := bA
        rw [List.map_cons, List.nodup_cons] at hn
        have r2 := fields_sum hp (fun fv h => hv fv (List.mem_cons_of_mem _ h)) h3 hset hn.2 (fun fv hfv => by
          simp only [Dict.keys, List.map_append, List.map_cons, List.map_nil, List.mem_append,
            List.mem_singleton, not_or]
          refine ⟨hk fv (List.mem_cons_of_mem _ hfv), fun e => hn.1 (e ▸ List.mem_map.2 ⟨fv, hfv, rfl⟩)⟩)
          hA' a3
        obtain ⟨n, b1, b2⟩ := (hp f (hv _ List.mem_cons_self) kw s h1).2.sum h2 ha
        obtain rfl : k1 = n := by rw [a1] at b1; exact (List.cons.inj b1).1
        rw [List.map_cons, List.sum_cons, ← r2, ← b2,
          ← Finset.sum_Ico_consecutive (fun i => y.get [i]) (Nat.le_add_right k k1) a3.le]
        congr 1
        rw [Finset.sum_Ico_eq_sum_range, Nat.add_sub_cancel_left]
        exact Finset.sum_congr rfl fun i hi => a2 i [] (Finset.mem_range.1 hi) rfl

theorem nodeParams_sum (c : C) (vals : List Val) (base : Path) (g : Val → ℝ) :
    (((nodeParams (some false) c vals).map fun nv => (base ++ [nv.1], nv.2)).map fun kv => g kv.2.1).sum =
      ((varPairs c vals).map fun fv => g fv.2).sum := by
  have e : ∀ f : Field, keep (some false) f = !f.fixed := fun f => by
    cases h : f.fixed <;> simp [keep, h]
  simp only [nodeParams, varPairs, List.map_map, Function.comp_def, e]

mutual
/-- The sum over all variable parameters is the sum over the flat vector. -/
theorem Dist.walk_sum {y : Arr ℝ} : {p : Dist C} → {base : Path} → {A : List (List (Arr ℝ))} → {k m : ℕ} →
    (∀ k c v s, SubAt p k (.mk c v s) → PlainCls c) → LiesAll false [] p →
    p.walk (makeFlat false) base = .ok A → Blocks [] y k A.flatten m →
    ∑ i ∈ Finset.Ico k m, y.get [i] =
      ((p.paramList (some false) base).map fun kv => amount (upperSum kv.2.1)).sum
  | .mk c v s, base, A, k, m, hp, hl, hA, bA => by
    obtain ⟨A, a, h1, h2, rfl⟩ := Dist.walk_eq_ok hA
    rw [List.flatten_append, Blocks.append_iff, List.flatten_singleton] at bA
    obtain ⟨n1, bA, bA'⟩ := bA
    have r1 := Subs.walk_sum (fun n d h k c v s hs => hp (n :: k) c v s (.sub h hs)) hl.2 h1 bA
    obtain ⟨d, hd, hE⟩ := hl.1
    rw [makeFlat_eq] at h2
    have r2 := fields_sum (hp [] c v s (.here _)) (fun fv h => by
        simp only [varPairs, List.mem_filter] at h
        simp only [varFields, List.mem_filter]
        exact ⟨(List.of_mem_zip h.1).1, h.2⟩) hE rfl (varPairs_names_nodup c v)
      (fun _ _ => by simp [Dict.keys]) h2 bA'
    rw [Dist.paramList, List.map_append, List.sum_append,
      nodeParams_sum c v base fun v => amount (upperSum v), ← r1, ← r2, add_comm,
      Finset.sum_Ico_consecutive _ bA.le bA'.le]
theorem Subs.walk_sum {y : Arr ℝ} : {p : Subs C} → {base : Path} → {A : List (List (Arr ℝ))} → {k m : ℕ} →
    (∀ n d, (n, d) ∈ p.toList → ∀ k c v s, SubAt d k (.mk c v s) → PlainCls c) →
    EachParams (fun d s v => Lies s false d [] v) p →
    p.walk (makeFlat false) base = .ok A → Blocks [] y k A.flatten m →
    ∑ i ∈ Finset.Ico k m, y.get [i] =
      ((p.paramList (some false) base).map fun kv => amount (upperSum kv.2.1)).sum
  | .nil, base, A, k, m, hp, hl, hA, bA => by
    cases hA; cases bA
    simp [Subs.paramList]
  | .cons nm d r, base, A, k, m, hp, hl, hA, bA => by
    obtain ⟨A, a, h1, h2, rfl⟩ := Subs.walk_eq_ok hA
    rw [List.flatten_append, Blocks.append_iff] at bA
    obtain ⟨n1, bA, bA'⟩ := bA
    have r1 := Dist.walk_sum (hp nm d List.mem_cons_self) hl.1 h1 bA
    have r2 := Subs.walk_sum (fun n d h => hp n d (List.mem_cons_of_mem _ h)) hl.2 h2 bA'
    rw [Subs.paramList, List.map_append, List.sum_append, ← r1, ← r2,
      Finset.sum_Ico_consecutive _ bA.le bA'.le]
end

theorem EachParams.mem {R : ℕ → Support → Val → Prop} : {s : Subs C} → EachParams R s → {n : String} →
    {d : Dist C} → (n, d) ∈ s.toList → EachParam R d
  | .cons _ _ _, h, _, _, hm => by
    rcases List.mem_cons.1 hm with e | hm
    · cases e
      exact h.1
    · exact EachParams.mem h.2 hm

/-- What holds for the variable parameters of all nodes. -/
theorem ParamAt.each {R : ℕ → Support → Val → Prop} {p : Dist C} {k : Path} {f : Field} {v : Val}
    (h : ParamAt p k f v) : (hl : EachParam R p) → f.fixed = false →
    ∃ k' c v' s' d kw s, SubAt p k' (.mk c v' s') ∧ f ∈ varFields c ∧ adjust c f.name kw = .ok s ∧ R d s v := by
  induction h with
  | @here c vals subs i f v hf hv =>
    intro hl hx
    obtain ⟨d, hd, hE⟩ := hl.1
    have hm : (f, v) ∈ varPairs c vals := by
      simp only [varPairs, List.mem_filter, hx, Bool.not_false, and_true]
      exact List.mem_iff_getElem?.2 ⟨i, by rw [List.getElem?_zip_eq_some]; exact ⟨hf, hv⟩⟩
    obtain ⟨kw, s, h1, h2⟩ := EachField.mem hE hm
    refine ⟨[], c, vals, subs, d, kw, s, .here _, ?_, h1, h2⟩
    simp only [varFields, List.mem_filter, hx, Bool.not_false, and_true]
    exact List.mem_of_getElem? hf
  | @sub c vals subs n d k f v hm _ ih =>
    intro hl hx
    obtain ⟨k', c', v', s', d', kw, s, h1, h2⟩ := ih (EachParams.mem hl.2 hm) hx
    exact ⟨n :: k', c', v', s', d', kw, s, .sub hm h1, h2⟩

/-- The node of a parameter. -/
theorem ParamAt.node {p : Dist C} {k : Path} {f : Field} {v : Val} (h : ParamAt p k f v) :
    ∃ k' c v' s', SubAt p k' (.mk c v' s') ∧ f ∈ fields c := by
  induction h with
  | @here c vals subs i f v hf hv => exact ⟨[], c, vals, subs, .here _, List.mem_of_getElem? hf⟩
  | @sub c vals subs n d k f v hm _ ih =>
    obtain ⟨k', c', v', s', h1, h2⟩ := ih
    exact ⟨n :: k', c', v', s', .sub hm h1, h2⟩

theorem foldlM_set {κ ν σ : Type} [DecidableEq κ] {F : σ → Except Err ν} : ∀ {l : List (κ × σ)} {acc : Dict κ ν},
    (l.map Prod.fst).Nodup → (∀ kv ∈ l, ∃ x, F kv.2 = .ok x) →
    ∃ out, l.foldlM (fun acc kv => do .ok (Dict.set acc kv.1 (← F kv.2))) acc = .ok out ∧
      (∀ kv ∈ l, ∀ x, F kv.2 = .ok x → out.get? kv.1 = some x) ∧
      ∀ k, k ∉ l.map Prod.fst → out.get? k = acc.get? k
  | [], acc, _, _ => ⟨acc, rfl, fun _ h => absurd h List.not_mem_nil, fun _ _ => rfl⟩
  | (k, s) :: l, acc, hn, h => by
    obtain ⟨x, hx⟩ := h (k, s) List.mem_cons_self
    rw [List.map_cons, List.nodup_cons] at hn
    obtain ⟨out, h1, h2, h3⟩ := foldlM_set (acc := Dict.set acc k x) hn.2
      fun kv hm => h kv (List.mem_cons_of_mem _ hm)
    refine ⟨out, ?_, fun kv hm y hy => ?_, fun k' hk' => ?_⟩
    · have hx : F s = .ok x := hx
      simp only [List.foldlM_cons, hx, bind, Except.bind] at h1 ⊢
      exact h1
    · rcases List.mem_cons.1 hm with e | hm
      · subst e
        obtain rfl : x = y := Except.ok.inj (hx.symm.trans hy)
        rw [h3 k hn.1, Dict.get?_set, if_pos rfl]
      · exact h2 kv hm y hy
    · rw [List.map_cons, List.mem_cons, not_or] at hk'
      rw [h3 k' hk'.2, Dict.get?_set, if_neg (Ne.symm hk'.1)]

end

end Efax
