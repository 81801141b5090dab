import Verif.Lemmas.Flat3

/-! # Declared and adjusted supports -/

namespace Efax

open ClassTable Spec

variable {C : Type} [ClassTable C]

theorem pairs_zip (pre : List (Field × Val)) :
    ((pre.map Prod.fst).map Field.name).zip (pre.map Prod.snd) = named pre := by
  induction pre with
  | nil => rfl
  | cons a l ih => simpa [named] using ih

theorem eachField_of_declared [LawfulTable C] {c : C} {d : ℕ} {batch : List ℕ}
    {l pre : List (Field × Val)} (hf : varFields c = pre.map Prod.fst ++ l.map Prod.fst)
    (hpre : ∀ fv ∈ pre, Lies fv.1.support false d batch fv.2)
    (h : ∀ fv ∈ l, Fits fv.1.support false d batch fv.2) :
    EachField (fun s v => Fits s false d batch v) c l (named pre) := by
  induction l generalizing pre with
  | nil => trivial
  | cons a l ih =>
    obtain ⟨f, v⟩ := a
    have hpre2 : List.Forall₂ (fun g v => Lies g.support false d batch v) (pre.map Prod.fst)
        (pre.map Prod.snd) := by
      rw [List.forall₂_map_left_iff, List.forall₂_map_right_iff]
      exact List.forall₂_same.2 hpre
    obtain ⟨s, h1, _, _, h3, _⟩ :=
      LawfulTable.adjust_ok c _ f _ hf false d batch _ hpre2
    rw [pairs_zip] at h1
    refine ⟨⟨s, h1, h3 v (h (f, v) (by simp))⟩, ?_⟩
    rw [named_snoc]
    refine ih (by simp [hf]) (fun fv hfv => ?_) fun fv hfv => h fv (by simp [hfv])
    rcases List.mem_append.1 hfv with hfv | hfv
    · exact hpre fv hfv
    · rw [List.mem_singleton] at hfv
      subst hfv
      exact Support.fits_lies (h _ (by simp))

theorem declared_of_eachField [LawfulTable C] {mapped : Bool} {c : C} {d : ℕ} {batch : List ℕ}
    {l pre : List (Field × Val)} (hf : varFields c = pre.map Prod.fst ++ l.map Prod.fst)
    (hpre : ∀ fv ∈ pre, Lies fv.1.support mapped d batch fv.2)
    (h : EachField (fun s v => Lies s mapped d batch v) c l (named pre)) :
    ∀ fv ∈ l, Lies fv.1.support mapped d batch fv.2 := by
  induction l generalizing pre with
  | nil => simp
  | cons a l ih =>
    obtain ⟨f, v⟩ := a
    have hpre2 : List.Forall₂ (fun g v => Lies g.support mapped d batch v) (pre.map Prod.fst)
        (pre.map Prod.snd) := by
      rw [List.forall₂_map_left_iff, List.forall₂_map_right_iff]
      exact List.forall₂_same.2 hpre
    obtain ⟨s, h1, _, h2, _, _⟩ :=
      LawfulTable.adjust_ok c _ f _ hf mapped d batch _ hpre2
    rw [pairs_zip] at h1
    obtain ⟨⟨s', g1, g2⟩, g3⟩ := h
    obtain rfl : s = s' := by
      have : adjust c f.name (named pre) = .ok s' := g1
      rw [h1] at this
      exact Except.ok.inj this
    have hv := h2 v g2
    rw [named_snoc] at g3
    have hpre' : ∀ fv ∈ pre ++ [(f, v)], Lies fv.1.support mapped d batch fv.2 := by
      intro fv hfv
      rcases List.mem_append.1 hfv with hfv | hfv
      · exact hpre fv hfv
      · rw [List.mem_singleton] at hfv
        subst hfv
        exact hv
    intro fv hfv
    rcases List.mem_cons.1 hfv with rfl | hfv
    · exact hv
    · exact ih (by simp [hf]) hpre' g3 fv hfv

mutual
theorem fitsAll_of_declared [LawfulTable C] {batch : List ℕ} : {p : Dist C} → WF p →
    EachDeclared (fun d s v => Fits s false d batch v) p → FitsAll false batch p
  | .mk c vals subs, hw, ⟨⟨d, h1, h2⟩, h3⟩ =>
    ⟨⟨d, h1, eachField_of_declared (pre := []) (by simp [varPairs_fst hw.1]) (by simp) h2⟩,
      fitsAlls_of_declared hw.2.2.2 h3⟩
theorem fitsAlls_of_declared [LawfulTable C] {batch : List ℕ} : {s : Subs C} → WFs s →
    EachDeclareds (fun d s v => Fits s false d batch v) s →
    EachParams (fun d s v => Fits s false d batch v) s
  | .nil, _, _ => trivial
  | .cons _ _ _, hw, h => ⟨fitsAll_of_declared hw.1 h.1, fitsAlls_of_declared hw.2 h.2⟩
end

mutual
theorem declared_of_liesAll [LawfulTable C] {mapped : Bool} {batch : List ℕ} : {p : Dist C} → WF p →
    LiesAll mapped batch p → EachDeclared (fun d s v => Lies s mapped d batch v) p
  | .mk c vals subs, hw, ⟨⟨d, h1, h2⟩, h3⟩ =>
    ⟨⟨d, h1, declared_of_eachField (pre := []) (by simp [varPairs_fst hw.1]) (by simp) h2⟩,
      declareds_of_liesAll hw.2.2.2 h3⟩
theorem declareds_of_liesAll [LawfulTable C] {mapped : Bool} {batch : List ℕ} : {s : Subs C} →
    WFs s → EachParams (fun d s v => Lies s mapped d batch v) s →
    EachDeclareds (fun d s v => Lies s mapped d batch v) s
  | .nil, _, _ => trivial
  | .cons _ _ _, hw, h => ⟨declared_of_liesAll hw.1 h.1, declareds_of_liesAll hw.2 h.2⟩
end

theorem Spec.EachDeclareds.mem {R : ℕ → Support → Val → Prop} {s : Subs C} (h : EachDeclareds R s)
    {n : String} {d : Dist C} (hm : (n, d) ∈ s.toList) : EachDeclared R d := by
  induction s using Subs.rec (motive_1 := fun _ => True) with
  | mk => trivial
  | nil => simp [Subs.toList] at hm
  | cons m e r _ ih =>
    rcases List.mem_cons.1 hm with hm | hm
    · cases hm; exact h.1
    · exact ih h.2 hm

/-- What `EachDeclared` says about the parameter at a path. -/
theorem Spec.EachDeclared.at {R : ℕ → Support → Val → Prop} {p : Dist C} (h : EachDeclared R p)
    {k : Path} {f : Field} {v : Val} (hp : ParamAt p k f v) (hf : f.fixed = false) :
    ∃ d, R d f.support v := by
  induction hp with
  | @here c vals subs i f v h1 h2 =>
    obtain ⟨⟨d, _, h3⟩, _⟩ := h
    refine ⟨d, h3 (f, v) (List.mem_filter.2 ⟨List.mem_iff_getElem?.2 ⟨i, ?_⟩, by simp [hf]⟩)⟩
    rw [List.getElem?_zip_eq_some]
    exact ⟨h1, h2⟩
  | @sub c vals subs n d k f v hm hp ih => exact ih (h.2.mem hm) hf

end Efax
