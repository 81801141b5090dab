import Verif.Lemmas.Tree2
import Verif.Model.Classes
import Verif.Spec.Flat

/-! # The class table of efax is lawful -/

namespace Efax

open Spec

variable [MachEps]

namespace Cls

theorem ringOk_real (mapped : Bool) (batch : List ℕ) : RingOk Ring.realField mapped batch := by
  simp [RingOk, Ring.realField]

theorem ringOk_min (m s : ℝ) (mapped : Bool) (batch : List ℕ) :
    RingOk (Ring.mkReal (some m) none s) mapped batch := by
  simp [RingOk, Ring.mkReal]

theorem ringOk_max (m : ℝ) (mapped : Bool) (batch : List ℕ) :
    RingOk (Ring.mkReal none (some m)) mapped batch := by
  simp [RingOk, Ring.mkReal]

theorem ringOk_unit (mapped : Bool) (batch : List ℕ) :
    RingOk (Ring.mkReal (some 0) (some 1)) mapped batch := by
  have h1 := MachEps.pos
  have h2 := MachEps.lt
  simp only [RingOk, Ring.mkReal, if_true, Option.map_some, Option.mem_def, Option.some.injEq,
    forall_eq', Ring.openMin, Ring.openMax, copysign]
  intro _
  rw [if_pos le_rfl, if_neg (by norm_num)]
  rw [max_lt_iff, lt_min_iff, lt_min_iff]
  refine ⟨⟨?_, ?_⟩, ?_, ?_⟩ <;> linarith

theorem ringOk_complex (mapped : Bool) (batch : List ℕ) :
    RingOk Ring.complexField mapped batch := by
  simp [RingOk, Ring.complexField, IsBound, boundVal, Arr.full, Arr.ofFn, inB]

/-- The variable parameters have usable supports. -/
theorem supOk (c : Cls) {f : Field} (h : f ∈ varFields c) (mapped : Bool) (batch : List ℕ) :
    SupOk f.support mapped batch := by
  have hr := ringOk_real mapped batch
  have hm := fun m s => ringOk_min m s mapped batch
  have hM := fun m => ringOk_max m mapped batch
  have hu := ringOk_unit mapped batch
  have hc := ringOk_complex mapped batch
  obtain ⟨h1, h2⟩ := List.mem_filter.1 h
  have h1 : f ∈ Cls.fields c := h1
  cases c <;> simp only [Cls.fields, List.mem_cons, List.not_mem_nil, or_false] at h1 <;>
    (try rcases h1 with rfl | rfl | rfl) <;> (try rcases h1 with rfl | rfl) <;> (try subst h1) <;>
    simp_all [SupOk, Support.ring, Ring.negativeSupport, Ring.positiveSupport]

/-- `adjust_support` returns the declared support except for `pseudo_precision` of
`ComplexNormalNP`. -/
theorem adjust_eq {c : Cls} {f : Field} (h : f ∈ Cls.fields c) (kw : Dict String Val)
    (hn : ¬(c = complexNormalNP ∧ f.name = "pseudo_precision")) :
    adjust c f.name kw = .ok f.support := by
  rw [adjust, if_neg hn]
  have hnd : ((Cls.fields c).map Field.name).Nodup := ClassTable.names_nodup c
  rw [Dict.ofList_eq (by simpa [List.map_map, Function.comp_def] using hnd), Dict.get,
    Dict.get?_of_mem (v := f.support)]
  · simpa [Dict.keys, List.map_map, Function.comp_def] using hnd
  · exact List.mem_map.2 ⟨f, h, rfl⟩

theorem adjust_pseudo {f : Field} (h : f ∈ Cls.fields complexNormalNP)
    (hf : f.name = "pseudo_precision") : f = ⟨"pseudo_precision", .scalar Ring.complexField, false⟩ := by
  simp only [Cls.fields, List.mem_cons, List.not_mem_nil, or_false] at h
  rcases h with rfl | rfl | rfl
  · simp at hf
  · simp at hf
  · rfl

end Cls

open Cls in
instance : LawfulTable Cls where
  adjust_size := fun c f kw s hf h d => by
    by_cases hn : c = complexNormalNP ∧ f.name = "pseudo_precision"
    · obtain ⟨rfl, hn⟩ := hn
      have := adjust_pseudo hf hn
      subst this
      have h : adjust complexNormalNP "pseudo_precision" kw = .ok s := h
      rw [adjust, if_pos ⟨rfl, rfl⟩] at h
      cases hk : kw.get? "negative_precision" with
      | none => rw [hk] at h; cases h
      | some v =>
        cases v with
        | real a => rw [hk] at h; cases h; exact ⟨rfl, rfl⟩
        | complex a => rw [hk] at h; cases h
        | bool a => rw [hk] at h; cases h
        | int a => rw [hk] at h; cases h
    · have h : adjust c f.name kw = .ok s := h
      rw [adjust_eq hf kw hn] at h
      cases h
      exact ⟨rfl, rfl⟩
  adjust_ok := fun c pre f post hv mapped d batch vs hvs => by
    have hmem : f ∈ varFields c := by rw [hv]; simp
    have hf : f ∈ Cls.fields c := (List.mem_filter.1 hmem).1
    by_cases hn : c = complexNormalNP ∧ f.name = "pseudo_precision"
    · obtain ⟨rfl, hn⟩ := hn
      have := adjust_pseudo hf hn
      subst this
      have hvar : varFields complexNormalNP = Cls.fields complexNormalNP := by
        simp only [varFields]
        change (Cls.fields complexNormalNP).filter _ = _
        simp [Cls.fields]
      rw [hvar] at hv
      simp only [Cls.fields] at hv
      have hpre : pre = [⟨"mean_times_precision", .scalar Ring.complexField, false⟩,
          ⟨"negative_precision", .scalar (Ring.mkReal none (some 0)), false⟩] := by
        rcases pre with _ | ⟨a, _ | ⟨b, _ | ⟨e, pre⟩⟩⟩ <;> simp_all
      subst hpre
      obtain ⟨v1, r1, _, hvs1, rfl⟩ := List.forall₂_cons_left_iff.1 hvs
      obtain ⟨v2, r2, hl2, hvs2, rfl⟩ := List.forall₂_cons_left_iff.1 hvs1
      rw [List.forall₂_nil_left_iff] at hvs2
      subst hvs2
      have hl2 : InRing (Ring.mkReal none (some 0)) mapped [] batch v2 := hl2
      obtain ⟨hs2, hl2⟩ := hl2
      cases v2 with
      | real a =>
        refine ⟨.scalar (.complex (Arr.full [] 0) (some (a.map fun x => |-x|))), ?_, ?_, ?_, ?_,
          fun _ => trivial⟩
        · change adjust complexNormalNP "pseudo_precision" _ = _
          rw [adjust, if_pos ⟨rfl, rfl⟩]
          rfl
        · have hs : a.rshape = batch := hs2
          intro hm
          have hl2 := hl2 hm
          refine ⟨.inl rfl, ?_, fun j hj => ⟨?_, ?_⟩⟩
          · intro M hM
            cases hM
            exact .inr hs
          · simp [boundVal, Arr.full, Arr.ofFn, inB]
          · intro M hM
            cases hM
            have key : ∀ j, inB batch j = true → 0 < (a.map fun x => |-x|).get j := by
              intro j hj
              rw [Arr.map_get (by rw [hs]; exact hj)]
              have h3 := (hl2 j hj).2 (Ring.openMax 0) (by simp)
              have h4 : Ring.openMax 0 ≤ -MachEps.eps := by
                rw [Ring.openMax]; exact (min_le_left _ _).trans (by simp)
              have := MachEps.pos
              rw [abs_neg, abs_pos]
              linarith [h3, h4]
            unfold boundVal
            split_ifs with h0
            · refine key [] ?_
              rw [Arr.map_rshape, hs] at h0
              rw [h0]; rfl
            · exact key j hj
        · rintro v ⟨h1, h2⟩
          refine ⟨h1, ?_⟩
          cases v with
          | complex b =>
            intro hm
            obtain ⟨h3, h4, h5⟩ := h2 hm
            refine ⟨h3, by simp, fun i j hi hj => ⟨(h5 i j hi hj).1, (h5 i j hi hj).2.1, by simp⟩⟩
          | real b => exact h2
          | bool b => exact h2
          | int b => exact h2
        · rintro v ⟨h1, h2⟩
          refine ⟨h1, ?_⟩
          cases v with
          | complex b => exact fun h => absurd h (by simp)
          | real b => exact h2
          | bool b => exact h2
          | int b => exact h2
      | complex a => exact hl2.elim
      | bool a => exact hl2.elim
      | int a => exact hl2.elim
    · exact ⟨f.support, adjust_eq hf _ hn, supOk c hmem mapped batch, fun v h => h, fun v h => h,
        fun h => h⟩
  dims_stable := fun c d batch vals vals' hd hl h => by
    have hd : Cls.dimensions c vals = .ok d := hd
    change Cls.dimensions c vals' = .ok d
    replace hl : vals'.length = (Cls.fields c).length := hl
    replace h : ∀ fv ∈ (((Cls.fields c).zip vals').filter fun fv => !fv.1.fixed),
      fv.2.rshape = fv.1.support.rshape d ++ batch := h
    unfold Cls.dimensions at hd ⊢
    cases hm : c.isMultidimensional with
    | false => rw [hm] at hd; exact hd
    | true =>
      rw [if_pos rfl]
      cases vals' with
      | nil =>
        exfalso
        clear * - hl hm
        cases c <;> simp [Cls.fields, Cls.isMultidimensional] at hl hm
      | cons v vals' =>
        have key : ∃ t, v.rshape = d :: t := by
          clear * - h hm
          cases c <;> simp_all [Cls.fields, Cls.isMultidimensional, Support.rshape]
        obtain ⟨t, ht⟩ := key
        simp only [Val.lastDim, ht]

end Efax
