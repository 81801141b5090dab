import Verif.Lemmas.ReachSupport
import Verif.Lemmas.Generate2

/-!
# Random streams that give a chosen distribution
-/

namespace Efax

open Spec ClassTable

variable {C : Type} [ClassTable C] [MachEps]

/-- A value that a support with a spread can return. -/
def Attained (batch : List ℕ) (d : ℕ) (t : Support) (v : Val) : Prop := Spreads t batch ∧ Reach t d batch v

theorem generateFields_reach {info : Info C} {batch : List ℕ} (l pre : List (Field × Val))
    (hf : fields info.cls = pre.map Prod.fst ++ l.map Prod.fst)
    (h : EachField (Attained batch info.dims) info.cls l (named pre)) :
    ∃ s : List (Arr ℝ), ∀ (ps : Dict Path Val) (u : List (Arr ℝ)), ∃ ps',
      generateFields script batch info (l.map fun fv => fv.1.name) (named pre) ps (s ++ u) = .ok (ps', u) ∧
      (∀ fv ∈ l, ps'.get? (info.path ++ [fv.1.name]) = some fv.2) ∧
      ∀ k, (∀ fv ∈ l, k ≠ info.path ++ [fv.1.name]) → ps'.get? k = ps.get? k := by
  induction l generalizing pre with
  | nil => exact ⟨[], fun ps u => ⟨ps, rfl, by simp, fun _ _ => rfl⟩⟩
  | cons fv l ih =>
    obtain ⟨f, v⟩ := fv
    obtain ⟨⟨t, h1, h2, h3⟩, h4⟩ := h
    obtain ⟨s1, h5⟩ := Support.generate_reach h2 h3
    have hnd := names_nodup info.cls
    rw [hf, List.map_append, List.map_cons, List.map_cons, List.nodup_append] at hnd
    have hset : Dict.set (named pre) f.name v = named (pre ++ [(f, v)]) := by
      rw [Dict.set_of_not_mem, named_snoc]
      rw [named_keys]
      intro hm
      exact hnd.2.2 _ hm _ (by simp) rfl
    obtain ⟨s2, h6⟩ := ih (pre ++ [(f, v)]) (by simp [hf]) (by rw [← named_snoc]; exact h4)
    refine ⟨s1 ++ s2, fun ps u => ?_⟩
    obtain ⟨ps', g1, g2, g3⟩ := h6 (ps.set (info.path ++ [f.name]) v) u
    refine ⟨ps', ?_, ?_, ?_⟩
    · simp only [List.map_cons, generateFields, h1, Bind.bind, Except.bind, List.append_assoc]
      rw [show Support.generate t script batch info.dims (s1 ++ (s2 ++ u)) = .ok (v, s2 ++ u) from h5 _]
      simp only [hset]
      exact g1
    · intro fv hfv
      rcases List.mem_cons.1 hfv with rfl | hfv
      · rw [g3 _ ?_, Dict.get?_set, if_pos rfl]
        intro fv' hfv' he
        have he : f.name = fv'.1.name := by simpa using he
        have := hnd.2.1
        rw [List.nodup_cons] at this
        refine this.1 (he ▸ ?_)
        rw [List.map_map]
        exact List.mem_map.2 ⟨fv', hfv', rfl⟩
      · exact g2 fv hfv
    · intro k hk
      rw [g3 k fun fv' hf' => hk fv' (by simp [hf']), Dict.get?_set,
        if_neg fun he => hk (f, v) (by simp) he.symm]

mutual
theorem Dist.generate_reach {batch : List ℕ} {base : Path} : {q : Dist C} →
    {L : List (Info C)} → WF q → q.walk makeInfo base = .ok L → EachValue (Attained batch) q →
    ∃ s : List (Arr ℝ), ∀ (ps : Dict Path Val) (u : List (Arr ℝ)), ∃ ps',
      generateInfos script batch L ps (s ++ u) = .ok (ps', u) ∧
      (∀ kv ∈ q.paramList none base, ps'.get? kv.1 = some kv.2.1) ∧
      ∀ k, ¬ base <+: k → ps'.get? k = ps.get? k
  | .mk c vals subs, L, hw, hL, hv => by
    obtain ⟨A, b, hA, hb, rfl⟩ := Dist.walk_eq_ok hL
    obtain ⟨d, hd, rfl⟩ := makeInfo_eq_ok hb
    obtain ⟨⟨d', hd', hv1⟩, hv2⟩ := hv
    have hd : dimensions c vals = .ok d := hd
    obtain rfl : d = d' := Except.ok.inj (hd.symm.trans hd')
    obtain ⟨s1, a1⟩ := Subs.generate_reach hw.2.2.1 hw.2.2.2 hA hv2
    let info : Info C := ⟨base, c, d, subs.names⟩
    have hfst : ((fields c).zip vals).map Prod.fst = fields c := by
      rw [List.map_fst_zip]
      exact hw.1.ge
    obtain ⟨s2, b1⟩ := generateFields_reach (info := info) (batch := batch) ((fields c).zip vals) []
      (by simp [info, hfst]) hv1
    refine ⟨s1 ++ s2, fun ps u => ?_⟩
    obtain ⟨ps1, a2, a3, a4⟩ := a1 ps (s2 ++ u)
    obtain ⟨ps2, b2, b3, b4⟩ := b1 ps1 u
    refine ⟨ps2, ?_, ?_, ?_⟩
    · rw [List.append_assoc, generateInfos_append a2]
      simp only [generateInfos, Bind.bind, Except.bind, Dist.cls, Dist.subs]
      have : generateFields script batch info (supportOf c none).keys [] ps1 (s2 ++ u) = .ok (ps2, u) := by
        rw [supportOf_none_keys]
        have hn : ((fields c).zip vals).map (fun fv => fv.1.name) = (fields c).map Field.name := by
          rw [← hfst, List.map_map, hfst]; rfl
        rw [← hn]
        exact b2
      rw [show generateFields script batch ⟨base, c, d, subs.names⟩ (supportOf c none).keys [] ps1 (s2 ++ u) =
        .ok (ps2, u) from this]
    · intro kv hkv
      rw [Dist.paramList, List.mem_append, nodeParams_none] at hkv
      rcases hkv with hkv | hkv
      · obtain ⟨nv, hnv, rfl⟩ := List.mem_map.1 hkv
        obtain ⟨fv, hfv, rfl⟩ := List.mem_map.1 hnv
        exact b3 fv hfv
      · by_cases hf : fields c = []
        · rw [b4 kv.1 (by simp [hf])]
          exact a3 kv hkv
        · have : subs = .nil := subs_nil_of_fields hw hf
          rw [this] at hkv
          simp [Subs.paramList] at hkv
    · intro k hk
      rw [b4 k fun f _ he => hk (he ▸ List.prefix_append _ _)]
      exact a4 k fun n _ hn => hk ((List.prefix_append _ _).trans hn)
theorem Subs.generate_reach {batch : List ℕ} {base : Path} : {q : Subs C} →
    {L : List (Info C)} → q.names.Nodup → WFs q → q.walk makeInfo base = .ok L → EachValues (Attained batch) q →
    ∃ s : List (Arr ℝ), ∀ (ps : Dict Path Val) (u : List (Arr ℝ)), ∃ ps',
      generateInfos script batch L ps (s ++ u) = .ok (ps', u) ∧
      (∀ kv ∈ q.paramList none base, ps'.get? kv.1 = some kv.2.1) ∧
      ∀ k, (∀ n ∈ q.names, ¬ base ++ [n] <+: k) → ps'.get? k = ps.get? k
  | .nil, L, _, _, hL, _ => by
    cases hL
    exact ⟨[], fun ps u => ⟨ps, rfl, by simp [Subs.paramList], fun _ _ => rfl⟩⟩
  | .cons n d rest, L, hn, hw, hL, hv => by
    obtain ⟨A, B, hA, hB, rfl⟩ := Subs.walk_eq_ok hL
    simp only [Subs.names, List.nodup_cons] at hn
    obtain ⟨s1, a1⟩ := Dist.generate_reach hw.1 hA hv.1
    obtain ⟨s2, b1⟩ := Subs.generate_reach hn.2 hw.2 hB hv.2
    refine ⟨s1 ++ s2, fun ps u => ?_⟩
    obtain ⟨ps1, a2, a3, a4⟩ := a1 ps (s2 ++ u)
    obtain ⟨ps2, b2, b3, b4⟩ := b1 ps1 u
    refine ⟨ps2, by rw [List.append_assoc, generateInfos_append a2, b2], ?_, ?_⟩
    · intro kv hkv
      rw [Subs.paramList, List.mem_append] at hkv
      rcases hkv with hkv | hkv
      · rw [b4 kv.1 fun m hm hpre => ?_]
        · exact a3 kv hkv
        · exact hn.1 (prefix_snoc_inj hpre (Dist.paramList_prefix hkv).1 ▸ hm)
      · exact b3 kv hkv
    · intro k hk
      rw [b4 k fun m hm => hk m (by simp [Subs.names, hm]), a4 k (hk n (by simp [Subs.names]))]
end

end Efax
