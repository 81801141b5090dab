import Verif.Model.Scipy.Joint
import Verif.Spec.Sequence
import Verif.Lemmas.Calc
import Verif.Props.Mappings
import Verif.Props.Textbook
import Mathlib.Data.List.Dedup

/-!
# C61: joint distributions of the test oracle
-/

namespace Efax

open Scipy Spec

variable {X S G : Type} {subs : Dict String (Part X S G)} {z : Dict String X} {rs : List ℕ}

theorem mem_keys_get? {κ ν : Type} [DecidableEq κ] : ∀ {d : Dict κ ν} {k : κ} {v : ν},
    (d.map Prod.fst).Nodup → ((k, v) ∈ d ↔ d.get? k = some v)
  | [], k, v, _ => by simp [Dict.get?]
  | (k', v') :: d, k, v, h => by
    rw [List.map_cons, List.nodup_cons] at h
    by_cases hk : k' = k
    · subst hk
      simp only [Dict.get?, if_true, List.mem_cons, Prod.mk.injEq, true_and, Option.some.injEq]
      refine ⟨fun h' => h'.elim Eq.symm fun h' => (h.1 (List.mem_map.2 ⟨_, h', rfl⟩)).elim, fun h' => .inl h'.symm⟩
    · simp only [Dict.get?, if_neg hk, List.mem_cons, Prod.mk.injEq, Ne.symm hk, false_and, false_or]
      exact mem_keys_get? h.2

/-- The terms of the product. -/
theorem jointTerms (hs : (subs.map Prod.fst).Nodup) (hz : (z.map Prod.fst).Nodup)
    {k : String} {d : Dict String (Part X S G ⊕ X)}
    (hd : (k, d) ∈ joinMappings [("sub", subs.map fun kv => (kv.1, (.inl kv.2 : Part X S G ⊕ X))),
      ("z", z.map fun kv => (kv.1, .inr kv.2))]) :
    (∀ o x, (k, o) ∈ subs → (k, x) ∈ z → jointTerm d = o.pdf x) ∧
    ((k ∉ subs.map Prod.fst ∨ k ∉ z.map Prod.fst) → jointTerm d = .error .keyError) := by
  obtain ⟨-, -, h3⟩ := C24_join (l := [("sub", subs.map fun kv => (kv.1, (.inl kv.2 : Part X S G ⊕ X))),
      ("z", z.map fun kv => (kv.1, .inr kv.2))]) (by simp) (by
        simp only [List.mem_cons, List.not_mem_nil, or_false]
        rintro fm (rfl | rfl)
        · simpa [List.map_map, Function.comp_def] using hs
        · simpa [List.map_map, Function.comp_def] using hz)
  obtain ⟨hn, hd'⟩ := h3 k d hd
  have hsub : ∀ v, d.get? "sub" = some v ↔ ∃ o, v = .inl o ∧ (k, o) ∈ subs := by
    intro v
    rw [← mem_keys_get? hn, hd']
    simp only [List.mem_cons, Prod.mk.injEq, List.not_mem_nil, or_false, true_and]
    constructor
    · rintro ⟨m, (rfl | ⟨h, -⟩), hm⟩
      · obtain ⟨⟨k', o⟩, ho, he⟩ := List.mem_map.1 hm
        cases he
        exact ⟨o, rfl, ho⟩
      · exact absurd h (by decide)
    · rintro ⟨o, rfl, ho⟩
      exact ⟨_, .inl rfl, List.mem_map.2 ⟨(k, o), ho, rfl⟩⟩
  have hzz : ∀ v, d.get? "z" = some v ↔ ∃ x, v = .inr x ∧ (k, x) ∈ z := by
    intro v
    rw [← mem_keys_get? hn, hd']
    simp only [List.mem_cons, Prod.mk.injEq, List.not_mem_nil, or_false, true_and]
    constructor
    · rintro ⟨m, (⟨h, -⟩ | rfl), hm⟩
      · exact absurd h (by decide)
      · obtain ⟨⟨k', o⟩, ho, he⟩ := List.mem_map.1 hm
        cases he
        exact ⟨o, rfl, ho⟩
    · rintro ⟨o, rfl, ho⟩
      exact ⟨_, .inr rfl, List.mem_map.2 ⟨(k, o), ho, rfl⟩⟩
  constructor
  · intro o x ho hx
    simp only [jointTerm, Dict.get, (hsub _).2 ⟨o, rfl, ho⟩, (hzz _).2 ⟨x, rfl, hx⟩, Bind.bind, Except.bind]
  · intro h
    cases e : d.get? "sub" with
    | none => simp only [jointTerm, Dict.get, e, Bind.bind, Except.bind]
    | some v =>
      obtain ⟨o, rfl, ho⟩ := (hsub v).1 e
      cases e' : d.get? "z" with
      | none => simp only [jointTerm, Dict.get, e, e', Bind.bind, Except.bind]
      | some w =>
        obtain ⟨x, rfl, hx⟩ := (hzz w).1 e'
        rcases h with h | h
        · exact (h (List.mem_map.2 ⟨_, ho, rfl⟩)).elim
        · exact (h (List.mem_map.2 ⟨_, hx, rfl⟩)).elim

theorem foldl_mul_ok {V : Type} {t : V → Calc ℝ} {p : V → List ℕ → ℝ} :
    ∀ (l : List V) (_ : ∀ v ∈ l, t v = Calc.ok (Arr.ofFn rs (p v))) (a : List ℕ → ℝ),
    l.foldl (fun (acc : Calc ℝ) v => acc * t v) (Calc.ok (Arr.ofFn rs a)) =
      Calc.ok (Arr.ofFn rs fun i => a i * (l.map fun v => p v i).prod)
  | [], _, a => by simp
  | v :: l, h, a => by
    have e : (Calc.ok (Arr.ofFn rs a) : Calc ℝ) * t v =
        Calc.ok (Arr.ofFn rs fun i => a i * p v i) := by
      rw [h v (List.mem_cons_self ..)]
      exact Calc.bin_scalars (· * ·) rs a (p v)
    rw [List.foldl_cons, e, foldl_mul_ok l (fun w hw => h w (List.mem_cons_of_mem _ hw))]
    simp only [List.map_cons, List.prod_cons, mul_assoc]

theorem foldl_mul_one {V : Type} {t : V → Calc ℝ} {p : V → List ℕ → ℝ}
    (l : List V) (h : ∀ v ∈ l, t v = Calc.ok (Arr.ofFn rs (p v))) (hl : l ≠ []) :
    l.foldl (fun (acc : Calc ℝ) v => acc * t v) 1 =
      Calc.ok (Arr.ofFn rs fun i => (l.map fun v => p v i).prod) := by
  obtain ⟨v, l, rfl⟩ := List.exists_cons_of_ne_nil hl
  have e : (1 : Calc ℝ) * t v = Calc.ok (Arr.ofFn rs fun i => p v i) := by
    rw [h v (List.mem_cons_self ..)]
    refine (Calc.bin_const_scalars (· * ·) 1 rs (p v)).trans ?_
    simp only [one_mul]
    rfl
  rw [List.foldl_cons, e, foldl_mul_ok l (fun w hw => h w (List.mem_cons_of_mem _ hw))]
  simp only [List.map_cons, List.prod_cons]

/-- The density of a joint distribution at observations of exactly its parts is the product of their
densities, in whatever order the observations are listed. -/
theorem C61_pdf (hs : (subs.map Prod.fst).Nodup) (hz : (z.map Prod.fst).Nodup)
    (hk : ∀ k, k ∈ subs.map Prod.fst ↔ k ∈ z.map Prod.fst) (hne : subs ≠ []) {p : String → List ℕ → ℝ}
    (hp : ∀ k o x, (k, o) ∈ subs → (k, x) ∈ z → o.pdf x = .ok (Arr.ofFn rs (p k))) :
    jointPdf subs z = .ok (Arr.ofFn rs fun i => (subs.map fun kv => p kv.1 i).prod) := by
  set l := [("sub", subs.map fun kv => (kv.1, (.inl kv.2 : Part X S G ⊕ X))),
    ("z", z.map fun kv => (kv.1, .inr kv.2))] with hl
  obtain ⟨h1, h2, -⟩ := C24_join (l := l) (by simp [hl]) (by
        simp only [hl, List.mem_cons, List.not_mem_nil, or_false]
        rintro fm (rfl | rfl)
        · simpa [List.map_map, Function.comp_def] using hs
        · simpa [List.map_map, Function.comp_def] using hz)
  have hmem : ∀ k, k ∈ (joinMappings l).map Prod.fst ↔ k ∈ subs.map Prod.fst := by
    intro k
    rw [h2]
    simp only [hl, List.mem_cons, List.not_mem_nil, or_false, exists_eq_or_imp, exists_eq_left,
      List.map_map]
    have e1 : (Prod.fst ∘ fun kv : String × Part X S G => (kv.1, (.inl kv.2 : Part X S G ⊕ X))) = Prod.fst := rfl
    have e2 : (Prod.fst ∘ fun kv : String × X => (kv.1, (.inr kv.2 : Part X S G ⊕ X))) = Prod.fst := rfl
    rw [e1, e2, ← hk, or_self]
  have hperm : ((joinMappings l).map Prod.fst).Perm (subs.map Prod.fst) :=
    (List.perm_ext_iff_of_nodup h1 hs).2 hmem
  have ht : ∀ kd ∈ joinMappings l, jointTerm kd.2 = .ok (Arr.ofFn rs (p kd.1)) := by
    rintro ⟨k, d⟩ hd
    have hk' : k ∈ subs.map Prod.fst := (hmem k).1 (List.mem_map.2 ⟨_, hd, rfl⟩)
    obtain ⟨⟨k1, o⟩, ho, rfl⟩ := List.mem_map.1 hk'
    obtain ⟨⟨k2, x⟩, hx, e⟩ := List.mem_map.1 ((hk k1).1 hk')
    obtain rfl : k2 = k1 := e
    rw [(jointTerms hs hz hd).1 o x ho hx, hp _ o x ho hx]
  have hne' : joinMappings l ≠ [] := by
    intro h
    have := hperm.length_eq
    rw [h] at this
    exact hne (List.length_eq_zero_iff.1 (by simpa using this.symm))
  have key := foldl_mul_one (rs := rs) (t := fun kd : String × Dict String (Part X S G ⊕ X) => jointTerm kd.2)
    (p := fun kd => p kd.1) (joinMappings l) ht hne'
  rw [jointPdf, Dict.values, List.foldl_map]
  refine Eq.trans key (congrArg Except.ok (congrArg _ (funext fun i => ?_)))
  have := (hperm.map fun k => p k i).prod_eq
  simpa [List.map_map, Function.comp_def] using this

theorem foldl_mul_fail {V : Type} {t : V → Calc ℝ} (l : List V) {e : Err} :
    l.foldl (fun (acc : Calc ℝ) v => acc * t v) (Calc.fail e) = Calc.fail e := by
  induction l with
  | nil => rfl
  | cons v l ih => exact ih

theorem foldl_mul_error {V : Type} {t : V → Calc ℝ} {e : Err} :
    ∀ (l : List V) (_ : ∀ v ∈ l, (∃ c, t v = Calc.ok (Arr.ofFn rs c)) ∨ t v = Calc.fail e)
      (_ : ∃ v ∈ l, t v = Calc.fail e) (a : Calc ℝ) (_ : a = 1 ∨ ∃ c, a = Calc.ok (Arr.ofFn rs c)),
      l.foldl (fun (acc : Calc ℝ) v => acc * t v) a = Calc.fail e
  | [], _, h, _, _ => by simp at h
  | v :: l, h, hv, a, ha => by
    rw [List.foldl_cons]
    rcases h v (List.mem_cons_self ..) with ⟨c, hc⟩ | hc
    · refine foldl_mul_error l (fun w hw => h w (List.mem_cons_of_mem _ hw)) ?_ _ (.inr ?_)
      · obtain ⟨w, hw, he⟩ := hv
        rcases List.mem_cons.1 hw with rfl | hw
        · rw [hc] at he
          cases he
        · exact ⟨w, hw, he⟩
      · rcases ha with rfl | ⟨b, rfl⟩
        · exact ⟨_, by rw [hc]; exact Calc.bin_const_scalars (· * ·) 1 rs c⟩
        · exact ⟨_, by rw [hc]; exact Calc.bin_scalars (· * ·) rs b c⟩
    · have : a * t v = Calc.fail e := by
        rw [hc]
        rcases ha with rfl | ⟨b, rfl⟩ <;> rfl
      rw [this, foldl_mul_fail]

/-- If the names of the observations are not those of the parts, `KeyError` is raised. -/
theorem C61_pdf_keys (hs : (subs.map Prod.fst).Nodup) (hz : (z.map Prod.fst).Nodup)
    (hk : ¬ ∀ k, k ∈ subs.map Prod.fst ↔ k ∈ z.map Prod.fst) {p : String → List ℕ → ℝ}
    (hp : ∀ k o x, (k, o) ∈ subs → (k, x) ∈ z → o.pdf x = .ok (Arr.ofFn rs (p k))) :
    jointPdf subs z = .error .keyError := by
  set l := [("sub", subs.map fun kv => (kv.1, (.inl kv.2 : Part X S G ⊕ X))),
    ("z", z.map fun kv => (kv.1, .inr kv.2))] with hl
  obtain ⟨h1, h2, -⟩ := C24_join (l := l) (by simp [hl]) (by
        simp only [hl, List.mem_cons, List.not_mem_nil, or_false]
        rintro fm (rfl | rfl)
        · simpa [List.map_map, Function.comp_def] using hs
        · simpa [List.map_map, Function.comp_def] using hz)
  have hmem : ∀ k, k ∈ (joinMappings l).map Prod.fst ↔ k ∈ subs.map Prod.fst ∨ k ∈ z.map Prod.fst := by
    intro k
    rw [h2]
    simp only [hl, List.mem_cons, List.not_mem_nil, or_false, exists_eq_or_imp, exists_eq_left,
      List.map_map]
    rfl
  have ht : ∀ kd ∈ joinMappings l, (∃ c, jointTerm kd.2 = Calc.ok (Arr.ofFn rs c)) ∨
      jointTerm kd.2 = Calc.fail .keyError := by
    rintro ⟨k, d⟩ hd
    by_cases h : k ∉ subs.map Prod.fst ∨ k ∉ z.map Prod.fst
    · exact .inr ((jointTerms hs hz hd).2 h)
    · simp only [not_or, not_not] at h
      obtain ⟨⟨k1, o⟩, ho, rfl⟩ := List.mem_map.1 h.1
      obtain ⟨⟨k2, x⟩, hx, e⟩ := List.mem_map.1 h.2
      obtain rfl : k2 = k1 := e
      exact .inl ⟨_, ((jointTerms hs hz hd).1 o x ho hx).trans (hp _ o x ho hx)⟩
  have hv : ∃ kd ∈ joinMappings l, jointTerm kd.2 = Calc.fail .keyError := by
    push_neg at hk
    obtain ⟨k, hk⟩ := hk
    have hk2 : k ∈ subs.map Prod.fst ∨ k ∈ z.map Prod.fst := by tauto
    obtain ⟨⟨k', d⟩, hd, rfl⟩ := List.mem_map.1 ((hmem k).2 hk2)
    exact ⟨_, hd, (jointTerms hs hz hd).2 (by tauto)⟩
  rw [jointPdf, Dict.values, List.foldl_map]
  exact foldl_mul_error (rs := rs)
    (t := fun kd : String × Dict String (Part X S G ⊕ X) => jointTerm kd.2) (joinMappings l) ht hv 1 (.inl rfl)

/-- The draws of a joint distribution are those of its parts in turn, under their names. -/
theorem C61_rvs {size : S} (h : ∀ kv ∈ subs, ∀ g, ∃ x g', kv.2.rvs size g = .ok (x, g')) (g : G) :
    ∃ xs g', jointRvs size subs g = .ok (xs, g') ∧ xs.map Prod.fst = subs.map Prod.fst ∧
      DrawsInTurn (subs.map fun kv => kv.2.rvs size) g (xs.map Prod.snd) g' := by
  induction subs generalizing g with
  | nil => exact ⟨[], g, rfl, rfl, .nil g⟩
  | cons kv subs ih =>
    obtain ⟨x, g₁, h1⟩ := h kv (List.mem_cons_self ..) g
    obtain ⟨xs, g₂, h2, h3, h4⟩ := ih (fun kv hkv => h kv (List.mem_cons_of_mem _ hkv)) g₁
    refine ⟨(kv.1, x) :: xs, g₂, ?_, by simp [h3], .cons h1 h4⟩
    simp only [jointRvs, h1, h2, Bind.bind, Except.bind]

/-- The entropy of a joint distribution is the sum of those of its parts. -/
theorem C61_entropy (hne : subs ≠ []) {e : String → List ℕ → ℝ}
    (h : ∀ kv ∈ subs, kv.2.entropy = .ok (Arr.ofFn rs (e kv.1))) :
    jointEntropy subs = .ok (Arr.ofFn rs fun i => (subs.map fun kv => e kv.1 i).sum) := by
  have hm : subs.values.mapM (fun distribution => distribution.entropy) =
      .ok (subs.map fun kv => Arr.ofFn rs (e kv.1)) := by
    clear hne
    induction subs with
    | nil => rfl
    | cons kv subs ih =>
      have ih := ih fun kv hkv => h kv (List.mem_cons_of_mem _ hkv)
      rw [Dict.values] at ih ⊢
      rw [List.map_cons, List.mapM_cons, h kv (List.mem_cons_self ..), ih]
      rfl
  rw [jointEntropy, hm]
  simp only [Bind.bind, Except.bind]
  obtain ⟨kv, subs, rfl⟩ := List.exists_cons_of_ne_nil hne
  rw [List.map_cons, sumStack, if_pos (by simp [Arr.ofFn])]
  refine congrArg Except.ok (Arr.ext rfl fun i hi => ?_)
  have hi : inB rs i = true := hi
  refine (Arr.ofFn_get hi).trans ((Eq.trans ?_ (Arr.ofFn_get hi).symm))
  simp only [List.map_cons, List.map_map, Function.comp_def, Arr.ofFn_get hi]

/-- The replacement counts trials; at one more than the number of failures it has the density of the
geometric family, with the parameter to which the test-suite translates. -/
theorem C61_geometric {q : ℝ} (hq : q < 0) (k : ℕ) :
    geometric.pdf q k = geometricPmf (1 / (1 + geometric.toExp q)) (k + 1) := by
  rw [C57_geometric hq, Textbook.geometric, geometricPmf, if_pos (by omega), mul_comm,
    add_sub_cancel_right, zpow_natCast]

/-! ### Examples -/

/-- A part with constant density and entropy. -/
noncomputable def constantPart (p : ℝ) : Part ℕ ℕ ℕ where
  rvs size g := .ok (size + g, g + 1)
  pdf x := .ok (Arr.ofFn [] fun _ => p * x)
  entropy := .ok (Arr.ofFn [] fun _ => p)

example : jointPdf [("a", constantPart 2), ("b", constantPart 3)] [("b", 5), ("a", 7)] =
    .ok (Arr.ofFn [] fun _ => 210) := by
  have := C61_pdf (rs := []) (subs := [("a", constantPart 2), ("b", constantPart 3)])
    (z := [("b", 5), ("a", 7)]) (by simp) (by simp) (by simp [or_comm]) (by simp)
    (p := fun k _ => if k = "a" then 14 else 15) (by
      intro k o x ho hx
      simp only [List.mem_cons, Prod.mk.injEq, List.not_mem_nil, or_false] at ho hx
      rcases ho with ⟨rfl, rfl⟩ | ⟨rfl, rfl⟩ <;> rcases hx with ⟨h, rfl⟩ | ⟨h, rfl⟩ <;>
        first
        | exact absurd h (by decide)
        | (have hb : ¬ "b" = "a" := by decide
           simp only [constantPart]
           norm_num [hb]))
  rw [this]
  have hb : ¬ "b" = "a" := by decide
  norm_num [hb]

example : jointPdf [("a", constantPart 2)] [("c", 7)] = .error .keyError :=
  C61_pdf_keys (rs := []) (p := fun _ _ => 0) (by simp) (by simp) (fun h => by simpa using h "a") (by
    intro k o x ho hx
    simp only [List.mem_cons, Prod.mk.injEq, List.not_mem_nil, or_false] at ho hx
    exact absurd (ho.1.symm.trans hx.1) (by decide))

example : jointEntropy [("a", constantPart 2), ("b", constantPart 3)] = .ok (Arr.ofFn [] fun _ => 5) := by
  have := C61_entropy (rs := []) (subs := [("a", constantPart 2), ("b", constantPart 3)]) (by simp)
    (e := fun k _ => if k = "a" then 2 else 3) (by
      intro kv h
      simp only [List.mem_cons, List.not_mem_nil, or_false] at h
      rcases h with rfl | rfl <;> simp [constantPart])
  rw [this]
  have hb : ¬ "b" = "a" := by decide
  norm_num [hb]

example : ∃ xs g', jointRvs 10 [("a", constantPart 2), ("b", constantPart 3)] 0 = .ok (xs, g') ∧
    xs.map Prod.fst = ["a", "b"] := by
  obtain ⟨xs, g', h1, h2, -⟩ := C61_rvs (size := 10)
    (subs := [("a", constantPart 2), ("b", constantPart 3)]) (by
      intro kv h
      simp only [List.mem_cons, List.not_mem_nil, or_false] at h
      rcases h with rfl | rfl <;> exact fun g => ⟨_, _, rfl⟩) 0
  exact ⟨xs, g', h1, h2⟩

example : geometricPmf (1 / 2) 3 = 1 / 8 := by
  rw [geometricPmf, if_pos (by norm_num)]
  norm_num

end Efax
