import Verif.Lemmas.Decode
import Verif.Lemmas.Tree2
import Verif.Spec.Flat

/-! # Lemmas about flattening: one node -/

namespace Efax

open ClassTable Spec

variable {C : Type} [ClassTable C]

/-! ## Contiguous blocks of a flat array -/

/-- The arrays `A` are consecutive blocks of `y`, starting at `c` and ending at `m`. -/
def Blocks (batch : List ℕ) (y : Arr ℝ) : ℕ → List (Arr ℝ) → ℕ → Prop
  | c, [], m => c = m
  | c, a :: A, m => ∃ k, a.rshape = k :: batch ∧
      (∀ i j, i < k → inB batch j = true → y.get ((c + i) :: j) = a.get (i :: j)) ∧
      Blocks batch y (c + k) A m

theorem Blocks.le {batch : List ℕ} {y : Arr ℝ} {A : List (Arr ℝ)} {c m : ℕ}
    (h : Blocks batch y c A m) : c ≤ m := by
  induction A generalizing c with
  | nil => exact le_of_eq h
  | cons a A ih =>
    obtain ⟨k, _, _, h⟩ := h
    have := ih h
    omega

theorem Blocks.append_iff {batch : List ℕ} {y : Arr ℝ} {A B : List (Arr ℝ)} {c m : ℕ} :
    Blocks batch y c (A ++ B) m ↔ ∃ l, Blocks batch y c A l ∧ Blocks batch y l B m := by
  induction A generalizing c with
  | nil => simp [Blocks]
  | cons a A ih =>
    simp only [List.cons_append, Blocks, ih]
    constructor
    · rintro ⟨k, h1, h2, l, h3, h4⟩
      exact ⟨l, ⟨k, h1, h2, h3⟩, h4⟩
    · rintro ⟨l, ⟨k, h1, h2, h3⟩, h4⟩
      exact ⟨k, h1, h2, l, h3, h4⟩

theorem slice_block {batch : List ℕ} {y a : Arr ℝ} {c k n : ℕ} (hy : y.rshape = n :: batch)
    (hn : c + k ≤ n) (ha : a.rshape = k :: batch)
    (h : ∀ i j, i < k → inB batch j = true → y.get ((c + i) :: j) = a.get (i :: j)) :
    y.slice c (c + k) = .ok a := by
  obtain ⟨b, h1, h2, h3⟩ := Arr.slice_ok hy (Nat.le_add_right c k) hn
  rw [h1]
  rw [Nat.add_sub_cancel_left] at h2 h3
  congr 1
  refine Arr.ext (by rw [h2, ha]) fun i hi => ?_
  rw [h2] at hi
  obtain ⟨i0, j, rfl, hi0, hj⟩ := inB_cons_elim hi
  rw [h3 i0 j hi0 hj, h i0 j hi0 hj]

theorem fold_append_ok {batch : List ℕ} {A : List (Arr ℝ)}
    (hA : ∀ a ∈ A, ∃ k, a.rshape = k :: batch) {acc : Arr ℝ} {n : ℕ}
    (hacc : acc.rshape = n :: batch) :
    ∃ y N, A.foldlM (fun acc x => acc.append x) acc = .ok y ∧ y.rshape = N :: batch ∧
      (∀ i j, i < n → inB batch j = true → y.get (i :: j) = acc.get (i :: j)) ∧
      Blocks batch y n A N := by
  induction A generalizing acc n with
  | nil => exact ⟨acc, n, rfl, hacc, fun _ _ _ _ => rfl, rfl⟩
  | cons a A ih =>
    obtain ⟨k, hk⟩ := hA a (by simp)
    obtain ⟨b, h1, h2, h3, h4⟩ := Arr.append_ok hacc hk
    obtain ⟨y, N, g1, g2, g3, g4⟩ := ih (fun x hx => hA x (by simp [hx])) h2
    refine ⟨y, N, ?_, g2, fun i j hi hj => ?_, k, hk, fun i j hi hj => ?_, g4⟩
    · rw [List.foldlM_cons, h1]; exact g1
    · rw [g3 i j (by omega) hj, h3 i j hi hj]
    · rw [g3 _ j (by omega) hj, h4 i j hi hj]

theorem reduceAppend_ok {batch : List ℕ} {A : List (Arr ℝ)}
    (hA : ∀ a ∈ A, ∃ k, a.rshape = k :: batch) (hne : A ≠ []) :
    ∃ y N, reduceAppend A = .ok y ∧ y.rshape = N :: batch ∧ Blocks batch y 0 A N := by
  cases A with
  | nil => exact absurd rfl hne
  | cons a A =>
    obtain ⟨k, hk⟩ := hA a (by simp)
    obtain ⟨y, N, g1, g2, g3, g4⟩ := fold_append_ok (A := A) (fun x hx => hA x (by simp [hx])) hk
    refine ⟨y, N, g1, g2, k, hk, fun i j hi hj => ?_, by rwa [Nat.zero_add]⟩
    rw [Nat.zero_add, g3 i j hi hj]

theorem Blocks.shapes {batch : List ℕ} {y : Arr ℝ} {A : List (Arr ℝ)} {c m : ℕ}
    (h : Blocks batch y c A m) : ∀ a ∈ A, ∃ k, a.rshape = k :: batch := by
  induction A generalizing c with
  | nil => simp
  | cons b A ih =>
    obtain ⟨k, h1, _, h3⟩ := h
    intro a ha
    rcases List.mem_cons.1 ha with rfl | ha
    · exact ⟨k, h1⟩
    · exact ih h3 a ha

/-- Two arrays with the same blocks agree there. -/
theorem Blocks.agree {batch : List ℕ} {y z : Arr ℝ} {A : List (Arr ℝ)} {c m m' : ℕ}
    (h : Blocks batch y c A m) (h' : Blocks batch z c A m') :
    m = m' ∧ ∀ i j, c ≤ i → i < m → inB batch j = true → y.get (i :: j) = z.get (i :: j) := by
  induction A generalizing c with
  | nil =>
    cases h; cases h'
    exact ⟨rfl, fun i j h1 h2 => by omega⟩
  | cons a A ih =>
    obtain ⟨k, h1, h2, h3⟩ := h
    obtain ⟨k', g1, g2, g3⟩ := h'
    obtain rfl : k = k' := by rw [h1] at g1; simpa using g1
    obtain ⟨e1, e2⟩ := ih h3 g3
    refine ⟨e1, fun i j hi hm hj => ?_⟩
    by_cases hik : c + k ≤ i
    · exact e2 i j hik hm hj
    · obtain ⟨l, rfl⟩ := Nat.exists_eq_add_of_le hi
      rw [h2 l j (by omega) hj, g2 l j (by omega) hj]

/-- An array made of blocks is what `reduceAppend` returns for them. -/
theorem Blocks.reduceAppend_eq {batch : List ℕ} {y : Arr ℝ} {A : List (Arr ℝ)} {n : ℕ}
    (h : Blocks batch y 0 A n) (hy : y.rshape = n :: batch) (hne : A ≠ []) :
    reduceAppend A = .ok y := by
  obtain ⟨z, N, h1, h2, h3⟩ := reduceAppend_ok h.shapes hne
  obtain ⟨rfl, h5⟩ := h.agree h3
  rw [h1]
  congr 1
  refine Arr.ext (by rw [h2, hy]) fun i hi => ?_
  rw [h2] at hi
  obtain ⟨i0, j, rfl, hi0, hj⟩ := inB_cons_elim hi
  exact (h5 i0 j (Nat.zero_le _) hi0 hj).symm

/-! ## The variable parameters of one node -/

/-- The names and values. -/
def named (l : List (Field × Val)) : Dict String Val := l.map fun fv => (fv.1.name, fv.2)

theorem parametersFlat_false (p : Dist C) :
    parametersFlat p (some false) = named (varPairs p.cls p.vals) := by
  rw [parametersFlat_eq, nodeParams, named, varPairs, List.map_map]
  have : (fun fv : Field × Val => keep (some false) fv.1) = fun fv => !fv.1.fixed := by
    funext fv; cases h : fv.1.fixed <;> simp [keep, h]
  rw [this]
  rfl

theorem supportOf_false_keys (c : C) :
    (supportOf c (some false)).keys = (varFields c).map Field.name := by
  rw [supportOf_keys, varFields]
  have : keep (some false) = fun f : Field => !f.fixed := by
    funext f; cases h : f.fixed <;> simp [keep, h]
  rw [this]

theorem filter_zip_fst {A B : Type} (P : A → Bool) (l : List A) (m : List B)
    (h : m.length = l.length) :
    ((l.zip m).filter fun x => P x.1).map Prod.fst = l.filter P := by
  induction l generalizing m with
  | nil => simp
  | cons a l ih =>
    cases m with
    | nil => simp at h
    | cons b m =>
      have := ih m (by simpa using h)
      by_cases hp : P a <;> simp [hp, this]

theorem varPairs_fst {c : C} {vals : List Val} (h : vals.length = (fields c).length) :
    (varPairs c vals).map Prod.fst = varFields c :=
  filter_zip_fst (fun f : Field => !f.fixed) _ _ h

theorem varFields_names_nodup (c : C) : ((varFields c).map Field.name).Nodup :=
  (names_nodup c).sublist ((List.filter_sublist (l := fields c)).map Field.name)

theorem named_keys (l : List (Field × Val)) : (named l).keys = (l.map Prod.fst).map Field.name := by
  simp [named, Dict.keys, List.map_map, Function.comp_def]

theorem named_snoc (l : List (Field × Val)) (f : Field) (v : Val) :
    named l ++ [(f.name, v)] = named (l ++ [(f, v)]) := by simp [named]

/-- The number of coordinates of a list of parameters. -/
def need (d : ℕ) (fs : List Field) : ℕ := (fs.map fun f => coords f.support d).sum

/-- Flattening the value succeeds, gives `coords` columns, and is undone by `unflattened`. -/
def Loops (s : Support) (mapped : Bool) (d : ℕ) (batch : List ℕ) (v : Val) : Prop :=
  ∃ y, s.flattened mapped v = .ok y ∧ y.rshape = coords s d :: batch ∧ s.unflattened mapped y d = .ok v

/-- Flattening the variable parameters of one node, and reading them back. -/
theorem fields_forward [LawfulTable C] {mapped : Bool} {c : C} {d : ℕ} {batch : List ℕ}
    {l pre : List (Field × Val)} (hf : ∀ fv ∈ l, fv.1 ∈ fields c)
    (hn : ((pre ++ l).map fun fv => fv.1.name).Nodup)
    (h : EachField (fun s v => Loops s mapped d batch v) c l (named pre)) :
    ∃ A, makeFlatFields mapped c (named l) (named pre) = .ok A ∧
      (∀ a ∈ A, ∃ k, a.rshape = k :: batch) ∧ A.length = l.length ∧
      ∀ (y : Arr ℝ) (start m n : ℕ), y.rshape = n :: batch → m ≤ n → Blocks batch y start A m →
        m = start + need d (l.map Prod.fst) ∧
        unflattenFields y n mapped c d ((l.map Prod.fst).map Field.name) (named pre) start =
          .ok (named (pre ++ l), m) := by
  induction l generalizing pre with
  | nil =>
    refine ⟨[], rfl, by simp, rfl, fun y start m n _ _ hb => ?_⟩
    cases hb
    exact ⟨by simp [need], by simp [unflattenFields]⟩
  | cons fv l ih =>
    obtain ⟨f, v⟩ := fv
    obtain ⟨⟨s, h1, h2⟩, h3⟩ := h
    have hset : Dict.set (named pre) f.name v = named (pre ++ [(f, v)]) := by
      rw [Dict.set_of_not_mem, named_snoc]
      rw [named_keys, List.map_map]
      intro hm
      rw [List.map_append, List.nodup_append] at hn
      exact hn.2.2 _ hm f.name (by simp) rfl
    obtain ⟨a, g1, g2, g3⟩ := h2
    rw [named_snoc] at h3
    obtain ⟨A, k1, k2, k4, k3⟩ := ih (fun x hx => hf x (by simp [hx])) (by simpa using hn) h3
    have e : named ((f, v) :: l) = (f.name, v) :: named l := rfl
    refine ⟨a :: A, ?_, ?_, by simp [k4], fun y start m n hy hm hb => ?_⟩
    · rw [e]
      simp only [makeFlatFields, h1, g1, hset, k1, bind, Except.bind]
    · intro b hb
      rcases List.mem_cons.1 hb with rfl | hb
      · exact ⟨_, g2⟩
      · exact k2 b hb
    · obtain ⟨k, b1, b2, b3⟩ := hb
      obtain rfl : coords s d = k := by rw [g2] at b1; simpa using b1
      have hle := b3.le
      obtain ⟨q1, q2⟩ := k3 y _ m n hy hm b3
      have hsz := (LawfulTable.adjust_size c f (named pre) s (hf (f, v) (by simp)) h1 d).1
      refine ⟨by rw [q1, hsz]; simp [need, add_assoc], ?_⟩
      simp only [List.map_cons, unflattenFields, h1, bind, Except.bind,
        Support.numElements_eq_coords]
      rw [if_neg (by omega), slice_block hy (by omega) g2 b2]
      simp only [g3, hset]
      rw [q2]
      simp

/-- Decoding the variable parameters of one node from any flat array of the right batch shape. -/
theorem fields_decode [LawfulTable C] {mapped : Bool} {c : C} {d : ℕ} {batch : List ℕ}
    {post : List Field} {pre : List (Field × Val)} (hf : varFields c = pre.map Prod.fst ++ post)
    (hpre : ∀ fv ∈ pre, Lies fv.1.support mapped d batch fv.2)
    {y : Arr ℝ} {n start : ℕ} (hy : y.rshape = n :: batch) :
    (start + need d post ≤ n →
      (∃ l A, l.map Prod.fst = post ∧ (∀ fv ∈ l, Lies fv.1.support mapped d batch fv.2) ∧
        unflattenFields y n mapped c d (post.map Field.name) (named pre) start =
          .ok (named (pre ++ l), start + need d post) ∧
        EachField (fun s v => Lies s mapped d batch v) c l (named pre) ∧
        makeFlatFields mapped c (named l) (named pre) = .ok A ∧ A.length = l.length ∧
        Blocks batch y start A (start + need d post)) ∨
      ((mapped = true ∧ ∃ f ∈ post, Singular f.support) ∧
        unflattenFields y n mapped c d (post.map Field.name) (named pre) start =
          .error .nonFinite)) ∧
    (n < start + need d post →
      unflattenFields y n mapped c d (post.map Field.name) (named pre) start =
        .error .valueError ∨
      ((mapped = true ∧ ∃ f ∈ post, Singular f.support) ∧
        unflattenFields y n mapped c d (post.map Field.name) (named pre) start =
          .error .nonFinite)) ∨ n < start := by
  by_cases hstart : n < start
  · exact .inr hstart
  left
  induction post generalizing pre start with
  | nil =>
    refine ⟨fun _ => .inl ⟨[], [], rfl, by simp, by simp [unflattenFields, need], trivial, rfl,
      rfl, by simp [Blocks, need]⟩, fun h => ?_⟩
    simp [need] at h
    omega
  | cons f post ih =>
    have hpre2 : List.Forall₂ (fun g v => Lies g.support mapped d batch v) (pre.map Prod.fst)
        (pre.map Prod.snd) := by
      rw [List.forall₂_map_left_iff, List.forall₂_map_right_iff]
      exact List.forall₂_same.2 hpre
    obtain ⟨s, h1, h2, h3, _, h4⟩ := LawfulTable.adjust_ok c _ f post hf mapped d batch _ hpre2
    have e : ((pre.map Prod.fst).map Field.name).zip (pre.map Prod.snd) = named pre := by
      clear * -
      induction pre with
      | nil => rfl
      | cons a l ih => simpa [named] using ih
    rw [e] at h1
    have hmem : f ∈ fields c := by
      have : f ∈ varFields c := by rw [hf]; simp
      exact (List.mem_filter.1 this).1
    have hsz := (LawfulTable.adjust_size c f (named pre) s hmem h1 d).1
    have hneed : need d (f :: post) = coords s d + need d post := by simp [need, hsz]
    have hset : ∀ v, Dict.set (named pre) f.name v = named (pre ++ [(f, v)]) := by
      intro v
      rw [Dict.set_of_not_mem, named_snoc]
      rw [named_keys]
      intro hm
      have := varFields_names_nodup c
      rw [hf, List.map_append, List.nodup_append] at this
      exact this.2.2 _ hm f.name (by simp) rfl
    rw [hneed]
    by_cases hk : start + coords s d ≤ n
    · obtain ⟨a, a1, a2, a3⟩ := Arr.slice_ok hy (Nat.le_add_right start (coords s d)) hk
      rw [Nat.add_sub_cancel_left] at a2 a3
      rcases Support.decode' h2 a2 with hff | ⟨⟨hm, hsing⟩, hnf⟩
      · obtain ⟨v, v1, v2, v3⟩ := Support.roundtrip' hff
        have hrec : unflattenFields y n mapped c d ((f :: post).map Field.name) (named pre) start =
            unflattenFields y n mapped c d (post.map Field.name) (named (pre ++ [(f, v)]))
              (start + coords s d) := by
          simp only [List.map_cons, unflattenFields, h1, bind, Except.bind,
            Support.numElements_eq_coords]
          rw [if_neg (by omega), a1]
          simp only [v1, hset]
        rw [hrec]
        have hih := ih (pre := pre ++ [(f, v)]) (start := start + coords s d) (by simp [hf])
          (by
            intro fv hfv
            rcases List.mem_append.1 hfv with hfv | hfv
            · exact hpre fv hfv
            · rw [List.mem_singleton] at hfv
              subst hfv
              exact h3 v v2) (by omega)
        rw [← add_assoc]
        have hup : ∀ {X : Prop}, (mapped = true ∧ ∃ f ∈ post, Singular f.support) ∧ X →
            (mapped = true ∧ ∃ g ∈ f :: post, Singular g.support) ∧ X := by
          rintro X ⟨⟨h1, g, h2, h3⟩, h4⟩
          exact ⟨⟨h1, g, by simp [h2], h3⟩, h4⟩
        refine ⟨fun hle => ?_, fun hlt => (hih.2 hlt).imp id hup⟩
        rcases hih.1 hle with ⟨l, A, l1, l2, l3, l4, l5, l7, l6⟩ | hnf
        · refine .inl ⟨(f, v) :: l, a :: A, by simp [l1], ?_, by rw [l3]; simp, ?_, ?_,
            by simp [l7], ?_⟩
          · intro fv hfv
            rcases List.mem_cons.1 hfv with rfl | hfv
            · exact h3 v v2
            · exact l2 fv hfv
          · exact ⟨⟨s, h1, v2⟩, by rw [named_snoc]; exact l4⟩
          · have e : named ((f, v) :: l) = (f.name, v) :: named l := rfl
            rw [e]
            simp only [makeFlatFields, h1, v3, hset, l5, bind, Except.bind]
          · exact ⟨_, a2, fun i j hi hj => (a3 i j hi hj).symm, l6⟩
        · exact .inr (hup hnf)
      · have hrec : unflattenFields y n mapped c d ((f :: post).map Field.name) (named pre) start =
            .error .nonFinite := by
          simp only [List.map_cons, unflattenFields, h1, bind, Except.bind,
            Support.numElements_eq_coords]
          rw [if_neg (by omega), a1]
          simp only [hnf]
        have hx : mapped = true ∧ ∃ g ∈ f :: post, Singular g.support := ⟨hm, f, by simp, h4 hsing⟩
        exact ⟨fun _ => .inr ⟨hx, hrec⟩, fun _ => .inr ⟨hx, hrec⟩⟩
    · have hrec : unflattenFields y n mapped c d ((f :: post).map Field.name) (named pre) start =
            .error .valueError := by
        simp only [List.map_cons, unflattenFields, h1, bind, Except.bind,
          Support.numElements_eq_coords]
        rw [if_pos (by omega)]
      exact ⟨fun h => by omega, fun _ => .inl hrec⟩

end Efax
