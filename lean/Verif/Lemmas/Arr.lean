import Verif.Model.Support

/-! # Lemmas about arrays and dictionaries -/

namespace Efax

theorem inB_cons (n : ℕ) (s : List ℕ) (k : ℕ) (i : List ℕ) :
    inB (n :: s) (k :: i) = true ↔ k < n ∧ inB s i = true := by
  simp [inB]

theorem inB_nil_right (n : ℕ) (s : List ℕ) : inB (n :: s) [] = false := rfl

theorem inB_cons_elim {n : ℕ} {s i : List ℕ} (h : inB (n :: s) i = true) :
    ∃ k i', i = k :: i' ∧ k < n ∧ inB s i' = true := by
  cases i with
  | nil => simp [inB] at h
  | cons k i' => exact ⟨k, i', rfl, (inB_cons ..).1 h⟩

theorem inB_length {s i : List ℕ} (h : inB s i = true) : i.length = s.length := by
  induction s generalizing i with
  | nil => cases i <;> simp_all [inB]
  | cons n s ih =>
    obtain ⟨k, i', rfl, _, h'⟩ := inB_cons_elim h
    simp [ih h']

theorem inB_append {s t i j : List ℕ} (hl : i.length = s.length) :
    inB (s ++ t) (i ++ j) = true ↔ inB s i = true ∧ inB t j = true := by
  induction s generalizing i with
  | nil => cases i <;> simp_all [inB]
  | cons n s ih =>
    cases i with
    | nil => simp at hl
    | cons k i => simp only [List.cons_append, inB_cons, ih (by simpa using hl), and_assoc]

namespace Arr

variable {α β γ : Type} [Inhabited α] [Inhabited β] [Inhabited γ]

@[ext (iff := false)]
theorem ext {a b : Arr α} (hs : a.rshape = b.rshape)
    (h : ∀ i, inB a.rshape i = true → a.get i = b.get i) : a = b := by
  obtain ⟨s, f, hf⟩ := a
  obtain ⟨s', g, hg⟩ := b
  simp only at hs h
  subst hs
  have : f = g := by
    funext i
    by_cases hi : inB s i = true
    · exact h i hi
    · have hi' : inB s i = false := by simpa using hi
      rw [hf i hi', hg i hi']
  subst this
  rfl

@[simp] theorem ofFn_rshape (rs : List ℕ) (f : List ℕ → α) : (ofFn rs f).rshape = rs := rfl

theorem ofFn_get {rs : List ℕ} {f : List ℕ → α} {i : List ℕ} (h : inB rs i = true) :
    (ofFn rs f).get i = f i := by simp [ofFn, h]

theorem ofFn_congr {rs : List ℕ} {f g : List ℕ → α} (h : ∀ i, inB rs i = true → f i = g i) :
    ofFn rs f = ofFn rs g :=
  ext rfl fun i hi => by
    have hi : inB rs i = true := hi
    rw [ofFn_get hi, ofFn_get hi, h i hi]

@[simp] theorem ofFn_self (a : Arr α) : ofFn a.rshape a.get = a :=
  ext rfl fun _ hi => ofFn_get hi

@[simp] theorem map_rshape (f : α → β) (a : Arr α) : (a.map f).rshape = a.rshape := rfl

theorem map_get {f : α → β} {a : Arr α} {i : List ℕ} (h : inB a.rshape i = true) :
    (a.map f).get i = f (a.get i) := ofFn_get h

@[simp] theorem map_id (a : Arr α) : a.map id = a := ext rfl fun _ hi => map_get hi

theorem map_map (f : α → β) (g : β → γ) (a : Arr α) : (a.map f).map g = a.map (g ∘ f) :=
  ext rfl fun i hi => by
    rw [map_get (by simpa using hi), map_get (by simpa using hi), map_get (by simpa using hi)]; rfl

@[simp] theorem newaxis_rshape (a : Arr α) : a.newaxis.rshape = 1 :: a.rshape := rfl

theorem newaxis_get {a : Arr α} {k : ℕ} {i : List ℕ} (h : inB (1 :: a.rshape) (k :: i) = true) :
    a.newaxis.get (k :: i) = a.get i := ofFn_get h

theorem mapE_ok {f : List ℕ → α → Option β} {a : Arr α}
    (h : ∀ i, inB a.rshape i = true → (f i (a.get i)).isSome) :
    a.mapE f = .ok (ofFn a.rshape fun i => (f i (a.get i)).getD default) := by
  classical
  rw [mapE, if_pos h]

theorem mapE_error {f : List ℕ → α → Option β} {a : Arr α} {i : List ℕ}
    (hi : inB a.rshape i = true) (h : f i (a.get i) = none) : a.mapE f = .error .nonFinite := by
  classical
  rw [mapE, if_neg]
  intro hall
  simpa [h] using hall i hi

theorem mapE_eq_ok_iff {f : List ℕ → α → Option β} {a : Arr α} {b : Arr β} :
    a.mapE f = .ok b ↔
      b.rshape = a.rshape ∧ ∀ i, inB a.rshape i = true → f i (a.get i) = some (b.get i) := by
  classical
  constructor
  · intro h
    by_cases hall : ∀ i, inB a.rshape i = true → (f i (a.get i)).isSome
    · rw [mapE_ok hall] at h
      cases h
      refine ⟨rfl, fun i hi => ?_⟩
      rw [ofFn_get hi]
      obtain ⟨v, hv⟩ := Option.isSome_iff_exists.1 (hall i hi)
      simp [hv]
    · rw [mapE, if_neg hall] at h
      cases h
  · rintro ⟨hs, h⟩
    rw [mapE_ok fun i hi => by simp [h i hi]]
    congr 1
    refine ext hs.symm fun i hi => ?_
    have hi : inB a.rshape i = true := hi
    rw [ofFn_get hi, h i hi]; rfl

/-- Two arrays glued along the last axis. -/
theorem append_ok {a b : Arr α} {n m : ℕ} {rs : List ℕ} (ha : a.rshape = n :: rs)
    (hb : b.rshape = m :: rs) :
    ∃ c, a.append b = .ok c ∧ c.rshape = (n + m) :: rs ∧
      (∀ k i, k < n → inB rs i = true → c.get (k :: i) = a.get (k :: i)) ∧
      (∀ k i, k < m → inB rs i = true → c.get ((n + k) :: i) = b.get (k :: i)) := by
  obtain ⟨s, f, hf⟩ := a
  obtain ⟨s', g, hg⟩ := b
  simp only at ha hb
  subst ha hb
  refine ⟨_, by simp [append]; rfl, rfl, fun k i hk hi => ?_, fun k i hk hi => ?_⟩
  · rw [ofFn_get ((inB_cons ..).2 ⟨by omega, hi⟩)]
    simp [hk]
  · rw [ofFn_get ((inB_cons ..).2 ⟨by omega, hi⟩)]
    simp

theorem slice_ok {a : Arr α} {n lo hi : ℕ} {rs : List ℕ} (ha : a.rshape = n :: rs)
    (h1 : lo ≤ hi) (h2 : hi ≤ n) :
    ∃ c, a.slice lo hi = .ok c ∧ c.rshape = (hi - lo) :: rs ∧
      ∀ k i, k < hi - lo → inB rs i = true → c.get (k :: i) = a.get ((lo + k) :: i) := by
  obtain ⟨s, f, hf⟩ := a
  simp only at ha
  subst ha
  have e1 : min hi n = hi := by omega
  have e2 : min lo n = lo := by omega
  refine ⟨_, by simp only [slice, e1, e2]; rfl, rfl, fun k i hk hi' => ?_⟩
  rw [ofFn_get ((inB_cons ..).2 ⟨hk, hi'⟩)]

end Arr

namespace Dict

variable {κ ν : Type} [DecidableEq κ]

theorem get?_set (d : Dict κ ν) (k k' : κ) (v : ν) :
    (d.set k v).get? k' = if k = k' then some v else d.get? k' := by
  induction d with
  | nil => simp [set, get?]
  | cons p d ih =>
    obtain ⟨k₀, v₀⟩ := p
    by_cases h : k₀ = k
    · subst h; by_cases h' : k₀ = k' <;> simp [set, get?, h']
    · simp only [set, if_neg h, get?, ih]
      by_cases h' : k₀ = k' <;> by_cases h'' : k = k' <;> simp_all

theorem set_of_not_mem (d : Dict κ ν) (k : κ) (v : ν) (h : k ∉ d.keys) :
    d.set k v = d ++ [(k, v)] := by
  induction d with
  | nil => rfl
  | cons p d ih =>
    obtain ⟨k₀, v₀⟩ := p
    simp only [keys, List.map_cons, List.mem_cons, not_or] at h
    simp only [set, if_neg (Ne.symm h.1), List.cons_append, ih h.2]

theorem foldl_set (l : List (κ × ν)) (d : Dict κ ν) (h : (d.keys ++ l.map Prod.fst).Nodup) :
    l.foldl (fun d kv => set d kv.1 kv.2) d = d ++ l := by
  induction l generalizing d with
  | nil => simp
  | cons p l ih =>
    simp only [List.foldl_cons]
    have hk : p.1 ∉ d.keys := by
      intro hm
      rw [List.nodup_append] at h
      exact h.2.2 _ hm _ (by simp) rfl
    rw [set_of_not_mem _ _ _ hk, ih]
    · simp
    · simpa [keys] using h

/-- A dictionary built from pairs with distinct keys is the list of pairs. -/
theorem ofList_eq {l : List (κ × ν)} (h : (l.map Prod.fst).Nodup) : ofList l = l := by
  rw [ofList, foldl_set _ _ (by simpa [keys] using h)]; rfl

theorem get?_ofList_foldl (l : List (κ × ν)) (d : Dict κ ν) (k : κ) (hk : k ∉ l.map Prod.fst) :
    get? (l.foldl (fun d kv => set d kv.1 kv.2) d) k = d.get? k := by
  induction l generalizing d with
  | nil => rfl
  | cons p l ih =>
    simp only [List.map_cons, List.mem_cons, not_or] at hk
    rw [List.foldl_cons, ih _ hk.2, get?_set, if_neg (Ne.symm hk.1)]

theorem get?_of_mem {d : Dict κ ν} (h : d.keys.Nodup) {k : κ} {v : ν} (hm : (k, v) ∈ d) :
    d.get? k = some v := by
  induction d with
  | nil => simp at hm
  | cons p d ih =>
    obtain ⟨k₀, v₀⟩ := p
    simp only [keys, List.map_cons, List.nodup_cons] at h
    rcases List.mem_cons.1 hm with h1 | h1
    · cases h1; simp [get?]
    · have : k₀ ≠ k := by
        rintro rfl
        exact h.1 (List.mem_map.2 ⟨_, h1, rfl⟩)
      simp [get?, this, ih h.2 h1]

theorem get?_eq_none {d : Dict κ ν} {k : κ} (h : k ∉ d.keys) : d.get? k = none := by
  induction d with
  | nil => rfl
  | cons p d ih =>
    simp only [keys, List.map_cons, List.mem_cons, not_or] at h
    simp [get?, Ne.symm h.1, ih h.2]

theorem mem_of_get? {d : Dict κ ν} {k : κ} {v : ν} (h : d.get? k = some v) : (k, v) ∈ d := by
  induction d with
  | nil => simp [get?] at h
  | cons p d ih =>
    obtain ⟨k₀, v₀⟩ := p
    by_cases hk : k₀ = k
    · subst hk; simp_all [get?]
    · simp only [get?, if_neg hk] at h
      exact List.mem_cons_of_mem _ (ih h)

theorem get?_append (a b : Dict κ ν) (k : κ) :
    get? (a ++ b) k = (a.get? k).or (b.get? k) := by
  induction a with
  | nil => rfl
  | cons p a ih =>
    by_cases h : p.1 = k <;> simp [get?, h, ih]

end Dict

theorem bcast_self (s : List ℕ) : bcast s s = .ok s := by
  induction s with
  | nil => rfl
  | cons n s ih => simp [bcast, ih, bind, Except.bind]

theorem bcast_nil_right (s : List ℕ) : bcast s [] = .ok s := by cases s <;> rfl

theorem bidx_self {s i : List ℕ} (h : inB s i = true) : bidx s i = i := by
  induction s generalizing i with
  | nil => cases i <;> simp_all [inB, bidx]
  | cons n s ih =>
    obtain ⟨k, i', rfl, hk, h'⟩ := inB_cons_elim h
    simp only [bidx, ih h', List.cons.injEq, and_true]
    split_ifs with h1 <;> omega

end Efax
