import Verif.Lemmas.Simple
import Verif.Props.Trees
import Verif.Lemmas.TreeRel

/-! # Indexing batches -/

namespace Efax

open ClassTable Calc Spec

theorem Arr.index_ofFn {α : Type} [Inhabited α] {s t i : List ℕ} (hi : inB t i = true)
    (f : List ℕ → α) : (Arr.ofFn (s ++ t) f).index i.reverse = .ok (Arr.ofFn s fun j => f (j ++ i)) := by
  have hl := inB_length hi
  have hn : (s ++ t).length - i.reverse.length = s.length := by simp [hl]
  have hle : i.reverse.length ≤ (s ++ t).length := by simp [hl]
  have e : (Arr.ofFn (s ++ t) f).rshape = s ++ t := rfl
  simp only [Arr.index, e, hn, List.drop_left, List.take_left, List.reverse_reverse]
  rw [if_pos ⟨hle, hi⟩]
  congr 1
  refine Arr.ext rfl fun j hj => ?_
  have hj : inB s j = true := hj
  rw [Arr.ofFn_get hj, Arr.ofFn_get hj, Arr.ofFn_get ((inB_append (inB_length hj)).2 ⟨hj, hi⟩)]

theorem scalars_index {α : Type} [Inhabited α] {s t i : List ℕ} (hi : inB t i = true)
    (f : List ℕ → α) : (scalars (s ++ t) f).index i.reverse = .ok (scalars s fun j => f (j ++ i)) :=
  Arr.index_ofFn hi f

theorem vectors_index {α : Type} [Inhabited α] {d : ℕ} {s t i : List ℕ} (hi : inB t i = true)
    (f : List ℕ → Fin d → α) :
    (vectors (s ++ t) f).index i.reverse = .ok (vectors s fun j => f (j ++ i)) := by
  refine (Arr.index_ofFn (s := d :: s) hi _).trans ?_
  congr 1
  refine Arr.ext rfl fun j hj => ?_
  have hj : inB (d :: s) j = true := hj
  cases j with
  | nil => simp [inB] at hj
  | cons k j => rw [vectors, Arr.ofFn_get hj, Arr.ofFn_get hj]; rfl

theorem matrices_index {α : Type} [Inhabited α] {d : ℕ} {s t i : List ℕ} (hi : inB t i = true)
    (f : List ℕ → Matrix (Fin d) (Fin d) α) :
    (matrices (s ++ t) f).index i.reverse = .ok (matrices s fun j => f (j ++ i)) := by
  refine (Arr.index_ofFn (s := d :: d :: s) hi _).trans ?_
  congr 1
  refine Arr.ext rfl fun j hj => ?_
  have hj : inB (d :: d :: s) j = true := hj
  match j, hj with
  | [], hj => simp [inB] at hj
  | [_], hj => simp [inB] at hj
  | k :: l :: j, hj => rw [matrices, Arr.ofFn_get hj, Arr.ofFn_get hj]; rfl

section

variable {C : Type} [ClassTable C]

/-- All values of the second distribution are those of the first, indexed. -/
abbrev Indexes (key : List ℕ) : Dist C → Dist C → Prop := TreeRel fun a b => a.index key = .ok b

/-- `Indexes` for all sub-distributions. -/
abbrev Indexess (key : List ℕ) : Subs C → Subs C → Prop := TreeRels fun a b => a.index key = .ok b

theorem Indexes.getitem {key : List ℕ} {d e : Dist C} (h : Indexes key d e) (hd : WF d) (he : WF e)
    {infos : List (Info C)} (hi : infosOf d = .ok infos) : d.getitem key = .ok e := by
  obtain ⟨ps, e1, e2⟩ := TreeRel.rebuild h hd he hi
  unfold Dist.getitem
  rw [e1, hi]
  exact e2

/-- The objects of a kind can be indexed. -/
structure Spec.Kind.Indexed (K : Kind C) : Prop where
  wfN : ∀ rs p q, WF (K.nat rs p q)
  wfE : ∀ rs p χ, WF (K.exp rs p χ)
  infosN : ∀ rs p q base, ∃ l, (K.nat rs p q).walk makeInfo base = .ok l
  infosE : ∀ rs p χ base, ∃ l, (K.exp rs p χ).walk makeInfo base = .ok l
  nat : ∀ s t i p q, inB t i = true → Indexes i.reverse (K.nat (s ++ t) p q)
    (K.nat s (fun j => p (j ++ i)) fun j => q (j ++ i))
  exp : ∀ s t i p χ, inB t i = true → Indexes i.reverse (K.exp (s ++ t) p χ)
    (K.exp s (fun j => p (j ++ i)) fun j => χ (j ++ i))

/-- `Kind.Indexed` for the parts of a joint distribution. -/
structure Spec.Parts.Indexed (R : Parts C) : Prop where
  infosN : ∀ rs p q base, ∃ l, (R.nat rs p q).walk makeInfo base = .ok l
  infosE : ∀ rs p χ base, ∃ l, (R.exp rs p χ).walk makeInfo base = .ok l
  nat : ∀ s t i p q, inB t i = true → Indexess i.reverse (R.nat (s ++ t) p q)
    (R.nat s (fun j => p (j ++ i)) fun j => q (j ++ i))
  exp : ∀ s t i p χ, inB t i = true → Indexess i.reverse (R.exp (s ++ t) p χ)
    (R.exp s (fun j => p (j ++ i)) fun j => χ (j ++ i))

theorem Spec.Parts.Indexed.ofList {l : List (String × Kind C)} (h : ∀ nk ∈ l, nk.2.Indexed) :
    (Parts.ofList l).Indexed := by
  induction l with
  | nil => exact ⟨fun _ _ _ _ => ⟨[], rfl⟩, fun _ _ _ _ => ⟨[], rfl⟩, fun _ _ _ _ _ _ => trivial,
      fun _ _ _ _ _ _ => trivial⟩
  | cons nk l ih =>
    have hK := h nk List.mem_cons_self
    have hR := ih fun nk hm => h nk (List.mem_cons_of_mem _ hm)
    refine ⟨fun rs p q base => ?_, fun rs p χ base => ?_, fun s t i p q hi => ?_, fun s t i p q hi => ?_⟩
    · obtain ⟨l, h1⟩ := hK.infosN rs (fun i => (p i).1) (fun i => (q i).1) (base ++ [nk.1])
      obtain ⟨l', h3⟩ := hR.infosN rs (fun i => (p i).2) (fun i => (q i).2) base
      exact ⟨_, Subs.walk_ok h1 h3⟩
    · obtain ⟨l, h1⟩ := hK.infosE rs (fun i => (p i).1) (fun i => (χ i).1) (base ++ [nk.1])
      obtain ⟨l', h3⟩ := hR.infosE rs (fun i => (p i).2) (fun i => (χ i).2) base
      exact ⟨_, Subs.walk_ok h1 h3⟩
    · exact ⟨rfl, hK.nat s t i _ _ hi, hR.nat s t i _ _ hi⟩
    · exact ⟨rfl, hK.exp s t i _ _ hi, hR.exp s t i _ _ hi⟩

theorem Spec.Kind.Indexed.joint {c c' : C} (hdim : ∃ d, dimensions c [] = .ok d)
    (hdim' : ∃ d, dimensions c' [] = .ok d) {R : Parts C} (hR : R.Indexed)
    (hN : ∀ rs p q, WF ((Kind.joint c c' R).nat rs p q))
    (hE : ∀ rs p χ, WF ((Kind.joint c c' R).exp rs p χ)) : (Kind.joint c c' R).Indexed where
  wfN := hN
  wfE := hE
  infosN rs p q base := by
    obtain ⟨l, h1⟩ := hR.infosN rs p q base
    obtain ⟨d, hd⟩ := hdim
    refine ⟨l ++ [⟨base, c, d, (R.nat rs p q).names⟩], Dist.walk_ok h1 ?_⟩
    simp [makeInfo, Dist.cls, Dist.vals, Dist.subs, hd]; rfl
  infosE rs p q base := by
    obtain ⟨l, h1⟩ := hR.infosE rs p q base
    obtain ⟨d, hd⟩ := hdim'
    refine ⟨l ++ [⟨base, c', d, (R.exp rs p q).names⟩], Dist.walk_ok h1 ?_⟩
    simp [makeInfo, Dist.cls, Dist.vals, Dist.subs, hd]; rfl
  nat s t i p q hi := ⟨rfl, .nil, hR.nat s t i p q hi⟩
  exp s t i p χ hi := ⟨rfl, .nil, hR.exp s t i p χ hi⟩

theorem Spec.Kind.Indexed.simple {P N E X : Type} [Sub N] {c c' : C}
    {nat : Layout P N} {exp : Layout P E}
    {obs : List ℕ → (List ℕ → X) → Val → Prop} {F : P → ExpFam N E X} {dom : P → N → Prop}
    {toNat : P → E → N} {ecm : P → E → ℝ} {ent : Prop} {domE : P → E → Prop} {L : Library C}
    (h : (Kind.simple c c' nat exp obs F toNat ecm ent dom domE).Ok L)
    (hdim : ∀ rs p q, ∃ d, dimensions c (nat rs p q) = .ok d)
    (hdim' : ∀ rs p q, ∃ d, dimensions c' (exp rs p q) = .ok d)
    (hn : ∀ s t i p q, inB t i = true → List.Forall₂ (fun a b => Val.index i.reverse a = .ok b)
      (nat (s ++ t) p q) (nat s (fun j => p (j ++ i)) fun j => q (j ++ i)))
    (he : ∀ s t i p q, inB t i = true → List.Forall₂ (fun a b => Val.index i.reverse a = .ok b)
      (exp (s ++ t) p q) (exp s (fun j => p (j ++ i)) fun j => q (j ++ i))) :
    (Kind.simple c c' nat exp obs F toNat ecm ent dom domE).Indexed where
  wfN := h.wfN
  wfE := h.wfE
  infosN rs p q base := by
    obtain ⟨d, hd⟩ := hdim rs p q
    refine ⟨[] ++ [⟨base, c, d, []⟩], Dist.walk_ok rfl ?_⟩
    simp [makeInfo, Dist.cls, Dist.vals, Dist.subs, hd, Bind.bind, Except.bind]; rfl
  infosE rs p q base := by
    obtain ⟨d, hd⟩ := hdim' rs p q
    refine ⟨[] ++ [⟨base, c', d, []⟩], Dist.walk_ok rfl ?_⟩
    simp [makeInfo, Dist.cls, Dist.vals, Dist.subs, hd, Bind.bind, Except.bind]; rfl
  nat s t i p q hi := ⟨rfl, hn s t i p q hi, trivial⟩
  exp s t i p q hi := ⟨rfl, he s t i p q hi, trivial⟩

end

/-! ### The layouts -/

variable {P : Type}

/-- A layout whose arrays can be indexed. -/
def IndexedLayout {P N : Type} (lay : Layout P N) : Prop :=
  ∀ s t i p q, inB t i = true → List.Forall₂ (fun a b => Val.index i.reverse a = .ok b)
    (lay (s ++ t) p q) (lay s (fun j => p (j ++ i)) fun j => q (j ++ i))

theorem index_real {key : List ℕ} {a b : Arr ℝ} (h : a.index key = .ok b) :
    Val.index key (.real a) = .ok (.real b) := by
  simp only [Val.index, h]; rfl

theorem index_complex {key : List ℕ} {a b : Arr ℂ} (h : a.index key = .ok b) :
    Val.index key (.complex a) = .ok (.complex b) := by
  simp only [Val.index, h]; rfl

theorem index_int {key : List ℕ} {a b : Arr ℤ} (h : a.index key = .ok b) :
    Val.index key (.int a) = .ok (.int b) := by
  simp only [Val.index, h]; rfl

theorem layS_index : IndexedLayout layS := fun _ _ _ _ _ hi =>
  .cons (index_real (scalars_index hi _)) .nil

theorem laySS_index : IndexedLayout laySS := fun _ _ _ _ _ hi =>
  .cons (index_real (scalars_index hi _)) (.cons (index_real (scalars_index hi _)) .nil)

theorem layV_index (d : ℕ) : IndexedLayout (layV d) := fun _ _ _ _ _ hi =>
  .cons (index_real (vectors_index hi _)) .nil

theorem layE_index (d : ℕ) : IndexedLayout (layE d) := fun _ _ _ _ _ hi =>
  .cons (index_real (vectors_index hi _)) .nil

theorem layVV_index (d : ℕ) : IndexedLayout (layVV d) := fun _ _ _ _ _ hi =>
  .cons (index_real (vectors_index hi _)) (.cons (index_real (vectors_index hi _)) .nil)

theorem layVS_index (d : ℕ) : IndexedLayout (layVS d) := fun _ _ _ _ _ hi =>
  .cons (index_real (vectors_index hi _)) (.cons (index_real (scalars_index hi _)) .nil)

theorem layVM_index (d : ℕ) : IndexedLayout (layVM d) := fun _ _ _ _ _ hi =>
  .cons (index_real (vectors_index hi _)) (.cons (index_real (matrices_index hi _)) .nil)

theorem layC_index : IndexedLayout layC := fun _ _ _ _ _ hi =>
  .cons (index_complex (scalars_index hi _)) .nil

theorem layCV_index (d : ℕ) : IndexedLayout (layCV d) := fun _ _ _ _ _ hi =>
  .cons (index_complex (vectors_index hi _)) .nil

theorem layCM_index (d : ℕ) : IndexedLayout (layCM d) := fun _ _ _ _ _ hi =>
  .cons (index_complex (matrices_index hi _)) .nil

theorem layCSC_index : IndexedLayout layCSC := fun _ _ _ _ _ hi =>
  .cons (index_complex (scalars_index hi _)) (.cons (index_real (scalars_index hi _))
    (.cons (index_complex (scalars_index hi _)) .nil))

theorem laySFixedInt_index : IndexedLayout laySFixedInt := fun _ _ _ _ _ hi =>
  .cons (index_real (scalars_index hi _)) (.cons (index_int (scalars_index hi _)) .nil)

theorem layFixedS_index : IndexedLayout layFixedS := fun _ _ _ _ _ hi =>
  .cons (index_real (scalars_index hi _)) (.cons (index_real (scalars_index hi _)) .nil)

theorem layVFixed_index (d : ℕ) : IndexedLayout (layVFixed d) := fun _ _ _ _ _ hi =>
  .cons (index_real (vectors_index hi _)) (.cons (index_real (scalars_index hi _)) .nil)

end Efax
