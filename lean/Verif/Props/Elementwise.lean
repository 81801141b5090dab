import Verif.Props.Library
import Verif.Spec.Index

/-!
# C51: methods of a batch at an index are the methods of the distribution at this index

`s ++ t` is the shape of the batch, last axis first; `i` indexes the leading axes (those of `t`), so
that Python's key is `i.reverse`, and the indexed object is a batch of shape `s`.
-/

namespace Efax

open ClassTable Calc Spec

theorem Arr.index_map {α β : Type} [Inhabited α] [Inhabited β] {g : α → β} {a : Arr α}
    {key : List ℕ} {b : Arr β} (h : (a.map g).index key = .ok b) :
    ∃ a', a.index key = .ok a' ∧ a'.map g = b := by
  simp only [Arr.index] at h ⊢
  have e : (a.map g).rshape = a.rshape := rfl
  rw [e] at h
  split_ifs at h with hc
  refine ⟨_, if_pos hc, ?_⟩
  injection h with h
  rw [← h]
  refine Arr.ext rfl fun j hj => ?_
  have hj : inB (a.rshape.take (a.rshape.length - key.length)) j = true := hj
  rw [Arr.map_get hj, Arr.ofFn_get hj, Arr.ofFn_get hj, Arr.map_get]
  have := (inB_append (j := key.reverse) (inB_length hj)).2 ⟨hj, hc.2⟩
  rwa [List.take_append_drop] at this

theorem Val.index_toR {key : List ℕ} {v : Val} {b b' : Arr ℝ} (h : v.toR = ok b)
    (hb : b.index key = .ok b') : ∃ v', v.index key = .ok v' ∧ v'.toR = ok b' := by
  cases v with
  | real a =>
    injection h with h; subst h
    exact ⟨.real b', by simp only [Val.index, hb]; rfl, rfl⟩
  | int a =>
    injection h with h; subst h
    obtain ⟨a', h1, h2⟩ := Arr.index_map hb
    exact ⟨.int a', by simp only [Val.index, h1]; rfl, congrArg ok h2⟩
  | bool a =>
    injection h with h; subst h
    obtain ⟨a', h1, h2⟩ := Arr.index_map hb
    exact ⟨.bool a', by simp only [Val.index, h1]; rfl, congrArg ok h2⟩
  | complex a => cases h

theorem Val.index_toC {key : List ℕ} {v : Val} {b' : Arr ℂ}
    (hb : v.toC.index key = .ok b') : ∃ v', v.index key = .ok v' ∧ v'.toC = b' := by
  cases v with
  | real a =>
    obtain ⟨a', h1, h2⟩ := Arr.index_map hb
    exact ⟨.real a', by simp only [Val.index, h1]; rfl, h2⟩
  | int a =>
    obtain ⟨a', h1, h2⟩ := Arr.index_map hb
    exact ⟨.int a', by simp only [Val.index, h1]; rfl, h2⟩
  | bool a =>
    obtain ⟨a', h1, h2⟩ := Arr.index_map hb
    exact ⟨.bool a', by simp only [Val.index, h1]; rfl, h2⟩
  | complex a =>
    exact ⟨.complex b', by rw [Val.index, show a.index key = .ok b' from hb]; rfl, rfl⟩

/-- Observations can be indexed. -/
def IndexedObs {X : Type} (obs : List ℕ → (List ℕ → X) → Val → Prop) : Prop :=
  ∀ s t i x v, inB t i = true → obs (s ++ t) x v →
    ∃ v', v.index i.reverse = .ok v' ∧ obs s (fun j => x (j ++ i)) v'

theorem HoldsR.index : IndexedObs HoldsR := fun _ _ _ _ _ hi h =>
  Val.index_toR h (scalars_index hi _)

theorem HoldsV.index {d : ℕ} : IndexedObs (HoldsV (d := d)) := fun _ _ _ _ _ hi h =>
  Val.index_toR h (vectors_index hi _)

theorem HoldsSphere.index {d : ℕ} : IndexedObs (HoldsSphere (d := d)) := fun _ _ _ _ _ hi h =>
  Val.index_toR h (vectors_index hi _)

theorem HoldsC.index : IndexedObs HoldsC := fun _ _ _ _ v hi h =>
  Val.index_toC (v := v) (by rw [show v.toC = _ from h]; exact scalars_index hi _)

theorem HoldsCV.index {d : ℕ} : IndexedObs (HoldsCV (d := d)) := fun _ _ _ _ v hi h =>
  Val.index_toC (v := v) (by rw [show v.toC = _ from h]; exact vectors_index hi _)

theorem IndexedObs.comp {X Y : Type} {obs : List ℕ → (List ℕ → X) → Val → Prop} (h : IndexedObs obs)
    (g : Y → X) : IndexedObs fun rs (y : List ℕ → Y) v => obs rs (fun i => g (y i)) v :=
  fun s t i _ v hi ho => h s t i _ v hi ho

section

variable {C : Type} [ClassTable C]

/-- Observations of a kind can be indexed. -/
def Spec.Kind.IndexedObs (K : Kind C) : Prop := ∀ s t i x o, inB t i = true → K.obs (s ++ t) x o →
  ∃ o', treeIndex i.reverse o = .ok o' ∧ K.obs s (fun j => x (j ++ i)) o'

theorem Spec.Kind.IndexedObs.simple {P N E X : Type} [Sub N] {c c' : C}
    {nat : Layout P N} {exp : Layout P E}
    {obs : List ℕ → (List ℕ → X) → Val → Prop} {F : P → ExpFam N E X} {dom : P → N → Prop}
    {toNat : P → E → N} {ecm : P → E → ℝ} {ent : Prop} {domE : P → E → Prop}
    (h : Efax.IndexedObs obs) : (Kind.simple c c' nat exp obs F toNat ecm ent dom domE).IndexedObs := by
  rintro s t i x _ hi ⟨v, rfl, hv⟩
  obtain ⟨v', h1, h2⟩ := h s t i x v hi hv
  exact ⟨.leaf v', by rw [treeIndex, h1]; rfl, v', rfl, h2⟩

theorem forestIndex_ok {key : List ℕ} {f : Forest Val}
    (h : ∀ n t, (n, t) ∈ f.toList → ∃ t', treeIndex key t = .ok t') :
    ∃ f', forestIndex key f = .ok f' ∧ f'.keys = f.keys ∧
      ∀ n t, (n, t) ∈ f.toList → ∃ t', treeIndex key t = .ok t' ∧ (n, t') ∈ f'.toList := by
  induction f using Forest.rec (motive_1 := fun _ => True) with
  | leaf => trivial
  | node => trivial
  | nil => exact ⟨.nil, rfl, rfl, fun _ _ h => by cases h⟩
  | cons k t r _ ih =>
    obtain ⟨t', ht⟩ := h k t List.mem_cons_self
    obtain ⟨f', h1, h2, h3⟩ := ih fun n t hm => h n t (List.mem_cons_of_mem _ hm)
    refine ⟨.cons k t' f', by rw [forestIndex, ht, h1]; rfl, congrArg (k :: ·) h2, fun n u hm => ?_⟩
    rcases List.mem_cons.1 hm with e | hm
    · cases e; exact ⟨t', ht, List.mem_cons_self⟩
    · obtain ⟨u', a, b⟩ := h3 n u hm
      exact ⟨u', a, List.mem_cons_of_mem _ b⟩

theorem Parts.obs_index {l : List (String × Kind C)} (h : ∀ nk ∈ l, nk.2.IndexedObs)
    {s t i : List ℕ} (hi : inB t i = true) {f f' : Forest Val}
    (hf : ∀ n t, (n, t) ∈ f.toList → ∃ t', treeIndex i.reverse t = .ok t' ∧ (n, t') ∈ f'.toList)
    (x : List ℕ → (Parts.ofList l).X) (ho : (Parts.ofList l).obs (s ++ t) x f) :
    (Parts.ofList l).obs s (fun j => x (j ++ i)) f' := by
  induction l with
  | nil => trivial
  | cons nk l ih =>
    obtain ⟨⟨o, h1, h2⟩, h3⟩ := ho
    refine ⟨?_, ih (fun nk hm => h nk (List.mem_cons_of_mem _ hm)) _ h3⟩
    obtain ⟨o', h4, h5⟩ := h nk List.mem_cons_self s t i _ o hi h2
    obtain ⟨o'', h6, h7⟩ := hf _ _ h1
    rw [h4] at h6
    cases h6
    exact ⟨o', h7, h5⟩

theorem Parts.obs_mem {l : List (String × Kind C)} {rs : List ℕ} {f : Forest Val}
    {x : List ℕ → (Parts.ofList l).X} (ho : (Parts.ofList l).obs rs x f) {n : String}
    (hn : n ∈ (Parts.ofList l).names) : ∃ nk ∈ l, ∃ x t, nk.1 = n ∧ (n, t) ∈ f.toList ∧ nk.2.obs rs x t := by
  induction l with
  | nil => cases hn
  | cons nk l ih =>
    obtain ⟨⟨o, h1, h2⟩, h3⟩ := ho
    rcases List.mem_cons.1 hn with e | hn
    · exact ⟨nk, List.mem_cons_self, _, o, e.symm, e ▸ h1, h2⟩
    · obtain ⟨nk', h4, h5⟩ := ih h3 hn
      exact ⟨nk', List.mem_cons_of_mem _ h4, h5⟩

theorem Forest.mem_unique {A : Type} {f : Forest A} (h : f.keys.Nodup) {n : String} {t t' : Tree A}
    (h1 : (n, t) ∈ f.toList) (h2 : (n, t') ∈ f.toList) : t = t' := by
  have := Forest.get?_of_mem h h1
  rw [Forest.get?_of_mem h h2] at this
  injection this with this
  exact this.symm

theorem Forest.mem_keys {A : Type} {f : Forest A} {n : String} {t : Tree A}
    (h1 : (n, t) ∈ f.toList) : n ∈ f.keys := by
  induction f using Forest.rec (motive_1 := fun _ => True) with
  | leaf => trivial
  | node => trivial
  | nil => cases h1
  | cons k u r _ ih =>
    rcases List.mem_cons.1 h1 with e | h1
    · cases e; exact List.mem_cons_self
    · exact List.mem_cons_of_mem _ (ih h1)

theorem Spec.Kind.IndexedObs.joint {c c' : C} {l : List (String × Kind C)}
    (h : ∀ nk ∈ l, nk.2.IndexedObs) : (Kind.joint c c' (.ofList l)).IndexedObs := by
  rintro s t i x _ hi ⟨f, rfl, h1, h2, h3⟩
  obtain ⟨f', h4, h5, h6⟩ := forestIndex_ok (key := i.reverse) (f := f) fun n o hm => by
    obtain ⟨nk, h7, y, o', h8, h9, h10⟩ := Parts.obs_mem h2 (h3 n (Forest.mem_keys hm))
    obtain ⟨o'', h11, _⟩ := h nk h7 s t i y o' hi h10
    rw [Forest.mem_unique h1 hm h9]
    exact ⟨o'', h11⟩
  refine ⟨.node f', by rw [treeIndex, h4]; rfl, f', rfl, h5 ▸ h1, Parts.obs_index h hi h6 x h2, ?_⟩
  rw [h5]
  exact h3

end

variable [MachEps] {solve : Solver} {search : Cls → List Val → Except Err (List Val)}

theorem library_obs {K : Kind Cls} (hK : LibraryKind solve K) : K.IndexedObs := by
  induction hK with
  | simple s =>
    cases s
    case bernoulli => exact .simple (HoldsR.index.comp _)
    case geometric => exact .simple (HoldsR.index.comp fun x : ℕ => (x : ℝ))
    case logarithmic => exact .simple (HoldsR.index.comp fun x : ℕ => (x : ℝ) + 1)
    case negativeBinomial => exact .simple (HoldsR.index.comp fun x : ℕ => (x : ℝ))
    case poisson => exact .simple (HoldsR.index.comp fun x : ℕ => (x : ℝ))
    all_goals first
      | exact .simple HoldsR.index
      | exact .simple HoldsV.index
      | exact .simple HoldsSphere.index
      | exact .simple HoldsC.index
      | exact .simple HoldsCV.index
  | joint _ _ _ ih => exact .joint ih

theorem atIndex_scalars {s t i : List ℕ} (hi : inB t i = true) (f : List ℕ → ℝ) :
    atIndex i.reverse (ok (scalars (s ++ t) f)) = ok (scalars s fun j => f (j ++ i)) :=
  scalars_index hi f

theorem inB_at {s t i j : List ℕ} (hi : inB t i = true) (hj : inB s j = true) :
    inB (s ++ t) (j ++ i) = true := (inB_append (inB_length hj)).2 ⟨hj, hi⟩

section

variable (hs : solve.For search) {K : Kind Cls} (hK : LibraryKind solve K)
  {s t i : List ℕ} (hi : inB t i = true) (p : List ℕ → K.P)

include hs hK hi

/-- **C51.** `log_normalizer()`. -/
theorem C51_at_log_normalizer (q : List ℕ → K.N) :
    ∃ d, (K.nat (s ++ t) p q).getitem i.reverse = .ok d ∧ d.logNormalizer (library search) =
      atIndex i.reverse ((K.nat (s ++ t) p q).logNormalizer (library search)) := by
  have h := C51_library hs hK
  refine ⟨_, C51_getitem_natural hs hK hi s p q, ?_⟩
  rw [h.logNormalizer, h.logNormalizer, atIndex_scalars hi]

/-- **C51.** `to_exp()`. -/
theorem C51_at_to_exp (q : List ℕ → K.N) (hd : ∀ j, inB (s ++ t) j = true → K.dom (p j) (q j)) :
    ∃ d e e', (K.nat (s ++ t) p q).getitem i.reverse = .ok d ∧
      (K.nat (s ++ t) p q).toExp (library search).toExp = .ok e ∧ e.getitem i.reverse = .ok e' ∧
      d.toExp (library search).toExp = .ok e' := by
  have h := C51_library hs hK
  exact ⟨_, _, _, C51_getitem_natural hs hK hi s p q, h.toExp _ p q hd,
    C51_getitem_expectation hs hK hi s p _, h.toExp s _ _ fun j hj => hd _ (inB_at hi hj)⟩

/-- **C51.** `to_nat()`. -/
theorem C51_at_to_nat (χ : List ℕ → K.E) (hd : ∀ j, inB (s ++ t) j = true → K.domE (p j) (χ j)) :
    ∃ d n n', (K.exp (s ++ t) p χ).getitem i.reverse = .ok d ∧
      (K.exp (s ++ t) p χ).toNat (library search).toNat = .ok n ∧ n.getitem i.reverse = .ok n' ∧
      d.toNat (library search).toNat = .ok n' := by
  have h := C51_library hs hK
  exact ⟨_, _, _, C51_getitem_expectation hs hK hi s p χ, h.toNat _ p χ hd,
    C51_getitem_natural hs hK hi s p _, h.toNat s _ _ fun j hj => hd _ (inB_at hi hj)⟩

/-- **C51.** `log_pdf(x)`, with one (nested) observation per entry. -/
theorem C51_at_log_pdf (q : List ℕ → K.N) (x : List ℕ → K.X) (o : Tree Val)
    (ho : K.obs (s ++ t) x o) :
    ∃ d o', (K.nat (s ++ t) p q).getitem i.reverse = .ok d ∧ treeIndex i.reverse o = .ok o' ∧
      d.logPdf (library search) o' =
        atIndex i.reverse ((K.nat (s ++ t) p q).logPdf (library search) o) := by
  have h := C51_library hs hK
  obtain ⟨o', h1, h2⟩ := library_obs hK s t i x o hi ho
  refine ⟨_, o', C51_getitem_natural hs hK hi s p q, h1, ?_⟩
  rw [C51_log_pdf h _ _ _ _ _ ho, C51_log_pdf h _ _ _ _ _ h2, atIndex_scalars hi]

/-- **C51.** `kl_divergence` of natural parametrizations. -/
theorem C51_at_kl_natural (q r : List ℕ → K.N)
    (hd : ∀ j, inB (s ++ t) j = true → K.dom (p j) (q j)) :
    ∃ d e, (K.nat (s ++ t) p q).getitem i.reverse = .ok d ∧
      (K.nat (s ++ t) p r).getitem i.reverse = .ok e ∧ d.klN (library search) e =
        atIndex i.reverse ((K.nat (s ++ t) p q).klN (library search) (K.nat (s ++ t) p r)) := by
  have h := C51_library hs hK
  refine ⟨_, _, C51_getitem_natural hs hK hi s p q, C51_getitem_natural hs hK hi s p r, ?_⟩
  rw [C51_kl_natural h _ _ _ _ hd, C51_kl_natural h _ _ _ _ fun j hj => hd _ (inB_at hi hj),
    atIndex_scalars hi]

/-- **C51.** `kl_divergence` of an expectation parametrization. -/
theorem C51_at_kl_expectation (χ : List ℕ → K.E) (r : List ℕ → K.N)
    (hd : ∀ j, inB (s ++ t) j = true → K.domE (p j) (χ j)) :
    ∃ d e, (K.exp (s ++ t) p χ).getitem i.reverse = .ok d ∧
      (K.nat (s ++ t) p r).getitem i.reverse = .ok e ∧ d.klE (library search) e =
        atIndex i.reverse ((K.exp (s ++ t) p χ).klE (library search) (K.nat (s ++ t) p r)) := by
  have h := C51_library hs hK
  refine ⟨_, _, C51_getitem_expectation hs hK hi s p χ, C51_getitem_natural hs hK hi s p r, ?_⟩
  rw [C51_kl_expectation h _ _ _ _ hd, C51_kl_expectation h _ _ _ _ fun j hj => hd _ (inB_at hi hj),
    atIndex_scalars hi]

/-- **C51.** `cross_entropy`. -/
theorem C51_at_cross_entropy (he : K.ent) (χ : List ℕ → K.E) (r : List ℕ → K.N) :
    ∃ d e, (K.exp (s ++ t) p χ).getitem i.reverse = .ok d ∧
      (K.nat (s ++ t) p r).getitem i.reverse = .ok e ∧ d.crossEntropy (library search) e =
        atIndex i.reverse ((K.exp (s ++ t) p χ).crossEntropy (library search) (K.nat (s ++ t) p r)) := by
  have h := C51_library hs hK
  refine ⟨_, _, C51_getitem_expectation hs hK hi s p χ, C51_getitem_natural hs hK hi s p r, ?_⟩
  rw [C51_cross_entropy h he, C51_cross_entropy h he, atIndex_scalars hi]

/-- **C51.** `entropy()` of a natural parametrization. -/
theorem C51_at_entropy_natural (he : K.ent) (q : List ℕ → K.N)
    (hd : ∀ j, inB (s ++ t) j = true → K.dom (p j) (q j)) :
    ∃ d, (K.nat (s ++ t) p q).getitem i.reverse = .ok d ∧ d.entropyN (library search) =
      atIndex i.reverse ((K.nat (s ++ t) p q).entropyN (library search)) := by
  have h := C51_library hs hK
  refine ⟨_, C51_getitem_natural hs hK hi s p q, ?_⟩
  rw [C51_entropy_natural h he _ _ _ hd, C51_entropy_natural h he _ _ _ fun j hj => hd _ (inB_at hi hj),
    atIndex_scalars hi]

/-- **C51.** `entropy()` of an expectation parametrization. -/
theorem C51_at_entropy_expectation (he : K.ent) (χ : List ℕ → K.E)
    (hd : ∀ j, inB (s ++ t) j = true → K.domE (p j) (χ j)) :
    ∃ d, (K.exp (s ++ t) p χ).getitem i.reverse = .ok d ∧ d.entropyE (library search) =
      atIndex i.reverse ((K.exp (s ++ t) p χ).entropyE (library search)) := by
  have h := C51_library hs hK
  refine ⟨_, C51_getitem_expectation hs hK hi s p χ, ?_⟩
  rw [C51_entropy_expectation h he _ _ _ hd,
    C51_entropy_expectation h he _ _ _ fun j hj => hd _ (inB_at hi hj), atIndex_scalars hi]

end

end Efax
