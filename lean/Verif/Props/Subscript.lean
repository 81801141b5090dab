import Verif.Lemmas.Subscript
import Verif.Props.Objects
import Verif.Props.RoundTrip

/-!
# C95: subscripts of distributions

`d[key]` for the keys of NumPy and JAX that address the axes of the batch: integers (also negative),
slices, `newaxis`, a final ellipsis, arrays of integers and masks.
-/

namespace Efax

open ClassTable Calc Spec

section Observations

theorem Arr.at_map {α β : Type} [Inhabited α] [Inhabited β] {g : α → β} {a : Arr α}
    {key : Subscript} {b : Arr β} (h : (a.map g).at key = .ok b) :
    ∃ a', a.at key = .ok a' ∧ a'.map g = b := by
  have e : (a.map g).rshape = a.rshape := rfl
  rw [Arr.at, e] at h
  obtain ⟨v, hv, h⟩ := bind_inv h
  injection h with h
  refine ⟨_, by rw [Arr.at, hv]; rfl, ?_⟩
  rw [← h]
  refine Arr.ext rfl fun j hj => ?_
  have hj : inB v.rshape j = true := hj
  rw [Arr.map_get hj, Arr.ofFn_get hj, Arr.ofFn_get hj]
  exact (Arr.map_get (View.map_inB (rs := a.rshape) hv hj)).symm

theorem Val.at_toR {key : Subscript} {v : Val} {b b' : Arr ℝ} (h : v.toR = ok b)
    (hb : b.at key = .ok b') : ∃ v', v.at key = .ok v' ∧ v'.toR = ok b' := by
  cases v with
  | real a =>
    injection h with h; subst h
    exact ⟨.real b', by simp only [Val.at, hb]; rfl, rfl⟩
  | int a =>
    injection h with h; subst h
    obtain ⟨a', h1, h2⟩ := Arr.at_map hb
    exact ⟨.int a', by simp only [Val.at, h1]; rfl, congrArg ok h2⟩
  | bool a =>
    injection h with h; subst h
    obtain ⟨a', h1, h2⟩ := Arr.at_map hb
    exact ⟨.bool a', by simp only [Val.at, h1]; rfl, congrArg ok h2⟩
  | complex a => cases h

theorem Val.at_toC {key : Subscript} {v : Val} {b' : Arr ℂ}
    (hb : v.toC.at key = .ok b') : ∃ v', v.at key = .ok v' ∧ v'.toC = b' := by
  cases v with
  | real a =>
    obtain ⟨a', h1, h2⟩ := Arr.at_map hb
    exact ⟨.real a', by simp only [Val.at, h1]; rfl, h2⟩
  | int a =>
    obtain ⟨a', h1, h2⟩ := Arr.at_map hb
    exact ⟨.int a', by simp only [Val.at, h1]; rfl, h2⟩
  | bool a =>
    obtain ⟨a', h1, h2⟩ := Arr.at_map hb
    exact ⟨.bool a', by simp only [Val.at, h1]; rfl, h2⟩
  | complex a =>
    exact ⟨.complex b', by rw [Val.at, show a.at key = .ok b' from hb]; rfl, rfl⟩

/-- Observations have subscripts. -/
def ViewedObs {X : Type} (obs : List ℕ → (List ℕ → X) → Val → Prop) : Prop :=
  ∀ ⦃key rs v⦄, Leading key → key.view rs.reverse = .ok v → ∀ x o, obs rs x o →
    ∃ o', Val.at key o = .ok o' ∧ obs v.rshape (fun j => x (v.map j)) o'

theorem HoldsR.at : ViewedObs HoldsR := fun _ _ _ hk hv _ _ h => Val.at_toR h (scalars_view hk hv _)

theorem HoldsV.at {d : ℕ} : ViewedObs (HoldsV (d := d)) := fun _ _ _ hk hv _ _ h =>
  Val.at_toR h (vectors_view hk hv _)

theorem HoldsSphere.at {d : ℕ} : ViewedObs (HoldsSphere (d := d)) := fun _ _ _ hk hv _ _ h =>
  Val.at_toR h (vectors_view hk hv _)

theorem HoldsC.at : ViewedObs HoldsC := fun _ _ _ hk hv _ o h =>
  Val.at_toC (v := o) (by rw [show o.toC = _ from h]; exact scalars_view hk hv _)

theorem HoldsCV.at {d : ℕ} : ViewedObs (HoldsCV (d := d)) := fun _ _ _ hk hv _ o h =>
  Val.at_toC (v := o) (by rw [show o.toC = _ from h]; exact vectors_view hk hv _)

theorem ViewedObs.comp {X Y : Type} {obs : List ℕ → (List ℕ → X) → Val → Prop} (h : ViewedObs obs)
    (g : Y → X) : ViewedObs fun rs (y : List ℕ → Y) v => obs rs (fun i => g (y i)) v :=
  fun _ _ _ hk hv _ o ho => h hk hv _ o ho

variable {C : Type} [ClassTable C]

/-- Observations of a kind have subscripts. -/
def Spec.Kind.ViewedObs (K : Kind C) : Prop := ∀ ⦃key rs v⦄, Leading key → key.view rs.reverse = .ok v →
  ∀ x o, K.obs rs x o → ∃ o', treeAt key o = .ok o' ∧ K.obs v.rshape (fun j => x (v.map j)) o'

theorem Spec.Kind.ViewedObs.simple {P N E X : Type} [Sub N] {c c' : C}
    {nat : Layout P N} {exp : Layout P E}
    {obs : List ℕ → (List ℕ → X) → Val → Prop} {F : P → ExpFam N E X} {dom : P → N → Prop}
    {toNat : P → E → N} {ecm : P → E → ℝ} {ent : Prop} {domE : P → E → Prop}
    (h : Efax.ViewedObs obs) : (Kind.simple c c' nat exp obs F toNat ecm ent dom domE).ViewedObs := by
  rintro key rs v hk hv x _ ⟨o, rfl, ho⟩
  obtain ⟨o', h1, h2⟩ := h hk hv x o ho
  exact ⟨.leaf o', by rw [treeAt, h1]; rfl, o', rfl, h2⟩

theorem forestAt_ok {key : Subscript} {f : Forest Val}
    (h : ∀ n t, (n, t) ∈ f.toList → ∃ t', treeAt key t = .ok t') :
    ∃ f', forestAt key f = .ok f' ∧ f'.keys = f.keys ∧
      ∀ n t, (n, t) ∈ f.toList → ∃ t', treeAt key t = .ok t' ∧ (n, t') ∈ f'.toList := by
  induction f using Forest.rec (motive_1 := fun _ => True) with
  | leaf => trivial
  | node => trivial
  | nil => exact ⟨.nil, rfl, rfl, fun _ _ h => by cases h⟩
  | cons k t r _ ih =>
    obtain ⟨t', ht⟩ := h k t List.mem_cons_self
    obtain ⟨f', h1, h2, h3⟩ := ih fun n t hm => h n t (List.mem_cons_of_mem _ hm)
    refine ⟨.cons k t' f', by rw [forestAt, ht, h1]; rfl, congrArg (k :: ·) h2, fun n u hm => ?_⟩
    rcases List.mem_cons.1 hm with e | hm
    · cases e; exact ⟨t', ht, List.mem_cons_self⟩
    · obtain ⟨u', a, b⟩ := h3 n u hm
      exact ⟨u', a, List.mem_cons_of_mem _ b⟩

theorem Parts.obs_at {l : List (String × Kind C)} (h : ∀ nk ∈ l, nk.2.ViewedObs)
    {key : Subscript} {rs : List ℕ} {v : View} (hk : Leading key) (hv : key.view rs.reverse = .ok v)
    {f f' : Forest Val}
    (hf : ∀ n t, (n, t) ∈ f.toList → ∃ t', treeAt key t = .ok t' ∧ (n, t') ∈ f'.toList)
    (x : List ℕ → (Parts.ofList l).X) (ho : (Parts.ofList l).obs rs x f) :
    (Parts.ofList l).obs v.rshape (fun j => x (v.map j)) f' := by
  induction l with
  | nil => trivial
  | cons nk l ih =>
    obtain ⟨⟨o, h1, h2⟩, h3⟩ := ho
    refine ⟨?_, ih (fun nk hm => h nk (List.mem_cons_of_mem _ hm)) _ h3⟩
    obtain ⟨o', h4, h5⟩ := h nk List.mem_cons_self hk hv _ o h2
    obtain ⟨o'', h6, h7⟩ := hf _ _ h1
    rw [h4] at h6
    cases h6
    exact ⟨o', h7, h5⟩

theorem Spec.Kind.ViewedObs.joint {c c' : C} {l : List (String × Kind C)}
    (h : ∀ nk ∈ l, nk.2.ViewedObs) : (Kind.joint c c' (.ofList l)).ViewedObs := by
  rintro key rs v hk hv x _ ⟨f, rfl, h1, h2, h3⟩
  obtain ⟨f', h4, h5, h6⟩ := forestAt_ok (key := key) (f := f) fun n o hm => by
    obtain ⟨nk, h7, y, o', h8, h9, h10⟩ := Parts.obs_mem h2 (h3 n (Forest.mem_keys hm))
    obtain ⟨o'', h11, _⟩ := h nk h7 hk hv y o' h10
    rw [Forest.mem_unique h1 hm h9]
    exact ⟨o'', h11⟩
  refine ⟨.node f', by rw [treeAt, h4]; rfl, f', rfl, h5 ▸ h1, Parts.obs_at h hk hv h6 x h2, ?_⟩
  rw [h5]
  exact h3

end Observations

variable [MachEps] {solve : Solver} {search : Cls → List Val → Except Err (List Val)}

theorem library_viewedObs {K : Kind Cls} (hK : LibraryKind solve K) : K.ViewedObs := by
  induction hK with
  | simple s =>
    cases s
    case bernoulli => exact .simple (HoldsR.at.comp _)
    case geometric => exact .simple (HoldsR.at.comp fun x : ℕ => (x : ℝ))
    case logarithmic => exact .simple (HoldsR.at.comp fun x : ℕ => (x : ℝ) + 1)
    case negativeBinomial => exact .simple (HoldsR.at.comp fun x : ℕ => (x : ℝ))
    case poisson => exact .simple (HoldsR.at.comp fun x : ℕ => (x : ℝ))
    all_goals first
      | exact .simple HoldsR.at
      | exact .simple HoldsV.at
      | exact .simple HoldsSphere.at
      | exact .simple HoldsC.at
      | exact .simple HoldsCV.at
  | joint _ _ _ ih => exact .joint ih

theorem library_viewed {K : Kind Cls} (hK : LibraryKind solve K) : K.Viewed := by
  induction hK with
  | simple s =>
    cases s
    all_goals first
      | exact .simple layS_at layS_at
      | exact .simple laySS_at laySS_at
      | exact .simple (layV_at _) (layV_at _)
      | exact .simple (layE_at _) (layE_at _)
      | exact .simple (layVV_at _) (layVV_at _)
      | exact .simple (layVS_at _) (layVS_at _)
      | exact .simple (layVM_at _) (layVM_at _)
      | exact .simple layC_at layC_at
      | exact .simple (layCV_at _) (layCV_at _)
      | exact .simple (layCM_at _) (layCM_at _)
      | exact .simple layCSC_at layCSC_at
      | exact .simple laySFixedInt_at laySFixedInt_at
      | exact .simple layFixedS_at layFixedS_at
      | exact .simple (layVFixed_at _) (layVFixed_at _)
  | joint _ _ _ ih => exact .joint (.ofList ih)

theorem laySFixedInt_local' {rs : List ℕ} {p p' : List ℕ → ℕ} {q q' : List ℕ → ℝ}
    (hp : ∀ i, inB rs i = true → p i = p' i) (h : ∀ i, inB rs i = true → q i = q' i) :
    laySFixedInt rs p q = laySFixedInt rs p' q' := by
  have : scalars rs (fun i => ((p i : ℕ) : ℤ)) = scalars rs fun i => ((p' i : ℕ) : ℤ) :=
    scalars_congr_in fun i hi => by rw [hp i hi]
  simp only [laySFixedInt, scalars_congr_in h, this]

theorem layFixedS_local' {rs : List ℕ} {p p' : List ℕ → ℝ} {q q' : List ℕ → ℝ}
    (hp : ∀ i, inB rs i = true → p i = p' i) (h : ∀ i, inB rs i = true → q i = q' i) :
    layFixedS rs p q = layFixedS rs p' q' := by
  simp only [layFixedS, scalars_congr_in h, scalars_congr_in hp]

theorem layVFixed_local' {d : ℕ} {rs : List ℕ} {p p' : List ℕ → ℝ} {q q' : List ℕ → Fin d → ℝ}
    (hp : ∀ i, inB rs i = true → p i = p' i) (h : ∀ i, inB rs i = true → q i = q' i) :
    layVFixed d rs p q = layVFixed d rs p' q' := by
  simp only [layVFixed, vectors_congr h, scalars_congr_in hp]

theorem natural_congr' {K : Kind Cls} (hK : LibraryKind solve K) {rs : List ℕ} {p p' : List ℕ → K.P}
    {q q' : List ℕ → K.N} (hp : ∀ i, inB rs i = true → p i = p' i)
    (h : ∀ i, inB rs i = true → q i = q' i) : K.nat rs p q = K.nat rs p' q' := by
  refine (natural_congr hK h).trans ?_
  clear h q
  induction hK with
  | simple s =>
    cases s
    all_goals first
      | rfl
      | exact congrArg (Dist.mk _ · .nil) (laySFixedInt_local' hp fun _ _ => rfl)
      | exact congrArg (Dist.mk _ · .nil) (layFixedS_local' hp fun _ _ => rfl)
      | exact congrArg (Dist.mk _ · .nil) (layVFixed_local' hp fun _ _ => rfl)
  | @joint l _ _ _ ih =>
    refine congrArg (Dist.mk Cls.jointN []) ?_
    clear * - ih hp
    induction l with
    | nil => rfl
    | cons nk l ih' =>
      refine congrArg₂ (Subs.cons nk.1) (ih nk List.mem_cons_self fun i hi => congrArg Prod.fst (hp i hi)) ?_
      exact ih' (fun nk hm => ih nk (List.mem_cons_of_mem _ hm)) fun i hi => congrArg Prod.snd (hp i hi)

theorem expectation_congr' {K : Kind Cls} (hK : LibraryKind solve K) {rs : List ℕ} {p p' : List ℕ → K.P}
    {q q' : List ℕ → K.E} (hp : ∀ i, inB rs i = true → p i = p' i)
    (h : ∀ i, inB rs i = true → q i = q' i) : K.exp rs p q = K.exp rs p' q' := by
  refine (expectation_congr hK h).trans ?_
  clear h q
  induction hK with
  | simple s =>
    cases s
    all_goals first
      | rfl
      | exact congrArg (Dist.mk _ · .nil) (laySFixedInt_local' hp fun _ _ => rfl)
      | exact congrArg (Dist.mk _ · .nil) (layFixedS_local' hp fun _ _ => rfl)
      | exact congrArg (Dist.mk _ · .nil) (layVFixed_local' hp fun _ _ => rfl)
  | @joint l _ _ _ ih =>
    refine congrArg (Dist.mk Cls.jointE []) ?_
    clear * - ih hp
    induction l with
    | nil => rfl
    | cons nk l ih' =>
      refine congrArg₂ (Subs.cons nk.1) (ih nk List.mem_cons_self fun i hi => congrArg Prod.fst (hp i hi)) ?_
      exact ih' (fun nk hm => ih nk (List.mem_cons_of_mem _ hm)) fun i hi => congrArg Prod.snd (hp i hi)

section

variable (hs : solve.For search) {K : Kind Cls} (hK : LibraryKind solve K)
  {key : Subscript} (hk : Leading key) {rs : List ℕ} {v : View} (hv : key.view rs.reverse = .ok v)

include hs hK hk hv

theorem at_natural (p : List ℕ → K.P) (q : List ℕ → K.N) :
    (K.nat rs p q).at key = .ok (K.nat v.rshape (fun j => p (v.map j)) fun j => q (v.map j)) := by
  have h := library_indexed hs hK
  obtain ⟨l, hl⟩ := h.infosN rs p q []
  exact ((library_viewed hK).nat hk hv p q).at (h.wfN _ _ _) (h.wfN _ _ _) hl

theorem at_expectation (p : List ℕ → K.P) (χ : List ℕ → K.E) :
    (K.exp rs p χ).at key = .ok (K.exp v.rshape (fun j => p (v.map j)) fun j => χ (v.map j)) := by
  have h := library_indexed hs hK
  obtain ⟨l, hl⟩ := h.infosE rs p χ []
  exact ((library_viewed hK).exp hk hv p χ).at (h.wfE _ _ _) (h.wfE _ _ _) hl

omit hs hK in
theorem atKey_scalars (f : List ℕ → ℝ) :
    atKey key (ok (scalars rs f)) = ok (scalars v.rshape fun j => f (v.map j)) :=
  scalars_view hk hv f

end

variable (hs : solve.For search) {key : Subscript} (hk : Leading key) {rs : List ℕ} {v : View}
  (hv : key.view rs.reverse = .ok v)

/-- **C95.** Every entry of `d[key]` is an entry of `d`: the one that the key selects. -/
theorem C95_natural (hk : Leading key) (hv : key.view rs.reverse = .ok v) {d : Dist Cls}
    (h : NaturalBatch rs d) :
    ∃ d', d.at key = .ok d' ∧ d'.shape (library search) = .ok v.shape.reverse ∧
      ∀ i, inB v.shape i = true → inB rs.reverse (v.source i) = true ∧
        ∃ e, d'.getitem i = .ok e ∧ d.getitem (v.source i) = .ok e := by
  have hs := C51_search zeroMinimizer_returns
  obtain ⟨K, hK, p, q, rfl⟩ := C51_every_natural (solve := solverOf zeroMinimizer) d h.1 h.2
  refine ⟨_, at_natural hs hK hk hv p q, ?_, fun i hi => ⟨Subscript.view_inB hv hi, ?_⟩⟩
  · rw [shape_search search (searchFor zeroMinimizer)]
    exact (C51_library hs hK).shapeN _ _ _
  · have h1 := C51_getitem_natural hs hK (inB_reverse.2 hi) [] (fun j => p (v.map j)) fun j => q (v.map j)
    rw [List.reverse_reverse] at h1
    refine ⟨_, h1, ?_⟩
    have := C51_getitem_natural hs hK (t := rs) (i := (v.source i).reverse)
      (by rw [← inB_reverse, List.reverse_reverse]; exact Subscript.view_inB hv hi) [] p q
    rw [List.reverse_reverse] at this
    refine this.trans (congrArg Except.ok (natural_congr' hK (fun j hj => ?_) fun j hj => ?_)) <;>
    · rw [inB_nil_iff] at hj; subst hj
      simp only [List.nil_append, View.map, List.reverse_reverse]

/-- **C95.** The same for expectation parametrizations. -/
theorem C95_expectation (hk : Leading key) (hv : key.view rs.reverse = .ok v) {d : Dist Cls}
    (h : ExpectationBatch rs d) :
    ∃ d', d.at key = .ok d' ∧ d'.shape (library search) = .ok v.shape.reverse ∧
      ∀ i, inB v.shape i = true → inB rs.reverse (v.source i) = true ∧
        ∃ e, d'.getitem i = .ok e ∧ d.getitem (v.source i) = .ok e := by
  have hs := C51_search zeroMinimizer_returns
  obtain ⟨K, hK, p, q, rfl⟩ := C51_every_expectation (solve := solverOf zeroMinimizer) d h.1 h.2
  refine ⟨_, at_expectation hs hK hk hv p q, ?_, fun i hi => ⟨Subscript.view_inB hv hi, ?_⟩⟩
  · rw [shape_search search (searchFor zeroMinimizer)]
    exact (C51_library hs hK).shapeE _ _ _
  · have h1 := C51_getitem_expectation hs hK (inB_reverse.2 hi) [] (fun j => p (v.map j)) fun j => q (v.map j)
    rw [List.reverse_reverse] at h1
    refine ⟨_, h1, ?_⟩
    have := C51_getitem_expectation hs hK (t := rs) (i := (v.source i).reverse)
      (by rw [← inB_reverse, List.reverse_reverse]; exact Subscript.view_inB hv hi) [] p q
    rw [List.reverse_reverse] at this
    refine this.trans (congrArg Except.ok (expectation_congr' hK (fun j hj => ?_) fun j hj => ?_)) <;>
    · rw [inB_nil_iff] at hj; subst hj
      simp only [List.nil_append, View.map, List.reverse_reverse]

include hs hk hv

/-- **C95.** `log_normalizer()`. -/
theorem C95_log_normalizer {d : Dist Cls} (h : NaturalBatch rs d) :
    ∃ d', d.at key = .ok d' ∧ d'.logNormalizer (library search) =
      atKey key (d.logNormalizer (library search)) := by
  obtain ⟨K, hK, p, q, rfl⟩ := C51_every_natural (solve := solve) d h.1 h.2
  have h := C51_library hs hK
  refine ⟨_, at_natural hs hK hk hv p q, ?_⟩
  rw [h.logNormalizer, h.logNormalizer, atKey_scalars hk hv]

/-- **C95.** `to_exp()`. -/
theorem C95_to_exp {d : Dist Cls} (h : NaturalBatch rs d) (hr : EachLeaf RegularVals d) :
    ∃ d' e e', d.at key = .ok d' ∧ d.toExp (library search).toExp = .ok e ∧
      e.at key = .ok e' ∧ d'.toExp (library search).toExp = .ok e' := by
  obtain ⟨K, hK, p, q, rfl⟩ := C51_every_natural (solve := solve) d h.1 h.2
  have h := C51_library hs hK
  have hd := regular_dom hK hr
  exact ⟨_, _, _, at_natural hs hK hk hv p q, h.toExp _ p q hd, at_expectation hs hK hk hv p _,
    h.toExp _ _ _ fun j hj => hd _ (View.map_inB hv hj)⟩

/-- **C95.** `to_nat()`. -/
theorem C95_to_nat {d : Dist Cls} (h : ExpectationBatch rs d) (hr : EachLeaf SearchableVals d) :
    ∃ d' e e', d.at key = .ok d' ∧ d.toNat (library search).toNat = .ok e ∧
      e.at key = .ok e' ∧ d'.toNat (library search).toNat = .ok e' := by
  obtain ⟨K, hK, p, q, rfl⟩ := C51_every_expectation (solve := solve) d h.1 h.2
  have h := C51_library hs hK
  have hd := searchable_dom hK hr
  exact ⟨_, _, _, at_expectation hs hK hk hv p q, h.toNat _ p q hd, at_natural hs hK hk hv p _,
    h.toNat _ _ _ fun j hj => hd _ (View.map_inB hv hj)⟩

/-- **C95.** `log_pdf(x)` of a (nested) observation `x` with the shape of the batch. -/
theorem C95_log_pdf {d : Dist Cls} (h : NaturalBatch rs d) {x : Tree Val} (hx : Observed rs d x) :
    ∃ d' x', d.at key = .ok d' ∧ treeAt key x = .ok x' ∧
      d'.logPdf (library search) x' = atKey key (d.logPdf (library search) x) := by
  obtain ⟨K, hK, p, q, rfl⟩ := C51_every_natural (solve := solve) d h.1 h.2
  obtain ⟨y, hy⟩ := observed_obs hK hx
  have h := C51_library hs hK
  obtain ⟨o', h1, h2⟩ := library_viewedObs hK hk hv y x hy
  refine ⟨_, o', at_natural hs hK hk hv p q, h1, ?_⟩
  rw [C51_log_pdf h _ _ _ _ _ hy, C51_log_pdf h _ _ _ _ _ h2, atKey_scalars hk hv]

/-- **C95.** `kl_divergence` of natural parametrizations. -/
theorem C95_kl_natural {d e : Dist Cls} (h : NaturalBatch rs d) (he : Alike (· = ·) d e)
    (hr : EachLeaf RegularVals d) :
    ∃ d' e', d.at key = .ok d' ∧ e.at key = .ok e' ∧
      d'.klN (library search) e' = atKey key (d.klN (library search) e) := by
  obtain ⟨K, hK, p, q, rfl⟩ := C51_every_natural (solve := solve) d h.1 h.2
  obtain ⟨r, rfl⟩ := natural_alike hK he
  have h := C51_library hs hK
  have hd := regular_dom hK hr
  refine ⟨_, _, at_natural hs hK hk hv p q, at_natural hs hK hk hv p r, ?_⟩
  rw [C51_kl_natural h _ _ _ _ hd, C51_kl_natural h _ _ _ _ fun j hj => hd _ (View.map_inB hv hj),
    atKey_scalars hk hv]

/-- **C95.** `kl_divergence` of an expectation parametrization. -/
theorem C95_kl_expectation {d e : Dist Cls} (h : ExpectationBatch rs d)
    (he : Alike (fun c c' => natCls c = some c') d e) (hr : EachLeaf SearchableVals d) :
    ∃ d' e', d.at key = .ok d' ∧ e.at key = .ok e' ∧
      d'.klE (library search) e' = atKey key (d.klE (library search) e) := by
  obtain ⟨K, hK, p, q, rfl⟩ := C51_every_expectation (solve := solve) d h.1 h.2
  obtain ⟨r, rfl⟩ := expectation_alike hK he
  have h := C51_library hs hK
  have hd := searchable_dom hK hr
  refine ⟨_, _, at_expectation hs hK hk hv p q, at_natural hs hK hk hv p r, ?_⟩
  rw [C51_kl_expectation h _ _ _ _ hd, C51_kl_expectation h _ _ _ _ fun j hj => hd _ (View.map_inB hv hj),
    atKey_scalars hk hv]

/-- **C95.** `cross_entropy`. -/
theorem C95_cross_entropy {d e : Dist Cls} (h : ExpectationBatch rs d)
    (he : Alike (fun c c' => natCls c = some c') d e) (hm : EachLeaf (fun c _ => HasEcm c) d) :
    ∃ d' e', d.at key = .ok d' ∧ e.at key = .ok e' ∧
      d'.crossEntropy (library search) e' = atKey key (d.crossEntropy (library search) e) := by
  obtain ⟨K, hK, p, q, rfl⟩ := C51_every_expectation (solve := solve) d h.1 h.2
  obtain ⟨r, rfl⟩ := expectation_alike hK he
  have h := C51_library hs hK
  have he := ecm_ent hK hm
  refine ⟨_, _, at_expectation hs hK hk hv p q, at_natural hs hK hk hv p r, ?_⟩
  rw [C51_cross_entropy h he, C51_cross_entropy h he, atKey_scalars hk hv]

/-- **C95.** `entropy()` of a natural parametrization. -/
theorem C95_entropy_natural {d : Dist Cls} (h : NaturalBatch rs d)
    (hr : EachLeaf RegularVals d) (hm : EachLeaf (fun c _ => HasEcm c) d) :
    ∃ d', d.at key = .ok d' ∧
      d'.entropyN (library search) = atKey key (d.entropyN (library search)) := by
  obtain ⟨K, hK, p, q, rfl⟩ := C51_every_natural (solve := solve) d h.1 h.2
  have h := C51_library hs hK
  have he := ecm_ent_nat hK hm
  have hd := regular_dom hK hr
  refine ⟨_, at_natural hs hK hk hv p q, ?_⟩
  rw [C51_entropy_natural h he _ _ _ hd,
    C51_entropy_natural h he _ _ _ fun j hj => hd _ (View.map_inB hv hj), atKey_scalars hk hv]

/-- **C95.** `entropy()` of an expectation parametrization. -/
theorem C95_entropy_expectation {d : Dist Cls} (h : ExpectationBatch rs d)
    (hr : EachLeaf SearchableVals d) (hm : EachLeaf (fun c _ => HasEcm c) d) :
    ∃ d', d.at key = .ok d' ∧
      d'.entropyE (library search) = atKey key (d.entropyE (library search)) := by
  obtain ⟨K, hK, p, q, rfl⟩ := C51_every_expectation (solve := solve) d h.1 h.2
  have h := C51_library hs hK
  have he := ecm_ent hK hm
  have hd := searchable_dom hK hr
  refine ⟨_, at_expectation hs hK hk hv p q, ?_⟩
  rw [C51_entropy_expectation h he _ _ _ hd,
    C51_entropy_expectation h he _ _ _ fun j hj => hd _ (View.map_inB hv hj), atKey_scalars hk hv]

omit hs hk hv

/-- Non-vacuity: the nested joint distribution of three entries satisfies all hypotheses (see C51), with
the keys `x[::-1]`, `x[-1]`, `x[newaxis, 1:]`, an array and a mask. -/
example : NaturalBatch [3] Samples.joint ∧
    (∀ key ∈ [Subscript.basic [.slice none none (some (-1))], .basic [.int (-1)],
      .basic [.newaxis, .slice (some 1) none none, .ellipsis], .array (Arr.ofFn [2] fun _ => -2),
      .mask (Arr.ofFn [3] fun i => decide (i ≠ [1]))], Leading key ∧ ∃ v, key.view [3] = .ok v) :=
  ⟨Samples.joint_batch, by
    intro key h
    simp only [List.mem_cons, List.not_mem_nil, or_false] at h
    rcases h with rfl | rfl | rfl | rfl | rfl
    · exact ⟨trivial, _, rfl⟩
    · exact ⟨trivial, _, rfl⟩
    · exact ⟨rfl, _, rfl⟩
    · exact ⟨trivial, _, rfl⟩
    · exact ⟨trivial, _, rfl⟩⟩

end Efax
