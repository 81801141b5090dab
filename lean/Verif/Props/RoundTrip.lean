import Verif.Props.Joints
import Verif.Props.Families.Inverse

/-!
# C31, C32, C37: conversions of whole batches, simple or joint, are inverse where those of the entries are
-/

namespace Efax

open ClassTable Calc Spec

section

variable {α : Type} [Inhabited α] {rs : List ℕ}

theorem scalars_congr_in {f g : List ℕ → α} (h : ∀ i, inB rs i = true → f i = g i) :
    scalars rs f = scalars rs g := Arr.ext rfl fun i hi => by
  have hi : inB rs i = true := hi
  rw [scalars, scalars, Arr.ofFn_get hi, Arr.ofFn_get hi, h i hi]

theorem vectors_congr {d : ℕ} {f g : List ℕ → Fin d → α} (h : ∀ i, inB rs i = true → f i = g i) :
    vectors rs f = vectors rs g := Arr.ext rfl fun i hi => by
  match i, hi with
  | [], hi => simp [vectors, inB] at hi
  | k :: j, hi =>
    obtain ⟨hk, hj⟩ := (inB_cons ..).1 hi
    rw [Efax.vectors_get rs j hj _ hk, Efax.vectors_get rs j hj _ hk, h j hj]

theorem matrices_congr {d : ℕ} {f g : List ℕ → Matrix (Fin d) (Fin d) α}
    (h : ∀ i, inB rs i = true → f i = g i) : matrices rs f = matrices rs g := Arr.ext rfl fun i hi => by
  match i, hi with
  | [], hi => simp [matrices, inB] at hi
  | [_], hi => simp [matrices, inB] at hi
  | k :: l :: j, hi =>
    obtain ⟨hk, hi⟩ := (inB_cons ..).1 hi
    obtain ⟨hl, hj⟩ := (inB_cons ..).1 hi
    rw [Efax.matrices_get rs j hj _ hl hk, Efax.matrices_get rs j hj _ hl hk, h j hj]

end

/-- A layout stores the values of the entries only. -/
def Local {P Q : Type} (lay : Layout P Q) : Prop := ∀ rs p q q',
  (∀ i, inB rs i = true → q i = q' i) → lay rs p q = lay rs p q'

theorem layS_local : Local layS := fun _ _ _ _ h => by simp only [layS, scalars_congr_in h]
theorem layV_local (d : ℕ) : Local (layV d) := fun _ _ _ _ h => by simp only [layV, vectors_congr h]
theorem layE_local (d : ℕ) : Local (layE d) := fun rs _ q q' h => by
  have : vectors rs (fun i k => q i k) = vectors rs (fun i k => q' i k) :=
    vectors_congr fun i hi => by rw [h i hi]
  simp only [layE, this]
theorem laySS_local : Local laySS := fun rs _ q q' h => by
  have h1 : scalars rs (fun i => (q i).1) = scalars rs (fun i => (q' i).1) :=
    scalars_congr_in fun i hi => by rw [h i hi]
  have h2 : scalars rs (fun i => (q i).2) = scalars rs (fun i => (q' i).2) :=
    scalars_congr_in fun i hi => by rw [h i hi]
  simp only [laySS, h1, h2]
theorem layVV_local (d : ℕ) : Local (layVV d) := fun rs _ q q' h => by
  have h1 : vectors rs (fun i => (q i).1) = vectors rs (fun i => (q' i).1) :=
    vectors_congr fun i hi => by rw [h i hi]
  have h2 : vectors rs (fun i => (q i).2) = vectors rs (fun i => (q' i).2) :=
    vectors_congr fun i hi => by rw [h i hi]
  simp only [layVV, h1, h2]
theorem layVS_local (d : ℕ) : Local (layVS d) := fun rs _ q q' h => by
  have h1 : vectors rs (fun i => (q i).1) = vectors rs (fun i => (q' i).1) :=
    vectors_congr fun i hi => by rw [h i hi]
  have h2 : scalars rs (fun i => (q i).2) = scalars rs (fun i => (q' i).2) :=
    scalars_congr_in fun i hi => by rw [h i hi]
  simp only [layVS, h1, h2]
theorem layVM_local (d : ℕ) : Local (layVM d) := fun rs _ q q' h => by
  have h1 : vectors rs (fun i => (q i).1) = vectors rs (fun i => (q' i).1) :=
    vectors_congr fun i hi => by rw [h i hi]
  have h2 : matrices rs (fun i => (q i).2) = matrices rs (fun i => (q' i).2) :=
    matrices_congr fun i hi => by rw [h i hi]
  simp only [layVM, h1, h2]
theorem layC_local : Local layC := fun _ _ _ _ h => by simp only [layC, scalars_congr_in h]
theorem layCV_local (d : ℕ) : Local (layCV d) := fun _ _ _ _ h => by simp only [layCV, vectors_congr h]
theorem layCM_local (d : ℕ) : Local (layCM d) := fun _ _ _ _ h => by simp only [layCM, matrices_congr h]
theorem layCSC_local : Local layCSC := fun rs _ q q' h => by
  have h1 : scalars rs (fun i => (q i).1) = scalars rs (fun i => (q' i).1) :=
    scalars_congr_in fun i hi => by rw [h i hi]
  have h2 : scalars rs (fun i => (q i).2.1) = scalars rs (fun i => (q' i).2.1) :=
    scalars_congr_in fun i hi => by rw [h i hi]
  have h3 : scalars rs (fun i => (q i).2.2) = scalars rs (fun i => (q' i).2.2) :=
    scalars_congr_in fun i hi => by rw [h i hi]
  simp only [layCSC, h1, h2, h3]
theorem laySFixedInt_local : Local laySFixedInt := fun _ _ _ _ h => by
  simp only [laySFixedInt, scalars_congr_in h]
theorem layFixedS_local : Local layFixedS := fun _ _ _ _ h => by
  simp only [layFixedS, scalars_congr_in h]
theorem layVFixed_local (d : ℕ) : Local (layVFixed d) := fun _ _ _ _ h => by
  simp only [layVFixed, vectors_congr h]

variable [MachEps] {solve : Solver} {search : Cls → List Val → Except Err (List Val)}

theorem Local.nat {P Q : Type} {lay : Layout P Q} (hl : Local lay) {c : Cls} {rs : List ℕ}
    {p : List ℕ → P} {q q' : List ℕ → Q} (h : ∀ i, inB rs i = true → q i = q' i) :
    (Dist.mk c (lay rs p q) .nil : Dist Cls) = .mk c (lay rs p q') .nil := by rw [hl rs p q q' h]

theorem natural_congr {K : Kind Cls} (hK : LibraryKind solve K) {rs : List ℕ} {p : List ℕ → K.P}
    {q q' : List ℕ → K.N} (h : ∀ i, inB rs i = true → q i = q' i) : K.nat rs p q = K.nat rs p q' := by
  induction hK with
  | simple s =>
    cases s
    all_goals first
      | exact layS_local.nat h
      | exact laySS_local.nat h
      | exact (layV_local _).nat h
      | exact (layE_local _).nat h
      | exact (layVV_local _).nat h
      | exact (layVS_local _).nat h
      | exact (layVM_local _).nat h
      | exact layC_local.nat h
      | exact (layCV_local _).nat h
      | exact (layCM_local _).nat h
      | exact layCSC_local.nat h
      | exact laySFixedInt_local.nat h
      | exact layFixedS_local.nat h
      | exact (layVFixed_local _).nat h
  | @joint l _ _ _ ih =>
    refine congrArg (Dist.mk Cls.jointN []) ?_
    clear * - ih h
    induction l with
    | nil => rfl
    | cons nk l ih' =>
      refine congrArg₂ (Subs.cons nk.1) (ih nk List.mem_cons_self fun i hi => congrArg Prod.fst (h i hi)) ?_
      exact ih' (fun nk hm => ih nk (List.mem_cons_of_mem _ hm)) fun i hi => congrArg Prod.snd (h i hi)

theorem expectation_congr {K : Kind Cls} (hK : LibraryKind solve K) {rs : List ℕ} {p : List ℕ → K.P}
    {q q' : List ℕ → K.E} (h : ∀ i, inB rs i = true → q i = q' i) : K.exp rs p q = K.exp rs p q' := by
  induction hK with
  | simple s =>
    cases s
    all_goals first
      | exact layS_local.nat h
      | exact laySS_local.nat h
      | exact (layV_local _).nat h
      | exact (layE_local _).nat h
      | exact (layVV_local _).nat h
      | exact (layVS_local _).nat h
      | exact (layVM_local _).nat h
      | exact layC_local.nat h
      | exact (layCV_local _).nat h
      | exact (layCM_local _).nat h
      | exact layCSC_local.nat h
      | exact laySFixedInt_local.nat h
      | exact layFixedS_local.nat h
      | exact (layVFixed_local _).nat h
  | @joint l _ _ _ ih =>
    refine congrArg (Dist.mk Cls.jointE []) ?_
    clear * - ih h
    induction l with
    | nil => rfl
    | cons nk l ih' =>
      refine congrArg₂ (Subs.cons nk.1) (ih nk List.mem_cons_self fun i hi => congrArg Prod.fst (h i hi)) ?_
      exact ih' (fun nk hm => ih nk (List.mem_cons_of_mem _ hm)) fun i hi => congrArg Prod.snd (h i hi)

/-- **C31, C37.** `to_exp()` and `to_nat()` of a batch: the object is recovered if the parameters of
every entry are. -/
theorem C37_to_exp_to_nat_batch (hs : solve.For search) {K : Kind Cls} (hK : LibraryKind solve K)
    {rs : List ℕ} {p : List ℕ → K.P} {q : List ℕ → K.N}
    (h : ∀ i, inB rs i = true → K.dom (p i) (q i) ∧ K.domE (p i) ((K.F (p i)).toExp (q i)) ∧
      K.toNat (p i) ((K.F (p i)).toExp (q i)) = q i) :
    ∃ e, (K.nat rs p q).toExp (library search).toExp = .ok e ∧
      e.toNat (library search).toNat = .ok (K.nat rs p q) := by
  have hO := C51_library hs hK
  refine ⟨_, hO.toExp rs p q fun i hi => (h i hi).1, ?_⟩
  rw [hO.toNat rs p _ fun i hi => (h i hi).2.1]
  exact congrArg _ (natural_congr hK fun i hi => (h i hi).2.2)

/-- **C31, C32, C37.** `to_nat()` and `to_exp()` of a batch: the object is recovered if the parameters
of every entry are. -/
theorem C37_to_nat_to_exp_batch (hs : solve.For search) {K : Kind Cls} (hK : LibraryKind solve K)
    {rs : List ℕ} {p : List ℕ → K.P} {χ : List ℕ → K.E}
    (h : ∀ i, inB rs i = true → K.domE (p i) (χ i) ∧ K.dom (p i) (K.toNat (p i) (χ i)) ∧
      (K.F (p i)).toExp (K.toNat (p i) (χ i)) = χ i) :
    ∃ e, (K.exp rs p χ).toNat (library search).toNat = .ok e ∧
      e.toExp (library search).toExp = .ok (K.exp rs p χ) := by
  have hO := C51_library hs hK
  refine ⟨_, hO.toNat rs p χ fun i hi => (h i hi).1, ?_⟩
  rw [hO.toExp rs p _ fun i hi => (h i hi).2.1]
  exact congrArg _ (expectation_congr hK fun i hi => (h i hi).2.2)

/-- Non-vacuity: a joint distribution of a Poisson and a nested exponential distribution with any
parameters in their domains. -/
example (rs : List ℕ) (a b : List ℕ → ℝ) (hb : ∀ i, inB rs i = true → b i < 0) :
    let d : Dist Cls := .mk .jointN [] (.cons "p" (.mk .poissonNP [.real (scalars rs a)] .nil)
      (.cons "j" (.mk .jointN [] (.cons "e" (.mk .exponentialNP [.real (scalars rs b)] .nil) .nil)) .nil))
    ∃ e, d.toExp (library (searchFor zeroMinimizer)).toExp = .ok e ∧
      e.toNat (library (searchFor zeroMinimizer)).toNat = .ok d := by
  intro d
  let Ke : Kind Cls := Simple.exponential.kind (solverOf zeroMinimizer)
  let Kp : Kind Cls := Simple.poisson.kind (solverOf zeroMinimizer)
  let Kj : Kind Cls := .joint .jointN .jointE (.ofList [("e", Ke)])
  have hj : LibraryKind (solverOf zeroMinimizer) Kj := .joint (by simp) (by simp) fun nk hm => by
    rw [List.mem_singleton.1 hm]; exact .simple .exponential
  have hK : LibraryKind (solverOf zeroMinimizer) (.joint .jointN .jointE (.ofList [("p", Kp), ("j", Kj)])) :=
    .joint (by simp) (by simp) fun nk hm => by
      rcases List.mem_cons.1 hm with rfl | hm
      · exact .simple .poisson
      · rw [List.mem_singleton.1 hm]; exact hj
  exact C37_to_exp_to_nat_batch (C51_search zeroMinimizer_returns) hK (rs := rs)
    (p := fun _ => ((), ((), ()), ())) (q := fun i => (a i, (b i, ()), ())) fun i hi =>
    ⟨⟨trivial, ⟨trivial, trivial⟩, trivial⟩, ⟨trivial, ⟨trivial, trivial⟩, trivial⟩,
      Prod.ext (C31_poisson.1 (a i) trivial).2
        (Prod.ext (Prod.ext (C31_exponential.1 (b i) (hb i hi)).2 rfl) rfl)⟩

end Efax
