import Mathlib.Probability.Independence.InfinitePi
import Verif.Spec.Ideal
import Verif.Lemmas.Sampling

/-!
# Independent entries of arrays
-/

namespace Efax

open MeasureTheory ProbabilityTheory Measure Spec

variable {Ω : Type} [MeasurableSpace Ω] {P : Measure Ω} {K : Type}

/-- Independent families are independent in groups. -/
theorem iIndepFun_curry {ι : Type} {κ : ι → Type} {S : Type} [MeasurableSpace S]
    {X : (i : ι) → κ i → Ω → S} (mX : ∀ i j, Measurable (X i j))
    (h : iIndepFun (fun (p : (i : ι) × κ i) ω => X p.1 p.2 ω) P) :
    iIndepFun (fun i ω => fun j => X i j ω) P := by
  have := h.isProbabilityMeasure
  have : ∀ i j, IsProbabilityMeasure (P.map (X i j)) :=
    fun i j => isProbabilityMeasure_map (mX i j).aemeasurable
  have : ∀ i, IsProbabilityMeasure (P.map (fun ω j => X i j ω)) :=
    fun i => isProbabilityMeasure_map (Measurable.aemeasurable (by fun_prop))
  have e : (MeasurableEquiv.piCurry fun i (_ : κ i) => S) ∘ (fun ω p => X p.1 p.2 ω) =
      fun ω i j => X i j ω := by
    ext; simp [Sigma.curry]
  have h2 : ∀ i, iIndepFun (X i) P := fun i =>
    h.precomp (g := fun j => (⟨i, j⟩ : (i : ι) × κ i)) fun a b hab => by simpa using hab
  rw [iIndepFun_iff_map_fun_eq_infinitePi_map (by fun_prop)] at h ⊢
  rw [← e, ← map_map (by fun_prop) (by fun_prop), h,
    infinitePi_map_piCurry (fun i j => P.map (X i j))]
  congrm infinitePi fun i => ?_
  rw [(iIndepFun_iff_map_fun_eq_infinitePi_map (by fun_prop)).1 (h2 i)]

/-- The law of independent random variables with the same law. -/
theorem iIndepFun.law_pi {B S : Type} [Fintype B] [MeasurableSpace S] {ν : Measure S}
    {X : B → Ω → S} (hX : ∀ b, MeasurePreserving (X b) P ν) (h : iIndepFun X P) :
    MeasurePreserving (fun ω b => X b ω) P (Measure.pi fun _ => ν) := by
  have := h.isProbabilityMeasure
  refine ⟨measurable_pi_iff.2 fun b => (hX b).measurable, ?_⟩
  rw [h.map_fun_eq_pi_map fun b => (hX b).measurable.aemeasurable]
  congr 1
  funext b
  exact (hX b).map_eq

theorem MeasurePreserving.andThen {A B C : Type} [MeasurableSpace A] [MeasurableSpace B]
    [MeasurableSpace C] {α : Measure A} {β : Measure B} {f : A → B} {g : B → C}
    (h : MeasurePreserving f α β) (hg : Measurable g) :
    MeasurePreserving (fun a => g (f a)) α (β.map g) :=
  ⟨hg.comp h.measurable, by rw [← h.map_eq, map_map hg h.measurable]; rfl⟩

theorem Spec.IdealRandom.key_injective (I : IdealRandom K P) {k k' : K} {p p' : Option (Fin 2)}
    (hk : ∀ b, k' ≠ I.split k 2 b) (hk' : ∀ b, k ≠ I.split k' 2 b) (h : I.key k p = I.key k' p') :
    k = k' ∧ p = p' := by
  cases p with
  | none =>
    cases p' with
    | none => exact ⟨h, rfl⟩
    | some b => exact absurd h (hk' b)
  | some b =>
    cases p' with
    | none => exact absurd h.symm (hk b)
    | some b' =>
      obtain ⟨h1, -, h2⟩ := I.split_injective _ _ _ _ _ _ h
      exact ⟨h1, congrArg some (Fin.ext h2)⟩

theorem inB_append_iff_of {s t i j : List ℕ} (hi : inB s i = true) (hj : inB t j = true) :
    inB (s ++ t) (i ++ j) = true := by
  induction s generalizing i with
  | nil => cases i with
    | nil => exact hj
    | cons _ _ => simp [inB] at hi
  | cons n s ih => cases i with
    | nil => simp [inB] at hi
    | cons k i =>
      rw [inB_cons] at hi
      exact (inB_cons ..).2 ⟨hi.1, ih hi.2⟩

/-- The seeds that several samplers read with different keys are independent, between the samplers and
between their entries. -/
theorem Spec.Bits.indep {n : Type} (bits : n → Bits) (I : IdealRandom K P) (key : n → K) (t : List ℕ)
    (hk : Function.Injective key) (hk' : ∀ i i' b, key i ≠ I.split (key i') 2 b) :
    iIndepFun (fun (e : (_ : n) × Idx t) ω => (bits e.1).read I ω (key e.1) t e.2.1) P := by
  classical
  have inj : ∀ i i' p p', I.key (key i) p = I.key (key i') p' → i = i' ∧ p = p' := fun i i' p p' h =>
    let ⟨h1, h2⟩ := I.key_injective (fun b => hk' i' i b) (fun b => hk' i i' b) h
    ⟨hk h1, h2⟩
  let shapes : K → List ℕ := fun k =>
    if h : ∃ i, ∃ p, I.key (key i) p = k then (bits h.choose).event ++ t else []
  have hs : ∀ i p, shapes (I.key (key i) p) = (bits i).event ++ t := by
    intro i p
    have h : ∃ i', ∃ p', I.key (key i') p' = I.key (key i) p := ⟨i, p, rfl⟩
    simp only [shapes, dif_pos h]
    obtain ⟨p', hp⟩ := h.choose_spec
    rw [(inj _ _ _ _ hp).1]
  let g : ((e : (_ : n) × Idx t) × (bits e.1).B) → ((k : K) × Idx (shapes k)) := fun x =>
    ⟨I.key (key x.1.1) ((bits x.1.1).path x.2), ⟨(bits x.1.1).idx x.2 ++ x.1.2.1, by
      rw [hs]; exact inB_append_iff_of ((bits x.1.1).mem x.2) x.1.2.2⟩⟩
  have hg : Function.Injective g := by
    rintro ⟨⟨i, j⟩, b⟩ ⟨⟨i', j'⟩, b'⟩ h
    have h1 := congrArg Sigma.fst h
    have h2 := congrArg (fun z => z.2.1) h
    simp only [g] at h1 h2
    obtain ⟨rfl, hp⟩ := inj _ _ _ _ h1
    obtain ⟨e1, e2⟩ := List.append_inj h2 (by
      rw [inB_length ((bits i).mem b), inB_length ((bits i).mem b')])
    obtain rfl := (bits i).inj b b' hp e1
    obtain rfl := Subtype.ext e2
    rfl
  have h := (I.seed_indep shapes).precomp hg
  have h' : iIndepFun (fun (x : (e : (_ : n) × Idx t) × (bits e.1).B) ω =>
      (bits x.1.1).read I ω (key x.1.1) t x.1.2.1 x.2) P := by
    convert h using 3 with x
    simp only [g, Bits.read, hs]
  exact iIndepFun_curry (X := fun (e : (_ : n) × Idx t) b ω => (bits e.1).read I ω (key e.1) t e.2.1 b)
    (fun e b => (I.seed_law _ _ _ (inB_append_iff_of ((bits e.1).mem b) e.2.2)).measurable) h'

/-- The seeds of one entry are independent. -/
theorem Spec.Bits.law (bits : Bits) (I : IdealRandom K P) (key : K) {t j : List ℕ} (hj : inB t j = true) :
    MeasurePreserving (fun ω => bits.read I ω key t j) P (Measure.pi fun _ => I.ν) := by
  classical
  let shapes : K → List ℕ := fun _ => bits.event ++ t
  let g : bits.B → ((k : K) × Idx (shapes k)) := fun b =>
    ⟨I.key key (bits.path b), ⟨bits.idx b ++ j, inB_append_iff_of (bits.mem b) hj⟩⟩
  have hg : Function.Injective g := by
    intro b b' h
    have h1 := congrArg Sigma.fst h
    have h2 := congrArg (fun z => z.2.1) h
    simp only [g] at h1 h2
    exact bits.inj b b' (I.key_injective (fun b => (I.split_ne _ _ _).symm)
      (fun b => (I.split_ne _ _ _).symm) h1).2 (List.append_cancel_right h2)
  exact iIndepFun.law_pi (fun b => I.seed_law _ _ _ (inB_append_iff_of (bits.mem b) hj))
    ((I.seed_indep shapes).precomp hg)

/-! ### Samplers that read seeds -/

theorem Spec.ReadsLaw.draws {A N Y : Type} [MeasurableSpace Y] {sample : Random K → Sampler K}
    {lay : Layout A N} {out : List ℕ → (List ℕ → Y) → Val} {law : A → N → Measure Y}
    {dom : A → N → Prop} {bits : Bits} (h : ReadsLaw sample lay out law dom bits) :
    Draws sample lay out law dom := fun Ω _ P I key shape rs p q hd => by
  obtain ⟨g, hg, hs⟩ := h rs p q hd Ω _ P I
  refine ⟨_, fun ω => hs ω key shape, ?_, fun j h => ?_⟩
  · have h1 := Bits.indep (n := Unit) (fun _ => bits) I (fun _ => key) (rs ++ shape.getD [])
      (fun _ _ _ => rfl) fun _ _ b => (I.split_ne _ _ _).symm
    have h2 := h1.precomp (g := fun j : Idx (rs ++ shape.getD []) => ⟨(), j⟩) fun a b hab => by
      simpa using hab
    exact h2.comp (fun j => g (j.1.take rs.length)) fun j => (hg _ (inB_take j.2)).measurable
  · exact (hg _ (inB_take h)).comp (bits.law I key h)

/-- Samples with different keys that are split off are independent. -/
theorem ReadsBatch.jointly {n : ℕ} {Y : Fin n → Type} [∀ i, MeasurableSpace (Y i)]
    {sample : Fin n → Random K → Sampler K} {vals : Fin n → List Val} {rs : List ℕ}
    {out : (i : Fin n) → List ℕ → (List ℕ → Y i) → Val} {law : (i : Fin n) → List ℕ → Measure (Y i)}
    {bits : Fin n → Bits} (h : ∀ i, ReadsBatch (sample i) (vals i) rs (out i) (law i) (bits i))
    (I : IdealRandom K P) (key : K) (shape : Option (List ℕ)) :
    ∃ y : (i : Fin n) → Ω → List ℕ → Y i,
      (∀ i ω, sample i (I.rng ω) (vals i) (I.split key n i) shape =
        .ok (out i (rs ++ shape.getD []) (y i ω))) ∧
      iIndepFun (fun (e : (_ : Fin n) × Idx (rs ++ shape.getD [])) ω => y e.1 ω e.2.1) P ∧
      ∀ i j, inB (rs ++ shape.getD []) j = true →
        MeasurePreserving (fun ω => y i ω j) P (law i (j.take rs.length)) := by
  choose g hg hs using fun i => h i Ω _ P I
  refine ⟨_, fun i ω => hs i ω (I.split key n i) shape, ?_, fun i j hj => ?_⟩
  · have h1 := Bits.indep bits I (fun i => I.split key n i) (rs ++ shape.getD [])
      (fun a b hab => Fin.ext (I.split_injective _ _ _ _ _ _ hab).2.2)
      fun i i' b hb => I.split_ne key n i' (I.split_injective _ _ _ _ _ _ hb).1.symm
    exact h1.comp (fun e => g e.1 (e.2.1.take rs.length)) fun e => (hg _ _ (inB_take e.2.2)).measurable
  · exact (hg i _ (inB_take hj)).comp ((bits i).law I _ hj)

end Efax
