import Verif.Spec.Objects
import Verif.Props.Completeness

/-!
# Objects and kinds: conditions on objects give conditions on the parameters of the entries
-/

namespace Efax

open ClassTable Calc Spec

variable [MachEps] {solve : Solver}

theorem eachLeaf_simple {P : Cls → List Val → Prop} {c : Cls} {vals : List Val} {subs : Subs Cls}
    (hc : isJoint c = false) : EachLeaf P (.mk c vals subs) ↔ P c vals := by
  simp [EachLeaf, leaves, hc]

theorem eachLeaf_cons {P : Cls → List Val → Prop} {c : Cls} {n : String} {d : Dist Cls}
    {r : Subs Cls} (hc : isJoint c = true) (h : EachLeaf P (.mk c [] (.cons n d r))) :
    EachLeaf P d ∧ EachLeaf P (.mk c [] r) := by
  simp only [EachLeaf, leaves, hc, if_true, leavesOf, List.mem_append] at h ⊢
  exact ⟨fun l hl => h l (.inl hl), fun l hl => h l (.inr hl)⟩

theorem scalars_at {rs : List ℕ} {f : List ℕ → ℝ} {i : List ℕ} (hi : inB rs i = true) {P : ℝ → Prop}
    (h : P ((scalars rs f).get i)) : P (f i) := by
  rwa [scalars, Arr.ofFn_get hi] at h

theorem regular_dom {K : Kind Cls} (hK : LibraryKind solve K) {rs : List ℕ} {p : List ℕ → K.P}
    {q : List ℕ → K.N} (h : EachLeaf RegularVals (K.nat rs p q)) :
    ∀ i, inB rs i = true → K.dom (p i) (q i) := by
  induction hK with
  | simple s =>
    cases s
    case logarithmic =>
      intro i hi
      exact scalars_at hi (P := fun x => logProbabilityFloor ≤ x ∧ x ≤ logProbabilityCeiling)
        ((eachLeaf_simple rfl).1 h i hi)
    all_goals exact fun _ _ => trivial
  | @joint l _ _ _ ih =>
    intro i hi
    clear * - h ih hi
    induction l with
    | nil => trivial
    | cons nk l ih' =>
      obtain ⟨h1, h2⟩ := eachLeaf_cons rfl h
      exact ⟨ih nk List.mem_cons_self h1 i hi,
        ih' (fun nk hm => ih nk (List.mem_cons_of_mem _ hm)) h2⟩

theorem ecm_ent {K : Kind Cls} (hK : LibraryKind solve K) {rs : List ℕ} {p : List ℕ → K.P}
    {q : List ℕ → K.E} (h : EachLeaf (fun c _ => HasEcm c) (K.exp rs p q)) : K.ent := by
  induction hK with
  | simple s =>
    cases s
    case logarithmic => exact (eachLeaf_simple rfl).1 h
    case negativeBinomial => exact (eachLeaf_simple rfl).1 h
    case poisson => exact (eachLeaf_simple rfl).1 h
    all_goals trivial
  | @joint l _ _ _ ih =>
    clear * - h ih
    induction l with
    | nil => trivial
    | cons nk l ih' =>
      obtain ⟨h1, h2⟩ := eachLeaf_cons rfl h
      exact ⟨ih nk List.mem_cons_self h1,
        ih' (fun nk hm => ih nk (List.mem_cons_of_mem _ hm)) h2⟩

theorem ecm_ent_nat {K : Kind Cls} (hK : LibraryKind solve K) {rs : List ℕ} {p : List ℕ → K.P}
    {q : List ℕ → K.N} (h : EachLeaf (fun c _ => HasEcm c) (K.nat rs p q)) : K.ent := by
  induction hK with
  | simple s =>
    cases s
    case logarithmic => exact (eachLeaf_simple rfl).1 h
    case negativeBinomial => exact (eachLeaf_simple rfl).1 h
    case poisson => exact (eachLeaf_simple rfl).1 h
    all_goals trivial
  | @joint l _ _ _ ih =>
    clear * - h ih
    induction l with
    | nil => trivial
    | cons nk l ih' =>
      obtain ⟨h1, h2⟩ := eachLeaf_cons rfl h
      exact ⟨ih nk List.mem_cons_self h1,
        ih' (fun nk hm => ih nk (List.mem_cons_of_mem _ hm)) h2⟩

theorem vectors_bound {d : ℕ} {rs : List ℕ} {f : List ℕ → Fin d → ℝ} {b : ℝ}
    (h : ∀ i, inB (vectors rs f).rshape i = true → (vectors rs f).get i < b) {i : List ℕ}
    (hi : inB rs i = true) (k : Fin d) : f i k < b := by
  have := h (k.1 :: i) ((inB_cons ..).2 ⟨k.2, hi⟩)
  rwa [Efax.vectors_get rs i hi f k.2] at this

theorem inDisk_at {d : ℕ} {rs : List ℕ} {q : List ℕ → EuclideanSpace ℝ (Fin d)} {i : List ℕ}
    (hi : inB rs i = true)
    (h : 0 < (∑ k ∈ Finset.range d, (vectors rs fun i k => q i k).get (k :: i) ^ 2) ∧
      (∑ k ∈ Finset.range d, (vectors rs fun i k => q i k).get (k :: i) ^ 2) < 1) : InDisk (q i) := by
  have e : ∑ k ∈ Finset.range d, (vectors rs fun i k => q i k).get (k :: i) ^ 2 = ‖q i‖ ^ 2 := by
    rw [EuclideanSpace.norm_sq_eq, Finset.sum_range]
    refine Finset.sum_congr rfl fun k _ => ?_
    rw [Efax.vectors_get rs i hi (fun i k => q i k) k.2, Real.norm_eq_abs, sq_abs]
  rw [e] at h
  exact ⟨lt_of_le_of_ne (norm_nonneg _) fun h0 => by rw [← h0] at h; simp at h,
    by nlinarith [norm_nonneg (q i)]⟩

theorem searchable_dom {K : Kind Cls} (hK : LibraryKind solve K) {rs : List ℕ} {p : List ℕ → K.P}
    {q : List ℕ → K.E} (h : EachLeaf SearchableVals (K.exp rs p q)) :
    ∀ i, inB rs i = true → K.domE (p i) (q i) := by
  induction hK with
  | simple s =>
    cases s
    case logarithmic =>
      intro i hi
      exact scalars_at hi (P := fun x => Ring.openMin 1 < x) ((eachLeaf_simple rfl).1 h i hi)
    case gamma =>
      intro i hi
      exact scalars_at hi (P := fun x => Ring.openMin 0 < x) ((eachLeaf_simple rfl).1 h i hi)
    case beta =>
      intro i hi k
      exact vectors_bound ((eachLeaf_simple rfl).1 h) hi k
    case dirichlet =>
      intro i hi k
      exact vectors_bound ((eachLeaf_simple rfl).1 h) hi k
    case genDirichlet =>
      intro i hi k
      have := (eachLeaf_simple rfl).1 h
      exact ⟨vectors_bound this.1 hi k, vectors_bound this.2 hi k⟩
    case vonMisesFisher d =>
      intro i hi
      exact inDisk_at hi ((eachLeaf_simple rfl).1 h i hi)
    all_goals exact fun _ _ => trivial
  | @joint l _ _ _ ih =>
    intro i hi
    clear * - h ih hi
    induction l with
    | nil => trivial
    | cons nk l ih' =>
      obtain ⟨h1, h2⟩ := eachLeaf_cons rfl h
      exact ⟨ih nk List.mem_cons_self h1 i hi,
        ih' (fun nk hm => ih nk (List.mem_cons_of_mem _ hm)) h2⟩

section

variable {rs : List ℕ} {d : ℕ} {w : Val}

theorem alike_scalars {f : List ℕ → ℝ} {b : Bool} (h : AlikeVal b (.real (scalars rs f)) w) :
    ∃ g, w = .real (scalars rs g) := by
  cases w with
  | real a => exact ⟨_, congrArg Val.real (Arr.eq_scalars' h.1.symm)⟩
  | _ => exact h.elim

theorem alike_vectors {f : List ℕ → Fin d → ℝ} {b : Bool} (h : AlikeVal b (.real (vectors rs f)) w) :
    ∃ g : List ℕ → Fin d → ℝ, w = .real (vectors rs g) := by
  cases w with
  | real a => exact ⟨_, congrArg Val.real (Arr.eq_vectors h.1.symm)⟩
  | _ => exact h.elim

theorem alike_matrices {f : List ℕ → Matrix (Fin d) (Fin d) ℝ} {b : Bool}
    (h : AlikeVal b (.real (matrices rs f)) w) :
    ∃ g : List ℕ → Matrix (Fin d) (Fin d) ℝ, w = .real (matrices rs g) := by
  cases w with
  | real a => exact ⟨_, congrArg Val.real (Arr.eq_matrices h.1.symm)⟩
  | _ => exact h.elim

theorem alike_cscalars {f : List ℕ → ℂ} {b : Bool} (h : AlikeVal b (.complex (scalars rs f)) w) :
    ∃ g, w = .complex (scalars rs g) := by
  cases w with
  | complex a => exact ⟨_, congrArg Val.complex (Arr.eq_scalars' h.1.symm)⟩
  | _ => exact h.elim

theorem alike_cvectors {f : List ℕ → Fin d → ℂ} {b : Bool}
    (h : AlikeVal b (.complex (vectors rs f)) w) :
    ∃ g : List ℕ → Fin d → ℂ, w = .complex (vectors rs g) := by
  cases w with
  | complex a => exact ⟨_, congrArg Val.complex (Arr.eq_vectors h.1.symm)⟩
  | _ => exact h.elim

theorem alike_cmatrices {f : List ℕ → Matrix (Fin d) (Fin d) ℂ} {b : Bool}
    (h : AlikeVal b (.complex (matrices rs f)) w) :
    ∃ g : List ℕ → Matrix (Fin d) (Fin d) ℂ, w = .complex (matrices rs g) := by
  cases w with
  | complex a => exact ⟨_, congrArg Val.complex (Arr.eq_matrices h.1.symm)⟩
  | _ => exact h.elim

theorem alike_fixed {v : Val} (h : AlikeVal true v w) : w = v := by
  cases v <;> cases w <;> first | exact h.elim | exact congrArg _ (h.2 rfl).symm

end

/-- The arrays of a layout can be replaced by others of the same type and shape. -/
def Fills {P Q : Type} (lay : Layout P Q) (fixed : List Bool) : Prop := ∀ rs p q vals,
  List.Forall₂ (fun fv w => AlikeVal fv.1 fv.2 w) (fixed.zip (lay rs p q)) vals →
    ∃ r, vals = lay rs p r

theorem layS_fills : Fills layS [false] := fun _ _ _ _ h => by
  obtain ⟨v, rfl, h1⟩ := forall₂_one h
  obtain ⟨g, rfl⟩ := alike_scalars h1
  exact ⟨g, rfl⟩

theorem laySS_fills : Fills laySS [false, false] := fun _ _ _ _ h => by
  obtain ⟨v, w, rfl, h1, h2⟩ := forall₂_two h
  obtain ⟨g, rfl⟩ := alike_scalars h1
  obtain ⟨g', rfl⟩ := alike_scalars h2
  exact ⟨fun i => (g i, g' i), rfl⟩

theorem layV_fills (d : ℕ) : Fills (layV d) [false] := fun _ _ _ _ h => by
  obtain ⟨v, rfl, h1⟩ := forall₂_one h
  obtain ⟨g, rfl⟩ := alike_vectors h1
  exact ⟨g, rfl⟩

theorem layE_fills (d : ℕ) : Fills (layE d) [false] := fun _ _ _ _ h => by
  obtain ⟨v, rfl, h1⟩ := forall₂_one h
  obtain ⟨g, rfl⟩ := alike_vectors h1
  exact ⟨fun i => WithLp.toLp 2 (g i), rfl⟩

theorem layVV_fills (d : ℕ) : Fills (layVV d) [false, false] := fun _ _ _ _ h => by
  obtain ⟨v, w, rfl, h1, h2⟩ := forall₂_two h
  obtain ⟨g, rfl⟩ := alike_vectors h1
  obtain ⟨g', rfl⟩ := alike_vectors h2
  exact ⟨fun i => (g i, g' i), rfl⟩

theorem layVS_fills (d : ℕ) : Fills (layVS d) [false, false] := fun _ _ _ _ h => by
  obtain ⟨v, w, rfl, h1, h2⟩ := forall₂_two h
  obtain ⟨g, rfl⟩ := alike_vectors h1
  obtain ⟨g', rfl⟩ := alike_scalars h2
  exact ⟨fun i => (g i, g' i), rfl⟩

theorem layVM_fills (d : ℕ) : Fills (layVM d) [false, false] := fun _ _ _ _ h => by
  obtain ⟨v, w, rfl, h1, h2⟩ := forall₂_two h
  obtain ⟨g, rfl⟩ := alike_vectors h1
  obtain ⟨g', rfl⟩ := alike_matrices h2
  exact ⟨fun i => (g i, g' i), rfl⟩

theorem layC_fills : Fills layC [false] := fun _ _ _ _ h => by
  obtain ⟨v, rfl, h1⟩ := forall₂_one h
  obtain ⟨g, rfl⟩ := alike_cscalars h1
  exact ⟨g, rfl⟩

theorem layCV_fills (d : ℕ) : Fills (layCV d) [false] := fun _ _ _ _ h => by
  obtain ⟨v, rfl, h1⟩ := forall₂_one h
  obtain ⟨g, rfl⟩ := alike_cvectors h1
  exact ⟨g, rfl⟩

theorem layCM_fills (d : ℕ) : Fills (layCM d) [false] := fun _ _ _ _ h => by
  obtain ⟨v, rfl, h1⟩ := forall₂_one h
  obtain ⟨g, rfl⟩ := alike_cmatrices h1
  exact ⟨g, rfl⟩

theorem layCSC_fills : Fills layCSC [false, false, false] := fun _ _ _ _ h => by
  obtain ⟨v, w, u, rfl, h1, h2, h3⟩ := forall₂_three h
  obtain ⟨g, rfl⟩ := alike_cscalars h1
  obtain ⟨g', rfl⟩ := alike_scalars h2
  obtain ⟨g'', rfl⟩ := alike_cscalars h3
  exact ⟨fun i => (g i, g' i, g'' i), rfl⟩

theorem laySFixedInt_fills : Fills laySFixedInt [false, true] := fun _ _ _ _ h => by
  obtain ⟨v, w, rfl, h1, h2⟩ := forall₂_two h
  obtain ⟨g, rfl⟩ := alike_scalars h1
  rw [alike_fixed h2]
  exact ⟨g, rfl⟩

theorem layFixedS_fills : Fills layFixedS [true, false] := fun _ _ _ _ h => by
  obtain ⟨v, w, rfl, h1, h2⟩ := forall₂_two h
  obtain ⟨g, rfl⟩ := alike_scalars h2
  rw [alike_fixed h1]
  exact ⟨g, rfl⟩

theorem layVFixed_fills (d : ℕ) : Fills (layVFixed d) [false, true] := fun _ _ _ _ h => by
  obtain ⟨v, w, rfl, h1, h2⟩ := forall₂_two h
  obtain ⟨g, rfl⟩ := alike_vectors h1
  rw [alike_fixed h2]
  exact ⟨g, rfl⟩

theorem Fills.alike {P Q : Type} {lay : Layout P Q} {c c' : Cls} {rel : Cls → Cls → Prop}
    (hf : Fills lay ((fields c').map Field.fixed))
    (hr : ∀ x, rel c x → x = c') {rs : List ℕ} {p : List ℕ → P} {q : List ℕ → Q} {e : Dist Cls}
    (h : Alike rel (.mk c (lay rs p q) .nil) e) : ∃ r, e = .mk c' (lay rs p r) .nil := by
  obtain ⟨x, v, s⟩ := e
  obtain ⟨h1, h2, h3⟩ := h
  obtain rfl := hr x h1
  cases s with
  | cons => exact h3.elim
  | nil =>
    obtain ⟨r, rfl⟩ := hf rs p q v (by
      rw [List.zip_map_left, List.forall₂_map_left_iff]
      exact h2)
    exact ⟨r, rfl⟩

theorem natural_alike {K : Kind Cls} (hK : LibraryKind solve K) {rs : List ℕ} {p : List ℕ → K.P}
    {q : List ℕ → K.N} {e : Dist Cls} (h : Alike (· = ·) (K.nat rs p q) e) :
    ∃ r, e = K.nat rs p r := by
  induction hK generalizing e with
  | simple s =>
    cases s
    all_goals first
      | exact Fills.alike layS_fills (fun _ h => h.symm) h
      | exact Fills.alike laySS_fills (fun _ h => h.symm) h
      | exact Fills.alike (layV_fills _) (fun _ h => h.symm) h
      | exact Fills.alike (layE_fills _) (fun _ h => h.symm) h
      | exact Fills.alike (layVV_fills _) (fun _ h => h.symm) h
      | exact Fills.alike (layVS_fills _) (fun _ h => h.symm) h
      | exact Fills.alike (layVM_fills _) (fun _ h => h.symm) h
      | exact Fills.alike layC_fills (fun _ h => h.symm) h
      | exact Fills.alike (layCV_fills _) (fun _ h => h.symm) h
      | exact Fills.alike (layCM_fills _) (fun _ h => h.symm) h
      | exact Fills.alike layCSC_fills (fun _ h => h.symm) h
      | exact Fills.alike laySFixedInt_fills (fun _ h => h.symm) h
      | exact Fills.alike layFixedS_fills (fun _ h => h.symm) h
      | exact Fills.alike (layVFixed_fills _) (fun _ h => h.symm) h
  | @joint l _ _ _ ih =>
    obtain ⟨c, v, s⟩ := e
    obtain ⟨rfl, h2, h3⟩ := h
    cases h2
    obtain ⟨r, rfl⟩ : ∃ r, s = (Parts.ofList l).nat rs p r := by
      clear * - ih h3
      induction l generalizing s with
      | nil =>
        cases s with
        | nil => exact ⟨fun _ => (), rfl⟩
        | cons => exact h3.elim
      | cons nk l ih' =>
        cases s with
        | nil => exact h3.elim
        | cons n d s =>
          obtain ⟨rfl, h4, h5⟩ := h3
          obtain ⟨r, rfl⟩ := ih nk List.mem_cons_self h4
          obtain ⟨r', rfl⟩ := ih' (fun nk hm => ih nk (List.mem_cons_of_mem _ hm)) s h5
          exact ⟨fun i => (r i, r' i), rfl⟩
    exact ⟨r, rfl⟩

theorem expectation_alike {K : Kind Cls} (hK : LibraryKind solve K) {rs : List ℕ} {p : List ℕ → K.P}
    {χ : List ℕ → K.E} {e : Dist Cls} (h : Alike (fun c c' => natCls c = some c') (K.exp rs p χ) e) :
    ∃ r, e = K.nat rs p r := by
  induction hK generalizing e with
  | simple s =>
    cases s
    all_goals first
      | exact Fills.alike layS_fills (fun _ h => (Option.some.inj h).symm) h
      | exact Fills.alike laySS_fills (fun _ h => (Option.some.inj h).symm) h
      | exact Fills.alike (layV_fills _) (fun _ h => (Option.some.inj h).symm) h
      | exact Fills.alike (layE_fills _) (fun _ h => (Option.some.inj h).symm) h
      | exact Fills.alike (layVV_fills _) (fun _ h => (Option.some.inj h).symm) h
      | exact Fills.alike (layVS_fills _) (fun _ h => (Option.some.inj h).symm) h
      | exact Fills.alike (layVM_fills _) (fun _ h => (Option.some.inj h).symm) h
      | exact Fills.alike layC_fills (fun _ h => (Option.some.inj h).symm) h
      | exact Fills.alike (layCV_fills _) (fun _ h => (Option.some.inj h).symm) h
      | exact Fills.alike (layCM_fills _) (fun _ h => (Option.some.inj h).symm) h
      | exact Fills.alike layCSC_fills (fun _ h => (Option.some.inj h).symm) h
      | exact Fills.alike laySFixedInt_fills (fun _ h => (Option.some.inj h).symm) h
      | exact Fills.alike layFixedS_fills (fun _ h => (Option.some.inj h).symm) h
      | exact Fills.alike (layVFixed_fills _) (fun _ h => (Option.some.inj h).symm) h
  | @joint l _ _ _ ih =>
    obtain ⟨c, v, s⟩ := e
    obtain ⟨h1, h2, h3⟩ := h
    obtain rfl : Cls.jointN = c := Option.some.inj h1
    cases h2
    obtain ⟨r, rfl⟩ : ∃ r, s = (Parts.ofList l).nat rs p r := by
      clear * - ih h3
      induction l generalizing s with
      | nil =>
        cases s with
        | nil => exact ⟨fun _ => (), rfl⟩
        | cons => exact h3.elim
      | cons nk l ih' =>
        cases s with
        | nil => exact h3.elim
        | cons n d s =>
          obtain ⟨rfl, h4, h5⟩ := h3
          obtain ⟨r, rfl⟩ := ih nk List.mem_cons_self h4
          obtain ⟨r', rfl⟩ := ih' (fun nk hm => ih nk (List.mem_cons_of_mem _ hm)) s h5
          exact ⟨fun i => (r i, r' i), rfl⟩
    exact ⟨r, rfl⟩

section

variable {rs : List ℕ} {x : Val}

theorem toR_number (h : ∀ a, x ≠ .complex a) {s : List ℕ} (hs : x.rshape = s) : ∃ a : Arr ℝ,
    x.toR = ok a ∧ a.rshape = s ∧ ∀ i, inB s i = true → a.get i = Val.number x i := by
  subst hs
  cases x with
  | complex a => exact absurd rfl (h a)
  | real a =>
    refine ⟨a, rfl, rfl, fun i hi => ?_⟩
    have hi : inB a.rshape i = true := hi
    rw [Val.number, Val.toC, Arr.map_get hi, Complex.ofReal_re]
  | int a =>
    refine ⟨_, rfl, rfl, fun i hi => ?_⟩
    have hi : inB a.rshape i = true := hi
    rw [Val.number, Val.toC, Arr.map_get hi, Arr.map_get hi]
    simp
  | bool a =>
    refine ⟨_, rfl, rfl, fun i hi => ?_⟩
    have hi : inB a.rshape i = true := hi
    rw [Val.number, Val.toC, Arr.map_get hi, Arr.map_get hi]
    cases a.get i <;> simp [ofBool]

theorem holdsR_of (h : ∀ a, x ≠ .complex a) (hs : x.rshape = rs) {f : List ℕ → ℝ}
    (hf : ∀ i, inB rs i = true → Val.number x i = f i) : HoldsR rs f x := by
  obtain ⟨a, h1, h2, h3⟩ := toR_number h hs
  rw [HoldsR, h1]
  refine congrArg ok (Arr.ext h2 fun i hi => ?_)
  rw [h2] at hi
  rw [h3 i hi, hf i hi, scalars, Arr.ofFn_get hi]

theorem toR_vectors (h : ∀ a, x ≠ .complex a) {d : ℕ} (hs : x.rshape = d :: rs) :
    x.toR = ok (vectors rs fun i (k : Fin d) => Val.number x (k.1 :: i)) := by
  obtain ⟨a, h1, h2, h3⟩ := toR_number h hs
  rw [h1]
  refine congrArg ok (Arr.ext h2 fun i hi => ?_)
  rw [h2] at hi
  rw [h3 i hi]
  match i, hi with
  | [], hi => simp [inB] at hi
  | k :: j, hi =>
    obtain ⟨hk, hj⟩ := (inB_cons ..).1 hi
    exact (Efax.vectors_get rs j hj (fun i (k : Fin d) => Val.number x (k.1 :: i)) hk).symm

theorem holdsSphere_of (h : ∀ a, x ≠ .complex a) {d : ℕ} (hs : x.rshape = d :: rs) (hd : 0 < d)
    (h1 : ∀ i, inB rs i = true → ∑ k ∈ Finset.range d, Val.number x (k :: i) ^ 2 = 1) :
    ∃ y : List ℕ → Metric.sphere (0 : EuclideanSpace ℝ (Fin d)) 1, HoldsSphere rs y x := by
  classical
  have hp : ∀ i, inB rs i = true →
      WithLp.toLp 2 (fun k : Fin d => Val.number x (k.1 :: i)) ∈
        Metric.sphere (0 : EuclideanSpace ℝ (Fin d)) 1 := fun i hi => by
    rw [mem_sphere_zero_iff_norm, EuclideanSpace.norm_eq, ← Real.sqrt_one, ← h1 i hi, Finset.sum_range]
    simp
  have h0 : EuclideanSpace.single (⟨0, hd⟩ : Fin d) (1 : ℝ) ∈
      Metric.sphere (0 : EuclideanSpace ℝ (Fin d)) 1 := by simp
  refine ⟨fun i => if hi : inB rs i = true then ⟨_, hp i hi⟩ else ⟨_, h0⟩, ?_⟩
  rw [HoldsSphere, toR_vectors h hs]
  refine congrArg ok (Arr.ext rfl fun i hi => ?_)
  match i, hi with
  | [], hi => simp [vectors, inB] at hi
  | k :: j, hi =>
    obtain ⟨hk, hj⟩ := (inB_cons ..).1 hi
    rw [Efax.vectors_get rs j hj _ hk, Efax.vectors_get rs j hj _ hk]
    simp [hj]

end

theorem Parts.names_nat (l : List (String × Kind Cls)) (rs : List ℕ) (p : List ℕ → (Parts.ofList l).P)
    (q : List ℕ → (Parts.ofList l).N) : ((Parts.ofList l).nat rs p q).names = (Parts.ofList l).names := by
  induction l with
  | nil => rfl
  | cons nk l ih => exact congrArg (nk.1 :: ·) (ih _ _)

theorem observed_leaf {P N E X : Type} [Sub N] {c c' : Cls} {nat : Layout P N} {exp : Layout P E}
    {obs : List ℕ → (List ℕ → X) → Val → Prop} {F : P → ExpFam N E X} {dom : P → N → Prop}
    {toNat : P → E → N} {ecm : P → E → ℝ} {ent : Prop} {domE : P → E → Prop} {rs rs' : List ℕ}
    {p : List ℕ → P} {q : List ℕ → N} {t : Tree Val} (hj : Cls.isJoint c = false)
    (h : Observed rs (.mk c (nat rs' p q) .nil) t)
    (ho : ∀ v, ObservedVal rs c (nat rs' p q) v → ∃ x, obs rs x v) :
    ∃ x, (Kind.simple c c' nat exp obs F toNat ecm ent dom domE).obs rs x t := by
  cases t with
  | node f => simp [Observed, hj] at h
  | leaf v =>
    simp only [Observed, hj] at h
    obtain ⟨x, hx⟩ := ho v h
    exact ⟨x, v, rfl, hx⟩

theorem observed_obs {K : Kind Cls} (hK : LibraryKind solve K) {rs rs' : List ℕ} {p : List ℕ → K.P}
    {q : List ℕ → K.N} {t : Tree Val} (h : Observed rs (K.nat rs' p q) t) : ∃ x, K.obs rs x t := by
  have hnum : ∀ v : Val, (∀ a, v ≠ .complex a) ∧ v.rshape = rs → ∃ x, HoldsR rs x v :=
    fun v hv => ⟨_, holdsR_of hv.1 hv.2 fun _ _ => rfl⟩
  have hvec : ∀ (d : ℕ) (v : Val), (∀ a, v ≠ .complex a) ∧ v.rshape = d :: rs →
      ∃ x : List ℕ → Fin d → ℝ, HoldsV rs x v := fun d v hv => ⟨_, toR_vectors hv.1 hv.2⟩
  induction hK generalizing t with
  | simple s =>
    cases s
    case bernoulli =>
      refine observed_leaf rfl h fun v ⟨h1, h2, h3⟩ => ?_
      classical
      refine ⟨fun i => decide (Val.number v i = 1), holdsR_of h1 h2 fun i hi => ?_⟩
      rcases h3 i hi with h | h <;> simp [h, ofBool]
    case geometric =>
      refine observed_leaf rfl h fun v ⟨h1, h2, h3⟩ => ?_
      exact ⟨fun i => ⌊Val.number v i⌋₊, holdsR_of h1 h2 fun i hi => by
        obtain ⟨n, hn⟩ := h3 i hi; simp [hn]⟩
    case negativeBinomial =>
      refine observed_leaf rfl h fun v ⟨h1, h2, h3⟩ => ?_
      exact ⟨fun i => ⌊Val.number v i⌋₊, holdsR_of h1 h2 fun i hi => by
        obtain ⟨n, hn⟩ := h3 i hi; simp [hn]⟩
    case poisson =>
      refine observed_leaf rfl h fun v ⟨h1, h2, h3⟩ => ?_
      exact ⟨fun i => ⌊Val.number v i⌋₊, holdsR_of h1 h2 fun i hi => by
        obtain ⟨n, hn⟩ := h3 i hi; simp [hn]⟩
    case logarithmic =>
      refine observed_leaf rfl h fun v ⟨h1, h2, h3⟩ => ?_
      exact ⟨fun i => ⌊Val.number v i - 1⌋₊, holdsR_of h1 h2 fun i hi => by
        obtain ⟨n, hn⟩ := h3 i hi; simp [hn]⟩
    case vonMisesFisher d =>
      refine observed_leaf rfl h fun v hv => ?_
      exact holdsSphere_of hv.1 hv.2.1 hv.2.2.1 hv.2.2.2
    case complexNormal =>
      exact observed_leaf rfl h fun v hv => ⟨_, Arr.eq_scalars' ((toC_rshape v).trans hv)⟩
    case complexUnit =>
      exact observed_leaf rfl h fun v hv => ⟨_, Arr.eq_scalars' ((toC_rshape v).trans hv)⟩
    case cmvCircular d =>
      exact observed_leaf rfl h fun v hv => ⟨_, Arr.eq_vectors (d := d) ((toC_rshape v).trans hv)⟩
    case cmvUnit d =>
      exact observed_leaf rfl h fun v hv => ⟨_, Arr.eq_vectors (d := d) ((toC_rshape v).trans hv)⟩
    all_goals first
      | exact observed_leaf rfl h hnum
      | exact observed_leaf rfl h (hvec _)
  | @joint l _ _ _ ih =>
    cases t with
    | leaf v => exact h.elim
    | node f =>
      obtain ⟨h1, h2, h3⟩ := h
      have h4 : ∀ (g : Forest Val), ObservedParts rs ((Parts.ofList l).nat rs' p q) g →
          ∃ x, (Parts.ofList l).obs rs x g := by
        intro g hg
        clear * - ih hg
        induction l with
        | nil => exact ⟨fun _ => (), trivial⟩
        | cons nk l ih' =>
          obtain ⟨⟨t, h4, h5⟩, h6⟩ := hg
          obtain ⟨x, hx⟩ := ih nk List.mem_cons_self h5
          obtain ⟨x', hx'⟩ := ih' (fun nk hm => ih nk (List.mem_cons_of_mem _ hm)) h6
          exact ⟨fun i => (x i, x' i), ⟨t, h4, hx⟩, hx'⟩
      obtain ⟨x, hx⟩ := h4 f h3
      refine ⟨x, f, rfl, h1, hx, fun n hn => ?_⟩
      rw [← Parts.names_nat l rs' p q]
      exact h2 n hn

end Efax
