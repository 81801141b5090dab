import Verif.Model.Methods.ExpToNat
import Verif.Lemmas.Simple

/-! # Flattening and searching for batches of a simple class -/

namespace Efax

open Spec Calc

variable [MachEps]

theorem vectors_slice_all {n : ℕ} (rs : List ℕ) (f : List ℕ → Fin n → ℝ) :
    (vectors rs f).slice 0 n = .ok (vectors rs f) := by
  obtain ⟨b, h1, h2, h3⟩ := Arr.slice_ok (a := vectors rs f) (vectors_rshape rs f) (Nat.zero_le n) le_rfl
  rw [h1]
  refine congrArg _ (Arr.ext (by rw [h2]; rfl) fun i hi => ?_)
  rw [h2] at hi
  cases i with
  | nil => simp [inB] at hi
  | cons k i =>
    obtain ⟨hk, hi⟩ := (inB_cons ..).1 hi
    rw [h3 k i (by simpa using hk) hi, Nat.zero_add]

/-- The flattener of a simple class without fixed parameters. -/
def flOf (c : Cls) (d : ℕ) : Flattener Cls := ⟨[⟨[], c, d, []⟩], [], true⟩

theorem flatten_one {c : Cls} {name : String} {s : Support} {d : ℕ} {v : Val} {y : Arr ℝ}
    (hf : Cls.fields c = [⟨name, s, false⟩]) (ha : Cls.adjust c name [] = .ok s)
    (hd : Cls.dimensions c [v] = .ok d) (hy : s.flattened true v = .ok y) :
    flatten (.mk c [v] .nil) true = .ok (flOf c d, y) := by
  simp [flatten, Dist.walk, Subs.walk, makeFlat, parametersFlat, nodeParams, ClassTable.fields, hf,
    Dist.cls, Dist.vals, Dist.subs, Dict.ofList, Dict.set, makeFlatFields, ClassTable.adjust, ha, hy, Bind.bind, Except.bind,
    reduceAppend, infosOf, makeInfo, ClassTable.dimensions, hd, parameters, Dist.paramList, Subs.paramList,
    keep, flOf, Subs.names, pure, Except.pure]

theorem unflatten_one {c : Cls} {name : String} {s : Support} {d n : ℕ} {v : Val} {rs : List ℕ}
    {z : List ℕ → Fin n → ℝ}
    (hf : Cls.fields c = [⟨name, s, false⟩]) (hj : Cls.isJoint c = false)
    (ha : Cls.adjust c name [] = .ok s)
    (hn : s.numElements d = n) (hy : s.unflattened true (vectors rs z) d = .ok v) :
    (flOf c d).unflatten (vectors rs z) = .ok (.mk c [v] .nil) := by
  have hl : (vectors rs z).lastDim = .ok n := rfl
  simp [Flattener.unflatten, flOf, hl, unflattenStep, supportOf, ClassTable.fields, hf, keep, Dict.ofList,
    Dict.set, Dict.keys, unflattenFields, ClassTable.adjust, ha, hn, vectors_slice_all, hy, Bind.bind, Except.bind,
    gatherSubs, construct, ClassTable.isJoint, hj, Dict.merge, argOf, Dict.get?, getDist, Dict.get, pure,
    Except.pure]

theorem flatten_two {c : Cls} {n₁ n₂ : String} {s₁ s₂ : Support} {d k₁ k₂ : ℕ} {v₁ v₂ : Val}
    {rs : List ℕ} {z₁ : List ℕ → Fin k₁ → ℝ} {z₂ : List ℕ → Fin k₂ → ℝ}
    (hf : Cls.fields c = [⟨n₁, s₁, false⟩, ⟨n₂, s₂, false⟩]) (hne : n₁ ≠ n₂)
    (ha₁ : Cls.adjust c n₁ [] = .ok s₁) (ha₂ : ∀ kw, Cls.adjust c n₂ kw = .ok s₂)
    (hd : Cls.dimensions c [v₁, v₂] = .ok d) (hy₁ : s₁.flattened true v₁ = .ok (vectors rs z₁))
    (hy₂ : s₂.flattened true v₂ = .ok (vectors rs z₂)) :
    flatten (.mk c [v₁, v₂] .nil) true =
      .ok (flOf c d, vectors rs fun i => Fin.append (z₁ i) (z₂ i)) := by
  have hap : (vectors rs z₁).append (vectors rs z₂) = .ok (vectors rs fun i => Fin.append (z₁ i) (z₂ i)) :=
    by
    have := append_vectors rs z₁ z₂
    simp only [Calc.append, bind_ok, vectors_rshape, if_true] at this
    simp only [Arr.append, vectors_rshape, if_true]
    have this := Except.ok.inj this
    rw [← this]
    refine congrArg _ (Arr.ext rfl fun i hi => ?_)
    have hi : inB ((k₁ + k₂) :: rs) i = true := hi
    rw [Arr.ofFn_get hi, Arr.ofFn_get hi]
    cases i <;> rfl
  simp [flatten, Dist.walk, Subs.walk, makeFlat, parametersFlat, nodeParams, ClassTable.fields, hf,
    Dist.cls, Dist.vals, Dist.subs, Dict.ofList, Dict.set, makeFlatFields, ClassTable.adjust, ha₁, ha₂, hy₁, hy₂,
    Bind.bind, Except.bind, hne, hap, List.foldlM, pure, Except.pure,
    reduceAppend, infosOf, makeInfo, ClassTable.dimensions, hd, parameters, Dist.paramList, Subs.paramList,
    keep, flOf, Subs.names]

theorem slice_append_left {m n : ℕ} (rs : List ℕ) (a : List ℕ → Fin m → ℝ) (b : List ℕ → Fin n → ℝ) :
    (vectors rs fun i => Fin.append (a i) (b i)).slice 0 m = .ok (vectors rs a) := by
  obtain ⟨c, h1, h2, h3⟩ := Arr.slice_ok (a := vectors rs fun i => Fin.append (a i) (b i))
    (vectors_rshape rs _) (Nat.zero_le m) (Nat.le_add_right m n)
  rw [h1]
  refine congrArg _ (Arr.ext (by rw [h2]; rfl) fun i hi => ?_)
  rw [h2] at hi
  cases i with
  | nil => simp [inB] at hi
  | cons k i =>
    obtain ⟨hk, hi⟩ := (inB_cons ..).1 hi
    have hk : k < m := by simpa using hk
    rw [h3 k i (by simpa using hk) hi, Nat.zero_add, Calc.vectors_get _ (by omega : k < m + n) hi,
      Calc.vectors_get _ hk hi]
    exact Fin.append_left (a i) (b i) ⟨k, hk⟩

theorem slice_append_right {m n : ℕ} (rs : List ℕ) (a : List ℕ → Fin m → ℝ) (b : List ℕ → Fin n → ℝ) :
    (vectors rs fun i => Fin.append (a i) (b i)).slice m (m + n) = .ok (vectors rs b) := by
  obtain ⟨c, h1, h2, h3⟩ := Arr.slice_ok (a := vectors rs fun i => Fin.append (a i) (b i))
    (vectors_rshape rs _) (Nat.le_add_right m n) (le_refl (m + n))
  rw [h1]
  refine congrArg _ (Arr.ext (by rw [h2]; simp [vectors_rshape]) fun i hi => ?_)
  rw [h2] at hi
  cases i with
  | nil => simp [inB] at hi
  | cons k i =>
    obtain ⟨hk, hi⟩ := (inB_cons ..).1 hi
    have hk : k < n := by simpa using hk
    rw [h3 k i (by simpa using hk) hi, Calc.vectors_get _ (by omega : m + k < m + n) hi,
      Calc.vectors_get _ hk hi]
    exact Fin.append_right (a i) (b i) ⟨k, hk⟩

theorem unflatten_two {c : Cls} {n₁ n₂ : String} {s₁ s₂ : Support} {d k₁ k₂ : ℕ} {v₁ v₂ : Val}
    {rs : List ℕ} {z₁ : List ℕ → Fin k₁ → ℝ} {z₂ : List ℕ → Fin k₂ → ℝ}
    (hf : Cls.fields c = [⟨n₁, s₁, false⟩, ⟨n₂, s₂, false⟩]) (hj : Cls.isJoint c = false)
    (hne : n₁ ≠ n₂)
    (ha₁ : Cls.adjust c n₁ [] = .ok s₁) (ha₂ : ∀ kw, Cls.adjust c n₂ kw = .ok s₂)
    (hn₁ : s₁.numElements d = k₁) (hn₂ : s₂.numElements d = k₂)
    (hy₁ : s₁.unflattened true (vectors rs z₁) d = .ok v₁)
    (hy₂ : s₂.unflattened true (vectors rs z₂) d = .ok v₂) :
    (flOf c d).unflatten (vectors rs fun i => Fin.append (z₁ i) (z₂ i)) = .ok (.mk c [v₁, v₂] .nil) := by
  have hl : (vectors rs fun i => Fin.append (z₁ i) (z₂ i)).lastDim = .ok (k₁ + k₂) := rfl
  simp [Flattener.unflatten, flOf, hl, unflattenStep, supportOf, ClassTable.fields, hf, keep, Dict.ofList,
    Dict.set, Dict.keys, unflattenFields, ClassTable.adjust, ha₁, ha₂, hn₁, hn₂, slice_append_left,
    slice_append_right, hy₁, hy₂, Bind.bind, Except.bind, hne,
    gatherSubs, construct, ClassTable.isJoint, hj, Dict.merge, argOf, Dict.get?, getDist, Dict.get, pure,
    Except.pure]

/-! ## Supports on batches -/

theorem flattened_scalar {mn mx : Option ℝ} {g : ℝ} {rs : List ℕ} {f z : List ℕ → ℝ}
    (h : ∀ i, inB rs i = true → Ring.realFlat mn mx (f i) = some (z i)) :
    (Support.scalar (.real mn mx g)).flattened true (.real (scalars rs f)) =
      .ok (vectors rs fun i (_ : Fin 1) => z i) := by
  simp only [Support.flattened, Val.newaxis, Ring.flattened, if_true]
  refine (Arr.mapE_eq_ok_iff).2 ⟨rfl, fun i hi => ?_⟩
  have hi : inB (1 :: rs) i = true := hi
  cases i with
  | nil => simp [inB] at hi
  | cons k i =>
    obtain ⟨hk, hi'⟩ := (inB_cons ..).1 hi
    rw [Calc.vectors_get _ hk hi']
    have : (scalars rs f).newaxis.get (k :: i) = f i := by
      rw [Arr.newaxis, Arr.ofFn_get (rs := 1 :: (scalars rs f).rshape) hi, List.tail_cons, scalars,
        Arr.ofFn_get hi']
    rw [this, h i hi']

theorem flattened_vector {mn mx : Option ℝ} {g : ℝ} {n : ℕ} {rs : List ℕ} {f z : List ℕ → Fin n → ℝ}
    (h : ∀ i, inB rs i = true → ∀ k, Ring.realFlat mn mx (f i k) = some (z i k)) :
    (Support.vector (.real mn mx g)).flattened true (.real (vectors rs f)) = .ok (vectors rs z) := by
  simp only [Support.flattened, Ring.flattened, if_true]
  refine (Arr.mapE_eq_ok_iff).2 ⟨rfl, fun i hi => ?_⟩
  have hi : inB (n :: rs) i = true := hi
  cases i with
  | nil => simp [inB] at hi
  | cons k i =>
    obtain ⟨hk, hi'⟩ := (inB_cons ..).1 hi
    rw [Calc.vectors_get _ hk hi', Calc.vectors_get _ hk hi', h i hi']

theorem unflattened_scalar {mn mx : Option ℝ} {g : ℝ} {d : ℕ} {rs : List ℕ} {z : List ℕ → Fin 1 → ℝ} :
    (Support.scalar (.real mn mx g)).unflattened true (vectors rs z) d =
      .ok (.real (scalars rs fun i => Ring.realUnflat mn mx (z i 0))) := by
  have h : (Arr.map (Ring.realUnflat mn mx) (vectors rs z)) = vectors rs fun i k => Ring.realUnflat mn mx (z i k) := by
    have := map_vectors (Ring.realUnflat mn mx) rs z
    exact Except.ok.inj this
  simp only [Support.unflattened, Ring.unflattened, if_true, Bind.bind, Except.bind, h]
  simp only [Val.lastDim, Val.rshape, vectors_rshape, if_true, Val.liftE]
  have := at_vectors (k := 0) (d := 1) (by omega) rs fun i k => Ring.realUnflat mn mx (z i k)
  simp only [at_, bind_ok, vectors_rshape] at this
  simp only [Arr.idxLast, vectors_rshape, Nat.zero_lt_one, if_true] at this ⊢
  exact congrArg (fun x => Val.real <$> x) this

theorem unflattened_vector {mn mx : Option ℝ} {g : ℝ} {n : ℕ} {rs : List ℕ} {z : List ℕ → Fin n → ℝ} :
    (Support.vector (.real mn mx g)).unflattened true (vectors rs z) n =
      .ok (.real (vectors rs fun i k => Ring.realUnflat mn mx (z i k))) := by
  have h : (Arr.map (Ring.realUnflat mn mx) (vectors rs z)) = vectors rs fun i k => Ring.realUnflat mn mx (z i k) := by
    have := map_vectors (Ring.realUnflat mn mx) rs z
    exact Except.ok.inj this
  simp only [Support.unflattened, Ring.unflattened, if_true, Bind.bind, Except.bind, h]
  simp only [Val.lastDim, Val.rshape, vectors_rshape, if_true]

/-! ## The search -/

theorem vectors_row {n : ℕ} {rs i : List ℕ} (z : List ℕ → Fin n → ℝ) (hi : inB rs i = true) :
    (vectors rs z).row i = vectors [] fun _ => z i := by
  refine Arr.ext rfl fun k hk => ?_
  have hk : inB [n] k = true := hk
  rw [Arr.row, Arr.ofFn_get (rs := List.take 1 (vectors rs z).rshape) hk]
  cases k with
  | nil => simp [inB] at hk
  | cons k l =>
    obtain ⟨hk', hl⟩ := (inB_cons ..).1 hk
    cases l with
    | nil =>
      rw [Calc.vectors_get _ hk' hl]
      exact Calc.vectors_get _ hk' hi
    | cons _ _ => simp [inB] at hl

theorem vmapRows_ok {m n : ℕ} {rs : List ℕ} {f : Arr ℝ → Except Err (Arr ℝ)} {z : List ℕ → Fin n → ℝ}
    {r : List ℕ → Arr ℝ}
    (h : ∀ i, inB rs i = true → f (vectors [] fun _ => z i) = .ok (r i) ∧ (r i).rshape = [m]) :
    vmapRows m f (vectors rs z) = .ok (vectors rs fun i (k : Fin m) => (r i).get [k.val]) := by
  rw [vmapRows]
  simp only [vectors_rshape]
  rw [if_pos fun i hi => ⟨r i, by rw [vectors_row z hi]; exact h i hi⟩]
  refine ofFn_vectors fun k i hi => ?_
  simp only [vectors_row z hi, (h i hi).1]

/-- The conversion by search acts entry by entry, if flattening, unflattening and
`search_to_natural` do. -/
theorem expToNat_solves {N E : Type} {c : Cls} {n m : ℕ} {nat : Layout Unit N} {exp : Layout Unit E}
    {dom : Unit → E → Prop} {z : E → Fin n → ℝ} {stn : E → (Fin m → ℝ) → N} {d : ℕ}
    {minimizer : Cls → List Val → Arr ℝ} (hm : searchLength c n = m)
    (hlen : ∀ χ, (minimizer c (exp [] (fun _ => ()) fun _ => χ)).rshape = [m])
    (hf : ∀ rs χ, (∀ i, inB rs i = true → dom () (χ i)) →
      flatten (.mk c (exp rs (fun _ => ()) χ) .nil) true = .ok (flOf c d, vectors rs fun i => z (χ i)))
    (hu : ∀ χ, dom () χ → (flOf c d).unflatten (vectors [] fun _ => z χ) =
      .ok (.mk c (exp [] (fun _ => ()) fun _ => χ) .nil))
    (hs : ∀ rs χ w, (∀ i, inB rs i = true → dom () (χ i)) →
      searchToNaturalVals c (exp rs (fun _ => ()) χ) (vectors rs w) =
        .ok (nat rs (fun _ => ()) fun i => stn (χ i) (w i))) :
    Solves (expToNat minimizer c) nat exp
      (fun _ χ => stn χ fun k => (minimizer c (exp [] (fun _ => ()) fun _ => χ)).get [k.val]) dom := by
  intro rs p χ h
  have hl : (vectors rs fun i => z (χ i)).lastDim = .ok n := rfl
  have hp : p = fun _ => () := rfl
  subst hp
  simp only [expToNat, hf rs χ h, Bind.bind, Except.bind, hl, hm]
  rw [vmapRows_ok (r := fun i => minimizer c (exp [] (fun _ => ()) fun _ => χ i)) fun i hi => ?_]
  · exact hs rs χ _ h
  · simp only [hu (χ i) (h i hi)]
    exact ⟨rfl, hlen _⟩

end Efax
