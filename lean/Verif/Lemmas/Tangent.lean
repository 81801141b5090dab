import Verif.Model.Tests.Bodies
import Verif.Spec.Setting
import Verif.Lemmas.Kind2
import Verif.Lemmas.Tree2

/-!
# Unit tangents
-/

namespace Efax

open Spec Tests ClassTable

variable [MachEps]

namespace Tests

mutual
/-- The object with the unit tangents of all parameters. -/
noncomputable def tangent : Dist Cls → Dist Cls
  | .mk c vals subs => .mk c (List.zipWith (fun f v => tangentOf f.fixed v) (fields c) vals) (tangents subs)
noncomputable def tangents : Subs Cls → Subs Cls
  | .nil => .nil
  | .cons n d r => .cons n (tangent d) (tangents r)
end

theorem tangents_names : ∀ s : Subs Cls, (tangents s).names = s.names
  | .nil => rfl
  | .cons n d r => by simp [tangents, Subs.names, tangents_names r]

mutual
theorem tangent_skel (base : Path) : ∀ p : Dist Cls, (tangent p).skel base = p.skel base
  | .mk c vals subs => by simp [tangent, Dist.skel, tangents_skel base subs, tangents_names]
theorem tangents_skel (base : Path) : ∀ s : Subs Cls, (tangents s).skel base = s.skel base
  | .nil => rfl
  | .cons n d r => by simp [tangents, Subs.skel, tangent_skel _ d, tangents_skel base r]
end

mutual
theorem tangent_wf : ∀ p : Dist Cls, WF p → WF (tangent p)
  | .mk c vals subs, h => by
    obtain ⟨h1, h2, h3, h4⟩ := h
    refine ⟨by simp [h1], h2.trans ?_, by rwa [tangents_names], tangents_wf subs h4⟩
    cases subs <;> simp [tangents]
theorem tangents_wf : ∀ s : Subs Cls, WFs s → WFs (tangents s)
  | .nil, _ => trivial
  | .cons _ d r, h => ⟨tangent_wf d h.1, tangents_wf r h.2⟩
end

theorem mem_tangents {n : String} {d : Dist Cls} : ∀ {s : Subs Cls}, (n, d) ∈ (tangents s).toList →
    ∃ e, (n, e) ∈ s.toList ∧ d = tangent e
  | .nil, h => by simp [tangents, Subs.toList] at h
  | .cons m e r, h => by
    simp only [tangents, Subs.toList, List.mem_cons, Prod.mk.injEq] at h ⊢
    rcases h with ⟨rfl, rfl⟩ | h
    · exact ⟨e, .inl ⟨rfl, rfl⟩, rfl⟩
    · obtain ⟨e, h1, h2⟩ := mem_tangents h
      exact ⟨e, .inr h1, h2⟩

theorem paramAt_tangent {d : Dist Cls} {k : Path} {f : Field} {v' : Val} (h : ParamAt d k f v') :
    ∀ {p : Dist Cls}, d = tangent p → ∃ v, ParamAt p k f v ∧ v' = tangentOf f.fixed v := by
  induction h with
  | @here c vals subs i f v h1 h2 =>
    rintro ⟨c', vals', subs'⟩ e
    simp only [tangent, Dist.mk.injEq] at e
    obtain ⟨rfl, rfl, _⟩ := e
    rw [List.getElem?_zipWith, h1] at h2
    cases h3 : vals'[i]? with
    | none => simp [h3] at h2
    | some w =>
      simp only [h3, Option.some.injEq] at h2
      exact ⟨w, .here h1 h3, h2.symm⟩
  | @sub c vals subs n d k f v h1 _ ih =>
    rintro ⟨c', vals', subs'⟩ e
    simp only [tangent, Dist.mk.injEq] at e
    obtain ⟨rfl, rfl, rfl⟩ := e
    obtain ⟨e, h3, rfl⟩ := mem_tangents h1
    obtain ⟨w, h4, h5⟩ := ih rfl
    exact ⟨w, .sub h3 h4, h5⟩

theorem get?_mapSnd {κ ν ν' : Type} [DecidableEq κ] (f : ν → ν') (d : Dict κ ν) (k : κ) :
    Dict.get? (d.map fun kv => (kv.1, f kv.2)) k = (d.get? k).map f := by
  induction d with
  | nil => rfl
  | cons a p ih => by_cases h : a.1 = k <;> simp [Dict.get?, h, ih]

/-- `unit_tangent(p)` of a well-formed object. -/
theorem unitTangent_eq {p : Dist Cls} (hw : WF p) {l : List (Info Cls)} (hl : infosOf p = .ok l) :
    unitTangent p = .ok (tangent p) := by
  simp only [unitTangent, hl, Bind.bind, Except.bind]
  refine assemble_ok (tangent_wf p hw) (by rw [tangent_skel, infosOf_skel hl]) fun kv hkv => ?_
  obtain ⟨k, f, v, h1, _, rfl⟩ := Dist.mem_paramList.1 hkv
  obtain ⟨w, h2, rfl⟩ := paramAt_tangent h1 rfl
  rw [List.nil_append, Dict.get?_append, get?_mapSnd, get?_mapSnd]
  cases hf : f.fixed with
  | false =>
    rw [(parameters_get? (fixed := some false) hw).2 ⟨f, h2, by simp [keep, hf]⟩]
    rfl
  | true =>
    have h3 : (parameters p (some false)).get? k = none := by
      rcases hn : (parameters p (some false)).get? k with _ | u
      · rfl
      · obtain ⟨f', h4, h5⟩ := (parameters_get? hw).1 hn
        obtain ⟨rfl, -⟩ := ParamAt.unique hw h2 h4
        simp [keep, hf] at h5
    rw [h3, (parameters_get? (fixed := some true) hw).2 ⟨f, h2, by simp [keep, hf]⟩]
    rfl

theorem full_vectors {α : Type} [Inhabited α] {d : ℕ} (rs : List ℕ) (x : α) :
    Arr.full (d :: rs) x = vectors rs fun _ (_ : Fin d) => x :=
  Arr.ofFn_congr fun i hi => by
    obtain ⟨k, i, rfl, hk, _⟩ := inB_cons_elim hi
    simp [hk]

theorem full_matrices {α : Type} [Inhabited α] {m n : ℕ} (rs : List ℕ) (x : α) :
    Arr.full (n :: m :: rs) x = matrices rs fun _ => Matrix.of fun (_ : Fin m) (_ : Fin n) => x :=
  Arr.ofFn_congr fun i hi => by
    obtain ⟨k, i, rfl, hk, hi⟩ := inB_cons_elim hi
    obtain ⟨l, i, rfl, hl, _⟩ := inB_cons_elim hi
    simp [hk, hl]

/-- The unit tangents of parameters that are stored by a layout. -/
structure Unital {P N : Type} [AddCommGroup N] [Module ℝ N] (fixed : List Bool) (lay : Layout P N) (p₀ : P)
    (v : N) : Prop where
  tangent : ∀ rs p q, List.zipWith tangentOf fixed (lay rs p q) = lay rs (fun _ => p₀) fun _ => v
  along : ∀ t rs p q, List.zipWith (valAlong t) (lay rs p q) (lay rs (fun _ => p₀) fun _ => v) =
    lay rs p fun i => q i + t • v

theorem along_scalars {rs : List ℕ} (t : ℝ) (q : List ℕ → ℝ) (v : ℝ) :
    valAlong t (.real (scalars rs q)) (.real (scalars rs fun _ => v)) =
      .real (scalars rs fun i => q i + t • v) :=
  congrArg Val.real (Arr.ofFn_congr fun i hi => by
    have hi : inB rs i = true := hi
    rw [scalars, scalars, Arr.ofFn_get hi, Arr.ofFn_get hi, smul_eq_mul])

theorem along_scalarsC {rs : List ℕ} (t : ℝ) (q : List ℕ → ℂ) (v : ℂ) :
    valAlong t (.complex (scalars rs q)) (.complex (scalars rs fun _ => v)) =
      .complex (scalars rs fun i => q i + t • v) :=
  congrArg Val.complex (Arr.ofFn_congr fun i hi => by
    have hi : inB rs i = true := hi
    rw [scalars, scalars, Arr.ofFn_get hi, Arr.ofFn_get hi, Complex.real_smul])

theorem along_vectors {d : ℕ} {rs : List ℕ} (t : ℝ) (q : List ℕ → Fin d → ℝ) (v : Fin d → ℝ) :
    valAlong t (.real (vectors rs q)) (.real (vectors rs fun _ => v)) =
      .real (vectors rs fun i => q i + t • v) :=
  congrArg Val.real (Arr.ofFn_congr fun i hi => by
    have hi : inB (d :: rs) i = true := hi
    rw [vectors, vectors, Arr.ofFn_get hi, Arr.ofFn_get hi]
    obtain ⟨k, i, rfl, hk, _⟩ := inB_cons_elim hi
    simp [hk])

theorem along_vectorsC {d : ℕ} {rs : List ℕ} (t : ℝ) (q : List ℕ → Fin d → ℂ) (v : Fin d → ℂ) :
    valAlong t (.complex (vectors rs q)) (.complex (vectors rs fun _ => v)) =
      .complex (vectors rs fun i => q i + t • v) :=
  congrArg Val.complex (Arr.ofFn_congr fun i hi => by
    have hi : inB (d :: rs) i = true := hi
    rw [vectors, vectors, Arr.ofFn_get hi, Arr.ofFn_get hi]
    obtain ⟨k, i, rfl, hk, _⟩ := inB_cons_elim hi
    simp [hk])

theorem along_matrices {m n : ℕ} {rs : List ℕ} (t : ℝ) (q : List ℕ → Matrix (Fin m) (Fin n) ℝ)
    (v : Matrix (Fin m) (Fin n) ℝ) :
    valAlong t (.real (matrices rs q)) (.real (matrices rs fun _ => v)) =
      .real (matrices rs fun i => q i + t • v) :=
  congrArg Val.real (Arr.ofFn_congr fun i hi => by
    have hi : inB (n :: m :: rs) i = true := hi
    rw [matrices, matrices, Arr.ofFn_get hi, Arr.ofFn_get hi]
    obtain ⟨k, i, rfl, hk, hi⟩ := inB_cons_elim hi
    obtain ⟨l, i, rfl, hl, _⟩ := inB_cons_elim hi
    simp [hk, hl])

theorem along_matricesC {m n : ℕ} {rs : List ℕ} (t : ℝ) (q : List ℕ → Matrix (Fin m) (Fin n) ℂ)
    (v : Matrix (Fin m) (Fin n) ℂ) :
    valAlong t (.complex (matrices rs q)) (.complex (matrices rs fun _ => v)) =
      .complex (matrices rs fun i => q i + t • v) :=
  congrArg Val.complex (Arr.ofFn_congr fun i hi => by
    have hi : inB (n :: m :: rs) i = true := hi
    rw [matrices, matrices, Arr.ofFn_get hi, Arr.ofFn_get hi]
    obtain ⟨k, i, rfl, hk, hi⟩ := inB_cons_elim hi
    obtain ⟨l, i, rfl, hl, _⟩ := inB_cons_elim hi
    simp [hk, hl])

theorem along_zero {rs : List ℕ} (t : ℝ) (q : List ℕ → ℝ) :
    valAlong t (.real (scalars rs q)) (.real (scalars rs fun _ => 0)) = .real (scalars rs q) := by
  rw [along_scalars]
  simp

theorem unital_S : Unital [false] layS () 1 where
  tangent _ _ _ := rfl
  along t rs p q := congrArg₂ List.cons (along_scalars t q 1) rfl

theorem unital_SS : Unital [false, false] laySS () (1, 1) where
  tangent _ _ _ := rfl
  along t rs p q := congrArg₂ List.cons (along_scalars t _ 1)
    (congrArg₂ List.cons (along_scalars t _ 1) rfl)

theorem unital_V (d : ℕ) : Unital [false] (layV d) () (fun _ => 1) where
  tangent rs _ _ := congrArg₂ List.cons (congrArg Val.real (full_vectors rs 1)) rfl
  along t rs p q := congrArg₂ List.cons (along_vectors t q _) rfl

theorem unital_E (d : ℕ) : Unital [false] (layE d) () (WithLp.toLp 2 fun _ => 1) where
  tangent rs _ _ := congrArg₂ List.cons (congrArg Val.real (full_vectors rs 1)) rfl
  along t rs p q := congrArg₂ List.cons (along_vectors t (fun i => (q i).ofLp) _) rfl

theorem unital_VV (d : ℕ) : Unital [false, false] (layVV d) () (fun _ => 1, fun _ => 1) where
  tangent rs _ _ := congrArg₂ List.cons (congrArg Val.real (full_vectors rs 1))
    (congrArg₂ List.cons (congrArg Val.real (full_vectors rs 1)) rfl)
  along t rs p q := congrArg₂ List.cons (along_vectors t _ _) (congrArg₂ List.cons (along_vectors t _ _) rfl)

theorem unital_VS (d : ℕ) : Unital [false, false] (layVS d) () (fun _ => 1, 1) where
  tangent rs _ _ := congrArg₂ List.cons (congrArg Val.real (full_vectors rs 1)) rfl
  along t rs p q := congrArg₂ List.cons (along_vectors t _ _) (congrArg₂ List.cons (along_scalars t _ _) rfl)

theorem unital_VM (d : ℕ) :
    Unital [false, false] (layVM d) () (fun _ => 1, Matrix.of fun _ _ => 1) where
  tangent rs _ _ := congrArg₂ List.cons (congrArg Val.real (full_vectors rs 1))
    (congrArg₂ List.cons (congrArg Val.real (full_matrices rs 1)) rfl)
  along t rs p q := congrArg₂ List.cons (along_vectors t _ _) (congrArg₂ List.cons (along_matrices t _ _) rfl)

theorem unital_C : Unital [false] layC () 1 where
  tangent _ _ _ := rfl
  along t rs p q := congrArg₂ List.cons (along_scalarsC t q 1) rfl

theorem unital_CV (d : ℕ) : Unital [false] (layCV d) () (fun _ => 1) where
  tangent rs _ _ := congrArg₂ List.cons (congrArg Val.complex (full_vectors rs 1)) rfl
  along t rs p q := congrArg₂ List.cons (along_vectorsC t q _) rfl

theorem unital_CM (d : ℕ) : Unital [false] (layCM d) () (Matrix.of fun _ _ => 1) where
  tangent rs _ _ := congrArg₂ List.cons (congrArg Val.complex (full_matrices rs 1)) rfl
  along t rs p q := congrArg₂ List.cons (along_matricesC t q _) rfl

theorem unital_CSC : Unital [false, false, false] layCSC () (1, 1, 1) where
  tangent _ _ _ := rfl
  along t rs p q := congrArg₂ List.cons (along_scalarsC t _ 1)
    (congrArg₂ List.cons (along_scalars t _ 1) (congrArg₂ List.cons (along_scalarsC t _ 1) rfl))

theorem unital_SFixedInt : Unital [false, true] laySFixedInt 0 1 where
  tangent _ _ _ := rfl
  along t rs p q := congrArg₂ List.cons (along_scalars t q 1) rfl

theorem unital_fixedS : Unital [true, false] layFixedS 0 1 where
  tangent _ _ _ := rfl
  along t rs p q := congrArg₂ List.cons (along_zero t p) (congrArg₂ List.cons (along_scalars t q 1) rfl)

theorem unital_VFixed (d : ℕ) : Unital [false, true] (layVFixed d) 0 (fun _ => 1) where
  tangent rs _ _ := congrArg₂ List.cons (congrArg Val.real (full_vectors rs 1)) rfl
  along t rs p q := congrArg₂ List.cons (along_vectors t q _) (congrArg₂ List.cons (along_zero t p) rfl)

variable {solve : Solver}

/-- What the unit tangents of the objects of a kind are. -/
def UnitalKind {K : Kind Cls} (S : Setting K) (p₀ : K.P) (v : K.N) : Prop :=
  v ∈ S.dirs ∧ (∀ rs p q, tangent (K.nat rs p q) = K.nat rs (fun _ => p₀) fun _ => v) ∧
    ∀ t rs p q, along t (K.nat rs p q) (K.nat rs (fun _ => p₀) fun _ => v) =
      K.nat rs p fun i => S.line (q i) v t

set_option linter.overlappingInstances false in
theorem Unital.kind {P N E X : Type} [Sub N] [AddCommGroup N] [Module ℝ N] [MeasurableSpace X] {c c' : Cls}
    {nat : Layout P N} {exp : Layout P E} {obs : List ℕ → (List ℕ → X) → Val → Prop}
    {F : P → ExpFam N E X} {toNat : P → E → N} {ecm : P → E → ℝ} {ent : Prop} {d : P → N → Prop}
    {e : P → E → Prop} {μ : MeasureTheory.Measure X} {dom : Set N} {dirs : Submodule ℝ N}
    {ok : P → Prop} {closed : Prop} {fixed : List Bool} {p₀ : P} {v : N} (h : Unital fixed nat p₀ v)
    (hf : (fields c).map Field.fixed = fixed) (hv : v ∈ dirs) :
    UnitalKind (Setting.simple (c := c) (c' := c') (nat := nat) (exp := exp) (obs := obs) (F := F) (toNat := toNat)
      (ecm := ecm) (ent := ent) (d := d) (e := e) μ dom dirs ok closed) p₀ v := by
  refine ⟨hv, fun rs p q => ?_, fun t rs p q => ?_⟩
  · change Dist.mk c (List.zipWith _ (fields c) (nat rs p q)) .nil = .mk c _ .nil
    rw [← h.tangent rs p q, ← hf, List.zipWith_map_left]
  · exact congrArg (fun l => Dist.mk c l .nil) (h.along t rs p q)

theorem unital_library {K : Kind Cls} {S : Setting K} (hS : LibrarySetting solve K S) :
    ∃ p₀ v, UnitalKind S p₀ v := by
  induction hS with
  | simple s =>
    cases s
    case cmvCircular d => exact ⟨_, _, (unital_CM d).kind rfl (by
      change Matrix.IsHermitian _
      ext; simp)⟩
    case mvNormal d => exact ⟨_, _, (unital_VM d).kind rfl (by
      change Matrix.IsSymm _
      ext; simp)⟩
    all_goals first
      | exact ⟨_, _, unital_S.kind rfl trivial⟩
      | exact ⟨_, _, unital_SS.kind rfl trivial⟩
      | exact ⟨_, _, (unital_V _).kind rfl trivial⟩
      | exact ⟨_, _, (unital_E _).kind rfl trivial⟩
      | exact ⟨_, _, (unital_VV _).kind rfl trivial⟩
      | exact ⟨_, _, (unital_VS _).kind rfl trivial⟩
      | exact ⟨_, _, unital_C.kind rfl trivial⟩
      | exact ⟨_, _, (unital_CV _).kind rfl trivial⟩
      | exact ⟨_, _, unital_CSC.kind rfl trivial⟩
      | exact ⟨_, _, unital_SFixedInt.kind rfl trivial⟩
      | exact ⟨_, _, unital_fixedS.kind rfl trivial⟩
      | exact ⟨_, _, (unital_VFixed _).kind rfl trivial⟩
  | @joint l _ _ _ ih =>
    have key : ∃ (p₀ : (Parts.ofList (partsOf l)).P) (v : (Parts.ofList (partsOf l)).N),
        v ∈ (Settings.ofList l).dirs ∧
        (∀ rs p q, tangents ((Parts.ofList (partsOf l)).nat rs p q) =
          (Parts.ofList (partsOf l)).nat rs (fun _ => p₀) fun _ => v) ∧
        ∀ t rs p q, alongs t ((Parts.ofList (partsOf l)).nat rs p q)
            ((Parts.ofList (partsOf l)).nat rs (fun _ => p₀) fun _ => v) =
          (Parts.ofList (partsOf l)).nat rs p fun i => (Setting.joint Cls.jointN Cls.jointE
            (Settings.ofList l)).line (q i) v t := by
      clear * - ih
      induction l with
      | nil => exact ⟨(), (), trivial, fun _ _ _ => rfl, fun _ _ _ _ => rfl⟩
      | cons s l ih' =>
        obtain ⟨p₁, v₁, h1, h2, h3⟩ := ih s List.mem_cons_self
        obtain ⟨p₂, v₂, h4, h5, h6⟩ := ih' fun nk hm => ih nk (List.mem_cons_of_mem _ hm)
        refine ⟨(p₁, p₂), (v₁, v₂), ⟨h1, h4⟩, fun rs p q => ?_, fun t rs p q => ?_⟩
        · exact congrArg₂ (Subs.cons s.1) (h2 rs _ _) (h5 rs _ _)
        · exact congrArg₂ (Subs.cons s.1) (h3 t rs _ _) (h6 t rs _ _)
    obtain ⟨p₀, v, h1, h2, h3⟩ := key
    exact ⟨p₀, v, h1, fun rs p q => congrArg (Dist.mk _ []) (h2 rs p q),
      fun t rs p q => congrArg (Dist.mk _ []) (h3 t rs p q)⟩

end Tests

end Efax
