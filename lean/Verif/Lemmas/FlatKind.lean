import Verif.Lemmas.Fisher
import Verif.Lemmas.Flat2
import Verif.Lemmas.Classes
import Verif.Lemmas.Index
import Mathlib.Data.Matrix.Block

/-! # Flat coordinates of batches of distributions, simple or joint -/

namespace Efax

open Spec ClassTable MeasureTheory

theorem Blocks.shift {batch : List ℕ} {y z : Arr ℝ} {A : List (Arr ℝ)} {k c m : ℕ}
    (h : Blocks batch z c A m)
    (hy : ∀ i j, i < m → inB batch j = true → y.get ((k + i) :: j) = z.get (i :: j)) :
    Blocks batch y (k + c) A (k + m) := by
  induction A generalizing c with
  | nil => exact congrArg _ h
  | cons a A ih =>
    obtain ⟨l, h1, h2, h3⟩ := h
    have := h3.le
    refine ⟨l, h1, fun i j hi hj => ?_, ?_⟩
    · rw [Nat.add_assoc, hy _ _ (by omega) hj, h2 i j hi hj]
    · rw [Nat.add_assoc]
      exact ih h3

theorem Blocks.congr {batch : List ℕ} {y z : Arr ℝ} {A : List (Arr ℝ)} {c m : ℕ}
    (h : Blocks batch z c A m)
    (hy : ∀ i j, i < m → inB batch j = true → y.get (i :: j) = z.get (i :: j)) :
    Blocks batch y c A m := by
  have := h.shift (y := y) (k := 0) fun i j hi hj => by rw [Nat.zero_add]; exact hy i j hi hj
  simpa using this

theorem Blocks.append {rs : List ℕ} {m n : ℕ} {a : List ℕ → Fin m → ℝ} {b : List ℕ → Fin n → ℝ}
    {A B : List (Arr ℝ)} (hA : Blocks rs (vectors rs a) 0 A m) (hB : Blocks rs (vectors rs b) 0 B n) :
    Blocks rs (vectors rs fun i => Fin.append (a i) (b i)) 0 (A ++ B) (m + n) := by
  refine Blocks.append_iff.2 ⟨m, hA.congr fun i j hi hj => ?_, ?_⟩
  · rw [Calc.vectors_get _ (by omega) hj, Calc.vectors_get _ hi hj]
    exact Fin.append_left (a j) (b j) ⟨i, hi⟩
  · refine hB.shift (k := m) fun i j hi hj => ?_
    rw [Calc.vectors_get _ (by omega) hj, Calc.vectors_get _ hi hj]
    exact Fin.append_right (a j) (b j) ⟨i, hi⟩

/-- The paths and values of a list of parameters. -/
def valuesOf (l : List (Path × Val × Support)) : Dict Path Val := l.map fun kv => (kv.1, kv.2.1)

section

variable {C : Type} [ClassTable C] {g : Val → Except Err Val} {f : Option Bool}

theorem mapM_node {base : Path} {l : List Field} {v v' : List Val}
    (h : List.Forall₂ (fun a b => g a = .ok b) v v') :
    (valuesOf ((((l.zip v).filter fun fv => keep f fv.1).map
      fun fv => (fv.1.name, fv.2, fv.1.support)).map fun nv => (base ++ [nv.1], nv.2))).mapM
      (fun kv => do (.ok (kv.1, ← g kv.2) : Except Err (Path × Val))) =
    .ok (valuesOf ((((l.zip v').filter fun fv => keep f fv.1).map
      fun fv => (fv.1.name, fv.2, fv.1.support)).map fun nv => (base ++ [nv.1], nv.2))) := by
  induction h generalizing l with
  | nil => simp [valuesOf]; rfl
  | @cons a b v v' h _ ih =>
    cases l with
    | nil => rfl
    | cons x l =>
      have ih := ih (l := l)
      simp only [List.zip_cons_cons, List.filter_cons]
      cases keep f x with
      | false => exact ih
      | true =>
        simp only [if_true, valuesOf, List.map_cons, List.mapM_cons] at ih ⊢
        rw [ih]
        simp only [h]
        rfl

mutual
theorem TreeRel.mapM_values {base : Path} :
    {d e : Dist C} → TreeRel (fun a b => g a = .ok b) d e →
    (valuesOf (d.paramList f base)).mapM (fun kv => do
      (.ok (kv.1, ← g kv.2) : Except Err (Path × Val))) = .ok (valuesOf (e.paramList f base))
  | .mk c v s, .mk c' v' s', h => by
    obtain ⟨rfl, h1, h2⟩ := h
    rw [Dist.paramList, Dist.paramList, valuesOf, List.map_append, List.mapM_append]
    have e1 := mapM_node (f := f) (base := base) (l := fields c) h1
    have e2 := TreeRels.mapM_values (base := base) h2
    simp only [valuesOf, nodeParams] at e1 e2 ⊢
    rw [e1, e2, List.map_append]
    rfl
theorem TreeRels.mapM_values {base : Path} :
    {d e : Subs C} → TreeRels (fun a b => g a = .ok b) d e →
    (valuesOf (d.paramList f base)).mapM (fun kv => do
      (.ok (kv.1, ← g kv.2) : Except Err (Path × Val))) = .ok (valuesOf (e.paramList f base))
  | .nil, .nil, _ => rfl
  | .cons m _ _, .cons _ _ _, h => by
    obtain ⟨rfl, h1, h2⟩ := h
    rw [Subs.paramList, Subs.paramList, valuesOf, List.map_append, List.mapM_append]
    have e1 := TreeRel.mapM_values (base := base ++ [m]) h1
    have e2 := TreeRels.mapM_values (base := base) h2
    simp only [valuesOf] at e1 e2 ⊢
    rw [e1, e2, List.map_append]
    rfl
end

end

variable [MachEps]

/-- Flat coordinates, without the plane map, of the batches `nat rs p q`. -/
structure Coords {P N : Type} [AddCommGroup N] [Module ℝ N]
    (nat : List ℕ → (List ℕ → P) → (List ℕ → N) → Dist Cls) (n : ℕ) (good : N → Prop) where
  enc : N → Fin n → ℝ
  dec : (Fin n → ℝ) →ₗ[ℝ] N
  dec_enc : ∀ q, good q → dec (enc q) = q
  enc_dec : ∀ z, enc (dec z) = z
  dec_good : ∀ z, good (dec z)
  infos : ∀ base, ∃ l, ∀ rs p q, (nat rs p q).walk makeInfo base = .ok l
  fixed : ∀ rs p q q' base,
    (nat rs p q).paramList (some true) base = (nat rs p q').paramList (some true) base
  fits : ∀ rs p q, (∀ i, inB rs i = true → good (q i)) → LoopsAll false rs (nat rs p q)
  blocks : ∀ rs p q base, (∀ i, inB rs i = true → good (q i)) →
    ∃ A, (nat rs p q).walk (makeFlat false) base = .ok A ∧
      Blocks rs (vectors rs fun i => enc (q i)) 0 A.flatten n

/-- `Coords` for the parts of a joint distribution. -/
structure CoordsParts {P N : Type} [AddCommGroup N] [Module ℝ N]
    (nat : List ℕ → (List ℕ → P) → (List ℕ → N) → Subs Cls) (n : ℕ) (good : N → Prop) where
  enc : N → Fin n → ℝ
  dec : (Fin n → ℝ) →ₗ[ℝ] N
  dec_enc : ∀ q, good q → dec (enc q) = q
  enc_dec : ∀ z, enc (dec z) = z
  dec_good : ∀ z, good (dec z)
  names : ∃ l, ∀ rs p q, (nat rs p q).names = l
  infos : ∀ base, ∃ l, ∀ rs p q, (nat rs p q).walk makeInfo base = .ok l
  fixed : ∀ rs p q q' base,
    (nat rs p q).paramList (some true) base = (nat rs p q').paramList (some true) base
  fits : ∀ rs p q, (∀ i, inB rs i = true → good (q i)) →
    EachParams (fun d s v => Loops s false d rs v) (nat rs p q)
  blocks : ∀ rs p q base, (∀ i, inB rs i = true → good (q i)) →
    ∃ A, (nat rs p q).walk (makeFlat false) base = .ok A ∧
      Blocks rs (vectors rs fun i => enc (q i)) 0 A.flatten n

/-- No parts. -/
def CoordsParts.nil : CoordsParts (Parts.nil : Parts Cls).nat 0 (N := Unit) fun _ => True where
  enc _ := Fin.elim0
  dec := 0
  dec_enc _ _ := rfl
  enc_dec _ := funext fun k => k.elim0
  dec_good _ := trivial
  names := ⟨_, fun _ _ _ => rfl⟩
  infos _ := ⟨_, fun _ _ _ => rfl⟩
  fixed _ _ _ _ _ := rfl
  fits _ _ _ _ := trivial
  blocks _ _ _ _ _ := ⟨[], rfl, rfl⟩

/-- A part and further parts. -/
def CoordsParts.cons {P P' N N' : Type} [AddCommGroup N] [Module ℝ N] [AddCommGroup N'] [Module ℝ N']
    {nat : List ℕ → (List ℕ → P) → (List ℕ → N) → Dist Cls}
    {nats : List ℕ → (List ℕ → P') → (List ℕ → N') → Subs Cls} {m n : ℕ} {good : N → Prop}
    {good' : N' → Prop} (name : String) (a : Coords nat m good) (b : CoordsParts nats n good') :
    CoordsParts (P := P × P') (N := N × N') (fun rs p q => .cons name (nat rs (fun i => (p i).1) fun i => (q i).1)
      (nats rs (fun i => (p i).2) fun i => (q i).2)) (m + n) fun q => good q.1 ∧ good' q.2 where
  enc q := Fin.append (a.enc q.1) (b.enc q.2)
  dec := (a.dec ∘ₗ firstPart m n).prod (b.dec ∘ₗ lastPart m n)
  dec_enc q h := by
    change (a.dec (firstPart m n _), b.dec (lastPart m n _)) = q
    rw [firstPart_append, lastPart_append, a.dec_enc _ h.1, b.dec_enc _ h.2]
  enc_dec z := by
    change Fin.append (a.enc (a.dec (firstPart m n z))) (b.enc (b.dec (lastPart m n z))) = z
    rw [a.enc_dec, b.enc_dec, append_parts]
  dec_good z := ⟨a.dec_good _, b.dec_good _⟩
  names := by
    obtain ⟨l, h⟩ := b.names
    exact ⟨name :: l, fun rs p q => by rw [← h rs (fun i => (p i).2) fun i => (q i).2]; rfl⟩
  infos base := by
    obtain ⟨l, h⟩ := a.infos (base ++ [name])
    obtain ⟨l', h'⟩ := b.infos base
    exact ⟨_, fun rs p q => Subs.walk_ok (h _ _ _) (h' _ _ _)⟩
  fixed rs p q q' base := by
    simp only [Subs.paramList]
    rw [a.fixed rs _ _ (fun i => (q' i).1), b.fixed rs _ _ (fun i => (q' i).2)]
  fits rs p q h := ⟨a.fits rs _ _ fun i hi => (h i hi).1, b.fits rs _ _ fun i hi => (h i hi).2⟩
  blocks rs p q base h := by
    obtain ⟨A, h1, h2⟩ := a.blocks rs (fun i => (p i).1) (fun i => (q i).1) (base ++ [name])
      fun i hi => (h i hi).1
    obtain ⟨B, h3, h4⟩ := b.blocks rs (fun i => (p i).2) (fun i => (q i).2) base fun i hi => (h i hi).2
    refine ⟨A ++ B, Subs.walk_ok h1 h3, ?_⟩
    rw [List.flatten_append]
    exact h2.append h4

/-- The joint distribution of parts. -/
def CoordsParts.joint {P N : Type} [AddCommGroup N] [Module ℝ N]
    {nats : List ℕ → (List ℕ → P) → (List ℕ → N) → Subs Cls} {n : ℕ} {good : N → Prop}
    (b : CoordsParts nats n good) : Coords (fun rs p q => .mk .jointN [] (nats rs p q)) n good where
  enc := b.enc
  dec := b.dec
  dec_enc := b.dec_enc
  enc_dec := b.enc_dec
  dec_good := b.dec_good
  infos base := by
    obtain ⟨l, h⟩ := b.infos base
    obtain ⟨k, hk⟩ := b.names
    refine ⟨l ++ [⟨base, .jointN, 1, k⟩], fun rs p q => Dist.walk_ok (h rs p q) ?_⟩
    rw [← hk rs p q]
    rfl
  fixed rs p q q' base := by
    simp only [Dist.paramList]
    rw [b.fixed rs p q q']
  fits rs p q h := ⟨⟨1, rfl, trivial⟩, b.fits rs p q h⟩
  blocks rs p q base h := by
    obtain ⟨A, h1, h2⟩ := b.blocks rs p q base h
    refine ⟨A ++ [[]], Dist.walk_ok h1 rfl, ?_⟩
    simpa using h2

section

variable {P N : Type} [AddCommGroup N] [Module ℝ N]
  {nat : List ℕ → (List ℕ → P) → (List ℕ → N) → Dist Cls} {n : ℕ} {good : N → Prop}

/-- A simple class. -/
theorem Raw.blocks {c : Cls} {lay : Layout P N} (r : Raw c lay n good)
    (hw : ∀ rs p q, WF (.mk c (lay rs p q) .nil))
    (hfit : ∀ rs p q, (∀ i, inB rs i = true → good (q i)) → LoopsAll false rs (.mk c (lay rs p q) .nil))
    (rs : List ℕ) (p : List ℕ → P) (q : List ℕ → N) (base : Path)
    (h : ∀ i, inB rs i = true → good (q i)) :
    ∃ A, (Dist.mk c (lay rs p q) .nil).walk (makeFlat false) base = .ok A ∧
      Blocks rs (vectors rs fun i => r.enc (q i)) 0 A.flatten n := by
  obtain ⟨A, L, a1, a2, a3, a5, -⟩ := Dist.flat_forward (base := []) (hw rs p q) (hfit rs p q h)
  obtain ⟨y, k, y1, y2, y3⟩ := reduceAppend_ok a3 a5
  have hf := r.flat rs p q h
  have a2' : infosOf (.mk c (lay rs p q) .nil) = .ok L := a2
  simp only [flatten, a1, y1, a2', bind, Except.bind, Except.ok.injEq, Prod.mk.injEq] at hf
  obtain ⟨-, rfl⟩ := hf
  obtain rfl : n = k := by
    have := (List.cons.inj y2).1
    exact this
  refine ⟨A, ?_, y3⟩
  rw [← a1]
  simp only [Dist.walk, Subs.walk, makeFlat_eq]

/-- A simple class. -/
def Raw.coords {c : Cls} {lay : Layout P N} (r : Raw c lay n good)
    (hw : ∀ rs p q, WF (.mk c (lay rs p q) .nil))
    (hd : ∃ d, ∀ rs p q, Cls.dimensions c (lay rs p q) = .ok d)
    (hx : ∀ rs p q q', nodeParams (some true) c (lay rs p q) = nodeParams (some true) c (lay rs p q'))
    (hfit : ∀ rs p q, (∀ i, inB rs i = true → good (q i)) → LoopsAll false rs (.mk c (lay rs p q) .nil)) :
    Coords (fun rs p q => .mk c (lay rs p q) .nil) n good where
  enc := r.enc
  dec := r.dec
  dec_enc := r.dec_enc
  enc_dec := r.enc_dec
  dec_good := r.dec_good
  infos base := by
    obtain ⟨d, hd⟩ := hd
    refine ⟨[] ++ [⟨base, c, d, []⟩], fun rs p q => Dist.walk_ok rfl ?_⟩
    simp only [makeInfo, Dist.cls, Dist.vals, ClassTable.dimensions, hd, bind, Except.bind]
    rfl
  fixed rs p q q' base := by
    simp only [Dist.paramList]
    rw [hx rs p q q']
  fits := hfit
  blocks := r.blocks hw hfit

namespace Coords

variable (f : Coords nat n good)

theorem flatten_eq (hw : ∀ rs p q, WF (nat rs p q)) {l : List (Info Cls)}
    (hl : ∀ rs p q, (nat rs p q).walk makeInfo [] = .ok l) (rs : List ℕ) (p : List ℕ → P)
    (q : List ℕ → N) (hq : ∀ i, inB rs i = true → good (q i)) :
    flatten (nat rs p q) false = .ok (⟨l, parameters (nat rs p q) (some true), false⟩,
      vectors rs fun i => f.enc (q i)) := by
  obtain ⟨A, L, a1, a2, a3, a5, -⟩ := Dist.flat_forward (base := []) (hw rs p q) (f.fits rs p q hq)
  obtain ⟨B, b1, b2⟩ := f.blocks rs p q [] hq
  obtain rfl : A = B := Except.ok.inj (a1.symm.trans b1)
  have hr := b2.reduceAppend_eq rfl a5
  have hi : infosOf (nat rs p q) = .ok l := hl rs p q
  simp only [flatten, a1, hr, hi, bind, Except.bind]

theorem at_eq (hw : ∀ rs p q, WF (nat rs p q)) (l : List (Info Cls)) {rs i : List ℕ}
    {p p' : List ℕ → P} {q q' : List ℕ → N}
    (hx : Indexes i.reverse (nat rs p q) (nat [] p' q')) :
    Flattener.at ⟨l, parameters (nat rs p q) (some true), false⟩ i =
      .ok ⟨l, parameters (nat [] p' q') (some true), false⟩ := by
  have := TreeRel.mapM_values (f := some true) (base := []) hx
  rw [Flattener.at]
  simp only [parameters_eq (hw _ _ _)]
  rw [valuesOf, valuesOf] at this
  rw [this]
  rfl

theorem unflatten_eq (hw : ∀ rs p q, WF (nat rs p q)) {l : List (Info Cls)}
    (hl : ∀ rs p q, (nat rs p q).walk makeInfo [] = .ok l) (rs : List ℕ) (p : List ℕ → P)
    (q : List ℕ → N) (z : List ℕ → Fin n → ℝ) :
    Flattener.unflatten ⟨l, parameters (nat rs p q) (some true), false⟩ (vectors rs z) =
      .ok (nat rs p fun i => f.dec (z i)) := by
  have hg : ∀ i, inB rs i = true → good (f.dec (z i)) := fun i _ => f.dec_good _
  obtain ⟨A, L, a1, a2, a3, a5, a4⟩ := Dist.flat_forward (base := [])
    (hw rs p fun i => f.dec (z i)) (f.fits rs p _ hg)
  obtain ⟨B, b1, b2⟩ := f.blocks rs p (fun i => f.dec (z i)) [] hg
  obtain rfl : A = B := Except.ok.inj (a1.symm.trans b1)
  obtain rfl : L = l := Except.ok.inj (a2.symm.trans (hl _ _ _))
  simp only [f.enc_dec] at b2
  have hfx : ∀ kv ∈ (nat rs p fun i => f.dec (z i)).paramList (some true) [],
      (parameters (nat rs p q) (some true)).get? kv.1 = some kv.2.1 := by
    intro kv hkv
    refine Dict.get?_of_mem (parameters_keys_nodup (hw rs p q) _) ?_
    rw [parameters_eq (hw rs p q), f.fixed rs p q fun i => f.dec (z i)]
    exact List.mem_map.2 ⟨kv, hkv, rfl⟩
  obtain ⟨-, con, c1, c2, -⟩ := a4 ⟨L, parameters (nat rs p q) (some true), false⟩ (vectors rs z) 0 n n []
    rfl rfl le_rfl hfx b2
  have hl : (vectors rs z).lastDim = .ok n := rfl
  simp only [Flattener.unflatten, hl, bind, Except.bind, c1, ne_eq, not_true_eq_false, if_false,
    getDist, Dict.get, c2]

variable {E X : Type} {F : P → ExpFam N E X} {L : Library Cls}
  {exp : List ℕ → (List ℕ → P) → (List ℕ → E) → Dist Cls} {dm : P → N → Prop}

/-- The Fisher information matrix holds the derivatives of the expectation parameters. -/
theorem fisher_grad (hw : ∀ rs p q, WF (nat rs p q))
    (hx : ∀ t i p q, inB t i = true → Indexes i.reverse (nat t p q)
      (nat [] (fun j => p (j ++ i)) fun j => q (j ++ i)))
    (hsh : ∀ rs p q, (nat rs p q).shape L = .ok rs)
    (hlog : ∀ rs p q, (nat rs p q).logNormalizer L =
      .ok (scalars rs fun i => (F (p i)).logNormalizer (q i)))
    (hexp : ∀ rs p q, (∀ i, inB rs i = true → dm (p i) (q i)) →
      (nat rs p q).toExp L.toExp = .ok (exp rs p fun i => (F (p i)).toExp (q i)))
    (hdot : ∀ rs p q χ, paramDot (nat rs p q) (exp rs p χ) =
      .ok (scalars rs fun i => (F (p i)).dot (q i) (χ i)))
    (rs : List ℕ) (p : List ℕ → P) (q : List ℕ → N) (hq : ∀ i, inB rs i = true → good (q i))
    (hdm : ∀ i, inB rs i = true → ∀ v : N, ∀ᶠ t in nhds (0 : ℝ), dm (p i) (q i + t • v)) :
    fisherMatrix L (nat rs p q) = .ok (matrices rs fun i => gradMatrix (F (p i)) f.dec (q i)) := by
  obtain ⟨l, hl⟩ := f.infos []
  refine fisherMatrix_grad (dm := dm) (exp := exp) (f.flatten_eq hw hl rs p q hq)
    (fun i hi => at_eq hw l (hx rs i p q hi))
    (fun i _ z => f.unflatten_eq hw hl [] (fun j => p (j ++ i)) (fun j => q (j ++ i)) fun _ => z)
    (fun _ => rfl) (hsh rs p q) (hlog []) (fun p q h => hexp [] p q fun i hi => ?_) (hdot [])
    (fun i hi => f.dec_enc _ (hq i hi)) fun i hi => ⟨?_, fun z => hdm i hi _⟩
  · rw [inB_nil_iff.1 hi]; exact h
  · have := (hdm i hi 0).self_of_nhds
    simpa using this

/-- The Fisher information matrix is positive definite, and holds the covariances of the statistics. -/
theorem flatFisherIn [MeasurableSpace X] {μ : Measure X}
    {dom : P → Set N} {dirs : Submodule ℝ N} (hw : ∀ rs p q, WF (nat rs p q))
    (hx : ∀ t i p q, inB t i = true → Indexes i.reverse (nat t p q)
      (nat [] (fun j => p (j ++ i)) fun j => q (j ++ i)))
    (hsh : ∀ rs p q, (nat rs p q).shape L = .ok rs)
    (hlog : ∀ rs p q, (nat rs p q).logNormalizer L =
      .ok (scalars rs fun i => (F (p i)).logNormalizer (q i)))
    (hexp : ∀ rs p q, (∀ i, inB rs i = true → dm (p i) (q i)) →
      (nat rs p q).toExp L.toExp = .ok (exp rs p fun i => (F (p i)).toExp (q i)))
    (hdot : ∀ rs p q χ, paramDot (nat rs p q) (exp rs p χ) =
      .ok (scalars rs fun i => (F (p i)).dot (q i) (χ i)))
    (R : ∀ p q, q ∈ dom p → (∃ D, q ∈ D ∧ LocallyRegular (F p) μ D dirs) ∧
      (gradMatrix (F p) f.dec q).PosDef)
    (hgood : ∀ p q, q ∈ dom p → good q)
    (hdm : ∀ p q, q ∈ dom p → ∀ v : N, ∀ᶠ t in nhds (0 : ℝ), dm p (q + t • v)) :
    FlatFisherIn L nat n F μ dom dirs := by
  refine flatFisherIn_of (dec := f.dec) (fun p q hq => ?_) (fun rs p q hq =>
    f.fisher_grad hw hx hsh hlog hexp hdot rs p q (fun i hi => hgood _ _ (hq i hi))
      fun i hi => hdm _ _ (hq i hi)) R
  obtain ⟨l, hl⟩ := f.infos []
  refine ⟨_, _, f.flatten_eq hw hl [] p q fun i hi => ?_, rfl, fun z => f.unflatten_eq hw hl [] _ _ _⟩
  rw [inB_nil_iff.1 hi]; exact hgood _ _ hq

/-- The Fisher information matrix is the covariance matrix of the statistics in flat coordinates. -/
theorem flatFisher [MeasurableSpace X] {μ : Measure X}
    {dom : P → Set N} {dirs : Submodule ℝ N} (hw : ∀ rs p q, WF (nat rs p q))
    (hx : ∀ t i p q, inB t i = true → Indexes i.reverse (nat t p q)
      (nat [] (fun j => p (j ++ i)) fun j => q (j ++ i)))
    (hsh : ∀ rs p q, (nat rs p q).shape L = .ok rs)
    (hlog : ∀ rs p q, (nat rs p q).logNormalizer L =
      .ok (scalars rs fun i => (F (p i)).logNormalizer (q i)))
    (hexp : ∀ rs p q, (∀ i, inB rs i = true → dm (p i) (q i)) →
      (nat rs p q).toExp L.toExp = .ok (exp rs p fun i => (F (p i)).toExp (q i)))
    (hdot : ∀ rs p q χ, paramDot (nat rs p q) (exp rs p χ) =
      .ok (scalars rs fun i => (F (p i)).dot (q i) (χ i)))
    (R : ∀ p q, q ∈ dom p → ∃ D, q ∈ D ∧ LocallyRegular (F p) μ D dirs ∧ Minimal (F p) μ dirs)
    (hgood : ∀ p q, q ∈ dom p → good q) (hdirs : ∀ z, f.dec z ∈ dirs)
    (hdm : ∀ p q, q ∈ dom p → ∀ v : N, ∀ᶠ t in nhds (0 : ℝ), dm p (q + t • v)) :
    FlatFisher L nat n F μ dom := by
  refine flatFisher_of (enc := f.enc) (dec := f.dec) (fun p q hq => ?_) (fun rs p q hq =>
    f.fisher_grad hw hx hsh hlog hexp hdot rs p q (fun i hi => hgood _ _ (hq i hi))
      fun i hi => hdm _ _ (hq i hi)) R f.enc_dec hdirs
  obtain ⟨l, hl⟩ := f.infos []
  refine ⟨_, _, f.flatten_eq hw hl [] p q fun i hi => ?_, rfl, fun z => f.unflatten_eq hw hl [] _ _ _⟩
  rw [inB_nil_iff.1 hi]; exact hgood _ _ hq

end Coords

end

omit [MachEps] in
theorem firstPart_left {m n : ℕ} (a : Fin m) :
    firstPart m n (Pi.single (Fin.castAdd n a) 1) = Pi.single a 1 := by
  funext k
  change (Pi.single (Fin.castAdd n a) (1 : ℝ) : Fin (m + n) → ℝ) (Fin.castAdd n k) = _
  by_cases h : k = a
  · subst h; simp
  · rw [Pi.single_eq_of_ne h, Pi.single_eq_of_ne]
    exact fun e => h (Fin.castAdd_injective m n e)

omit [MachEps] in
theorem lastPart_left {m n : ℕ} (a : Fin m) : lastPart m n (Pi.single (Fin.castAdd n a) 1) = 0 := by
  funext k
  change (Pi.single (Fin.castAdd n a) (1 : ℝ) : Fin (m + n) → ℝ) (Fin.natAdd m k) = 0
  rw [Pi.single_eq_of_ne]
  exact fun e => by have := congrArg Fin.val e; simp at this; omega

omit [MachEps] in
theorem firstPart_right {m n : ℕ} (a : Fin n) : firstPart m n (Pi.single (Fin.natAdd m a) 1) = 0 := by
  funext k
  change (Pi.single (Fin.natAdd m a) (1 : ℝ) : Fin (m + n) → ℝ) (Fin.castAdd n k) = 0
  rw [Pi.single_eq_of_ne]
  exact fun e => by have := congrArg Fin.val e; simp at this; omega

omit [MachEps] in
theorem lastPart_right {m n : ℕ} (a : Fin n) :
    lastPart m n (Pi.single (Fin.natAdd m a) 1) = Pi.single a 1 := by
  funext k
  change (Pi.single (Fin.natAdd m a) (1 : ℝ) : Fin (m + n) → ℝ) (Fin.natAdd m k) = _
  by_cases h : k = a
  · subst h; simp
  · rw [Pi.single_eq_of_ne h, Pi.single_eq_of_ne]
    exact fun e => h (Fin.natAdd_injective n m e)

omit [MachEps] in
/-- The matrix of a product of families is block diagonal. -/
theorem gradMatrix_prod {N N' E E' X X' : Type} [AddCommGroup N] [Module ℝ N] [AddCommGroup N'] [Module ℝ N']
    {m n : ℕ} {F : ExpFam N E X} {F' : ExpFam N' E' X'} (hF : ∀ χ, F.dot 0 χ = 0) (hF' : ∀ χ, F'.dot 0 χ = 0)
    (dec : (Fin m → ℝ) →ₗ[ℝ] N) (dec' : (Fin n → ℝ) →ₗ[ℝ] N') (q : N × N') :
    gradMatrix (prodFam F F') ((dec ∘ₗ firstPart m n).prod (dec' ∘ₗ lastPart m n)) q =
      Matrix.reindex finSumFinEquiv finSumFinEquiv (Matrix.fromBlocks (gradMatrix F dec q.1) 0 0
        (gradMatrix F' dec' q.2)) := by
  ext a b
  obtain ⟨a, rfl⟩ := finSumFinEquiv.surjective a
  obtain ⟨b, rfl⟩ := finSumFinEquiv.surjective b
  rw [Matrix.reindex_apply, Matrix.submatrix_apply, Equiv.symm_apply_apply, Equiv.symm_apply_apply,
    gradMatrix_apply]
  rcases a with a | a <;> rcases b with b | b <;>
    simp only [finSumFinEquiv_apply_left, finSumFinEquiv_apply_right, LinearMap.prod_apply, Function.prod,
      LinearMap.comp_apply, firstPart_left, firstPart_right, lastPart_left, lastPart_right, map_zero,
      prodFam, Prod.snd_add, Prod.fst_add, Prod.smul_fst, Prod.smul_snd, hF, hF', add_zero, zero_add,
      smul_zero, deriv_const, Matrix.fromBlocks_apply₁₁, Matrix.fromBlocks_apply₁₂,
      Matrix.fromBlocks_apply₂₁, Matrix.fromBlocks_apply₂₂, Matrix.zero_apply, gradMatrix_apply]

end Efax
