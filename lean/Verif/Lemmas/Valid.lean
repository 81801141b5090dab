import Verif.Spec.Valid
import Verif.Props.Completeness
import Verif.Props.Generate
import Verif.Props.Flatten

/-!
# Trees with corresponding simple distributions
-/

namespace Efax

open Spec ClassTable

variable [MachEps] {solve : Solver}

mutual
/-- Same classes and names, and corresponding simple distributions are related. -/
def LeavesRel (R : Cls → List Val → List Val → Prop) : Dist Cls → Dist Cls → Prop
  | .mk c vals s, .mk c' vals' s' => c = c' ∧ (isJoint c = false → R c vals vals') ∧ LeavesRels R s s'
/-- `LeavesRel` for corresponding parts. -/
def LeavesRels (R : Cls → List Val → List Val → Prop) : Subs Cls → Subs Cls → Prop
  | .nil, .nil => True
  | .cons n d r, .cons n' d' r' => n = n' ∧ LeavesRel R d d' ∧ LeavesRels R r r'
  | _, _ => False
end

/-- A relation of simple distributions with those of a kind, that makes the other one valid. -/
def Transfers (solve : Solver) (R : Cls → List Val → List Val → Prop) (rs₀ rs : List ℕ) (K : Kind Cls)
    (S : Setting K) : Prop :=
  ∀ p q, S.Inside rs₀ p q → ∀ d, WF d → LeavesRel R (K.nat rs₀ p q) d → ValidOf K S rs d

theorem transfers_parts {R : Cls → List Val → List Val → Prop} {rs₀ rs : List ℕ} :
    (l : List (String × Σ K : Kind Cls, Setting K)) →
    (∀ s ∈ l, Transfers solve R rs₀ rs s.2.1 s.2.2) →
    ∀ p q, (∀ i, inB rs₀ i = true → (Settings.ofList l).ok (p i) ∧ q i ∈ (Settings.ofList l).dom (p i)) →
    ∀ d, WFs d → LeavesRels R ((Parts.ofList (partsOf l)).nat rs₀ p q) d →
      ∃ p' q', d = (Parts.ofList (partsOf l)).nat rs p' q' ∧
        ∀ i, inB rs i = true → (Settings.ofList l).ok (p' i) ∧ q' i ∈ (Settings.ofList l).dom (p' i)
  | [], _, p, q, _, d, _, h => by
    cases d with
    | nil => exact ⟨fun _ => (), fun _ => (), rfl, fun _ _ => ⟨trivial, trivial⟩⟩
    | cons => exact h.elim
  | s :: l, hl, p, q, hi, d, hw, h => by
    cases d with
    | nil => exact h.elim
    | cons n d r =>
      obtain ⟨h1, h2, h3⟩ := h
      obtain ⟨p1, q1, e1, i1⟩ := hl s (by simp) (fun i => (p i).1) (fun i => (q i).1)
        (fun i h => ⟨(hi i h).1.1, (hi i h).2.1⟩) d hw.1 h2
      obtain ⟨p2, q2, e2, i2⟩ := transfers_parts l (fun t ht => hl t (by simp [ht])) (fun i => (p i).2)
        (fun i => (q i).2) (fun i h => ⟨(hi i h).1.2, (hi i h).2.2⟩) r hw.2 h3
      refine ⟨fun i => (p1 i, p2 i), fun i => (q1 i, q2 i), ?_, fun i hi => ?_⟩
      · rw [e1, e2, ← h1]
        rfl
      · exact ⟨⟨(i1 i hi).1, (i2 i hi).1⟩, (i1 i hi).2, (i2 i hi).2⟩

/-- It suffices to consider simple distributions. -/
theorem transfers {R : Cls → List Val → List Val → Prop} {rs₀ rs : List ℕ} {K : Kind Cls} {S : Setting K}
    (hS : LibrarySetting solve K S)
    (hR : ∀ s : Simple, Transfers solve R rs₀ rs (s.kind solve) (s.setting solve)) :
    Transfers solve R rs₀ rs K S := by
  induction hS with
  | simple s => exact hR s
  | joint h0 hn hS ih =>
    intro p q hi d hw h
    match d, hw, h with
    | .mk c vals subs, hw, h =>
      obtain ⟨rfl, _, h2⟩ := h
      obtain ⟨p', q', e, hi'⟩ := transfers_parts _ ih p q hi subs hw.2.2.2 h2
      obtain rfl : vals = [] := List.length_eq_zero_iff.1 hw.1
      exact ⟨p', q', by rw [e]; rfl, hi'⟩

/-! ## Objects with the same structure -/

mutual
theorem Dist.walk_length {T : Type} {f : Dist Cls → Path → Except Err T} {base : Path} :
    {p q : Dist Cls} → SameTree p q → {A B : List T} → p.walk f base = .ok A → q.walk f base = .ok B →
    A.length = B.length
  | .mk c v s, .mk c' v' s', h, A, B, hA, hB => by
    obtain ⟨A1, a, h1, _, rfl⟩ := Dist.walk_eq_ok hA
    obtain ⟨B1, b, h2, _, rfl⟩ := Dist.walk_eq_ok hB
    simp [Subs.walk_length h.2 h1 h2]
theorem Subs.walk_length {T : Type} {f : Dist Cls → Path → Except Err T} {base : Path} :
    {p q : Subs Cls} → SameTrees p q → {A B : List T} → p.walk f base = .ok A → q.walk f base = .ok B →
    A.length = B.length
  | .nil, .nil, _, A, B, hA, hB => by cases hA; cases hB; rfl
  | .cons n d r, .cons n' d' r', h, A, B, hA, hB => by
    obtain ⟨A1, a, h1, h2, rfl⟩ := Subs.walk_eq_ok hA
    obtain ⟨B1, b, h3, h4, rfl⟩ := Subs.walk_eq_ok hB
    obtain ⟨rfl, h5, h6⟩ := h
    simp [Dist.walk_length h5 h1 h3, Subs.walk_length h6 h2 h4]
  | .nil, .cons .., h, _, _, _, _ => h.elim
  | .cons .., .nil, h, _, _, _, _ => h.elim
end

theorem nodeParams_length {c : Cls} {v v' : List Val} (h : v.length = (fields c).length)
    (h' : v'.length = (fields c).length) (b : Option Bool) :
    (nodeParams b c v).length = (nodeParams b c v').length := by
  have key : ∀ (l : List Field) (v v' : List Val), v.length = l.length → v'.length = l.length →
      ((l.zip v).filter fun fv => keep b fv.1).length = ((l.zip v').filter fun fv => keep b fv.1).length := by
    intro l
    induction l with
    | nil => simp
    | cons f l ih =>
      intro v v' hv hv'
      match v, v', hv, hv' with
      | a :: v, a' :: v', hv, hv' =>
        have := ih v v' (by simpa using hv) (by simpa using hv')
        simp only [List.zip_cons_cons, List.filter_cons]
        split <;> simp [this]
  simpa [nodeParams] using key _ _ _ h h'

mutual
theorem Dist.paramList_length {b : Option Bool} {base : Path} : {p q : Dist Cls} → WF p → WF q →
    SameTree p q → (p.paramList b base).length = (q.paramList b base).length
  | .mk c v s, .mk c' v' s', hp, hq, h => by
    obtain ⟨rfl, h⟩ := h
    simp [Dist.paramList, nodeParams_length hp.1 hq.1, Subs.paramList_length hp.2.2.2 hq.2.2.2 h]
theorem Subs.paramList_length {b : Option Bool} {base : Path} : {p q : Subs Cls} → WFs p → WFs q →
    SameTrees p q → (p.paramList b base).length = (q.paramList b base).length
  | .nil, .nil, _, _, _ => rfl
  | .cons n d r, .cons n' d' r', hp, hq, h => by
    obtain ⟨rfl, h5, h6⟩ := h
    simp [Subs.paramList, Dist.paramList_length hp.1 hq.1 h5, Subs.paramList_length hp.2 hq.2 h6]
  | .nil, .cons .., _, _, h => h.elim
  | .cons .., .nil, _, _, h => h.elim
end

/-- What two simple distributions have in common, if their structures and their fixed parameters agree,
and what the parameters of the second one satisfy. -/
def SameLeaf (fix : Bool) (Q : Cls → ℕ → List Val → Prop) (c : Cls) (v v' : List Val) : Prop :=
  v'.length = (fields c).length ∧
  (fix = true → (nodeParams (some true) c v).map (fun kv => (kv.1, kv.2.1)) =
    (nodeParams (some true) c v').map fun kv => (kv.1, kv.2.1)) ∧
  ∃ d, dimensions c v = .ok d ∧ dimensions c v' = .ok d ∧ Q c d v'

mutual
/-- Every node satisfies `Q`, which also receives the dimension. -/
def EachNode (Q : Cls → ℕ → List Val → Prop) : Dist Cls → Prop
  | .mk c vals subs => (∃ d, dimensions c vals = .ok d ∧ Q c d vals) ∧ EachNodes Q subs
/-- `EachNode` for all parts. -/
def EachNodes (Q : Cls → ℕ → List Val → Prop) : Subs Cls → Prop
  | .nil => True
  | .cons _ d r => EachNode Q d ∧ EachNodes Q r
end

abbrev bare (l : List (Path × Val × Support)) : List (Path × Val) := l.map fun kv => (kv.1, kv.2.1)

mutual
theorem Dist.sameLeaf {fix : Bool} {Q : Cls → ℕ → List Val → Prop} {base : Path} : {p q : Dist Cls} →
    WF p → WF q → SameTree p q → {L : List (Info Cls)} → p.walk makeInfo base = .ok L →
    q.walk makeInfo base = .ok L →
    (fix = true → bare (p.paramList (some true) base) = bare (q.paramList (some true) base)) →
    EachNode Q q → LeavesRel (SameLeaf fix Q) p q
  | .mk c v s, .mk c' v' s', hp, hq, h, L, hL, hL', hx, hQ => by
    obtain ⟨rfl, h⟩ := h
    obtain ⟨A, a, h1, h2, rfl⟩ := Dist.walk_eq_ok hL
    obtain ⟨B, b, h3, h4, h5⟩ := Dist.walk_eq_ok hL'
    obtain ⟨h6, h7⟩ := List.append_inj h5 (Subs.walk_length h h1 h3)
    subst h6
    obtain rfl : a = b := by simpa using h7
    obtain ⟨d, hd, rfl⟩ := makeInfo_eq_ok h2
    obtain ⟨d', hd', he⟩ := makeInfo_eq_ok h4
    simp only [Dist.cls, Dist.vals, Dist.subs, Info.mk.injEq, true_and] at hd hd' he
    obtain ⟨rfl, _⟩ := he
    obtain ⟨d', hd2, hq2⟩ := hQ.1
    obtain rfl : d = d' := by rw [hd'] at hd2; exact Except.ok.inj hd2
    have hx' : fix = true →
        bare ((nodeParams (some true) c v).map fun nv => (base ++ [nv.1], nv.2)) =
          bare ((nodeParams (some true) c v').map fun nv => (base ++ [nv.1], nv.2)) ∧
        bare (s.paramList (some true) base) = bare (s'.paramList (some true) base) := fun hf => by
      have := hx hf
      simp only [bare, Dist.paramList, List.map_append] at this
      exact List.append_inj this (by simp [nodeParams_length hp.1 hq.1])
    refine ⟨rfl, fun _ => ⟨hq.1, fun hf => ?_, d, hd, hd2, hq2⟩,
      Subs.sameLeaf hp.2.2.2 hq.2.2.2 h h1 h3 (fun hf => (hx' hf).2) hQ.2⟩
    have := (hx' hf).1
    simp only [bare, List.map_map, Function.comp_def] at this
    have h8 := congrArg (List.map fun kv : Path × Val => (kv.1.getLast?.getD "", kv.2)) this
    simpa [List.map_map, Function.comp_def] using h8
theorem Subs.sameLeaf {fix : Bool} {Q : Cls → ℕ → List Val → Prop} {base : Path} : {p q : Subs Cls} →
    WFs p → WFs q → SameTrees p q → {L : List (Info Cls)} → p.walk makeInfo base = .ok L →
    q.walk makeInfo base = .ok L →
    (fix = true → bare (p.paramList (some true) base) = bare (q.paramList (some true) base)) →
    EachNodes Q q → LeavesRels (SameLeaf fix Q) p q
  | .nil, .nil, _, _, _, _, _, _, _, _ => trivial
  | .cons n d r, .cons n' d' r', hp, hq, h, L, hL, hL', hx, hQ => by
    obtain ⟨rfl, h, h'⟩ := h
    obtain ⟨A, a, h1, h2, rfl⟩ := Subs.walk_eq_ok hL
    obtain ⟨B, b, h3, h4, h5⟩ := Subs.walk_eq_ok hL'
    obtain ⟨h6, h7⟩ := List.append_inj h5 (Dist.walk_length h h1 h3)
    subst h6
    subst h7
    have hx' : fix = true → bare (d.paramList (some true) (base ++ [n])) =
          bare (d'.paramList (some true) (base ++ [n])) ∧
        bare (r.paramList (some true) base) = bare (r'.paramList (some true) base) := fun hf => by
      have := hx hf
      simp only [bare, Subs.paramList, List.map_append] at this
      exact List.append_inj this (by simp [Dist.paramList_length hp.1 hq.1 h])
    exact ⟨rfl, Dist.sameLeaf hp.1 hq.1 h h1 h3 (fun hf => (hx' hf).1) hQ.1,
      Subs.sameLeaf hp.2 hq.2 h' h2 h4 (fun hf => (hx' hf).2) hQ.2⟩
  | .nil, .cons .., _, _, h, _, _, _, _, _ => h.elim
  | .cons .., .nil, _, _, h, _, _, _, _, _ => h.elim
end

end Efax
