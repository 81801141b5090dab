import Verif.Lemmas.Diagonal
import Verif.Props.FisherJoint
import Verif.Lemmas.Generate

/-!
# `fisher_information_diagonal` and `fisher_information_trace` (C43)

The diagonal is passed through the plane map.  So the claim holds for one distribution, simple or joint, if
no class in it has bounded variable parameters, and fails whenever there is one.  It fails for batches.
-/

namespace Efax

open MeasureTheory Spec Set

variable [MachEps] {solve : Solver} {search : Cls → List Val → Except Err (List Val)}

/-- The natural classes. -/
def Natural (c : Cls) : Prop := (Cls.expCls c).isSome = true

theorem plainCls {c : Cls} (hn : Natural c) (hc : ¬Bounded c) : PlainCls c := by
  intro f hv kw s h
  have h : Cls.adjust c f.name kw = .ok s := h
  have hne : ¬(c = .complexNormalNP ∧ f.name = "pseudo_precision") := by
    rintro ⟨rfl, -⟩
    exact hc trivial
  rw [Cls.adjust, if_neg hne] at h
  cases c <;> first
    | exact absurd trivial hc
    | (exfalso; cases hn; done)
    | (simp only [varFields, ClassTable.fields, Cls.fields, List.filter_nil, List.not_mem_nil] at hv; done)
    | (simp [varFields, ClassTable.fields, Cls.fields] at hv
       first
         | (subst hv; cases h; exact ⟨rfl, trivial⟩)
         | (subst hv; cases h; exact ⟨rfl, rfl⟩)
         | (rcases hv with rfl | rfl <;> (cases h; exact ⟨rfl, trivial⟩)))

theorem openMin_le : Ring.openMin (-1) ≤ -3 / 4 := by
  have := MachEps.lt
  have := MachEps.pos
  rw [Ring.openMin, copysign, if_neg (by norm_num)]
  exact max_le (by linarith) (by linarith)

theorem boundedCls {c : Cls} (hc : Bounded c) : BoundedCls c := by
  have h0 : Ring.openMax 0 ≤ 0 := openMax_le 0
  have h1 := openMin_le
  cases c <;> first
    | (exfalso; cases hc; done)
    | (refine ⟨_, List.mem_cons_self, fun kw s h => ?_⟩
       cases h
       first
         | exact h0
         | exact Or.inr h1)
    | (refine ⟨_, List.mem_cons_of_mem _ List.mem_cons_self, fun kw s h => ?_⟩
       cases h
       exact h0)

theorem parts_nat {rs : List ℕ} : (l : List (String × Σ K : Kind Cls, Setting K)) → ∀ {p q},
    ∀ {n d}, (n, d) ∈ ((Parts.ofList (partsOf l)).nat rs p q).toList →
    ∃ s ∈ l, ∃ p' q', d = s.2.1.nat rs p' q'
  | [], p, q, n, d, h => by cases h
  | s :: l, p, q, n, d, h => by
    rcases List.mem_cons.1 h with h | h
    · cases h
      exact ⟨s, List.mem_cons_self, _, _, rfl⟩
    · obtain ⟨t, ht, h⟩ := parts_nat l h
      exact ⟨t, List.mem_cons_of_mem _ ht, h⟩

theorem nat_natural {K : Kind Cls} {S : Setting K} (h : LibrarySetting solve K S) : ∀ {rs p q k c v s},
    SubAt (K.nat rs p q) k (.mk c v s) → Natural c := by
  induction h with
  | simple s =>
    intro rs p q k c v t h
    have e : ∃ c' v', (s.kind solve).nat rs p q = .mk c' v' .nil ∧ Natural c' := by
      cases s <;> exact ⟨_, _, rfl, rfl⟩
    obtain ⟨c', v', e, hn⟩ := e
    rw [e] at h
    cases h with
    | here => exact hn
    | sub hm _ => cases hm
  | @joint l h0 hn hS ih =>
    intro rs p q k c v t h
    cases h with
    | here => rfl
    | sub hm hs =>
      obtain ⟨s, hs', p', q', rfl⟩ := parts_nat l hm
      exact ih s hs' hs

/-- The Fisher information matrix of one distribution, and its diagonal as a distribution. -/
theorem diagonal_setup (hs : solve.For search) {K : Kind Cls} {S : Setting K} (hK : LibrarySetting solve K S)
    {p : List ℕ → K.P} {q : List ℕ → K.N} (hq : S.InsideNear [] p q) :
    ∃ (n : ℕ) (M : Matrix (Fin n) (Fin n) ℝ) (l : List (Info Cls)) (r : Dist Cls),
      fisherMatrix (library search) (K.nat [] p q) = .ok (matrices [] fun _ => M) ∧ M.PosDef ∧
      infosOf (K.nat [] p q) = .ok l ∧
      fisherDiagonal (library search) (K.nat [] p q) = Flattener.unflatten
        ⟨l, parameters (K.nat [] p q) (some true), true⟩ (vectors [] fun _ k => M k k) ∧
      Flattener.unflatten ⟨l, parameters (K.nat [] p q) (some true), false⟩ (vectors [] fun _ k => M k k) =
        .ok r := by
  obtain ⟨n, hc⟩ := hasCoords hs (library_coord hK)
  have hO := C51_library hs hK.kind
  have hx := library_indexed hs hK.kind
  obtain ⟨G, M, MS, μ, ok, dom, dirs, closed⟩ := S
  obtain ⟨good, f, h1, -, -, h4⟩ := hc
  have hg : ∀ i, inB [] i = true → good (q i) := fun i hi => h1 _ _ (hq i hi).1 (hq i hi).2.1
  have hM := f.fisher_grad hO.wfN (fun t i p q hi => hx.nat [] t i p q hi) hO.shapeN hO.logNormalizer hO.toExp
    (fun rs p q χ => hO.dotCalc rs p p q χ) [] p q hg fun i hi => (hq i hi).2.2
  have e : (matrices [] fun i => gradMatrix (K.F (p i)) f.dec (q i)) =
      matrices [] fun _ => gradMatrix (K.F (p [])) f.dec (q []) := matrices_eq fun i h => by rw [inB_nil_iff.1 h]
  rw [e] at hM
  obtain ⟨l, hl⟩ := f.infos []
  have hfl := f.flatten_eq hO.wfN hl [] p q hg
  refine ⟨n, gradMatrix (K.F (p [])) f.dec (q []), l, _, hM, h4 _ _ (hq [] rfl).1 (hq [] rfl).2.1, hl [] p q, ?_,
    f.unflatten_eq hO.wfN hl [] p q _⟩
  simp only [fisherDiagonal, hfl, hM, bind, Except.bind, diagonal_matrices]

/-- The diagonal has positive entries. -/
theorem diagonal_pos {n : ℕ} {M : Matrix (Fin n) (Fin n) ℝ} (h : M.PosDef) {i : List ℕ}
    (hi : inB (vectors [] fun _ k => M k k).rshape i = true) : 0 < (vectors [] fun _ k => M k k).get i := by
  have hi : inB [n] i = true := hi
  obtain ⟨i0, j, rfl, hi0, hj⟩ := inB_cons_elim hi
  rw [Calc.vectors_get _ hi0 hj]
  exact h.diag_pos

/-- **C43.** `fisher_information_diagonal()` of one distribution, simple or joint, is the diagonal of the
Fisher information if no class in it has a bounded variable parameter. -/
theorem C43_diagonal (hs : solve.For search) {K : Kind Cls} {S : Setting K} (hK : LibrarySetting solve K S)
    {p : List ℕ → K.P} {q : List ℕ → K.N} (hq : S.InsideNear [] p q)
    (hb : ∀ k c v s, SubAt (K.nat [] p q) k (.mk c v s) → ¬Bounded c) :
    DiagonalCorrect (library search) (K.nat [] p q) := by
  obtain ⟨n, M, l, r, h1, h2, h3, h4, h5⟩ := diagonal_setup hs hK hq
  have hw := (C51_library hs hK.kind).wfN [] p q
  rw [unflatten_plain (fun i hi => ?_) fun i hi => (diagonal_pos h2 hi).ne', h5] at h4
  · refine ⟨n, [], fun _ => M, r, ⟨l, parameters (K.nat [] p q) (some true), false⟩, h1, h4, ?_⟩
    have hd := unflatten_decode (fl := ⟨l, parameters (K.nat [] p q) (some true), false⟩)
      (y := vectors [] fun _ k => M k k) (n := n) (batch := []) hw h3 rfl rfl
    by_cases hn : n = flatSize (K.nat [] p q)
    · rcases hd.1 hn with ⟨r', e, -, -, -, -, h⟩ | ⟨_, e⟩
      · rw [h5] at e
        cases e
        exact h
      · rw [h5] at e; cases e
    · rcases hd.2 hn with e | ⟨_, e⟩ <;> (rw [h5] at e; cases e)
  · obtain ⟨k, v, s, h⟩ := Dist.walk_node h3 i hi
    exact plainCls (nat_natural hK h) (hb k _ v s h)

theorem matrices_inj {m n : ℕ} {rs ss : List ℕ} {A : List ℕ → Matrix (Fin m) (Fin m) ℝ}
    {B : List ℕ → Matrix (Fin n) (Fin n) ℝ} (h : matrices rs A = matrices ss B) :
    m = n ∧ rs = ss := by
  have e : m :: m :: rs = n :: n :: ss := congrArg Arr.rshape h
  simp only [List.cons.injEq] at e
  exact ⟨e.1, e.2.2⟩

/-- **C43.** It is not, if some class in it has a bounded variable parameter (and nonzero dimensions). -/
theorem C43_not_bounded (hs : solve.For search) {K : Kind Cls} {S : Setting K} (hK : LibrarySetting solve K S)
    {p : List ℕ → K.P} {q : List ℕ → K.N} (hq : S.InsideNear [] p q) {k : Path} {c : Cls} {v : List Val}
    {s : Subs Cls} (hk : SubAt (K.nat [] p q) k (.mk c v s)) (hb : Bounded c)
    (hd : Cls.dimensions c v ≠ .ok 0) : ¬DiagonalCorrect (library search) (K.nat [] p q) := by
  rintro ⟨m, rs, M', r', fl', hM, hr, hf⟩
  obtain ⟨n, M, l, -, h1, h2, h3, h4, -⟩ := diagonal_setup hs hK hq
  have hw := (C51_library hs hK.kind).wfN [] p q
  rw [h1] at hM
  obtain ⟨rfl, rfl⟩ := matrices_inj (Except.ok.inj hM)
  have ey : (vectors [] fun i k => M' i k k) = vectors [] fun _ k => M k k := by
    refine Arr.ext rfl fun i hi => ?_
    have hi : inB [n] i = true := hi
    obtain ⟨i0, j, rfl, hi0, hj⟩ := inB_cons_elim hi
    obtain rfl := inB_nil_iff.1 hj
    rw [Calc.vectors_get _ hi0 hj, Calc.vectors_get _ hi0 hj]
    have e := congrArg (fun a => a.get [i0, i0]) (Except.ok.inj hM)
    rw [Calc.matrices_get (rs := []) (fun _ => M) ⟨i0, hi0⟩ ⟨i0, hi0⟩ (i := []) rfl] at e
    rw [e]
    exact (Calc.matrices_get (rs := []) M' ⟨i0, hi0⟩ ⟨i0, hi0⟩ (i := []) rfl).symm
  rw [ey] at hf
  rw [hr] at h4
  have hdec := unflatten_decode (fl := ⟨l, parameters (K.nat [] p q) (some true), true⟩)
    (y := vectors [] fun _ k => M k k) (n := n) (batch := []) hw h3 rfl rfl
  have key : WF r' ∧ LiesAll true [] r' ∧ flatten r' true =
      .ok (⟨l, parameters (K.nat [] p q) (some true), true⟩, vectors [] fun _ k => M k k) := by
    by_cases hn : n = flatSize (K.nat [] p q)
    · rcases hdec.1 hn with ⟨r'', e, w, -, w', -, h⟩ | ⟨_, e⟩
      · rw [← h4] at e
        cases e
        exact ⟨w, w', h⟩
      · rw [← h4] at e; cases e
    · rcases hdec.2 hn with e | ⟨_, e⟩ <;> (rw [← h4] at e; cases e)
  obtain ⟨w1, w2, w3⟩ := key
  obtain ⟨w4, A, a1, a2⟩ := flatten_blocks rfl w3
  obtain ⟨-, B, b1, b2⟩ := flatten_blocks rfl hf
  obtain ⟨-, hE⟩ := Dist.walk_same (y := vectors [] fun _ k => M k k) (n := n) rfl w1 w2 a1 b1 a2 b2 le_rfl
  have h0 := Dist.walk_each (P := fun c d => Bounded c → d = 0)
    (fun c d vals hl he hc => (boundedCls hc).zero (fun i hi => diagonal_pos h2 hi) hl he) w1 hE
    w4
  obtain ⟨i, hi, e1, e2⟩ := SubAt.info hk h3
  exact hd (e2.trans (congrArg _ (h0 i hi (e1 ▸ hb))))

/-! ### Batches -/

theorem period_two {n : ℕ} : ∀ {t : List ℕ} {a b : ℕ}, a :: b :: t = t ++ [n, n] →
    ∀ x ∈ a :: b :: t, x = n
  | [], a, b, h, x, hx => by
    simp only [List.nil_append, List.cons.injEq, and_true] at h
    obtain ⟨rfl, rfl⟩ := h
    simpa using hx
  | [c], a, b, h, x, hx => by
    simp only [List.cons_append, List.nil_append, List.cons.injEq, and_true] at h
    obtain ⟨rfl, rfl, rfl⟩ := h
    simpa using hx
  | c :: d :: t, a, b, h, x, hx => by
    simp only [List.cons_append, List.cons.injEq] at h
    obtain ⟨rfl, rfl, h⟩ := h
    have ih := period_two h
    simp only [List.mem_cons] at hx ih ⊢
    rcases hx with rfl | rfl | hx
    · exact ih _ (Or.inl rfl)
    · exact ih _ (Or.inr (Or.inl rfl))
    · exact ih _ hx

theorem diagonal_rshape {n : ℕ} {rs : List ℕ} {a y : Arr ℝ} (ha : a.rshape = n :: n :: rs)
    (h : a.diagonal = .ok y) (hy : y.rshape = n :: rs) : ∀ b ∈ rs, b = n := by
  rw [Arr.diagonal, ha] at h
  simp only [List.reverse_cons, List.append_assoc, List.cons_append, List.nil_append] at h
  match hr : rs.reverse with
  | [] =>
    rw [List.reverse_eq_nil_iff.1 hr]
    exact fun _ h => by cases h
  | [m] =>
    rw [List.reverse_eq_cons_iff] at hr
    simp only [List.reverse_nil, List.nil_append] at hr
    subst hr
    cases h
    have hy : min m n :: [n] = n :: [m] := hy
    simp only [List.cons.injEq, and_true] at hy
    intro b hb
    rw [List.mem_singleton.1 hb, hy.2]
  | m :: k :: t =>
    rw [hr] at h
    cases h
    have hy : min m k :: (t ++ [n, n]).reverse = n :: rs := hy
    have e : m :: k :: t = t ++ [n, n] := by
      rw [← hr, ← (List.cons.inj hy).2, List.reverse_reverse]
    intro b hb
    exact period_two e b (hr ▸ List.mem_reverse.2 hb)

/-- **C43.** It is not, for a batch, unless every extent of the batch is the number of flat coordinates: the
result has another shape. -/
theorem C43_not_batch (hs : solve.For search) {K : Kind Cls} {S : Setting K} (hK : LibrarySetting solve K S)
    {rs : List ℕ} {p : List ℕ → K.P} {q : List ℕ → K.N} (hq : S.InsideNear rs p q) {b : ℕ} (hb : b ∈ rs)
    (hn : b ≠ flatSize (K.nat rs p q)) : ¬DiagonalCorrect (library search) (K.nat rs p q) := by
  rintro ⟨m, ss, M', r', fl', hM, hr, hf⟩
  obtain ⟨n, hc⟩ := hasCoords hs (library_coord hK)
  have hO := C51_library hs hK.kind
  have hx := library_indexed hs hK.kind
  have hw := hO.wfN rs p q
  obtain ⟨G, MX, MS, μ, ok, dom, dirs, closed⟩ := S
  obtain ⟨good, f, h1, -, -, -⟩ := hc
  have hg : ∀ i, inB rs i = true → good (q i) := fun i hi => h1 _ _ (hq i hi).1 (hq i hi).2.1
  have hM' := f.fisher_grad hO.wfN (fun t i p q hi => hx.nat [] t i p q hi) hO.shapeN hO.logNormalizer hO.toExp
    (fun rs p q χ => hO.dotCalc rs p p q χ) rs p q hg fun i hi => (hq i hi).2.2
  obtain ⟨l, hl⟩ := f.infos []
  have hfl := f.flatten_eq hO.wfN hl rs p q hg
  rw [hM] at hM'
  obtain ⟨rfl, rfl⟩ := matrices_inj (Except.ok.inj hM')
  simp only [fisherDiagonal, hfl, hM, bind, Except.bind] at hr
  cases hd : (matrices ss M').diagonal with
  | error e => rw [hd] at hr; cases hr
  | ok z =>
    rw [hd] at hr
    simp only at hr
    cases hz : z.rshape with
    | nil =>
      have : z.lastDim = .error .indexError := by rw [Arr.lastDim, hz]
      simp only [Flattener.unflatten, this, bind, Except.bind] at hr
      cases hr
    | cons k batch =>
      have hdec := unflatten_decode (fl := ⟨l, parameters (K.nat ss p q) (some true), true⟩)
        (y := z) (n := k) (batch := batch) hw (hl ss p q) rfl hz
      by_cases hk : k = flatSize (K.nat ss p q)
      · rcases hdec.1 hk with ⟨r'', e, w, -, w', -, h⟩ | ⟨_, e⟩
        · obtain rfl : r' = r'' := Except.ok.inj (hr.symm.trans e)
          obtain ⟨rfl, rfl⟩ := flatten_shapes hz rfl h hf
          exact hn ((diagonal_rshape rfl hd hz b hb).trans hk)
        · exact absurd (hr.symm.trans e) (by simp)
      · rcases hdec.2 hk with e | ⟨_, e⟩ <;> exact absurd (hr.symm.trans e) (by simp)

/-- **C43.** In particular it is not for the exponential distributions. -/
theorem C43_not_exponential (hs : solve.For search) {q : List ℕ → ℝ} (h : q [] < 0) :
    ¬DiagonalCorrect (library search) (.mk .exponentialNP (layS [] (fun _ => ()) q) .nil) :=
  C43_not_bounded hs (.simple .exponential) (p := fun _ => ()) (q := q) (k := [])
    (fun i hi => ⟨trivial, by rw [inB_nil_iff.1 hi]; exact h, fun _ => .of_forall fun _ => trivial⟩) (.here _)
    trivial nofun

-- Two unbounded distributions in a joint distribution.
example (hs : solve.For search) : DiagonalCorrect (library search) (.mk .jointN [] (.ofList
    [("a", .mk .unitNormalNP (layS [] (fun _ => ()) fun _ => 2) .nil),
     ("b", .mk .multinomialNP (layV 2 [] (fun _ => ()) fun _ _ => 1) .nil)])) := by
  refine C43_diagonal hs (S := .joint .jointN .jointE (.ofList
    [("a", ⟨_, Simple.unitNormal.setting solve⟩), ("b", ⟨_, (Simple.multinomial 1).setting solve⟩)]))
    (p := fun _ => ((), (), ())) (q := fun _ => ((2 : ℝ), (fun _ => 1 : Fin 2 → ℝ), ()))
    (.joint (by simp) (by simp) fun s hs => ?_)
    (fun i hi => ⟨⟨trivial, trivial, trivial⟩, ⟨trivial, trivial, trivial⟩,
      fun _ => .of_forall fun _ => ⟨trivial, trivial, trivial⟩⟩) fun k c v s h => ?_
  · simp only [List.mem_cons, List.not_mem_nil, or_false] at hs
    rcases hs with rfl | rfl
    · exact .simple .unitNormal
    · exact .simple (.multinomial 1)
  · cases h with
    | here => exact id
    | sub hm hs =>
      have hm : _ ∈ [_, _] := hm
      simp only [List.mem_cons, List.not_mem_nil, or_false] at hm
      rcases hm with hm | hm <;> (cases hm; cases hs with
        | here => exact id
        | sub hm _ => cases hm)

-- An exponential distribution as part of a joint distribution.
example (hs : solve.For search) : ¬DiagonalCorrect (library search) (.mk .jointN [] (.ofList
    [("a", .mk .unitNormalNP (layS [] (fun _ => ()) fun _ => 2) .nil),
     ("b", .mk .exponentialNP (layS [] (fun _ => ()) fun _ => -1) .nil)])) := by
  refine C43_not_bounded hs (S := .joint .jointN .jointE (.ofList
    [("a", ⟨_, Simple.unitNormal.setting solve⟩), ("b", ⟨_, Simple.exponential.setting solve⟩)]))
    (p := fun _ => ((), (), ())) (q := fun _ => ((2 : ℝ), (-1 : ℝ), ()))
    (.joint (by simp) (by simp) fun s hs => ?_)
    (fun i hi => ⟨⟨trivial, trivial, trivial⟩, ⟨trivial, ?_, trivial⟩,
      fun _ => .of_forall fun _ => ⟨trivial, trivial, trivial⟩⟩)
    (.sub (List.mem_cons_of_mem _ List.mem_cons_self) (.here _)) trivial nofun
  · simp only [List.mem_cons, List.not_mem_nil, or_false] at hs
    rcases hs with rfl | rfl
    · exact .simple .unitNormal
    · exact .simple .exponential
  · change (-1 : ℝ) < 0
    norm_num

-- Two unit normal distributions.
example (hs : solve.For search) :
    ¬DiagonalCorrect (library search) (.mk .unitNormalNP (layS [2] (fun _ => ()) fun _ => 1) .nil) :=
  C43_not_batch hs (.simple .unitNormal) (p := fun _ => ()) (q := fun _ => (1 : ℝ)) (rs := [2])
    (fun i hi => ⟨trivial, trivial, fun _ => .of_forall fun _ => trivial⟩) List.mem_cons_self
    (show (2 : ℕ) ≠ 1 by decide)

end Efax
