import Verif.Props.Objects

/-!
# C37: joint distributions are products of independent parts

The values of a joint distribution are the sums of those of the simple distributions that it consists
of, however deeply these are nested.
-/

namespace Efax

open ClassTable Calc Spec

section

variable {rs : List ℕ}

theorem sums_nil {f : List ℕ → ℝ} (hf : ∀ i, f i = 0) : Sums rs [] (ok (scalars rs f)) := by
  refine ⟨[], scalars rs f, rfl, ?_, rfl, rfl, fun i hi => ?_⟩
  · intro _ h
    simp at h
  · rw [scalars, Arr.ofFn_get hi, hf]
    rfl

theorem sums_one (f : List ℕ → ℝ) : Sums rs [ok (scalars rs f)] (ok (scalars rs f)) :=
  ⟨[_], _, rfl, fun b h => by rw [List.mem_singleton.1 h]; rfl, rfl, rfl, fun i _ => by simp⟩

theorem sums_append {l l' : List (Calc ℝ)} {f g k : List ℕ → ℝ} (h : Sums rs l (ok (scalars rs f)))
    (h' : Sums rs l' (ok (scalars rs g))) (hk : ∀ i, k i = f i + g i) :
    Sums rs (l ++ l') (ok (scalars rs k)) := by
  obtain ⟨as, a, rfl, h1, h2, h3, h4⟩ := h
  obtain ⟨as', a', rfl, h1', h2', h3', h4'⟩ := h'
  cases h2
  cases h2'
  refine ⟨as ++ as', _, by simp, fun b hb => ?_, rfl, rfl, fun i hi => ?_⟩
  · rcases List.mem_append.1 hb with hb | hb
    · exact h1 b hb
    · exact h1' b hb
  · rw [List.map_append, List.sum_append, ← h4 i hi, ← h4' i hi]
    simp only [scalars, Arr.ofFn_get hi, hk]

end

section

variable {N N' E E' X X' : Type} [Sub N] [Sub N'] (F : ExpFam N E X) (G : ExpFam N' E' X')

theorem prodFam_logPdf (q : N × N') (x : X × X') :
    (prodFam F G).logPdf q x = F.logPdf q.1 x.1 + G.logPdf q.2 x.2 := by
  simp only [ExpFam.logPdf, prodFam]; ring

theorem prodFam_crossEntropy (e : E → ℝ) (e' : E' → ℝ) (χ : E × E') (q : N × N') :
    (prodFam F G).crossEntropy (fun χ => e χ.1 + e' χ.2) χ q =
      F.crossEntropy e χ.1 q.1 + G.crossEntropy e' χ.2 q.2 := by
  simp only [ExpFam.crossEntropy, prodFam]; ring

theorem prodFam_klWith [Sub (N × N')] (hsub : ∀ a b : N × N', a - b = (a.1 - b.1, a.2 - b.2))
    (χ : E × E') (p q : N × N') :
    (prodFam F G).klWith χ p q = F.klWith χ.1 p.1 q.1 + G.klWith χ.2 p.2 q.2 := by
  simp only [ExpFam.klWith, prodFam, hsub]; ring

end

variable [MachEps] {solve : Solver} {search : Cls → List Val → Except Err (List Val)}
  (hs : solve.For search) {rs : List ℕ}

include hs

theorem logNormalizer_sums {K : Kind Cls} (hK : LibraryKind solve K) (p : List ℕ → K.P)
    (q : List ℕ → K.N) :
    Sums rs ((leaves (K.nat rs p q)).map fun l => l.logNormalizer (library search))
      (ok (scalars rs fun i => (K.F (p i)).logNormalizer (q i))) := by
  induction hK with
  | simple s =>
    have h := (C51_library hs (.simple s)).logNormalizer rs p q
    have hl : leaves ((s.kind solve).nat rs p q) = [(s.kind solve).nat rs p q] := by
      cases s <;> rfl
    rw [hl, List.map_singleton, h]
    exact sums_one _
  | @joint l _ _ _ ih =>
    change Sums rs ((leavesOf ((Parts.ofList l).nat rs p q)).map _) _
    clear * - ih
    induction l with
    | nil => exact sums_nil fun _ => rfl
    | cons nk l ih' =>
      simp only [Parts.ofList, Parts.cons, leavesOf, List.map_append]
      exact sums_append (ih nk List.mem_cons_self _ _)
        (ih' (fun nk hm => ih nk (List.mem_cons_of_mem _ hm)) _ _) fun _ => rfl

theorem kl_natural_sums {K : Kind Cls} (hK : LibraryKind solve K) (p : List ℕ → K.P) (a q : List ℕ → K.N)
    (hd : ∀ i, inB rs i = true → K.dom (p i) (a i)) :
    Sums rs ((leafPairs (K.nat rs p a) (K.nat rs p q)).map fun l => l.1.klN (library search) l.2)
      (ok (scalars rs fun i => (K.F (p i)).kl (a i) (q i))) := by
  induction hK with
  | simple s =>
    have h := C51_kl_natural (C51_library hs (.simple s)) rs p a q hd
    have hl : leafPairs ((s.kind solve).nat rs p a) ((s.kind solve).nat rs p q) =
        [((s.kind solve).nat rs p a, (s.kind solve).nat rs p q)] := by
      cases s <;> rfl
    rw [hl, List.map_singleton, h]
    exact sums_one _
  | @joint l _ _ _ ih =>
    change Sums rs ((leafPairsOf ((Parts.ofList l).nat rs p a) ((Parts.ofList l).nat rs p q)).map _) _
    clear * - ih hd
    induction l with
    | nil => exact sums_nil fun _ => by change (0 : ℝ) + 0 - 0 = 0; norm_num
    | cons nk l ih' =>
      simp only [Parts.ofList, Parts.cons, leavesOf, leafPairsOf, List.map_append]
      exact sums_append (ih nk List.mem_cons_self _ _ _ fun i hi => (hd i hi).1)
        (ih' (fun nk hm => ih nk (List.mem_cons_of_mem _ hm)) _ _ _ fun i hi => (hd i hi).2)
        fun i => prodFam_klWith (nk.2.F (p i).1) ((Parts.ofList l).F (p i).2) (fun _ _ => rfl) _ _ _

theorem kl_expectation_sums {K : Kind Cls} (hK : LibraryKind solve K) (p : List ℕ → K.P) (χ : List ℕ → K.E) (q : List ℕ → K.N)
    (hd : ∀ i, inB rs i = true → K.domE (p i) (χ i)) :
    Sums rs ((leafPairs (K.exp rs p χ) (K.nat rs p q)).map fun l => l.1.klE (library search) l.2)
      (ok (scalars rs fun i => (K.F (p i)).klE (K.toNat (p i)) (χ i) (q i))) := by
  induction hK with
  | simple s =>
    have h := C51_kl_expectation (C51_library hs (.simple s)) rs p χ q hd
    have hl : leafPairs ((s.kind solve).exp rs p χ) ((s.kind solve).nat rs p q) =
        [((s.kind solve).exp rs p χ, (s.kind solve).nat rs p q)] := by
      cases s <;> rfl
    rw [hl, List.map_singleton, h]
    exact sums_one _
  | @joint l _ _ _ ih =>
    change Sums rs ((leafPairsOf ((Parts.ofList l).exp rs p χ) ((Parts.ofList l).nat rs p q)).map _) _
    clear * - ih hd
    induction l with
    | nil => exact sums_nil fun _ => by change (0 : ℝ) + 0 - 0 = 0; norm_num
    | cons nk l ih' =>
      simp only [Parts.ofList, Parts.cons, leavesOf, leafPairsOf, List.map_append]
      exact sums_append (ih nk List.mem_cons_self _ _ _ fun i hi => (hd i hi).1)
        (ih' (fun nk hm => ih nk (List.mem_cons_of_mem _ hm)) _ _ _ fun i hi => (hd i hi).2)
        fun i => prodFam_klWith (nk.2.F (p i).1) ((Parts.ofList l).F (p i).2) (fun _ _ => rfl) _ _ _

theorem cross_entropy_sums {K : Kind Cls} (hK : LibraryKind solve K) (p : List ℕ → K.P) (χ : List ℕ → K.E) (q : List ℕ → K.N)
    (he : K.ent) :
    Sums rs ((leafPairs (K.exp rs p χ) (K.nat rs p q)).map fun l => l.1.crossEntropy (library search) l.2)
      (ok (scalars rs fun i => (K.F (p i)).crossEntropy (K.ecm (p i)) (χ i) (q i))) := by
  induction hK with
  | simple s =>
    have h := C51_cross_entropy (C51_library hs (.simple s)) he rs p χ q
    have hl : leafPairs ((s.kind solve).exp rs p χ) ((s.kind solve).nat rs p q) =
        [((s.kind solve).exp rs p χ, (s.kind solve).nat rs p q)] := by
      cases s <;> rfl
    rw [hl, List.map_singleton, h]
    exact sums_one _
  | @joint l _ _ _ ih =>
    change Sums rs ((leafPairsOf ((Parts.ofList l).exp rs p χ) ((Parts.ofList l).nat rs p q)).map _) _
    clear * - ih he
    induction l with
    | nil => exact sums_nil fun _ => by change -(0 : ℝ) + 0 - 0 = 0; norm_num
    | cons nk l ih' =>
      simp only [Parts.ofList, Parts.cons, leavesOf, leafPairsOf, List.map_append]
      exact sums_append (ih nk List.mem_cons_self _ _ _ he.1)
        (ih' (fun nk hm => ih nk (List.mem_cons_of_mem _ hm)) _ _ _ he.2)
        fun i => prodFam_crossEntropy (nk.2.F (p i).1) ((Parts.ofList l).F (p i).2) _ _ _ _

theorem entropy_natural_sums {K : Kind Cls} (hK : LibraryKind solve K) (p : List ℕ → K.P) (q : List ℕ → K.N)
    (hd : ∀ i, inB rs i = true → K.dom (p i) (q i)) (he : K.ent) :
    Sums rs ((leaves (K.nat rs p q)).map fun l => l.entropyN (library search))
      (ok (scalars rs fun i => (K.F (p i)).entropyN (K.ecm (p i)) (q i))) := by
  induction hK with
  | simple s =>
    have h := C51_entropy_natural (C51_library hs (.simple s)) he rs p q hd
    have hl : leaves ((s.kind solve).nat rs p q) = [(s.kind solve).nat rs p q] := by
      cases s <;> rfl
    rw [hl, List.map_singleton, h]
    exact sums_one _
  | @joint l _ _ _ ih =>
    change Sums rs ((leavesOf ((Parts.ofList l).nat rs p q)).map _) _
    clear * - ih hd he
    induction l with
    | nil => exact sums_nil fun _ => by change -(0 : ℝ) + 0 - 0 = 0; norm_num
    | cons nk l ih' =>
      simp only [Parts.ofList, Parts.cons, leavesOf, leafPairsOf, List.map_append]
      exact sums_append (ih nk List.mem_cons_self _ _ (fun i hi => (hd i hi).1) he.1)
        (ih' (fun nk hm => ih nk (List.mem_cons_of_mem _ hm)) _ _ (fun i hi => (hd i hi).2) he.2)
        fun i => prodFam_crossEntropy (nk.2.F (p i).1) ((Parts.ofList l).F (p i).2) _ _ _ _

theorem entropy_expectation_sums {K : Kind Cls} (hK : LibraryKind solve K) (p : List ℕ → K.P) (χ : List ℕ → K.E)
    (hd : ∀ i, inB rs i = true → K.domE (p i) (χ i)) (he : K.ent) :
    Sums rs ((leaves (K.exp rs p χ)).map fun l => l.entropyE (library search))
      (ok (scalars rs fun i => (K.F (p i)).entropyE (K.ecm (p i)) (K.toNat (p i)) (χ i))) := by
  induction hK with
  | simple s =>
    have h := C51_entropy_expectation (C51_library hs (.simple s)) he rs p χ hd
    have hl : leaves ((s.kind solve).exp rs p χ) = [(s.kind solve).exp rs p χ] := by
      cases s <;> rfl
    rw [hl, List.map_singleton, h]
    exact sums_one _
  | @joint l _ _ _ ih =>
    change Sums rs ((leavesOf ((Parts.ofList l).exp rs p χ)).map _) _
    clear * - ih hd he
    induction l with
    | nil => exact sums_nil fun _ => by change -(0 : ℝ) + 0 - 0 = 0; norm_num
    | cons nk l ih' =>
      simp only [Parts.ofList, Parts.cons, leavesOf, leafPairsOf, List.map_append]
      exact sums_append (ih nk List.mem_cons_self _ _ (fun i hi => (hd i hi).1) he.1)
        (ih' (fun nk hm => ih nk (List.mem_cons_of_mem _ hm)) _ _ (fun i hi => (hd i hi).2) he.2)
        fun i => prodFam_crossEntropy (nk.2.F (p i).1) ((Parts.ofList l).F (p i).2) _ _ _ _

theorem log_pdf_sums {K : Kind Cls} (hK : LibraryKind solve K) (p : List ℕ → K.P) (q : List ℕ → K.N)
    (x : List ℕ → K.X) (t : Tree Val) (ht : K.obs rs x t) :
    Sums rs ((leafObs (K.nat rs p q) t).map fun l => l.1.logPdf (library search) l.2)
      (ok (scalars rs fun i => (K.F (p i)).logPdf (q i) (x i))) := by
  induction hK generalizing t with
  | simple s =>
    have h := C51_log_pdf (C51_library hs (.simple s)) rs p q x t ht
    have hl : leafObs ((s.kind solve).nat rs p q) t = [((s.kind solve).nat rs p q, t)] := by
      cases s <;> rfl
    rw [hl, List.map_singleton, h]
    exact sums_one _
  | @joint l _ _ _ ih =>
    obtain ⟨f, rfl, h1, h2, -⟩ := ht
    change Sums rs ((leafObsOf ((Parts.ofList l).nat rs p q) f).map _)
      (ok (scalars rs fun i => ((Parts.ofList l).F (p i)).logPdf (q i) (x i)))
    clear * - ih h1 h2
    induction l with
    | nil => exact sums_nil fun _ => by change (0 : ℝ) - 0 + 0 = 0; norm_num
    | cons nk l ih' =>
      obtain ⟨⟨t, h3, h4⟩, h5⟩ := h2
      simp only [Parts.ofList, Parts.cons, leafObsOf, List.map_append]
      rw [Forest.get?_of_mem h1 h3]
      exact sums_append (ih nk List.mem_cons_self _ _ _ t h4)
        (ih' (fun nk hm => ih nk (List.mem_cons_of_mem _ hm)) _ _ _ h5)
        fun i => prodFam_logPdf (nk.2.F (p i).1) ((Parts.ofList l).F (p i).2) _ _

/-! ### Sums over the parts -/

/-- **C37.** `log_normalizer()` is the sum of those of the simple distributions that the joint
distribution consists of. -/
theorem C37_log_normalizer {d : Dist Cls} (h : NaturalBatch rs d) :
    Sums rs ((leaves d).map fun l => l.logNormalizer (library search))
      (d.logNormalizer (library search)) := by
  obtain ⟨K, hK, p, q, rfl⟩ := C51_every_natural (solve := solve) d h.1 h.2
  rw [(C51_library hs hK).logNormalizer]
  exact logNormalizer_sums hs hK p q

/-- **C37.** `log_pdf(x)`: every simple distribution is paired with its own observation. -/
theorem C37_log_pdf {d : Dist Cls} (h : NaturalBatch rs d) {x : Tree Val} (hx : Observed rs d x) :
    Sums rs ((leafObs d x).map fun l => l.1.logPdf (library search) l.2)
      (d.logPdf (library search) x) := by
  obtain ⟨K, hK, p, q, rfl⟩ := C51_every_natural (solve := solve) d h.1 h.2
  obtain ⟨y, hy⟩ := observed_obs hK hx
  rw [C51_log_pdf (C51_library hs hK) rs p q y x hy]
  exact log_pdf_sums hs hK p q y x hy

/-- **C37.** `kl_divergence` of natural parametrizations. -/
theorem C37_kl_natural {d e : Dist Cls} (h : NaturalBatch rs d) (he : Alike (· = ·) d e)
    (hr : EachLeaf RegularVals d) :
    Sums rs ((leafPairs d e).map fun l => l.1.klN (library search) l.2) (d.klN (library search) e) := by
  obtain ⟨K, hK, p, q, rfl⟩ := C51_every_natural (solve := solve) d h.1 h.2
  obtain ⟨r, rfl⟩ := natural_alike hK he
  rw [C51_kl_natural (C51_library hs hK) rs p q r (regular_dom hK hr)]
  exact kl_natural_sums hs hK p q r (regular_dom hK hr)

/-- **C37.** `kl_divergence` of an expectation parametrization. -/
theorem C37_kl_expectation {d e : Dist Cls} (h : ExpectationBatch rs d)
    (he : Alike (fun c c' => natCls c = some c') d e) (hr : EachLeaf SearchableVals d) :
    Sums rs ((leafPairs d e).map fun l => l.1.klE (library search) l.2) (d.klE (library search) e) := by
  obtain ⟨K, hK, p, q, rfl⟩ := C51_every_expectation (solve := solve) d h.1 h.2
  obtain ⟨r, rfl⟩ := expectation_alike hK he
  rw [C51_kl_expectation (C51_library hs hK) rs p q r (searchable_dom hK hr)]
  exact kl_expectation_sums hs hK p q r (searchable_dom hK hr)

/-- **C37.** `cross_entropy`. -/
theorem C37_cross_entropy {d e : Dist Cls} (h : ExpectationBatch rs d)
    (he : Alike (fun c c' => natCls c = some c') d e) (hm : EachLeaf (fun c _ => HasEcm c) d) :
    Sums rs ((leafPairs d e).map fun l => l.1.crossEntropy (library search) l.2)
      (d.crossEntropy (library search) e) := by
  obtain ⟨K, hK, p, q, rfl⟩ := C51_every_expectation (solve := solve) d h.1 h.2
  obtain ⟨r, rfl⟩ := expectation_alike hK he
  rw [C51_cross_entropy (C51_library hs hK) (ecm_ent hK hm)]
  exact cross_entropy_sums hs hK p q r (ecm_ent hK hm)

/-- **C37.** `entropy()` of a natural parametrization. -/
theorem C37_entropy_natural {d : Dist Cls} (h : NaturalBatch rs d) (hr : EachLeaf RegularVals d)
    (hm : EachLeaf (fun c _ => HasEcm c) d) :
    Sums rs ((leaves d).map fun l => l.entropyN (library search)) (d.entropyN (library search)) := by
  obtain ⟨K, hK, p, q, rfl⟩ := C51_every_natural (solve := solve) d h.1 h.2
  rw [C51_entropy_natural (C51_library hs hK) (ecm_ent_nat hK hm) rs p q (regular_dom hK hr)]
  exact entropy_natural_sums hs hK p q (regular_dom hK hr) (ecm_ent_nat hK hm)

/-- **C37.** `entropy()` of an expectation parametrization. -/
theorem C37_entropy_expectation {d : Dist Cls} (h : ExpectationBatch rs d)
    (hr : EachLeaf SearchableVals d) (hm : EachLeaf (fun c _ => HasEcm c) d) :
    Sums rs ((leaves d).map fun l => l.entropyE (library search)) (d.entropyE (library search)) := by
  obtain ⟨K, hK, p, q, rfl⟩ := C51_every_expectation (solve := solve) d h.1 h.2
  rw [C51_entropy_expectation (C51_library hs hK) (ecm_ent hK hm) rs p q (searchable_dom hK hr)]
  exact entropy_expectation_sums hs hK p q (searchable_dom hK hr) (ecm_ent hK hm)

omit hs [MachEps] in
/-- Sums are unique. -/
theorem sums_unique {l : List (Calc ℝ)} {a b : Calc ℝ} (h : Sums rs l a) (h' : Sums rs l b) : a = b := by
  obtain ⟨as, a, rfl, h1, rfl, h3, h4⟩ := h
  obtain ⟨as', b, e, h1', rfl, h3', h4'⟩ := h'
  obtain rfl : as = as' := List.map_injective_iff.2 (fun _ _ h => Except.ok.inj h) e
  refine congrArg ok (Arr.ext (h3.trans h3'.symm) fun i hi => ?_)
  rw [h3] at hi
  rw [h4 i hi, h4' i hi]

/-- **C37.** Nesting makes no difference: distributions that consist of the same simple distributions
have the same normalizer, entropy and (with the same observations) density. -/
theorem C37_nesting {d e : Dist Cls} (hd : NaturalBatch rs d) (he : NaturalBatch rs e)
    (hl : leaves d = leaves e) :
    d.logNormalizer (library search) = e.logNormalizer (library search) ∧
    (EachLeaf RegularVals d → EachLeaf (fun c _ => HasEcm c) d →
      d.entropyN (library search) = e.entropyN (library search)) ∧
    ∀ x y, Observed rs d x → Observed rs e y → leafObs d x = leafObs e y →
      d.logPdf (library search) x = e.logPdf (library search) y := by
  refine ⟨sums_unique (C37_log_normalizer hs hd) (hl ▸ C37_log_normalizer hs he), fun h1 h2 => ?_,
    fun x y hx hy h => ?_⟩
  · have h1' : EachLeaf RegularVals e := by rw [EachLeaf, ← hl]; exact h1
    have h2' : EachLeaf (fun c _ => HasEcm c) e := by rw [EachLeaf, ← hl]; exact h2
    exact sums_unique (C37_entropy_natural hs hd h1 h2) (hl ▸ C37_entropy_natural hs he h1' h2')
  · exact sums_unique (C37_log_pdf hs hd hx) (h ▸ C37_log_pdf hs he hy)

omit hs in
/-- Non-vacuity: the nested joint distribution satisfies the hypotheses of these theorems (see also
the example in `Verif.Props.Objects`), and the joint distribution of the same parts without nesting
has the same normalizer. -/
example : Samples.joint.logNormalizer (library (searchFor zeroMinimizer)) =
    Samples.flatJoint.logNormalizer (library (searchFor zeroMinimizer)) :=
  (C37_nesting (C51_search zeroMinimizer_returns) Samples.joint_batch Samples.flatJoint_batch
    Samples.flatJoint_leaves.symm).1

section

variable {toExp toNat : Cls → List Val → Except Err (List Val)}

omit hs

mutual
/-- **C37.** `to_exp()` acts on the simple distributions separately. -/
theorem C37_to_exp : (d : Dist Cls) → IsBatch (fun c => (expCls c).isSome = true) rs d →
    (d.toExp toExp).map leaves = (leaves d).mapM fun l => l.toExp toExp
  | .mk c vals subs, h => by
    obtain ⟨c', hc⟩ := Option.isSome_iff_exists.1 h.1
    by_cases hj : isJoint c = true
    · obtain rfl : c = .jointN := by
        revert hc hj; cases c <;> simp [expCls, isJoint, Cls.expCls, Cls.isJoint]
      obtain rfl : Cls.jointE = c' := Option.some.inj hc
      have ih := C37_to_exp_parts subs h.2.2
      simp only [Dist.toExp, hc, leaves, hj, if_true, ← ih]
      cases subs.toExp toExp <;> rfl
    · have hj' : isJoint c' = false := by
        revert hc hj; cases c <;> simp [expCls, isJoint, Cls.expCls, Cls.isJoint] <;> rintro rfl <;> rfl
      simp only [Bool.not_eq_true] at hj
      simp only [leaves, hj, Bool.false_eq_true, if_false, List.mapM_cons, List.mapM_nil]
      simp only [Dist.toExp, hc, hj, Bool.false_eq_true, if_false]
      cases toExp c vals with
      | error e => rfl
      | ok v => simp [Bind.bind, Except.bind, Except.map, leaves, hj', pure, Except.pure]
/-- `C37_to_exp` for the parts. -/
theorem C37_to_exp_parts : (s : Subs Cls) → IsBatches (fun c => (expCls c).isSome = true) rs s →
    (s.toExp toExp).map leavesOf = (leavesOf s).mapM fun l => l.toExp toExp
  | .nil, _ => rfl
  | .cons n d r, h => by
    have h1 := C37_to_exp d h.1
    have h2 := C37_to_exp_parts r h.2
    simp only [leavesOf, List.mapM_append, ← h1, ← h2, Subs.toExp]
    cases d.toExp toExp <;> cases r.toExp toExp <;> rfl
end

mutual
/-- **C37.** `to_nat()` acts on the simple distributions separately. -/
theorem C37_to_nat : (d : Dist Cls) → IsBatch (fun c => (natCls c).isSome = true) rs d →
    (d.toNat toNat).map leaves = (leaves d).mapM fun l => l.toNat toNat
  | .mk c vals subs, h => by
    obtain ⟨c', hc⟩ := Option.isSome_iff_exists.1 h.1
    by_cases hj : isJoint c = true
    · obtain rfl : c = .jointE := by
        revert hc hj; cases c <;> simp [natCls, isJoint, Cls.natCls, Cls.isJoint]
      obtain rfl : Cls.jointN = c' := Option.some.inj hc
      have ih := C37_to_nat_parts subs h.2.2
      simp only [Dist.toNat, hc, leaves, hj, if_true, ← ih]
      cases subs.toNat toNat <;> rfl
    · have hj' : isJoint c' = false := by
        revert hc hj; cases c <;> simp [natCls, isJoint, Cls.natCls, Cls.isJoint] <;> rintro rfl <;> rfl
      simp only [Bool.not_eq_true] at hj
      simp only [leaves, hj, Bool.false_eq_true, if_false, List.mapM_cons, List.mapM_nil]
      simp only [Dist.toNat, hc, hj, Bool.false_eq_true, if_false]
      cases toNat c vals with
      | error e => rfl
      | ok v => simp [Bind.bind, Except.bind, Except.map, leaves, hj', pure, Except.pure]
/-- `C37_to_nat` for the parts. -/
theorem C37_to_nat_parts : (s : Subs Cls) → IsBatches (fun c => (natCls c).isSome = true) rs s →
    (s.toNat toNat).map leavesOf = (leavesOf s).mapM fun l => l.toNat toNat
  | .nil, _ => rfl
  | .cons n d r, h => by
    have h1 := C37_to_nat d h.1
    have h2 := C37_to_nat_parts r h.2
    simp only [leavesOf, List.mapM_append, ← h1, ← h2, Subs.toNat]
    cases d.toNat toNat <;> cases r.toNat toNat <;> rfl
end

mutual
/-- **C37.** `to_exp()` followed by `to_nat()` is the identity if it is for all simple distributions
that the joint distribution consists of. -/
theorem C37_to_exp_to_nat : (d : Dist Cls) → WF d →
    IsBatch (fun c => (expCls c).isSome = true) rs d →
    (∀ l ∈ leaves d, ∃ m, l.toExp toExp = .ok m ∧ m.toNat toNat = .ok l) →
    ∃ e, d.toExp toExp = .ok e ∧ e.toNat toNat = .ok d
  | .mk c vals subs, hw, h, hl => by
    by_cases hj : isJoint c = true
    · obtain rfl : c = .jointN := by
        obtain ⟨c', hc⟩ := Option.isSome_iff_exists.1 h.1
        revert hc hj; cases c <;> simp [expCls, isJoint, Cls.expCls, Cls.isJoint]
      obtain rfl : vals = [] := List.length_eq_zero_iff.1 hw.1
      simp only [leaves, hj, if_true] at hl
      obtain ⟨e, h1, h2⟩ := C37_to_exp_to_nat_parts subs hw.2.2.2 h.2.2 hl
      refine ⟨.mk .jointE [] e, ?_, ?_⟩
      · rw [Dist.toExp, h1]; rfl
      · rw [Dist.toNat, h2]; rfl
    · exact hl _ (by simp [leaves, hj])
/-- `C37_to_exp_to_nat` for the parts. -/
theorem C37_to_exp_to_nat_parts : (s : Subs Cls) → WFs s →
    IsBatches (fun c => (expCls c).isSome = true) rs s →
    (∀ l ∈ leavesOf s, ∃ m, l.toExp toExp = .ok m ∧ m.toNat toNat = .ok l) →
    ∃ e, s.toExp toExp = .ok e ∧ e.toNat toNat = .ok s
  | .nil, _, _, _ => ⟨.nil, rfl, rfl⟩
  | .cons n d r, hw, h, hl => by
    obtain ⟨e, h1, h2⟩ := C37_to_exp_to_nat d hw.1 h.1 fun l hm =>
      hl l (by simp only [leavesOf, List.mem_append]; exact .inl hm)
    obtain ⟨e', h3, h4⟩ := C37_to_exp_to_nat_parts r hw.2 h.2 fun l hm =>
      hl l (by simp only [leavesOf, List.mem_append]; exact .inr hm)
    refine ⟨.cons n e e', ?_, ?_⟩
    · rw [Subs.toExp, h1, h3]; rfl
    · rw [Subs.toNat, h2, h4]; rfl
end

mutual
/-- **C37.** `to_nat()` followed by `to_exp()` is the identity if it is for all simple distributions
that the joint distribution consists of. -/
theorem C37_to_nat_to_exp : (d : Dist Cls) → WF d →
    IsBatch (fun c => (natCls c).isSome = true) rs d →
    (∀ l ∈ leaves d, ∃ m, l.toNat toNat = .ok m ∧ m.toExp toExp = .ok l) →
    ∃ e, d.toNat toNat = .ok e ∧ e.toExp toExp = .ok d
  | .mk c vals subs, hw, h, hl => by
    by_cases hj : isJoint c = true
    · obtain rfl : c = .jointE := by
        obtain ⟨c', hc⟩ := Option.isSome_iff_exists.1 h.1
        revert hc hj; cases c <;> simp [natCls, isJoint, Cls.natCls, Cls.isJoint]
      obtain rfl : vals = [] := List.length_eq_zero_iff.1 hw.1
      simp only [leaves, hj, if_true] at hl
      obtain ⟨e, h1, h2⟩ := C37_to_nat_to_exp_parts subs hw.2.2.2 h.2.2 hl
      refine ⟨.mk .jointN [] e, ?_, ?_⟩
      · rw [Dist.toNat, h1]; rfl
      · rw [Dist.toExp, h2]; rfl
    · exact hl _ (by simp [leaves, hj])
/-- `C37_to_nat_to_exp` for the parts. -/
theorem C37_to_nat_to_exp_parts : (s : Subs Cls) → WFs s →
    IsBatches (fun c => (natCls c).isSome = true) rs s →
    (∀ l ∈ leavesOf s, ∃ m, l.toNat toNat = .ok m ∧ m.toExp toExp = .ok l) →
    ∃ e, s.toNat toNat = .ok e ∧ e.toExp toExp = .ok s
  | .nil, _, _, _ => ⟨.nil, rfl, rfl⟩
  | .cons n d r, hw, h, hl => by
    obtain ⟨e, h1, h2⟩ := C37_to_nat_to_exp d hw.1 h.1 fun l hm =>
      hl l (by simp only [leavesOf, List.mem_append]; exact .inl hm)
    obtain ⟨e', h3, h4⟩ := C37_to_nat_to_exp_parts r hw.2 h.2 fun l hm =>
      hl l (by simp only [leavesOf, List.mem_append]; exact .inr hm)
    refine ⟨.cons n e e', ?_, ?_⟩
    · rw [Subs.toNat, h1, h3]; rfl
    · rw [Subs.toExp, h2, h4]; rfl
end

end

end Efax
