import Verif.Spec.Reach
import Verif.Props.Samples2
import Verif.Props.Analysis
import Verif.Props.TestFlatten
import Verif.Lemmas.Inside

/-!
# How far the conversions by search reach (C82)
-/

namespace Efax

open Spec Calc ClassTable Tests

variable [MachEps]

omit [MachEps] in
theorem layS_single {x y : ℝ} (h : layS [] (fun _ => ()) (fun _ => x) = layS [] (fun _ => ()) fun _ => y) : x = y := by
  have h1 : scalars [] (fun _ => x) = scalars [] fun _ => y := Val.real.inj (List.cons.inj h).1
  have h2 := congrArg (fun a => a.get []) h1
  exact (Arr.ofFn_get (f := fun _ => x) (rs := []) (i := []) rfl).symm.trans
    (h2.trans (Arr.ofFn_get (f := fun _ => y) (rs := []) (i := []) rfl))

omit [MachEps] in
theorem laySS_single {x y : ℝ × ℝ} (h : laySS [] (fun _ => ()) (fun _ => x) = laySS [] (fun _ => ()) fun _ => y) :
    x = y := by
  have h1 : layS [] (fun _ => ()) (fun _ => x.1) = layS [] (fun _ => ()) fun _ => y.1 :=
    congrArg (fun v => [v]) (List.cons.inj h).1
  have h2 : layS [] (fun _ => ()) (fun _ => x.2) = layS [] (fun _ => ()) fun _ => y.2 := (List.cons.inj h).2
  exact Prod.ext (layS_single h1) (layS_single h2)

omit [MachEps] in
theorem vectors_single {d : ℕ} {x y : Fin d → ℝ} (h : vectors [] (fun _ => x) = vectors [] fun _ => y) : x = y := by
  ext k
  rw [show x k = (vectors [] fun _ => x).get [k.val] from (Efax.vectors_get [] [] rfl (fun _ => x) k.2).symm, h]
  exact Efax.vectors_get [] [] rfl (fun _ => y) k.2

omit [MachEps] in
theorem vectors_size {d d' : ℕ} {x : Fin d → ℝ} {y : Fin d' → ℝ}
    (h : vectors [] (fun _ => x) = vectors [] fun _ => y) : d = d' :=
  (List.cons.inj (congrArg Arr.rshape h)).1

/-- The search vector `a` belongs to natural parameters whose expectation parameters are `v`. -/
def Root : Cls → List Val → Arr ℝ → Prop
  | .gammaEP, v, a => a.rshape = [1] ∧ ∀ χ, v = laySS [] (fun _ => ()) (fun _ => χ) →
      gammaSearchToNatural χ (a.get [0]) ∈ gammaDom ∧ gamma.toExp (gammaSearchToNatural χ (a.get [0])) = χ
  | .chiSquareEP, v, a => a.rshape = [1] ∧ ∀ χ, v = layS [] (fun _ => ()) (fun _ => χ) →
      chiSquare.toExp (chiSquareSearchToNatural (a.get [0])) = χ
  | .logarithmicEP, v, a => a.rshape = [1] ∧ ∀ χ, v = layS [] (fun _ => ()) (fun _ => χ) →
      logarithmic.toExp (logarithmicSearchToNatural (a.get [0])) = χ
  | .betaEP, v, a => a.rshape = [2] ∧ ∀ χ, v = layV 2 [] (fun _ => ()) (fun _ => χ) →
      beta.toExp (dirichletSearchToNatural fun k : Fin 2 => a.get [k.val]) = χ
  | .dirichletEP, v, a => a.rshape = [firstDim v] ∧ ∀ d χ, v = layV (d + 1) [] (fun _ => ()) (fun _ => χ) →
      (dirichlet d).toExp (dirichletSearchToNatural fun k : Fin (d + 1) => a.get [k.val]) = χ
  | .genDirichletEP, v, a => a.rshape = [firstDim v + firstDim v] ∧
      ∀ d χ, v = layVV d [] (fun _ => ()) (fun _ => χ) →
        (genDirichlet d).toExp (genDirichletSearchToNatural fun k : Fin (d + d) => a.get [k.val]) = χ
  | .vonMisesFisherEP, v, a => a.rshape = [1] ∧ ∀ d χ, v = layE d [] (fun _ => ()) (fun _ => χ) →
      vmfSearchToNatural χ (a.get [0]) ≠ 0 ∧ (vonMisesFisher d).toExp (vmfSearchToNatural χ (a.get [0])) = χ
  | _, _, _ => False

open Classical in
/-- A minimizer that returns a root whenever there is one. -/
noncomputable def exactMinimizer (c : Cls) (v : List Val) : Arr ℝ :=
  if h : ∃ a, Root c v a then h.choose else zeroMinimizer c v

theorem exact_root {c : Cls} {v : List Val} (h : ∃ a, Root c v a) : Root c v (exactMinimizer c v) := by
  rw [exactMinimizer, dif_pos h]
  exact h.choose_spec

theorem exact_rshape {c : Cls} {v : List Val} {l : List ℕ} (h0 : (zeroMinimizer c v).rshape = l)
    (h : ∀ a, Root c v a → a.rshape = l) : (exactMinimizer c v).rshape = l := by
  by_cases hr : ∃ a, Root c v a
  · exact h _ (exact_root hr)
  · rwa [exactMinimizer, dif_neg hr]

theorem exactMinimizer_returns : ReturnsSearchVectors exactMinimizer where
  gamma _ := exact_rshape rfl fun _ h => h.1
  chiSquare _ := exact_rshape rfl fun _ h => h.1
  logarithmic _ := exact_rshape rfl fun _ h => h.1
  beta _ := exact_rshape rfl fun _ h => h.1
  dirichlet _ _ := exact_rshape rfl fun _ h => h.1
  genDirichlet _ _ := exact_rshape rfl fun _ h => h.1
  vonMisesFisher _ _ := exact_rshape rfl fun _ h => h.1

omit [MachEps] in
theorem one_get (s : ℝ) : (scalars [1] fun _ => s).get [0] = s := Arr.ofFn_get rfl

omit [MachEps] in
theorem list_get {n : ℕ} (s : Fin n → ℝ) :
    (fun k : Fin n => (vectors [] fun _ => s).get [k.val]) = s :=
  funext fun k => Efax.vectors_get [] [] rfl (fun _ => s) k.2

theorem exact_gamma {q : ℝ × ℝ} (hq : q ∈ gammaDom) : (solverOf exactMinimizer).gamma (gamma.toExp q) = q := by
  have h0 : 0 < (gamma.toExp q).1 := ((C32_gamma_domain _).1.1 ⟨q, hq, rfl⟩).1
  obtain ⟨s, hs⟩ := C32_gamma.exists_root (gamma.toExp q) h0 q hq rfl
  have hr : Root .gammaEP (laySS [] (fun _ => ()) fun _ => gamma.toExp q) (scalars [1] fun _ => s) := by
    refine ⟨rfl, fun χ h => ?_⟩
    obtain rfl := laySS_single h
    rw [one_get]
    exact ⟨C32_gamma.valid _ h0 s, (C32_gamma.root _ h0 s).1 hs⟩
  obtain ⟨-, h⟩ := exact_root ⟨_, hr⟩
  exact (gamma_regular.toExp_injOn gamma_minimal) (h _ rfl).1 hq (h _ rfl).2

theorem exact_chiSquare {q : ℝ} (hq : Ring.openMin (-1) < q) :
    (solverOf exactMinimizer).chiSquare (chiSquare.toExp q) = q := by
  obtain ⟨s, hs⟩ := C32_chi_square.exists_root (chiSquare.toExp q) trivial q hq rfl
  have hr : Root .chiSquareEP (layS [] (fun _ => ()) fun _ => chiSquare.toExp q) (scalars [1] fun _ => s) := by
    refine ⟨rfl, fun χ h => ?_⟩
    obtain rfl := layS_single h
    rw [one_get]
    exact (C32_chi_square.root _ trivial s).1 hs
  obtain ⟨-, h⟩ := exact_root ⟨_, hr⟩
  exact (chiSquare_regular.toExp_injOn chiSquare_minimal) (C32_chi_square.valid (chiSquare.toExp q) trivial _)
    ((openMin_gt (-1)).trans hq) (h _ rfl)

theorem exact_chi {q : ℝ} (hq : Ring.openMin (-1) < q) : (solverOf exactMinimizer).chi (chi.toExp q) = q :=
  exact_chiSquare hq

theorem exact_logarithmic {q : ℝ} (hq : q < Ring.openMax 0) :
    (solverOf exactMinimizer).logarithmic (logarithmic.toExp q) = q := by
  obtain ⟨s, hs⟩ := realUnflat_below hq
  have hr : Root .logarithmicEP (layS [] (fun _ => ()) fun _ => logarithmic.toExp q) (scalars [1] fun _ => s) := by
    refine ⟨rfl, fun χ h => ?_⟩
    obtain rfl := layS_single h
    rw [one_get]
    exact congrArg _ hs
  obtain ⟨-, h⟩ := exact_root ⟨_, hr⟩
  exact (logarithmic_regular.toExp_injOn logarithmic_minimal) (realUnflat_lt 0 _)
    (hq.trans (openMax_lt 0)) (h _ rfl)

theorem exact_beta {q : Fin 2 → ℝ} (hq : ∀ k, Ring.openMin (-1) < q k) :
    (solverOf exactMinimizer).beta (beta.toExp q) = q := by
  obtain ⟨s, hs⟩ := C32_beta.exists_root (beta.toExp q) trivial q hq rfl
  have hr : Root .betaEP (layV 2 [] (fun _ => ()) fun _ => beta.toExp q) (vectors [] fun _ => s) := by
    refine ⟨rfl, fun χ h => ?_⟩
    obtain rfl := vectors_single (Val.real.inj (List.cons.inj h).1)
    rw [list_get]
    exact (C32_beta.root _ trivial s).1 hs
  obtain ⟨-, h⟩ := exact_root ⟨_, hr⟩
  exact (beta_regular.toExp_injOn beta_minimal) (C32_beta.valid (beta.toExp q) trivial _)
    (fun k => (openMin_gt (-1)).trans (hq k)) (h _ rfl)

theorem exact_dirichlet {d : ℕ} (hd : 0 < d) {q : Fin (d + 1) → ℝ} (hq : ∀ k, Ring.openMin (-1) < q k) :
    (solverOf exactMinimizer).dirichlet (d + 1) ((dirichlet d).toExp q) = q := by
  obtain ⟨d, rfl⟩ := Nat.exists_eq_succ_of_ne_zero hd.ne'
  obtain ⟨s, hs⟩ := (C32_dirichlet d).exists_root ((dirichlet (d + 1)).toExp q) trivial q hq rfl
  have hr : Root .dirichletEP (layV (d + 2) [] (fun _ => ()) fun _ => (dirichlet (d + 1)).toExp q)
      (vectors [] fun _ => s) := by
    refine ⟨rfl, fun d' χ h => ?_⟩
    have h' := Val.real.inj (List.cons.inj h).1
    obtain rfl : d + 1 = d' := Nat.succ.inj (vectors_size h')
    obtain rfl := vectors_single h'
    rw [list_get]
    exact ((C32_dirichlet d).root _ trivial s).1 hs
  obtain ⟨-, h⟩ := exact_root ⟨_, hr⟩
  exact ((dirichlet_regular (d + 1)).toExp_injOn (dirichlet_minimal d)) ((C32_dirichlet d).valid
    ((dirichlet (d + 1)).toExp q) trivial _) (fun k => (openMin_gt (-1)).trans (hq k)) (h (d + 1) _ rfl)

theorem exact_genDirichlet {d : ℕ} {q : (Fin d → ℝ) × (Fin d → ℝ)} (hq : q ∈ genDirichletDom d)
    (h0 : ∀ k, 0 < q.2 k) : (solverOf exactMinimizer).genDirichlet d ((genDirichlet d).toExp q) = q := by
  obtain ⟨s, hs⟩ := (C32_gen_dirichlet d).exists_root ((genDirichlet d).toExp q) trivial q ⟨hq.1, h0⟩ rfl
  have hr : Root .genDirichletEP (layVV d [] (fun _ => ()) fun _ => (genDirichlet d).toExp q)
      (vectors [] fun _ => s) := by
    refine ⟨rfl, fun d' χ h => ?_⟩
    have h1 := Val.real.inj (List.cons.inj h).1
    have h2 := Val.real.inj (List.cons.inj (List.cons.inj h).2).1
    obtain rfl : d = d' := vectors_size h1
    obtain rfl : (genDirichlet d).toExp q = χ := Prod.ext (vectors_single h1) (vectors_single h2)
    rw [list_get]
    exact ((C32_gen_dirichlet d).root _ trivial s).1 hs
  obtain ⟨-, h⟩ := exact_root ⟨_, hr⟩
  exact ((genDirichlet_regular d).toExp_injOn (genDirichlet_minimal d)) ((C32_gen_dirichlet d).valid
    ((genDirichlet d).toExp q) trivial _) hq (h d _ rfl)

theorem exact_vonMisesFisher {d : ℕ} (hd : 0 < d) {q : EuclideanSpace ℝ (Fin d)} (hq : q ≠ 0) :
    (solverOf exactMinimizer).vonMisesFisher d ((vonMisesFisher d).toExp q) = q := by
  obtain ⟨n, rfl⟩ := Nat.exists_eq_succ_of_ne_zero hd.ne'
  have h0 : (vonMisesFisher (n + 1)).toExp q ≠ 0 := (C33_von_mises_fisher_range.subset ⟨q, hq, rfl⟩).1
  obtain ⟨s, hs⟩ := C32_von_mises_fisher.exists_root _ h0 q hq rfl
  have hr : Root .vonMisesFisherEP (layE (n + 1) [] (fun _ => ()) fun _ => (vonMisesFisher (n + 1)).toExp q)
      (scalars [1] fun _ => s) := by
    refine ⟨rfl, fun d' χ h => ?_⟩
    have h' := Val.real.inj (List.cons.inj h).1
    obtain rfl : n + 1 = d' := vectors_size h'
    obtain rfl : (vonMisesFisher (n + 1)).toExp q = χ := by
      ext k
      exact congrFun (vectors_single h') k
    rw [one_get]
    exact ⟨C32_von_mises_fisher.valid _ h0 s, (C32_von_mises_fisher.root _ h0 s).1 hs⟩
  obtain ⟨-, h⟩ := exact_root ⟨_, hr⟩
  exact (vmf_locallyRegular.toExp_injOn vmf_minimal) (h _ _ rfl).1 hq (h _ _ rfl).2

omit [MachEps] in
theorem vectors_above {d : ℕ} {rs : List ℕ} {f : List ℕ → Fin d → ℝ} {b : ℝ} {i : List ℕ} (hi : inB rs i = true)
    (h : ∀ i, inB (vectors rs f).rshape i = true → b < (vectors rs f).get i) (k : Fin d) : b < f i k := by
  have := h (k.1 :: i) ((inB_cons ..).2 ⟨k.2, hi⟩)
  rwa [Efax.vectors_get rs i hi f k.2] at this

omit [MachEps] in
theorem scalars_all {rs : List ℕ} {f : List ℕ → ℝ} {P : ℝ → Prop} (h : ∀ i, inB rs i = true → P (f i)) :
    ∀ i, inB (scalars rs f).rshape i = true → P ((scalars rs f).get i) := fun i hi => by
  have hi : inB rs i = true := hi
  rw [scalars, Arr.ofFn_get hi]
  exact h i hi

omit [MachEps] in
theorem vectors_all {d : ℕ} {rs : List ℕ} {f : List ℕ → Fin d → ℝ} {b : ℝ}
    (h : ∀ i, inB rs i = true → ∀ k, b < f i k) :
    ∀ i, inB (vectors rs f).rshape i = true → b < (vectors rs f).get i := fun i hi => by
  obtain ⟨k, i, rfl, hk, hi⟩ := inB_cons_elim hi
  rw [Efax.vectors_get rs i hi f hk]
  exact h i hi ⟨k, hk⟩

omit [MachEps] in
theorem above_realUnflat (m s : ℝ) : m < Ring.realUnflat (some m) none s :=
  (Ring.realUnflat_mem (mn := some m) (mx := none) (by simp) s).1 _ rfl

omit [MachEps] in
theorem below_realUnflat (m s : ℝ) : Ring.realUnflat none (some m) s < m :=
  (Ring.realUnflat_mem (mn := none) (mx := some m) (by simp) s).2 _ rfl

theorem exact_found {K : Kind Cls} {S : Setting K} (hK : LibrarySetting (solverOf exactMinimizer) K S)
    {rs : List ℕ} {p : List ℕ → K.P} {q : List ℕ → K.N} : S.Inside rs p q →
      EachLeaf ReachableVals (K.nat rs p q) → Found K rs p q := by
  induction hK with
  | simple s =>
    intro hq hr i hi
    by_cases hc : (s.setting (solverOf exactMinimizer)).closed
    · exact (library_lawful (.simple s)).inv hc _ (hq i hi).1 _ (hq i hi).2
    cases s
    case gamma => exact exact_gamma (hq i hi).2
    case chiSquare =>
      exact exact_chiSquare (scalars_at hi (P := fun x => Ring.openMin (-1) < x) ((eachLeaf_simple rfl).1 hr i hi))
    case chi =>
      exact exact_chi (scalars_at hi (P := fun x => Ring.openMin (-1) < x) ((eachLeaf_simple rfl).1 hr i hi))
    case logarithmic =>
      exact exact_logarithmic (scalars_at hi (P := fun x => x < Ring.openMax 0) ((eachLeaf_simple rfl).1 hr i hi))
    case beta => exact exact_beta (vectors_above hi ((eachLeaf_simple rfl).1 hr))
    case dirichlet d => exact exact_dirichlet (hq i hi).1 (vectors_above hi ((eachLeaf_simple rfl).1 hr))
    case genDirichlet d => exact exact_genDirichlet (hq i hi).2 (vectors_above hi ((eachLeaf_simple rfl).1 hr))
    case vonMisesFisher d => exact exact_vonMisesFisher (hq i hi).1 (hq i hi).2
    all_goals exact absurd trivial hc
  | @joint l _ _ _ ih =>
    intro hq hr i hi
    clear * - hq hr ih hi
    induction l with
    | nil => rfl
    | cons nk l ih' =>
      obtain ⟨h1, h2⟩ := eachLeaf_cons rfl hr
      exact Prod.ext (ih nk List.mem_cons_self (p := fun i => (p i).1) (q := fun i => (q i).1)
          (fun i hi => ⟨(hq i hi).1.1, (hq i hi).2.1⟩) h1 i hi)
        (ih' (fun nk hm => ih nk (List.mem_cons_of_mem _ hm)) (p := fun i => (p i).2) (q := fun i => (q i).2)
          (fun i hi => ⟨(hq i hi).1.2, (hq i hi).2.2⟩) h2)

/-- **C82.** There is a minimizer for which the conversions of all distributions, simple and joint, find the
natural parameters inside the bounds of the supports. -/
theorem C82_found : ∃ minimizer : Cls → List Val → Arr ℝ, ReturnsSearchVectors minimizer ∧
    ∀ {K : Kind Cls} {S : Setting K}, LibrarySetting (solverOf minimizer) K S → ∀ {rs p q}, S.Inside rs p q →
      EachLeaf ReachableVals (K.nat rs p q) → Found K rs p q :=
  ⟨exactMinimizer, exactMinimizer_returns, exact_found⟩

/-- **C82.** Whatever the minimizer, the conversions only find natural parameters inside the bounds of the
supports. -/
theorem C82_only {minimizer : Cls → List Val → Arr ℝ} {K : Kind Cls} (hK : LibraryKind (solverOf minimizer) K)
    {rs : List ℕ} {p : List ℕ → K.P} {q : List ℕ → K.N} (hf : Found K rs p q) :
    EachLeaf ReachableVals (K.nat rs p q) := by
  induction hK with
  | simple s =>
    cases s
    all_goals refine (eachLeaf_simple rfl).2 ?_
    case chiSquare => exact scalars_all fun i hi => hf i hi ▸ above_realUnflat _ _
    case chi => exact scalars_all fun i hi => hf i hi ▸ above_realUnflat _ _
    case logarithmic => exact scalars_all (f := q) (P := fun x => x < Ring.openMax 0) fun i hi => hf i hi ▸ below_realUnflat _ _
    case beta => exact vectors_all fun i hi k => hf i hi ▸ above_realUnflat _ _
    case dirichlet d => exact vectors_all fun i hi k => hf i hi ▸ above_realUnflat _ _
    case genDirichlet d => exact vectors_all fun i hi k => hf i hi ▸ softplus_pos _
    all_goals trivial
  | @joint l _ _ _ ih =>
    clear * - hf ih
    induction l with
    | nil =>
      intro l hl
      have : l ∈ ([] : List (Dist Cls)) := hl
      simp at this
    | cons nk l ih' =>
      exact eachLeaf_parts rfl
        (ih nk List.mem_cons_self (p := fun i => (p i).1) (q := fun i => (q i).1) fun i hi =>
          congrArg Prod.fst (hf i hi))
        (ih' (fun nk hm => ih nk (List.mem_cons_of_mem _ hm)) (p := fun i => (p i).2) (q := fun i => (q i).2)
          fun i hi => congrArg Prod.snd (hf i hi))

theorem vmf_dims {solve : Solver} {K : Kind Cls} {S : Setting K} (hK : LibrarySetting solve K S) {rs : List ℕ}
    {p : List ℕ → K.P} {q : List ℕ → K.N} {χ : List ℕ → K.E} (hq : S.Inside rs p q) (hr : ∃ i, inB rs i = true) :
    EachLeaf (fun c v => c = .vonMisesFisherEP → dimensions c v ≠ .ok 0) (K.exp rs p χ) := by
  obtain ⟨i, hi⟩ := hr
  induction hK with
  | simple s =>
    cases s
    all_goals refine (eachLeaf_simple rfl).2 fun h => ?_
    case vonMisesFisher d =>
      intro h
      have h : d = 0 := Except.ok.inj h
      exact absurd (hq i hi).1 (by subst h; exact lt_irrefl 0)
    all_goals cases h
  | @joint l _ _ _ ih =>
    clear * - hq ih hi
    induction l with
    | nil =>
      intro l hl
      have : l ∈ ([] : List (Dist Cls)) := hl
      simp at this
    | cons nk l ih' =>
      exact eachLeaf_parts rfl
        (ih nk List.mem_cons_self (p := fun i => (p i).1) (q := fun i => (q i).1) (χ := fun i => (χ i).1)
          fun i hi => ⟨(hq i hi).1.1, (hq i hi).2.1⟩)
        (ih' (fun nk hm => ih nk (List.mem_cons_of_mem _ hm)) (p := fun i => (p i).2) (q := fun i => (q i).2)
          (χ := fun i => (χ i).2) fun i hi => ⟨(hq i hi).1.2, (hq i hi).2.2⟩)

/-- **C82.** With this minimizer, and random numbers that are not at the ends of their ranges, the conversions
of the tests find the natural parameters if the expectation parameters lie strictly inside their supports. -/
theorem C82_cooperative {g : Rng} {info : TestInfo} (hi : Sound info) (hf : Shallow info) (hg : InRange g)
    (hz : NeverZero g) (ht : Strict g) {rs : List ℕ} (hr : ∃ i, inB rs i = true)
    (hb : Between (solverOf exactMinimizer) info g rs)
    (hx : ∀ s q s', info.expParameters (library (searchFor exactMinimizer)) g rs s = .ok (q, s') →
      FitsAll true rs q) : Cooperative (solverOf exactMinimizer) info g rs := by
  intro s s' p q h1 h2
  have hS := sound_library (solve := solverOf exactMinimizer) info hi
  have h3 := hb s s' p q h1 h2
  obtain ⟨x, s'', h4, -, h5⟩ := C80_strictly_inside hi hf hg hz ht rs s
  obtain ⟨rfl, -⟩ := Prod.mk.inj (Except.ok.inj (h4.symm.trans h1))
  have h6 := fits_searchable (hx _ _ _ (C76_test_expectation (C51_search exactMinimizer_returns) hi h1 h3))
  have h7 := vmf_dims (χ := fun i => ((settingOf (solverOf exactMinimizer) info).1.F (p i)).toExp (q i)) hS h2 hr
  exact ⟨h3, fun ⟨_, _, _⟩ hl => h6 _ hl (h7 _ hl), exact_found hS h2 (fits_reachable h5)⟩

/-- **C82.** With this minimizer `test_conversion` passes whenever the expectation parameters lie strictly inside
their supports. -/
theorem C82_conversion {g : Rng} {info : TestInfo} (hi : Sound info) (hf : Shallow info) (hg : InRange g)
    (hz : NeverZero g) (hq : Generic g) (ht : Strict g) (hb : Between (solverOf exactMinimizer) info g [4, 3])
    (hx : ∀ s q s', info.expParameters (library (searchFor exactMinimizer)) g [4, 3] s = .ok (q, s') →
      FitsAll true [4, 3] q) (s : g.State) :
    ∃ s', testConversion (library (searchFor exactMinimizer)) info g s = .ok s' :=
  C80_conversion (C51_search exactMinimizer_returns) hi hf hg hz hq
    (C82_cooperative hi hf hg hz ht ⟨[0, 0], rfl⟩ hb hx) s

/-- **C82.** `to_nat()` undoes `to_exp()` for all distributions inside the bounds, with this minimizer. -/
theorem C82_round_trip {K : Kind Cls} {S : Setting K} (hK : LibrarySetting (solverOf exactMinimizer) K S)
    {rs : List ℕ} {p : List ℕ → K.P} {q : List ℕ → K.N} (hq : S.Inside rs p q)
    (hl : EachLeaf ReachableVals (K.nat rs p q)) (hr : EachLeaf RegularVals (K.nat rs p q)) :
    ∃ e, (K.nat rs p q).toExp (library (searchFor exactMinimizer)).toExp = .ok e ∧ (EachLeaf SearchableVals e →
      e.toNat (library (searchFor exactMinimizer)).toNat = .ok (K.nat rs p q)) := by
  obtain ⟨e, h1, h2⟩ := C68_to_nat (C51_search exactMinimizer_returns) hK (exact_found hK hq hl) hr
  refine ⟨e, h1, fun he => ?_⟩
  obtain ⟨q', h3, h4⟩ := h2 he
  rw [h3, natural_congr hK.kind h4]

/-- The beta distribution with both parameters 1/2 as a generalized Dirichlet distribution. -/
noncomputable def Samples.arcsine : (Fin 1 → ℝ) × (Fin 1 → ℝ) := (fun _ => -1 / 2, fun _ => -1 / 2)

omit [MachEps] in
theorem digamma_half : digamma (1 / 2) - digamma 1 ≤ -1 := by
  have h1 := digamma_add_one (x := 1 / 2) (by norm_num)
  have h2 := digamma_add_one (x := 1) (by norm_num)
  have h3 := digamma_strictMonoOn.monotoneOn (a := 1 / 2 + 1) (b := 1 + 1) (by norm_num [Set.mem_Ioi])
    (by norm_num [Set.mem_Ioi]) (by norm_num)
  norm_num at h1 h2 h3 ⊢
  linarith

omit [MachEps] in
theorem arcsine_toExp (k : Fin 1) : (genDirichletToExp Samples.arcsine).1 k = digamma (1 / 2) - digamma 1 ∧
    (genDirichletToExp Samples.arcsine).2 k = digamma (1 / 2) - digamma 1 := by
  obtain rfl := Subsingleton.elim k 0
  have e1 : Finset.Iio (0 : Fin 1) = ∅ := by decide
  have e2 : Finset.Iic (0 : Fin 1) = {0} := by decide
  have e3 : Fin.rev (0 : Fin 1) = 0 := by decide
  simp only [genDirichletToExp, genDirichletAlphaBeta, Samples.arcsine, e1, e2, e3, Finset.sum_empty,
    Finset.sum_singleton, add_zero]
  norm_num

omit [MachEps] in
theorem arcsine_dom : Samples.arcsine ∈ genDirichletDom 1 := by
  constructor
  · intro i; simp [Samples.arcsine]; norm_num
  · intro i; simp [Samples.arcsine]; norm_num

/-- **C82** is violated for generalized Dirichlet distributions with a negative `gamma`: whatever the minimizer,
`to_nat()` does not undo `to_exp()`. -/
theorem C82_not_gen_dirichlet {minimizer : Cls → List Val → Arr ℝ} (h : ReturnsSearchVectors minimizer) :
    (Simple.setting (solverOf minimizer) (.genDirichlet 1)).Inside [] (fun _ => ()) (fun _ => Samples.arcsine) ∧
    ∃ e d, (Dist.mk Cls.genDirichletNP (layVV 1 [] (fun _ => ()) fun _ => Samples.arcsine) .nil).toExp
        (library (searchFor minimizer)).toExp = .ok e ∧
      e.toNat (library (searchFor minimizer)).toNat = .ok d ∧
      d ≠ .mk .genDirichletNP (layVV 1 [] (fun _ => ()) fun _ => Samples.arcsine) .nil := by
  have hK : LibraryKind (solverOf minimizer) ((Simple.genDirichlet 1).kind _) := .simple _
  have hO := C51_library (C51_search h) hK
  refine ⟨fun _ _ => ⟨trivial, arcsine_dom⟩, _, _, hO.toExp [] (fun _ => ()) (fun _ => Samples.arcsine)
    (fun _ _ => trivial), hO.toNat [] (fun _ => ()) (fun _ => (genDirichlet 1).toExp Samples.arcsine)
    (fun _ _ => ?_), fun e => ?_⟩
  · have h1 := MachEps.lt
    have h2 := digamma_half
    intro k
    change (genDirichletToExp Samples.arcsine).1 k < _ ∧ (genDirichletToExp Samples.arcsine).2 k < _
    rw [(arcsine_toExp k).1, (arcsine_toExp k).2, Samples.openMax_zero]
    exact ⟨by linarith, by linarith⟩
  · have h1 : layVV 1 [] (fun _ => ()) (fun _ => (solverOf minimizer).genDirichlet 1
        ((genDirichlet 1).toExp Samples.arcsine)) = layVV 1 [] (fun _ => ()) fun _ => Samples.arcsine :=
      (Dist.mk.inj e).2.1
    have h2 := congrFun (vectors_single (Val.real.inj (List.cons.inj (List.cons.inj h1).2).1)) 0
    have h3 : softplus _ = (-1 / 2 : ℝ) := h2
    exact absurd (softplus_pos _) (by rw [h3]; norm_num)

namespace Samples

theorem gamma_mean {rs : List ℕ} {s s' : Unit} {p : List ℕ → Unit} {q : List ℕ → ℝ × ℝ}
    (h1 : (TestInfo.simple .gamma 1).natParameters diagonal rs s = .ok (.mk .gammaNP (laySS rs p q) .nil, s'))
    {i : List ℕ} (hi : inB rs i = true) : Ring.openMin 0 < (Efax.gamma.toExp (q i)).1 := by
  have h3 : (TestInfo.simple .gamma 1).natParameters Samples.diagonal rs () = .ok (.mk .gammaNP
    [.real ((Arr.full rs 1).map fun x => Ring.openMax 0 - x * 1),
      .real ((Arr.full rs 1).map fun x => x * 1 + Ring.openMin (-1))] .nil, ()) := rfl
  have h4 := (Dist.mk.inj (Prod.mk.inj (Except.ok.inj (h3.symm.trans h1))).1).2.1
  have h5 := Val.real.inj (List.cons.inj h4).1
  have h6 := Val.real.inj (List.cons.inj (List.cons.inj h4).2).1
  change _ < -((q i).2 + 1) / (q i).1
  have h7 : Ring.openMax 0 - 1 * 1 = (q i).1 :=
    (congrArg (fun x : ℝ => Ring.openMax 0 - x * 1) (full_get hi)).symm.trans
      ((Arr.map_get (a := Arr.full rs 1) hi).symm.trans
        ((congrArg (fun a : Arr ℝ => a.get i) h5).trans (Arr.ofFn_get hi)))
  have h8 : 1 * 1 + Ring.openMin (-1) = (q i).2 :=
    (congrArg (fun x : ℝ => x * 1 + Ring.openMin (-1)) (full_get hi)).symm.trans
      ((Arr.map_get (a := Arr.full rs 1) hi).symm.trans
        ((congrArg (fun a : Arr ℝ => a.get i) h6).trans (Arr.ofFn_get hi)))
  have h9 := MachEps.lt
  have h10 := MachEps.pos
  rw [← h7, ← h8, openMin_zero, Samples.openMax_zero, openMin_neg_one, lt_div_iff_of_neg (by linarith)]
  nlinarith

/-- Gamma distributions whose expectation parameters are found. -/
theorem gamma_cooperative (rs : List ℕ) :
    Cooperative (solverOf exactMinimizer) (.simple .gamma 1) diagonal rs := by
  intro s s' p q h1 h2
  have hS := sound_library (solve := solverOf exactMinimizer) (.simple .gamma 1) rfl
  refine ⟨(eachLeaf_simple rfl).2 trivial, (eachLeaf_simple rfl).2 ?_,
    exact_found hS h2 ((eachLeaf_simple rfl).2 trivial)⟩
  exact scalars_all (f := fun i => (Efax.gamma.toExp (q i)).1) (P := fun x => Ring.openMin 0 < x)
    fun i hi => gamma_mean h1 hi

end Samples

/-- Non-vacuity of C82: gamma distributions meet the conditions of `C82_cooperative`. -/
example : Sound (.simple .gamma 1) ∧ Strict Samples.diagonal ∧
    Between (solverOf exactMinimizer) (.simple .gamma 1) Samples.diagonal [4, 3] ∧
    ∀ s, ∃ s', testConversion (library (searchFor exactMinimizer)) (.simple .gamma 1) Samples.diagonal s = .ok s' := by
  have hb : Between (solverOf exactMinimizer) (.simple .gamma 1) Samples.diagonal [4, 3] :=
    fun s s' p q h1 h2 => (Samples.gamma_cooperative [4, 3] s s' p q h1 h2).1
  refine ⟨rfl, Samples.diagonal_strict, hb, C82_conversion rfl trivial Samples.diagonal_inRange
    Samples.diagonal_neverZero Samples.diagonal_generic Samples.diagonal_strict hb fun s x s' h => ?_⟩
  obtain ⟨p, q, s₁, h1, h2⟩ := C76_test_parameters (solve := solverOf exactMinimizer) (info := .simple .gamma 1) rfl
    trivial Samples.diagonal_inRange Samples.diagonal_neverZero Samples.diagonal_generic [4, 3] s
  have h3 := C76_test_expectation (info := .simple .gamma 1) (C51_search exactMinimizer_returns) rfl h1 (hb _ _ _ _ h1 h2)
  obtain rfl := (Prod.mk.inj (Except.ok.inj (h.symm.trans h3))).1
  refine ⟨⟨1, rfl, ⟨.scalar Ring.positiveSupport, ?_, rfl, fun _ i hi => ⟨?_, by simp⟩⟩,
    ⟨.scalar Ring.realField, ?_, rfl, fun _ i _ => ⟨by simp, by simp⟩⟩, trivial⟩, trivial⟩
  · exact Cls.adjust_eq (c := .gammaEP) (f := ⟨_, .scalar Ring.positiveSupport, false⟩) (by simp [Cls.fields]) _
      (by simp)
  · rintro m ⟨⟩
    exact scalars_all (f := fun i => (Efax.gamma.toExp (q i)).1) (P := fun x => Ring.openMin 0 < x)
      (fun i hi => Samples.gamma_mean h1 hi) i hi
  · exact Cls.adjust_eq (c := .gammaEP) (f := ⟨_, .scalar Ring.realField, false⟩) (by simp [Cls.fields]) _
      (by simp)

/-- Non-vacuity of C82: a chi-square distribution with two degrees of freedom. -/
example : (Simple.setting (solverOf exactMinimizer) .chiSquare).Inside [2] (fun _ => ()) (fun _ => (0 : ℝ)) ∧
    EachLeaf ReachableVals ((Simple.kind (solverOf exactMinimizer) .chiSquare).nat [2] (fun _ => ())
      fun _ => (0 : ℝ)) := by
  have := MachEps.lt
  refine ⟨fun _ _ => ⟨trivial, show (-1 : ℝ) < 0 by norm_num⟩, (eachLeaf_simple rfl).2 ?_⟩
  refine scalars_all (f := fun _ => 0) (P := fun x => Ring.openMin (-1) < x) fun _ _ => ?_
  rw [Samples.openMin_neg_one]
  linarith

end Efax
