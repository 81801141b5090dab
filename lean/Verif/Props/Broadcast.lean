import Verif.Lemmas.Broadcast2
import Verif.Spec.BroadcastKind
import Verif.Props.Observations

/-!
# C97: Distributions and observations of different shapes

The methods that take two objects follow NumPy's broadcasting rule (`Spec/Broadcast.lean`) for the shapes
of the batches: an entry of the result is the quantity for the entries of the arguments that stand at
its position.
-/

namespace Efax

open ClassTable Calc Spec

theorem broadcastLike_bcast {α β : Type} [Inhabited α] [Inhabited β] {rs r : List ℕ} (h : Wider rs r)
    (a : List ℕ → α) (b : List ℕ → β) :
    broadcastLike (ok (scalars rs a)) (ok (scalars r b)) = ok (scalars r fun i => a (bidx rs i)) := by
  simp only [broadcastLike, bind_ok, scalars, Arr.ofFn_rshape, h.bcast, if_true]
  refine ok_ofFn_congr fun j hj => ?_
  rw [Arr.ofFn_get (h.inB hj)]

section

variable [MachEps] {solve : Solver} {search : Cls → List Val → Except Err (List Val)}

theorem simple_stretches (s : Simple) : (s.kind solve).Stretches := by
  constructor <;> intro rs r w p q <;> cases s <;> refine ⟨rfl, ?_, trivial⟩ <;>
    repeat' first
      | exact .nil
      | refine .cons (stretchS w _) ?_
      | refine .cons (stretchC w _) ?_
      | refine .cons (stretchInt w _) ?_
      | refine .cons (stretchV w _) ?_
      | refine .cons (stretchCV w _) ?_
      | refine .cons (stretchM w _) ?_
      | refine .cons (stretchCM w _) ?_

theorem library_stretches {K : Kind Cls} (hK : LibraryKind solve K) : K.Stretches := by
  induction hK with
  | simple s => exact simple_stretches s
  | joint h0 hn hl ih => exact .joint (.ofList ih)

theorem simple_broadcasts (s : Simple) {fit : List ℕ → List ℕ → Prop}
    (h : (s ≠ .negativeBinomial ∧ s ≠ .weibull) ∨ ∀ r rs', fit r rs' → r = rs') :
    (s.kind solve).Broadcasts (library search) fit := by
  cases s with
  | bernoulli =>
    exact .plain (m := Methods.bernoulliNP) (C51_bernoulli) rfl rfl rfl rfl (fun _ _ _ => rfl) (fun _ _ _ => rfl)
      (simple_stretches (solve := solve) (.bernoulli)) fun _ _ _ _ _ _ _ => rfl
  | beta =>
    exact .plain (m := Methods.betaNP) (C51_beta) rfl rfl rfl rfl (fun _ _ _ => rfl) (fun _ _ _ => rfl)
      (simple_stretches (solve := solve) (.beta)) fun _ _ _ _ _ _ _ => rfl
  | chi =>
    exact .plain (m := Methods.chiNP) (C51_chi) rfl rfl rfl rfl (fun _ _ _ => rfl) (fun _ _ _ => rfl)
      (simple_stretches (solve := solve) (.chi)) fun _ _ _ _ _ _ _ => rfl
  | chiSquare =>
    exact .plain (m := Methods.chiSquareNP) (C51_chi_square) rfl rfl rfl rfl (fun _ _ _ => rfl) (fun _ _ _ => rfl)
      (simple_stretches (solve := solve) (.chiSquare)) fun _ _ _ _ _ _ _ => rfl
  | cmvCircular d =>
    exact .plain (m := Methods.ccsnNP) (C51_cmv_circular d) rfl rfl rfl rfl (fun _ _ _ => rfl) (fun _ _ _ => rfl)
      (simple_stretches (solve := solve) (.cmvCircular d)) fun _ _ _ _ _ _ _ => rfl
  | cmvUnit d =>
    exact .plain (m := Methods.cmvUnitNormalNP) (C51_cmv_unit d) rfl rfl rfl rfl (fun _ _ _ => rfl) (fun _ _ _ => rfl)
      (simple_stretches (solve := solve) (.cmvUnit d)) fun _ _ _ _ _ _ _ => rfl
  | complexNormal =>
    exact .plain (m := Methods.complexNormalNP) (C51_complex_normal) rfl rfl rfl rfl (fun _ _ _ => rfl) (fun _ _ _ => rfl)
      (simple_stretches (solve := solve) (.complexNormal)) fun _ _ _ _ _ _ _ => rfl
  | complexUnit =>
    exact .plain (m := Methods.complexUnitNormalNP) (C51_complex_unit) rfl rfl rfl rfl (fun _ _ _ => rfl) (fun _ _ _ => rfl)
      (simple_stretches (solve := solve) (.complexUnit)) fun _ _ _ _ _ _ _ => rfl
  | dirichlet d =>
    exact .plain (m := Methods.dirichletNP) (C51_dirichlet d) rfl rfl rfl rfl (fun _ _ _ => rfl) (fun _ _ _ => rfl)
      (simple_stretches (solve := solve) (.dirichlet d)) fun _ _ _ _ _ _ _ => rfl
  | exponential =>
    exact .plain (m := Methods.exponentialNP) (C51_exponential) rfl rfl rfl rfl (fun _ _ _ => rfl) (fun _ _ _ => rfl)
      (simple_stretches (solve := solve) (.exponential)) fun _ _ _ _ _ _ _ => rfl
  | gamma =>
    exact .plain (m := Methods.gammaNP) (C51_gamma) rfl rfl rfl rfl (fun _ _ _ => rfl) (fun _ _ _ => rfl)
      (simple_stretches (solve := solve) (.gamma)) fun _ _ _ _ _ _ _ => rfl
  | genDirichlet d =>
    exact .plain (m := Methods.genDirichletNP) (C51_gen_dirichlet d) rfl rfl rfl rfl (fun _ _ _ => rfl) (fun _ _ _ => rfl)
      (simple_stretches (solve := solve) (.genDirichlet d)) fun _ _ _ _ _ _ _ => rfl
  | geometric =>
    exact .plain (m := Methods.geometricNP) (C51_geometric) rfl rfl rfl rfl (fun _ _ _ => rfl) (fun _ _ _ => rfl)
      (simple_stretches (solve := solve) (.geometric)) fun _ _ _ _ _ _ _ => rfl
  | logarithmic =>
    exact .plain (m := Methods.logarithmicNP) (C51_logarithmic) rfl rfl rfl rfl (fun _ _ _ => rfl) (fun _ _ _ => rfl)
      (simple_stretches (solve := solve) (.logarithmic)) fun _ _ _ _ _ _ _ => rfl
  | multinomial d =>
    exact .plain (m := Methods.multinomialNP) (C51_multinomial d) rfl rfl rfl rfl (fun _ _ _ => rfl) (fun _ _ _ => rfl)
      (simple_stretches (solve := solve) (.multinomial d)) fun _ _ _ _ _ _ _ => rfl
  | mvNormal d =>
    exact .plain (m := Methods.mvNormalNP) (C51_mv_normal d) rfl rfl rfl rfl (fun _ _ _ => rfl) (fun _ _ _ => rfl)
      (simple_stretches (solve := solve) (.mvNormal d)) fun _ _ _ _ _ _ _ => rfl
  | mvDiagonal d =>
    exact .plain (m := Methods.diagonalNormalNP) (C51_mv_diagonal d) rfl rfl rfl rfl (fun _ _ _ => rfl) (fun _ _ _ => rfl)
      (simple_stretches (solve := solve) (.mvDiagonal d)) fun _ _ _ _ _ _ _ => rfl
  | mvIsotropic d =>
    exact .plain (m := Methods.isotropicNormalNP) (C51_mv_isotropic d) rfl rfl rfl rfl (fun _ _ _ => rfl) (fun _ _ _ => rfl)
      (simple_stretches (solve := solve) (.mvIsotropic d)) fun _ _ _ _ _ _ _ => rfl
  | mvUnit d =>
    exact .plain (m := Methods.mvUnitNormalNP) (C51_mv_unit d) rfl rfl rfl rfl (fun _ _ _ => rfl) (fun _ _ _ => rfl)
      (simple_stretches (solve := solve) (.mvUnit d)) fun _ _ _ _ _ _ _ => rfl
  | normal =>
    exact .plain (m := Methods.normalNP) (C51_normal) rfl rfl rfl rfl (fun _ _ _ => rfl) (fun _ _ _ => rfl)
      (simple_stretches (solve := solve) (.normal)) fun _ _ _ _ _ _ _ => rfl
  | unitNormal =>
    exact .plain (m := Methods.unitNormalNP) (C51_unit_normal) rfl rfl rfl rfl (fun _ _ _ => rfl) (fun _ _ _ => rfl)
      (simple_stretches (solve := solve) (.unitNormal)) fun _ _ _ _ _ _ _ => rfl
  | poisson =>
    exact .plain (m := Methods.poissonNP) (C51_poisson) rfl rfl rfl rfl (fun _ _ _ => rfl) (fun _ _ _ => rfl)
      (simple_stretches (solve := solve) (.poisson)) fun _ _ _ _ _ _ _ => rfl
  | rayleigh =>
    exact .plain (m := Methods.rayleighNP) (C51_rayleigh) rfl rfl rfl rfl (fun _ _ _ => rfl) (fun _ _ _ => rfl)
      (simple_stretches (solve := solve) (.rayleigh)) fun _ _ _ _ _ _ _ => rfl
  | mvFixed d =>
    refine .simple (m := Methods.fixedVarianceNormalNP)
      (fixed := fun rs p => [("variance", .real (scalars rs p))]) rfl rfl rfl rfl (fun _ _ _ => rfl)
      (fun _ _ _ => rfl) (fun {rs rs' r} hb _ p q x v h => .of_scalars ?_)
      fun {rs rs' r} hb _ p x v h => ?_
    · simp only [Methods.fixedVarianceNormalNP, layVFixed, show v.toR = _ from h, toR_real]
      calc_simp
      rw [bin_scalars_bcast _ ((bcast_comm _ _).trans hb)]
      rfl
    · exact ⟨[v, .real (scalars rs p)], rfl, rfl, List.Forall₂.cons ⟨rfl, rs', hb,
        Repeats.congr (stretchV (wider_of_bcast hb).2 x).2 (toC_of_toR h)⟩ .nil⟩
  | vonMisesFisher d =>
    refine .simple (m := Methods.vonMisesFisherNP) (fixed := noFixed) rfl rfl rfl rfl
      (fun _ _ _ => rfl) (fun _ _ _ => rfl) (fun {rs rs' r} hb _ p q x v h =>
        ⟨rs, fun _ => 0, (wider_of_bcast hb).1, ?_, fun _ _ => rfl⟩) fun {rs rs' r} hb _ p x v h => ?_
    · simp only [Methods.vonMisesFisherNP, layE, toR_real]
      calc_simp
    · exact ⟨[v], rfl, rfl, .cons ⟨rfl, rs', hb, Repeats.congr (stretchV (wider_of_bcast hb).2 fun i k => (x i).1 k).2 (toC_of_toR h)⟩ .nil⟩
  | negativeBinomial =>
    replace h := h.resolve_left fun h => h.1 rfl
    refine .simple (m := Methods.negativeBinomialNP)
      (fixed := fun rs (p : List ℕ → ℕ) => [("failures", .int (scalars rs fun i => (p i : ℤ)))]) rfl rfl rfl rfl
      (fun _ _ _ => rfl) (fun _ _ _ => rfl) (fun {rs rs' r} hb hf p q x v ho => .of_scalars ?_)
      fun {rs rs' r} hb hf p x v ho => ?_
    · obtain rfl := h _ _ hf
      simp only [Methods.negativeBinomialNP, Methods.nbCarrier, laySFixedInt, show v.toR = _ from ho,
        toR_int_scalars, Int.cast_natCast]
      have e := wider_of_bcast hb
      simp only [Calc.add_eq, bin_scalars_bcast _ e.1.bcast']
      calc_simp
      refine congrArg ok (scalars_congr fun i hi => ?_)
      simp only [bidx_self hi]
      rfl
    · obtain rfl := h _ _ hf
      have e := wider_of_bcast hb
      have hg : Dict.get [("failures", Val.int (scalars rs fun i => (p i : ℤ)))] "failures" =
        .ok (Val.int (scalars rs fun i => (p i : ℤ))) := rfl
      simp only [Methods.negativeBinomialNP, hg, Bind.bind, Except.bind, show v.toR = _ from ho,
        broadcastLike_bcast e.1, run_ok]
      exact ⟨_, rfl, rfl, .cons ⟨rfl, r, hb, Repeats.congr (stretchS (.refl r) fun i => ((x i : ℕ) : ℝ)).2 (toC_of_toR ho)⟩ .nil⟩
  | weibull =>
    replace h := h.resolve_left fun h => h.2 rfl
    refine .simple (m := Methods.weibullNP)
      (fixed := fun rs p => [("concentration", .real (scalars rs p))]) rfl rfl rfl rfl
      (fun _ _ _ => rfl) (fun _ _ _ => rfl) (fun {rs rs' r} hb hf p q x v ho => .of_scalars ?_)
      fun {rs rs' r} hb hf p x v ho => ?_
    · obtain rfl := h _ _ hf
      have e := wider_of_bcast hb
      simp only [Methods.weibullNP, layFixedS, show v.toR = _ from ho, toR_real]
      calc_simp
      rw [bin_scalars_bcast _ e.1.bcast]
      rfl
    · obtain rfl := h _ _ hf
      have e := wider_of_bcast hb
      have hg : Dict.get [("concentration", Val.real (scalars rs p))] "concentration" =
        .ok (Val.real (scalars rs p)) := rfl
      simp only [Methods.weibullNP, hg, Bind.bind, Except.bind, show v.toR = _ from ho, toR_real,
        broadcastLike_bcast e.1, bin_scalars_bcast _ e.1.bcast']
      vals_simp
      exact ⟨_, rfl, rfl, .cons ⟨rfl, r, hb, Repeats.of_toC (s := []) rfl rfl⟩ .nil⟩

theorem library_broadcasts (hs : solve.For search) {K : Kind Cls} (hK : LibraryKind solve K) :
    K.Broadcasts (library search) fun r rs' => r = rs' := by
  induction hK with
  | simple s => exact simple_broadcasts s (.inr fun _ _ h => h)
  | joint h0 hn hl ih =>
    obtain ⟨h1, h2⟩ := Parts.Ok.ofList (fun nk h => C51_library hs (hl nk h)) hn
    refine Spec.Kind.Broadcasts.joint rfl rfl rfl rfl h1 (.ofList ih) ?_
    rw [h2]
    simpa using h0

theorem Spec.LooseKind.library {K : Kind Cls} (hK : LooseKind solve K) : LibraryKind solve K := by
  induction hK with
  | simple => exact .simple _
  | joint h0 hn _ ih => exact .joint h0 hn ih

theorem loose_broadcasts (hs : solve.For search) {K : Kind Cls} (hK : LooseKind solve K) :
    K.Broadcasts (library search) fun _ _ => True := by
  induction hK with
  | simple h1 h2 => exact simple_broadcasts _ (.inl ⟨h1, h2⟩)
  | joint h0 hn hl ih =>
    obtain ⟨h1, h2⟩ := Parts.Ok.ofList (fun nk h => C51_library hs (hl nk h).library) hn
    refine Spec.Kind.Broadcasts.joint rfl rfl rfl rfl h1 (.ofList ih) ?_
    rw [h2]
    simpa using h0

theorem log_pdf_broadcast {L : Library Cls} {K : Kind Cls} {fit : List ℕ → List ℕ → Prop} (h : K.Ok L)
    (hst : K.Stretches) (h' : K.Broadcasts L fit) {rs rs' r : List ℕ} (hb : bcast rs rs' = .ok r)
    (hf : fit r rs') (p : List ℕ → K.P) (q : List ℕ → K.N) (x : List ℕ → K.X) (t : Tree Val)
    (ht : K.obs rs' x t) : (K.nat rs p q).logPdf L t = ok (scalars r fun i =>
      (K.F (p (bidx rs i))).logPdf (q (bidx rs i)) (x (bidx rs' i))) := by
  obtain ⟨w1, w2⟩ := wider_of_bcast hb
  obtain ⟨est, he⟩ := h.estimator rs p q
  obtain ⟨w, h1, h2⟩ := h'.stat hb hf p q x t ht
  have h3 := (C25_estimator_from_natural (h.wfN _ _ _) he (h.distinct _ _ _ ht)).2 h1
  have hw := h2.wf (h.wfE _ _ _)
  have hd : dotCalc (K.nat rs p q) w = ok (scalars r fun i =>
      (K.F (p (bidx rs i))).dot (q (bidx rs i)) ((K.F (p (bidx rs i))).stat (x (bidx rs' i)))) := by
    rw [← h.dotCalc r (fun i => p (bidx rs i)) (fun i => p (bidx rs i)) (fun i => q (bidx rs i))
      fun i => (K.F (p (bidx rs i))).stat (x (bidx rs' i))]
    exact paramDot_repeats (h.wfN _ _ _) (h.wfN _ _ _) hw (h.wfE _ _ _) (hst.nat w1 p q).variables
      h2.values (h.dotMatch _ _ _ _ _)
  simp only [Dist.logPdf, Bind.bind, Except.bind, he, h3]
  rw [hd, h.logNormalizer]
  refine (congrArg (· + _) (bin_scalars_bcast (· - ·) w1.bcast' _ _)).trans
    ((h'.carrier hb hf p q x t ht).add_full.trans (congrArg ok (scalars_congr fun i hi => ?_)))
  rw [bidx_self hi]
  rfl

/-- Distributions of shape `(3,)` and `(2, 1)`. -/
theorem broadcast_example : Broadcast [3] [1, 2] [3, 2] :=
  ⟨rfl, fun
    | 0 => .inr (.inr ⟨rfl, rfl⟩)
    | 1 => .inr (.inl ⟨rfl, rfl⟩)
    | _ + 2 => .inl ⟨rfl, rfl⟩⟩

example : along [3] [2, 1] = [2] ∧ along [1, 2] [2, 1] = [0, 1] := ⟨rfl, rfl⟩

/-- Two distributions and one observation. -/
theorem broadcast_one : Broadcast [2] [] [2] :=
  ⟨rfl, fun
    | 0 => .inr (.inr ⟨rfl, rfl⟩)
    | _ + 1 => .inl ⟨rfl, rfl⟩⟩

/-- One distribution and two observations. -/
theorem broadcast_many : Broadcast [] [2] [2] :=
  ⟨rfl, fun
    | 0 => .inr (.inl ⟨rfl, rfl⟩)
    | _ + 1 => .inl ⟨rfl, rfl⟩⟩

theorem broadcast_none : ¬ ∃ r, Broadcast [2] [3] r := fun ⟨_, h⟩ => by
  rcases h.axis 0 with h | h | h <;> exact absurd h.1 (by decide)

/-- A batch of rates and a batch of means of exponential distributions. -/
noncomputable def rates (rs : List ℕ) : Dist Cls :=
  (Simple.exponential.kind (solverOf zeroMinimizer)).nat rs (fun _ => ()) fun i => (-1 - i.sum : ℝ)

noncomputable def means (rs : List ℕ) : Dist Cls :=
  (Simple.exponential.kind (solverOf zeroMinimizer)).exp rs (fun _ => ()) fun i => (1 + i.sum : ℝ)

theorem rates_valid (i : List ℕ) :
    (Simple.exponential.kind (solverOf zeroMinimizer)).dom () (-1 - i.sum : ℝ) := by
  trivial

/-! ### Two distributions -/

/-- **C97.** `parameter_dot_product(x, y)` of a batch of natural and a batch of expectation parameters whose
shapes broadcast. -/
theorem C97_dot_product (hs : solve.For search) {K : Kind Cls} (hK : LibraryKind solve K)
    {rs rs' r : List ℕ} (hb : Broadcast rs rs' r) (p p' : List ℕ → K.P) (q : List ℕ → K.N) (χ : List ℕ → K.E) :
    dotCalc (K.nat rs p q) (K.exp rs' p' χ) =
      ok (scalars r fun i => (K.F (p (along rs i))).dot (q (along rs i)) (χ (along rs' i))) := by
  simp only [along_eq]
  exact dotCalc_bcast (C51_library hs hK) (library_stretches hK) (bcast_iff.2 hb) p p' q χ

example : dotCalc (rates [3]) (means [1, 2]) =
    ok (scalars [3, 2] fun i => Efax.exponential.dot (-1 - ((along [3] i).sum : ℝ))
      (1 + ((along [1, 2] i).sum : ℝ))) :=
  C97_dot_product (C51_search zeroMinimizer_returns) (.simple .exponential) broadcast_example _ _ _ _

/-- **C97.** `cross_entropy(q)` of two batches whose shapes broadcast; the fixed parameters of the
distributions that meet agree. -/
theorem C97_cross_entropy (hs : solve.For search) {K : Kind Cls} (hK : LibraryKind solve K) (he : K.ent)
    {rs rs' r : List ℕ} (hb : Broadcast rs rs' r) (p p' : List ℕ → K.P) (χ : List ℕ → K.E) (q : List ℕ → K.N)
    (hp : ∀ i, inB r i = true → p' (along rs' i) = p (along rs i)) :
    (K.exp rs p χ).crossEntropy (library search) (K.nat rs' p' q) = ok (scalars r fun i =>
      (K.F (p (along rs i))).crossEntropy (K.ecm (p (along rs i))) (χ (along rs i)) (q (along rs' i))) := by
  have h := C51_library hs hK
  have hb := bcast_iff.2 hb
  obtain ⟨w1, w2⟩ := wider_of_bcast hb
  simp only [along_eq] at hp ⊢
  rw [Dist.crossEntropy, dotCalc_bcast h (library_stretches hK) ((bcast_comm _ _).trans hb), h.logNormalizer,
    h.ecm he, scalars_neg]
  refine (congrArg (· - _) (bin_scalars_bcast (· + ·) w2.bcast' _ _)).trans
    ((bin_scalars_bcast (· - ·) w1.bcast' _ _).trans (congrArg ok (scalars_congr fun i hi => ?_)))
  rw [bidx_self hi, bidx_self hi, hp i hi, ExpFam.crossEntropy]

example : ∃ f, (means [3]).crossEntropy (library (searchFor zeroMinimizer)) (rates [1, 2]) =
    ok (scalars [3, 2] f) :=
  ⟨_, C97_cross_entropy (C51_search zeroMinimizer_returns) (.simple .exponential) trivial broadcast_example _ _ _ _ fun _ _ => rfl⟩

/-- **C97.** `kl_divergence(q, self_nat=n)` of two batches whose shapes broadcast. -/
theorem C97_kl_with (hs : solve.For search) {K : Kind Cls} (hK : LibraryKind solve K)
    {rs rs' r : List ℕ} (hb : Broadcast rs rs' r) (p p' : List ℕ → K.P) (χ : List ℕ → K.E) (n q : List ℕ → K.N)
    (hp : ∀ i, inB r i = true → p' (along rs' i) = p (along rs i)) :
    (K.exp rs p χ).klE (library search) (K.nat rs' p' q) (some (K.nat rs p n)) = ok (scalars r fun i =>
      (K.F (p (along rs i))).klWith (χ (along rs i)) (n (along rs i)) (q (along rs' i))) := by
  simp only [along_eq] at hp ⊢
  exact klWith_bcast (C51_library hs hK) (library_stretches hK) (bcast_iff.2 hb) p p' χ n q hp

example : ∃ f, (means [3]).klE (library (searchFor zeroMinimizer)) (rates [1, 2]) (some (rates [3])) =
    ok (scalars [3, 2] f) :=
  ⟨_, C97_kl_with (C51_search zeroMinimizer_returns) (.simple .exponential) broadcast_example _ _ _ _ _ fun _ _ => rfl⟩

/-- **C97.** `kl_divergence(q)` of a batch of expectation parameters. -/
theorem C97_kl_expectation (hs : solve.For search) {K : Kind Cls} (hK : LibraryKind solve K)
    {rs rs' r : List ℕ} (hb : Broadcast rs rs' r) (p p' : List ℕ → K.P) (χ : List ℕ → K.E) (q : List ℕ → K.N)
    (hp : ∀ i, inB r i = true → p' (along rs' i) = p (along rs i))
    (hd : ∀ i, inB rs i = true → K.domE (p i) (χ i)) :
    (K.exp rs p χ).klE (library search) (K.nat rs' p' q) = ok (scalars r fun i =>
      (K.F (p (along rs i))).klE (K.toNat (p (along rs i))) (χ (along rs i)) (q (along rs' i))) := by
  have := C97_kl_with hs hK hb p p' χ (fun i => K.toNat (p i) (χ i)) q hp
  rw [← show (K.exp rs p χ).klE (library search) (K.nat rs' p' q) = (K.exp rs p χ).klE (library search)
    (K.nat rs' p' q) (some (K.nat rs p fun i => K.toNat (p i) (χ i))) by
      simp only [Dist.klE, Bind.bind, Except.bind, (C51_library hs hK).toNat rs p χ hd]; rfl] at this
  exact this

example : ∃ f, (means [3]).klE (library (searchFor zeroMinimizer)) (rates [1, 2]) = ok (scalars [3, 2] f) :=
  ⟨_, C97_kl_expectation (C51_search zeroMinimizer_returns) (.simple .exponential) broadcast_example _ _ _ _ (fun _ _ => rfl)
    fun _ _ => trivial⟩

/-- **C97.** `kl_divergence(q)` of a batch of natural parameters. -/
theorem C97_kl_natural (hs : solve.For search) {K : Kind Cls} (hK : LibraryKind solve K)
    {rs rs' r : List ℕ} (hb : Broadcast rs rs' r) (p p' : List ℕ → K.P) (a q : List ℕ → K.N)
    (hp : ∀ i, inB r i = true → p' (along rs' i) = p (along rs i))
    (hd : ∀ i, inB rs i = true → K.dom (p i) (a i)) :
    (K.nat rs p a).klN (library search) (K.nat rs' p' q) = ok (scalars r fun i =>
      (K.F (p (along rs i))).kl (a (along rs i)) (q (along rs' i))) := by
  simp only [Dist.klN, Bind.bind, Except.bind, (C51_library hs hK).toExp rs p a hd]
  exact C97_kl_with hs hK hb p p' _ a q hp

example : ∃ f, (rates [3]).klN (library (searchFor zeroMinimizer)) (rates [1, 2]) = ok (scalars [3, 2] f) :=
  ⟨_, C97_kl_natural (C51_search zeroMinimizer_returns) (.simple .exponential) broadcast_example _ _ _ _ (fun _ _ => rfl)
    fun i _ => rates_valid i⟩

/-- **C97.** Batches whose shapes do not broadcast: the product, the cross entropy and the divergence
raise `ValueError`. -/
theorem C97_incompatible (hs : solve.For search) {K : Kind Cls} (hK : LibraryKind solve K)
    {rs rs' : List ℕ} (hb : ¬ ∃ r, Broadcast rs rs' r) (p p' : List ℕ → K.P) (χ : List ℕ → K.E)
    (a q : List ℕ → K.N) :
    dotCalc (K.nat rs' p' q) (K.exp rs p χ) = fail .valueError ∧
    (K.exp rs p χ).crossEntropy (library search) (K.nat rs' p' q) = fail .valueError ∧
    (K.exp rs p χ).klE (library search) (K.nat rs' p' q) (some (K.nat rs p a)) = fail .valueError ∧
    ((∀ i, inB rs i = true → K.dom (p i) (a i)) →
      (K.nat rs p a).klN (library search) (K.nat rs' p' q) = fail .valueError) := by
  have h := C51_library hs hK
  have hb := not_broadcast hb
  have h1 := dotCalc_incompatible h (library_stretches hK) ((bcast_comm _ _).trans hb) p' p q χ
  have h2 : ∀ χ : List ℕ → K.E, (K.exp rs p χ).klE (library search) (K.nat rs' p' q) (some (K.nat rs p a)) =
      fail .valueError := by
    intro χ
    simp only [Dist.klE, Bind.bind, Except.bind,
      difference_incompatible h (library_stretches hK) hb p p' a q (χ [])]
    rfl
  refine ⟨h1, ?_, h2 χ, fun hd => ?_⟩
  · rw [Dist.crossEntropy, h1]
    rfl
  · simp only [Dist.klN, Bind.bind, Except.bind, h.toExp rs p a hd]
    exact h2 _

example : (rates [2]).klN (library (searchFor zeroMinimizer)) (rates [3]) = fail .valueError :=
  (C97_incompatible (C51_search zeroMinimizer_returns) (.simple .exponential) broadcast_none (fun _ => ()) (fun _ => ()) (fun _ => (0 : ℝ))
    _ _).2.2.2 fun i _ => rates_valid i

/-! ### Observations -/

/-- **C97.** `log_pdf(x)` of a batch of distributions at observations of any shape that broadcasts with it:
one observation for all distributions, one distribution for all observations, and every mixture of
the two. -/
theorem C97_log_pdf (hs : solve.For search) {K : Kind Cls} (hK : LooseKind solve K)
    {rs rs' r : List ℕ} (hb : Broadcast rs rs' r) (p : List ℕ → K.P) (q : List ℕ → K.N) (x : List ℕ → K.X)
    (t : Tree Val) (ht : K.obs rs' x t) : (K.nat rs p q).logPdf (library search) t = ok (scalars r fun i =>
      (K.F (p (along rs i))).logPdf (q (along rs i)) (x (along rs' i))) := by
  simp only [along_eq]
  exact log_pdf_broadcast (C51_library hs hK.library) (library_stretches hK.library)
    (loose_broadcasts hs hK) (bcast_iff.2 hb) trivial p q x t ht

example : ∃ f, (rates [2]).logPdf (library (searchFor zeroMinimizer)) (.leaf (.real (scalars [] fun _ => 3))) =
    ok (scalars [2] f) :=
  ⟨_, C97_log_pdf (C51_search zeroMinimizer_returns) (.simple nofun nofun : LooseKind _ (Simple.exponential.kind _)) broadcast_one
    _ _ (fun _ => (3 : ℝ)) _ ⟨_, rfl, rfl⟩⟩

/-- **C97.** `log_pdf(x)` of every kind of distributions, if the shape of the observations is that of the
result. -/
theorem C97_log_pdf_observations (hs : solve.For search) {K : Kind Cls} (hK : LibraryKind solve K)
    {rs r : List ℕ} (hb : Broadcast rs r r) (p : List ℕ → K.P) (q : List ℕ → K.N) (x : List ℕ → K.X)
    (t : Tree Val) (ht : K.obs r x t) : (K.nat rs p q).logPdf (library search) t = ok (scalars r fun i =>
      (K.F (p (along rs i))).logPdf (q (along rs i)) (x i)) := by
  simp only [along_eq]
  rw [log_pdf_broadcast (C51_library hs hK) (library_stretches hK)
    (library_broadcasts hs hK) (bcast_iff.2 hb) rfl p q x t ht]
  exact congrArg ok (scalars_congr fun i hi => by rw [bidx_self hi])

example : ∃ f, ((Simple.weibull.kind (solverOf zeroMinimizer)).nat [] (fun _ => (2 : ℝ)) fun _ => (-1 : ℝ)).logPdf
    (library (searchFor zeroMinimizer)) (.leaf (.real (scalars [2] fun i => 1 + i.sum))) = ok (scalars [2] f) :=
  ⟨_, C97_log_pdf_observations (C51_search zeroMinimizer_returns) (.simple .weibull) broadcast_many _ _
    (fun i => (1 + i.sum : ℝ)) _ ⟨_, rfl, rfl⟩⟩

omit [MachEps] in
theorem broadcastLike_short {α β : Type} [Inhabited α] [Inhabited β] {rs rs' r : List ℕ}
    (hb : bcast rs rs' = .ok r) (hr : r ≠ rs') (a : List ℕ → α) (b : List ℕ → β) :
    broadcastLike (ok (scalars rs a)) (ok (scalars rs' b)) = fail .valueError := by
  simp only [broadcastLike, bind_ok, scalars, Arr.ofFn_rshape, hb]
  exact if_neg hr

theorem logPdf_error {L : Library Cls} {d : Dist Cls} {t : Tree Val} {x : Err}
    (h : (createEstimatorFromNatural d >>= fun e => e.sufficientStatistics L.stat t) = .error x) :
    d.logPdf L t = fail x := by
  cases e : createEstimatorFromNatural d with
  | error y =>
    rw [e] at h
    cases h
    simp only [Dist.logPdf, e, Bind.bind, Except.bind]
    rfl
  | ok est =>
    rw [e] at h
    have h : est.sufficientStatistics L.stat t = .error x := h
    simp only [Dist.logPdf, e, Bind.bind, Except.bind, h]
    rfl

/-- **C97.** A batch of negative binomial distributions at observations whose shape broadcasts, but is not
that of the result, such as one observation for two distributions: `log_pdf` raises `ValueError`, because
`failures` is broadcast to the shape of the observations. -/
theorem C97_negative_binomial_negation {rs rs' r : List ℕ} (hb : Broadcast rs rs' r) (hr : r ≠ rs')
    (p : List ℕ → ℕ) (q : List ℕ → ℝ) (x : List ℕ → ℕ) :
    ((Simple.kind solve .negativeBinomial).nat rs p q).logPdf (library search)
      (.leaf (.int (scalars rs' fun i => (x i : ℤ)))) = fail .valueError := by
  have hst : (library search).stat .negativeBinomialNP (.int (scalars rs' fun i => (x i : ℤ)))
      [("failures", .int (scalars rs fun i => (p i : ℤ)))] = .error .valueError := by
    have h : Methods.negativeBinomialNP.stat (.int (scalars rs' fun i => (x i : ℤ)))
        [("failures", .int (scalars rs fun i => (p i : ℤ)))] = .error .valueError := by
      have hg : Dict.get [("failures", Val.int (scalars rs fun i => (p i : ℤ)))] "failures" =
        .ok (Val.int (scalars rs fun i => (p i : ℤ))) := rfl
      simp only [Methods.negativeBinomialNP, hg, Bind.bind, Except.bind, toR_int_scalars]
      rw [show broadcastLike (.ok (scalars rs fun i => (p i : ℤ))) (ok (scalars rs' fun i => ((x i : ℤ) : ℝ))) =
        fail .valueError from broadcastLike_short (bcast_iff.2 hb) hr _ _]
      rfl
    change (Methods.negativeBinomialNP.stat _ _ >>= fun w => Except.ok (Dist.mk Cls.negativeBinomialEP w .nil)) = _
    rw [h]
    rfl
  obtain ⟨k, k', hk⟩ : ∃ (k : Dist Cls → Except Err (Dict Path (Dist Cls)))
      (k' : Dict Path (Dist Cls) → Except Err (Dist Cls)), ∀ stat : StatFn Cls, (createEstimatorFromNatural
      ((Simple.kind solve .negativeBinomial).nat rs p q) >>= fun e => e.sufficientStatistics stat
        (.leaf (.int (scalars rs' fun i => (x i : ℤ))))) =
      ((stat .negativeBinomialNP (.int (scalars rs' fun i => (x i : ℤ)))
        [("failures", .int (scalars rs fun i => (p i : ℤ)))]).bind k).bind k' := ⟨_, _, fun _ => rfl⟩
  have := hk (library search).stat
  rw [hst] at this
  exact logPdf_error this

example : ((Simple.kind solve .negativeBinomial).nat [2] (fun _ => (3 : ℕ)) fun _ => (-1 : ℝ)).logPdf (library search)
    (.leaf (.int (scalars [] fun _ => ((5 : ℕ) : ℤ)))) = fail .valueError :=
  C97_negative_binomial_negation broadcast_one (by decide) _ _ fun _ => 5

/-- **C97.** So does `log_pdf` of a batch of Weibull distributions, because of `concentration`. -/
theorem C97_weibull_negation {rs rs' r : List ℕ} (hb : Broadcast rs rs' r) (hr : r ≠ rs')
    (p : List ℕ → ℝ) (q : List ℕ → ℝ) (x : List ℕ → ℝ) :
    ((Simple.kind solve .weibull).nat rs p q).logPdf (library search)
      (.leaf (.real (scalars rs' x))) = fail .valueError := by
  have hst : (library search).stat .weibullNP (.real (scalars rs' x))
      [("concentration", .real (scalars rs p))] = .error .valueError := by
    have h : Methods.weibullNP.stat (.real (scalars rs' x)) [("concentration", .real (scalars rs p))] =
        .error .valueError := by
      have hg : Dict.get [("concentration", Val.real (scalars rs p))] "concentration" =
        .ok (Val.real (scalars rs p)) := rfl
      simp only [Methods.weibullNP, hg, Bind.bind, Except.bind, toR_real,
        broadcastLike_short (bcast_iff.2 hb) hr]
      rfl
    change (Methods.weibullNP.stat _ _ >>= fun w => Except.ok (Dist.mk Cls.weibullEP w .nil)) = _
    rw [h]
    rfl
  obtain ⟨k, k', hk⟩ : ∃ (k : Dist Cls → Except Err (Dict Path (Dist Cls)))
      (k' : Dict Path (Dist Cls) → Except Err (Dist Cls)), ∀ stat : StatFn Cls, (createEstimatorFromNatural
      ((Simple.kind solve .weibull).nat rs p q) >>= fun e => e.sufficientStatistics stat
        (.leaf (.real (scalars rs' x)))) =
      ((stat .weibullNP (.real (scalars rs' x))
        [("concentration", .real (scalars rs p))]).bind k).bind k' := ⟨_, _, fun _ => rfl⟩
  have := hk (library search).stat
  rw [hst] at this
  exact logPdf_error this

example : ((Simple.kind solve .weibull).nat [2] (fun _ => (2 : ℝ)) fun _ => (-1 : ℝ)).logPdf (library search)
    (.leaf (.real (scalars [] fun _ => 5))) = fail .valueError :=
  C97_weibull_negation broadcast_one (by decide) _ _ _

end

end Efax
