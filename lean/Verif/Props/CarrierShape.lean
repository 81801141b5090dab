import Verif.Props.Observations

/-!
# C91: the shape of `carrier_measure(x)` at arrays of observations
-/

namespace Efax

open ClassTable Calc Spec

/-- The array `c` has the entries `f` and the shape `rs ++ ss` if `b`, and is the zero array of shape `rs`
otherwise. -/
def Sized (rs ss : List ℕ) (b : Prop) (c : Calc ℝ) (f : List ℕ → ℝ) : Prop :=
  (b → c = ok (scalars (rs ++ ss) f)) ∧ (¬b → c = ok (scalars rs fun _ => 0) ∧ f = fun _ => 0)

theorem Sized.add {rs ss : List ℕ} {b b' : Prop} {c c' : Calc ℝ} {f f' : List ℕ → ℝ} (h : Sized rs ss b c f)
    (h' : Sized rs ss b' c' f') : Sized rs ss (b ∨ b') (c + c') fun i => f i + f' i := by
  rw [Calc.add_eq]
  by_cases hb : b <;> by_cases hb' : b'
  · refine ⟨fun _ => ?_, fun h => absurd (.inl hb) h⟩
    rw [h.1 hb, h'.1 hb']
    calc_simp
  · obtain ⟨e1, rfl⟩ := h'.2 hb'
    refine ⟨fun _ => ?_, fun h => absurd (.inl hb) h⟩
    rw [h.1 hb, e1, bin_scalars_append]
  · obtain ⟨e1, rfl⟩ := h.2 hb
    refine ⟨fun _ => ?_, fun h => absurd (.inr hb') h⟩
    rw [h'.1 hb', e1, bin_scalars_left]
  · obtain ⟨e1, rfl⟩ := h.2 hb
    obtain ⟨e2, rfl⟩ := h'.2 hb'
    refine ⟨fun h => (not_or.2 ⟨hb, hb'⟩ h).elim, fun _ => ⟨?_, funext fun _ => add_zero 0⟩⟩
    rw [e1, e2]
    calc_simp
    simp

theorem Sized.foldl {rs ss : List ℕ} {cs : List (Calc ℝ)} {fs : List (Prop × (List ℕ → ℝ))}
    (hs : List.Forall₂ (fun c f => Sized rs ss f.1 c f.2) cs fs) : ∀ {b : Prop} {c : Calc ℝ} {f : List ℕ → ℝ},
    Sized rs ss b c f → Sized rs ss (b ∨ ∃ g ∈ fs, g.1) (cs.foldl (· + ·) c)
      fun i => f i + (fs.map fun g => g.2 i).sum := by
  induction hs with
  | nil => intro b c f h; simpa using h
  | cons h' _ ih =>
    intro b c f h
    have := ih (h.add h')
    simpa [add_assoc, or_assoc] using this

variable [MachEps] {solve : Solver} {search : Cls → List Val → Except Err (List Val)}

/-- The carrier measures of the objects of a kind have the shape of the observations if some leaf is not a
von Mises–Fisher distribution, and are zero arrays of the shape of the distribution otherwise. -/
def Kind.Sizes (L : Library Cls) (K : Kind Cls) : Prop :=
  ∀ rs ss p q x t, K.obs (rs ++ ss) x t →
    Sized rs ss (¬EachLeaf (fun c _ => c = .vonMisesFisherNP) (K.nat rs p q)) ((K.nat rs p q).carrier L t)
      fun i => (K.F (p (i.take rs.length))).carrier (x i)

theorem sizes_plain (hs : solve.For search) (s : Simple) (h : ∀ d, s ≠ .vonMisesFisher d)
    (hcar : ∀ rs ss p q p' q' t, ((s.kind solve).nat rs p q).carrier (library search) t =
      ((s.kind solve).nat (rs ++ ss) p' q').carrier (library search) t) :
    Kind.Sizes (library search) (s.kind solve) := by
  intro rs ss p q x t ht
  refine ⟨fun _ => ?_, fun hn => ?_⟩
  · exact (hcar rs ss p q (fun i => p (i.take rs.length)) (fun i => q (i.take rs.length)) t).trans
      ((C51_library hs (.simple s)).carrier _ _ _ _ _ ht)
  · refine absurd (not_not.1 hn) fun hl => ?_
    cases s
    case vonMisesFisher d => exact h d rfl
    all_goals exact absurd (hl _ List.mem_cons_self) nofun

theorem sizes_full (s : Simple) (h : ∀ d, s ≠ .vonMisesFisher d)
    (hcar : ∀ rs ss p q x t, (s.kind solve).obs (rs ++ ss) x t →
      ((s.kind solve).nat rs p q).carrier (library search) t =
        ok (scalars (rs ++ ss) fun i => ((s.kind solve).F (p (i.take rs.length))).carrier (x i))) :
    Kind.Sizes (library search) (s.kind solve) := by
  intro rs ss p q x t ht
  refine ⟨fun _ => hcar rs ss p q x t ht, fun hn => ?_⟩
  refine absurd (not_not.1 hn) fun hl => ?_
  cases s
  case vonMisesFisher d => exact h d rfl
  all_goals exact absurd (hl _ List.mem_cons_self) nofun

theorem simple_sizes (hs : solve.For search) (s : Simple) : Kind.Sizes (library search) (s.kind solve) := by
  cases s
  case vonMisesFisher d =>
    intro rs ss p q x t ht
    refine ⟨fun hn => absurd (fun l hl => ?_) hn, fun _ => ⟨?_, rfl⟩⟩
    · rw [List.mem_singleton.1 hl]
    · obtain ⟨v, rfl, h⟩ := ht
      change Methods.vonMisesFisherNP.carrier (layE d rs p q) v = _
      simp only [Methods.vonMisesFisherNP, layE, toR_real]
      calc_simp
  case weibull =>
    refine sizes_full _ nofun fun rs ss (p q x : List ℕ → ℝ) t ht => ?_
    obtain ⟨v, rfl, h⟩ := ht
    change Methods.weibullNP.carrier (layFixedS rs p q) v = _
    simp only [Methods.weibullNP, layFixedS, show v.toR = _ from h, toR_real]
    calc_simp
    rw [bin_scalars_left]
    rfl
  case negativeBinomial =>
    refine sizes_full _ nofun fun rs ss (p : List ℕ → ℕ) (q : List ℕ → ℝ) x t ht => ?_
    obtain ⟨v, rfl, h⟩ := ht
    change Methods.negativeBinomialNP.carrier (laySFixedInt rs p q) v = _
    simp only [Methods.negativeBinomialNP, Methods.nbCarrier, laySFixedInt, show v.toR = _ from h,
      toR_int_scalars, Int.cast_natCast]
    simp only [Calc.add_eq, bin_scalars_append]
    calc_simp
    rfl
  case mvFixed d =>
    refine sizes_full _ nofun fun rs ss (p : List ℕ → ℝ) (q x : List ℕ → Fin d → ℝ) t ht => ?_
    obtain ⟨v, rfl, h⟩ := ht
    change Methods.fixedVarianceNormalNP.carrier (layVFixed d rs p q) v = _
    simp only [Methods.fixedVarianceNormalNP, layVFixed, show v.toR = _ from h, toR_real]
    calc_simp
    rw [bin_scalars_append]
    rfl
  all_goals exact sizes_plain hs _ nofun fun _ _ _ _ _ _ _ => rfl

/-- `Kind.Sizes` for the parts of a joint distribution. -/
def Parts.Sizes (L : Library Cls) (R : Parts Cls) : Prop :=
  ∀ rs ss p q x f, f.keys.Nodup → R.obs (rs ++ ss) x f → ∃ l : List (Prop × (List ℕ → ℝ)),
    List.Forall₂ (fun c f => Sized rs ss f.1 c f.2) (Subs.carriers L (R.nat rs p q) f) l ∧
    l.length = R.names.length ∧
    ((∃ g ∈ l, g.1) ↔ ¬∀ d ∈ leavesOf (R.nat rs p q), match d with | .mk c _ _ => c = .vonMisesFisherNP) ∧
    ∀ i, (l.map fun g => g.2 i).sum = (R.F (p (i.take rs.length))).carrier (x i)

theorem parts_sizes {L : Library Cls} : (l : List (String × Kind Cls)) → (∀ nk ∈ l, Kind.Sizes L nk.2) →
    Parts.Sizes L (.ofList l)
  | [], _ => fun _ _ _ _ _ _ _ _ => ⟨[], .nil, rfl, by simp [Parts.ofList, Parts.nil, leavesOf], fun _ => rfl⟩
  | nk :: l, hl => by
    intro rs ss p q x f hf h
    obtain ⟨⟨t, ht, ho⟩, h⟩ := h
    obtain ⟨r, h1, h2, h3, h4⟩ := parts_sizes l (fun nk' h' => hl nk' (List.mem_cons_of_mem _ h')) rs ss
      (fun i => (p i).2) (fun i => (q i).2) _ f hf h
    have hk := hl nk List.mem_cons_self rs ss (fun i => (p i).1) (fun i => (q i).1) _ t ho
    refine ⟨(¬EachLeaf (fun c _ => c = .vonMisesFisherNP) (nk.2.nat rs (fun i => (p i).1) fun i => (q i).1),
      fun i => (nk.2.F (p (i.take rs.length)).1).carrier (x i).1) :: r, .cons ?_ h1, ?_, ?_, fun i => ?_⟩
    · rw [Forest.get?_of_mem hf ht]
      exact hk
    · simp [Parts.ofList, Parts.cons, h2]
    · simp only [List.mem_cons, exists_eq_or_imp, h3, Parts.ofList, Parts.cons, leavesOf, List.mem_append, EachLeaf]
      rw [← not_and_or]
      refine not_congr ⟨fun h d hd => hd.elim (h.1 d) (h.2 d), fun h => ⟨fun d hd => h d (.inl hd), fun d hd => h d (.inr hd)⟩⟩
    · simp [Parts.ofList, Parts.cons, prodFam, h4]

theorem library_sizes (hs : solve.For search) {K : Kind Cls} (hK : LibraryKind solve K) :
    Kind.Sizes (library search) K := by
  induction hK with
  | simple s => exact simple_sizes hs s
  | @joint l h0 hn hl ih =>
    obtain ⟨hO, h2⟩ := Parts.Ok.ofList (fun nk h => C51_library hs (hl nk h)) hn
    intro rs ss p q x t ht
    obtain ⟨f, rfl, hf, ho, hk⟩ := ht
    obtain ⟨r, r1, r2, r3, r4⟩ := parts_sizes l ih rs ss p q x f hf ho
    have hnil : (f.keys.filter fun n => n ∉ ((Parts.ofList l).nat rs p q).names) = [] := by
      rw [List.filter_eq_nil_iff]
      intro n hn
      have : n ∈ ((Parts.ofList l).nat rs p q).names := (hO.namesN rs p q).symm ▸ hk n hn
      simpa using this
    have hc : (Kind.joint .jointN .jointE (Parts.ofList l)).nat rs p q = .mk .jointN [] ((Parts.ofList l).nat rs p q) := rfl
    have he : Dist.carrier (library search) ((Kind.joint .jointN .jointE (Parts.ofList l)).nat rs p q) (.node f) =
        reduceCalc (Subs.carriers (library search) ((Parts.ofList l).nat rs p q) f) := by
      have hj : isJoint Cls.jointN = true := rfl
      have hx : expCls Cls.jointN = some Cls.jointE := rfl
      rw [hc]
      simp only [Dist.carrier, hj, hx]
      rw [hnil, List.map_nil, List.append_nil]
    have hleaf : (¬EachLeaf (fun c _ => c = Cls.vonMisesFisherNP)
        ((Kind.joint .jointN .jointE (Parts.ofList l)).nat rs p q)) ↔ ∃ g ∈ r, g.1 := r3.symm
    rw [he, hleaf]
    have hr : r ≠ [] := by
      intro e
      rw [e, h2] at r2
      simp only [List.length_nil] at r2
      exact h0 (by simpa using (List.length_eq_zero_iff.1 r2.symm))
    have r4' : (fun i => ((Kind.joint .jointN .jointE (Parts.ofList l)).F (p (i.take rs.length))).carrier (x i)) =
        fun i => (r.map fun g => g.2 i).sum := funext fun i => (r4 i).symm
    rw [r4']
    generalize Subs.carriers (library search) ((Parts.ofList l).nat rs p q) f = cs at r1
    cases r1 with
    | nil => exact absurd rfl hr
    | cons a1 as =>
      have := Sized.foldl as a1
      simpa only [List.mem_cons, exists_eq_or_imp, List.map_cons, List.sum_cons, reduceCalc] using this

/-- **C91.** `carrier_measure(x)` of a batch of distributions, simple or joint, at observations with additional
leading axes has the shape of the observations, and in every entry the carrier measure at the observation, as soon
as one of the simple distributions it consists of is not a von Mises–Fisher distribution. -/
theorem C91_carrier (hs : solve.For search) {K : Kind Cls} (hK : LibraryKind solve K) (rs ss : List ℕ)
    (p : List ℕ → K.P) (q : List ℕ → K.N) (x : List ℕ → K.X) (t : Tree Val) (ht : K.obs (rs ++ ss) x t)
    (h : ¬EachLeaf (fun c _ => c = .vonMisesFisherNP) (K.nat rs p q)) :
    (K.nat rs p q).carrier (library search) t =
      ok (scalars (rs ++ ss) fun i => (K.F (p (i.take rs.length))).carrier (x i)) :=
  (library_sizes hs hK rs ss p q x t ht).1 h

/-- **C91.** The carrier measure of a von Mises–Fisher distribution, and of a joint distribution that consists of
them, has the shape of the distribution. -/
theorem C91_von_mises_fisher (hs : solve.For search) {K : Kind Cls} (hK : LibraryKind solve K) (rs ss : List ℕ)
    (p : List ℕ → K.P) (q : List ℕ → K.N) (x : List ℕ → K.X) (t : Tree Val) (ht : K.obs (rs ++ ss) x t)
    (h : EachLeaf (fun c _ => c = .vonMisesFisherNP) (K.nat rs p q)) :
    (K.nat rs p q).carrier (library search) t = ok (scalars rs fun _ => 0) :=
  ((library_sizes hs hK rs ss p q x t ht).2 (not_not.2 h)).1

/-- **C91.** So the shape of `carrier_measure(x)` is that of `log_pdf(x)` (the shape of the observations) exactly
if there are no additional axes, or some simple distribution is not a von Mises–Fisher distribution. -/
theorem C91_shape (hs : solve.For search) {rs ss : List ℕ} {d : Dist Cls} (h : NaturalBatch rs d) {x : Tree Val}
    (hx : Observed (rs ++ ss) d x) :
    ∃ a b, d.carrier (library search) x = ok a ∧ d.logPdf (library search) x = ok b ∧ b.rshape = rs ++ ss ∧
      (a.rshape = b.rshape ↔ ss = [] ∨ ¬EachLeaf (fun c _ => c = .vonMisesFisherNP) d) := by
  obtain ⟨K, hK, p, q, rfl⟩ := C51_every_natural (solve := solve) d h.1 h.2
  obtain ⟨y, hy⟩ := observed_obs hK hx
  by_cases hl : EachLeaf (fun c _ => c = .vonMisesFisherNP) (K.nat rs p q)
  · refine ⟨_, _, C91_von_mises_fisher hs hK rs ss p q y x hy hl, C67_log_pdf hs hK rs ss p q y x hy, rfl, ?_⟩
    have : rs = rs ++ ss ↔ ss = [] := by simp
    exact this.trans ⟨.inl, fun h => h.resolve_right (not_not.2 hl)⟩
  · exact ⟨_, _, C91_carrier hs hK rs ss p q y x hy hl, C67_log_pdf hs hK rs ss p q y x hy, rfl,
      fun _ => .inr hl, fun _ => rfl⟩

/-- Non-vacuity: three joint distributions and five observations of each. -/
example : ∃ a b, Samples.joint.carrier (library (searchFor zeroMinimizer)) Samples.observations = ok a ∧
    Samples.joint.logPdf (library (searchFor zeroMinimizer)) Samples.observations = ok b ∧
    b.rshape = [3] ++ [5] ∧ (a.rshape = b.rshape ↔
      [5] = [] ∨ ¬EachLeaf (fun c _ => c = .vonMisesFisherNP) Samples.joint) :=
  C91_shape (C51_search zeroMinimizer_returns) Samples.joint_batch Samples.observedMany

/-- **C91, violated for the von Mises–Fisher distribution.** For one distribution on the circle and five
observations, `log_pdf(x)` has five numbers but `carrier_measure(x)` is a number. -/
theorem C91_violated (hs : solve.For search) (η : EuclideanSpace ℝ (Fin 2))
    (x : List ℕ → Metric.sphere (0 : EuclideanSpace ℝ (Fin 2)) 1) :
    ∃ a b, (Dist.mk Cls.vonMisesFisherNP [.real (vectors [] fun _ k => η k)] .nil).carrier (library search)
        (.leaf (.real (vectors [5] fun i k => (x i).1 k))) = ok a ∧
      (Dist.mk Cls.vonMisesFisherNP [.real (vectors [] fun _ k => η k)] .nil).logPdf (library search)
        (.leaf (.real (vectors [5] fun i k => (x i).1 k))) = ok b ∧ a.rshape = [] ∧ b.rshape = [5] := by
  have ho : ((Simple.vonMisesFisher 2).kind solve).obs ([] ++ [5]) x
      (.leaf (.real (vectors [5] fun i k => (x i).1 k))) := ⟨_, rfl, rfl⟩
  refine ⟨_, _, C91_von_mises_fisher hs (.simple (.vonMisesFisher 2)) [] [5] (fun _ => ()) (fun _ => η) x _ ho ?_,
    C67_log_pdf hs (.simple (.vonMisesFisher 2)) [] [5] (fun _ => ()) (fun _ => η) x _ ho, rfl, rfl⟩
  intro l hl
  rw [List.mem_singleton.1 hl]

/-- Non-vacuity of `C91_carrier`: the conditions hold for every batch of Poisson distributions and counts. -/
example (hs : solve.For search) (rs ss : List ℕ) (q : List ℕ → ℝ) (x : List ℕ → ℕ) :
    ∃ f, (((Simple.poisson).kind solve).nat rs (fun _ => ()) q).carrier (library search)
      (.leaf (.real (scalars (rs ++ ss) fun i => (x i : ℝ)))) = ok (scalars (rs ++ ss) f) :=
  ⟨_, C91_carrier hs (.simple .poisson) rs ss (fun _ => ()) q x _ ⟨_, rfl, rfl⟩
    fun h => absurd (h _ List.mem_cons_self) nofun⟩

end Efax
