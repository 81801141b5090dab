import Verif.Lemmas.Mismatch

/-! # C97: Observations whose shape does not suit the distributions -/

namespace Efax

open ClassTable Calc Spec

variable [MachEps] {solve : Solver} {search : Cls → List Val → Except Err (List Val)}

/-- **C97.** `log_pdf(x)` at observations whose shape does not broadcast with that of the batch raises
`ValueError`, for every kind of distributions. -/
theorem C97_log_pdf_incompatible (hs : solve.For search) {K : Kind Cls} (hK : LibraryKind solve K)
    {rs rs' : List ℕ} (hb : ¬ ∃ r, Broadcast rs rs' r) (p : List ℕ → K.P) (q : List ℕ → K.N)
    (x : List ℕ → K.X) (t : Tree Val) (ht : K.obs rs' x t) :
    (K.nat rs p q).logPdf (library search) t = fail .valueError := by
  have h := C51_library hs hK
  have hb := not_broadcast hb
  rcases library_misfits (search := search) hK (fun e => by rw [hb] at e; cases e) p q x t ht with
    h1 | ⟨-, w, p', χ, h1, h2⟩
  · exact log_pdf_fails h ht h1
  · obtain ⟨est, he⟩ := h.estimator rs p q
    have h3 := (C25_estimator_from_natural (h.wfN _ _ _) he (h.distinct _ _ _ ht)).2 h1
    simp only [Dist.logPdf, Bind.bind, Except.bind, he, h3]
    rw [dotCalc_misfit h (library_stretches hK) hb p p' q χ h2]
    rfl

/-- Three observations of two distributions. -/
example : (rates [2]).logPdf (library (searchFor zeroMinimizer)) (.leaf (.real (scalars [3] fun _ => 5))) =
    fail .valueError :=
  C97_log_pdf_incompatible (C51_search zeroMinimizer_returns) (.simple .exponential) broadcast_none _ _
    (fun _ => (5 : ℝ)) _ ⟨_, rfl, rfl⟩

/-- **C97.** Every kind of distributions is covered: it contains a negative binomial or Weibull distribution,
or it does not. -/
theorem C97_kinds {K : Kind Cls} : LibraryKind solve K ↔ LooseKind solve K ∨ StrictKind solve K := by
  refine ⟨fun hK => ?_, fun h => h.elim LooseKind.library strict_library⟩
  induction hK with
  | simple s =>
    by_cases h : s = .negativeBinomial ∨ s = .weibull
    · exact .inr (.simple h)
    · exact .inl (.simple (fun e => h (.inl e)) fun e => h (.inr e))
  | @joint l h0 hn hl ih =>
    by_cases h : ∃ nk ∈ l, StrictKind solve nk.2
    · obtain ⟨nk, h1, h2⟩ := h
      exact .inr (.joint hn hl h1 h2)
    · exact .inl (.joint h0 hn fun nk h' => (ih nk h').resolve_right fun h2 => h ⟨nk, h', h2⟩)

/-- A Poisson and a Weibull distribution. -/
noncomputable def countAndTime (solve : Solver) : Kind Cls :=
  .joint .jointN .jointE (.ofList [("n", Simple.poisson.kind solve), ("t", Simple.weibull.kind solve)])

theorem countAndTime_strict (solve : Solver) : StrictKind solve (countAndTime solve) :=
  .joint (nk := ("t", Simple.weibull.kind solve)) (show ["n", "t"].Nodup by decide)
    (fun nk h => by
      rcases List.mem_cons.1 h with rfl | h
      · exact .simple .poisson
      · rw [List.mem_singleton.1 h]; exact .simple .weibull)
    (List.mem_cons_of_mem _ List.mem_cons_self) (.simple (.inr rfl))

example (solve : Solver) : LibraryKind solve (countAndTime solve) := C97_kinds.2 (.inr (countAndTime_strict solve))

/-- **C97.** `log_pdf(x)` of a batch of distributions with a negative binomial or Weibull distribution among
them, on its own or as a part of a joint distribution nested to any depth, at observations whose shape
broadcasts, but is not that of the result: `ValueError`. -/
theorem C97_log_pdf_strict_negation (hs : solve.For search) {K : Kind Cls} (hK : StrictKind solve K)
    {rs rs' r : List ℕ} (hb : Broadcast rs rs' r) (hr : r ≠ rs') (p : List ℕ → K.P) (q : List ℕ → K.N)
    (x : List ℕ → K.X) (t : Tree Val) (ht : K.obs rs' x t) :
    (K.nat rs p q).logPdf (library search) t = fail .valueError :=
  log_pdf_fails (C51_library hs (strict_library hK)) ht (strict_fails hK
    (fun e => hr (by rw [bcast_iff.2 hb] at e; exact Except.ok.inj e)) p q x t ht)

/-- One observation of two pairs of distributions. -/
example : ((countAndTime (solverOf zeroMinimizer)).nat [2] (fun _ => ((), (2 : ℝ), ()))
      fun _ => ((1 : ℝ), (-1 : ℝ), ())).logPdf (library (searchFor zeroMinimizer))
    (.node (.cons "n" (.leaf (.int (scalars [] fun _ => ((3 : ℕ) : ℤ))))
      (.cons "t" (.leaf (.real (scalars [] fun _ => 5))) .nil))) = fail .valueError :=
  C97_log_pdf_strict_negation (C51_search zeroMinimizer_returns) (countAndTime_strict _) broadcast_one (by decide)
    _ _ (fun _ => ((3 : ℕ), (5 : ℝ), ())) _ ⟨_, rfl, by decide,
      ⟨⟨_, List.mem_cons_self, _, rfl, (toR_int_scalars _ _).trans (by simp)⟩, ⟨_, List.mem_cons_of_mem _ List.mem_cons_self, _, rfl, rfl⟩, trivial⟩,
      fun _ h => h⟩

end Efax
