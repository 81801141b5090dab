import Verif.Lemmas.Kind2

/-!
# C37, C51: derived methods on batches of simple and joint distributions

For every kind of distributions whose primitive methods act entry by entry (`Kind.Ok`), the methods
that the base classes derive from them do so as well.  Joint distributions of such parts are such a
kind, and their family is the product of the families of the parts.
-/

namespace Efax

open ClassTable Calc Spec

section

variable {C : Type} [ClassTable C] {L : Library C}

/-- **C51.** `kl_divergence(q, self_nat=n)` of an expectation parametrization. -/
theorem C51_kl_with {K : Kind C} (h : K.Ok L) (rs : List ℕ) (p : List ℕ → K.P) (χ : List ℕ → K.E)
    (n q : List ℕ → K.N) : (K.exp rs p χ).klE L (K.nat rs p q) (some (K.nat rs p n)) =
      ok (scalars rs fun i => (K.F (p i)).klWith (χ i) (n i) (q i)) := by
  obtain ⟨d, d1, d2, d3⟩ := h.difference rs p n q
  have m := h.dotMatch rs p n p χ
  obtain ⟨_, m3⟩ := DotMatch.lin (h.wfN _ _ _) (h.wfN _ _ _) d2 d3 m
  have hd : dotCalc d (K.exp rs p χ) = ok (scalars rs fun i => (K.F (p i)).dot (n i - q i) (χ i)) := by
    refine dotCalc_eq d2 (h.wfE _ _ _) m3 fun i hi => ?_
    rw [treeDot_lin (h.wfN _ _ _) (h.wfN _ _ _) d2 d3 m i, h.dot _ _ _ _ _ i hi, h.dot _ _ _ _ _ i hi,
      h.dot_sub]
    ring
  simp only [Dist.klE, Bind.bind, Except.bind, d1]
  rw [hd, h.logNormalizer, h.logNormalizer, scalars_add, scalars_sub]
  rfl

/-- **C51.** `kl_divergence(q)` of an expectation parametrization. -/
theorem C51_kl_expectation {K : Kind C} (h : K.Ok L) (rs : List ℕ) (p : List ℕ → K.P) (χ : List ℕ → K.E) (q : List ℕ → K.N)
    (hd : ∀ i, inB rs i = true → K.domE (p i) (χ i)) :
    (K.exp rs p χ).klE L (K.nat rs p q) =
      ok (scalars rs fun i => (K.F (p i)).klE (K.toNat (p i)) (χ i) (q i)) := by
  have := C51_kl_with h rs p χ (fun i => K.toNat (p i) (χ i)) q
  rw [← show (K.exp rs p χ).klE L (K.nat rs p q) = (K.exp rs p χ).klE L (K.nat rs p q)
    (some (K.nat rs p fun i => K.toNat (p i) (χ i))) by
      simp only [Dist.klE, Bind.bind, Except.bind, h.toNat rs p χ hd]; rfl] at this
  exact this

/-- **C51.** `kl_divergence(q)` of a natural parametrization. -/
theorem C51_kl_natural {K : Kind C} (h : K.Ok L) (rs : List ℕ) (p : List ℕ → K.P) (a q : List ℕ → K.N)
    (hd : ∀ i, inB rs i = true → K.dom (p i) (a i)) :
    (K.nat rs p a).klN L (K.nat rs p q) = ok (scalars rs fun i => (K.F (p i)).kl (a i) (q i)) := by
  simp only [Dist.klN, Bind.bind, Except.bind, h.toExp rs p a hd]
  exact C51_kl_with h rs p _ a q

/-- **C51.** `cross_entropy(q)`. -/
theorem C51_cross_entropy {K : Kind C} (h : K.Ok L) (he : K.ent)
    (rs : List ℕ) (p : List ℕ → K.P) (χ : List ℕ → K.E) (q : List ℕ → K.N) :
    (K.exp rs p χ).crossEntropy L (K.nat rs p q) =
      ok (scalars rs fun i => (K.F (p i)).crossEntropy (K.ecm (p i)) (χ i) (q i)) := by
  rw [Dist.crossEntropy, h.dotCalc, h.logNormalizer, h.ecm he, scalars_neg, scalars_add, scalars_sub]
  rfl

/-- **C51.** `entropy()` of an expectation parametrization. -/
theorem C51_entropy_expectation {K : Kind C} (h : K.Ok L) (he : K.ent) (rs : List ℕ)
    (p : List ℕ → K.P) (χ : List ℕ → K.E) (hd : ∀ i, inB rs i = true → K.domE (p i) (χ i)) :
    (K.exp rs p χ).entropyE L =
      ok (scalars rs fun i => (K.F (p i)).entropyE (K.ecm (p i)) (K.toNat (p i)) (χ i)) := by
  simp only [Dist.entropyE, Bind.bind, Except.bind, h.toNat rs p χ hd]
  exact C51_cross_entropy h he rs p χ _

/-- **C51.** `entropy()` of a natural parametrization. -/
theorem C51_entropy_natural {K : Kind C} (h : K.Ok L) (he : K.ent)
    (rs : List ℕ) (p : List ℕ → K.P) (q : List ℕ → K.N)
    (hd : ∀ i, inB rs i = true → K.dom (p i) (q i)) :
    (K.nat rs p q).entropyN L = ok (scalars rs fun i => (K.F (p i)).entropyN (K.ecm (p i)) (q i)) := by
  simp only [Dist.entropyN, Bind.bind, Except.bind, h.toExp rs p q hd]
  exact C51_cross_entropy h he rs p _ q

end

variable [MachEps] {L : Library Cls}

/-- **C51.** `log_pdf(x)` for one observation per entry. -/
theorem C51_log_pdf {K : Kind Cls} (h : K.Ok L) (rs : List ℕ) (p : List ℕ → K.P) (q : List ℕ → K.N)
    (x : List ℕ → K.X) (t : Tree Val) (ht : K.obs rs x t) :
    (K.nat rs p q).logPdf L t = ok (scalars rs fun i => (K.F (p i)).logPdf (q i) (x i)) := by
  obtain ⟨est, he⟩ := h.estimator rs p q
  obtain ⟨w, h1, h2⟩ := h.stat rs p q x t ht
  have h3 := (C25_estimator_from_natural (h.wfN _ _ _) he (h.distinct _ _ _ ht)).2 h1
  have hd : dotCalc (K.nat rs p q) w =
      ok (scalars rs fun i => (K.F (p i)).dot (q i) ((K.F (p i)).stat (x i))) := by
    refine dotCalc_eq (h.wfN _ _ _) (h2.wf (h.wfE _ _ _)) (h2.dotMatch (h.dotMatch _ _ _ _ _))
      fun i hi => ?_
    rw [h2.treeDot]
    exact h.dot _ _ _ _ _ i hi
  simp only [Dist.logPdf, Bind.bind, Except.bind, he, h3]
  rw [hd, h.logNormalizer, h.carrier rs p q x t ht, scalars_sub, scalars_add]
  rfl

/-- **C51.** `pdf(x)` for one observation per entry. -/
theorem C51_pdf {K : Kind Cls} (h : K.Ok L) (rs : List ℕ) (p : List ℕ → K.P) (q : List ℕ → K.N)
    (x : List ℕ → K.X) (t : Tree Val) (ht : K.obs rs x t) :
    (K.nat rs p q).pdf L t = ok (scalars rs fun i => (K.F (p i)).pdf (q i) (x i)) := by
  rw [Dist.pdf, C51_log_pdf h rs p q x t ht]
  calc_simp
  rfl

end Efax
