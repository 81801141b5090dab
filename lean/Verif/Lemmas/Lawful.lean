import Verif.Lemmas.Setting
import Mathlib.Analysis.Calculus.LocalExtr.Basic

/-! # Consequences of the regularity of a kind of distributions -/

namespace Efax

open MeasureTheory Spec

variable {C : Type} {K : Kind C} {S : Setting K}

theorem Spec.LocallyRegular.entropyCorrectAt {N E X : Type} [AddCommGroup N] [Module ℝ N]
    [MeasurableSpace X] {F : ExpFam N E X} {μ : Measure X} {dom : Set N} {dirs : Submodule ℝ N}
    (R : LocallyRegular F μ dom dirs) (ecm : E → ℝ) {p : N} (hp : p ∈ dom)
    (hc : HasMean μ (F.pdf p) F.carrier (ecm (F.toExp p))) :
    IsCrossEntropy μ (F.pdf p) (F.pdf p) (F.entropyN ecm p) ∧ ∀ q ∈ dom,
      IsCrossEntropy μ (F.pdf p) (F.pdf q) (F.crossEntropy ecm (F.toExp p) q) ∧
      F.crossEntropy ecm (F.toExp p) q - F.entropyN ecm p = F.kl p q := by
  have hce : ∀ q ∈ dom,
      IsCrossEntropy μ (F.pdf p) (F.pdf q) (F.crossEntropy ecm (F.toExp p) q) := by
    intro q hq
    refine (((HasMean.const (R.density p hp) (F.logNormalizer q)).sub
      (R.mean_dot hp (R.mem_dirs q hq))).sub hc).congr (fun x => ?_) ?_
    · rw [F.log_pdf, ExpFam.logPdf]
      ring
    · rw [ExpFam.crossEntropy]
      ring
  refine ⟨hce p hp, fun q hq => ⟨hce q hq, ?_⟩⟩
  rw [ExpFam.entropyN, ExpFam.crossEntropy, ExpFam.crossEntropy, ExpFam.kl, ExpFam.klWith, R.dot_sub]
  ring

theorem Spec.LocallyRegular.logLikelihood {N E X : Type} [AddCommGroup N] [Module ℝ N]
    [MeasurableSpace X] {F : ExpFam N E X} {μ : Measure X} {dom : Set N} {dirs : Submodule ℝ N}
    (R : LocallyRegular F μ dom dirs) (data : List X) (q q' : N) :
    (data.map (F.logPdf q)).sum - (data.map (F.logPdf q')).sum =
      (data.map fun x => F.dot (q - q') (F.stat x)).sum +
        data.length * (F.logNormalizer q' - F.logNormalizer q) := by
  induction data with
  | nil => simp
  | cons x xs ih =>
    simp only [List.map_cons, List.sum_cons, List.length_cons, Nat.cast_add, Nat.cast_one]
    have : F.logPdf q x - F.logPdf q' x = F.dot (q - q') (F.stat x) +
        (F.logNormalizer q' - F.logNormalizer q) := by
      rw [R.dot_sub, ExpFam.logPdf, ExpFam.logPdf]
      ring
    linarith

theorem Spec.LocallyRegular.mle_unique {N E X : Type} [AddCommGroup N] [Module ℝ N]
    [MeasurableSpace X] {F : ExpFam N E X} {μ : Measure X} {dom : Set N} {dirs : Submodule ℝ N}
    (R : LocallyRegular F μ dom dirs) (M : Minimal F μ dirs) {data : List X} (h0 : data ≠ []) {q : N}
    (hq : q ∈ dom) (hd : ∀ v ∈ dirs, data.length * F.dot v (F.toExp q) =
      (data.map fun x => F.dot v (F.stat x)).sum) {q' : N} (hq' : q' ∈ dom) (hne : q' ≠ q) :
    (data.map (F.logPdf q')).sum < (data.map (F.logPdf q)).sum := by
  have key := R.logLikelihood data q q'
  rw [← hd (q - q') (R.sub_mem q' hq' q hq)] at key
  have hk : 0 < F.kl q q' :=
    lt_of_le_of_ne (R.kl_nonneg hq hq') fun h => hne ((R.kl_eq_zero_iff M hq hq').1 h.symm).symm
  rw [ExpFam.kl, ExpFam.klWith] at hk
  have hn : (0 : ℝ) < data.length := Nat.cast_pos.2 (List.length_pos_iff.2 h0)
  nlinarith [mul_pos hn hk]

theorem Spec.LocallyRegular.mle_only_if {N E X : Type} [AddCommGroup N] [Module ℝ N]
    [MeasurableSpace X] {F : ExpFam N E X} {μ : Measure X} {dom : Set N} {dirs : Submodule ℝ N}
    (R : LocallyRegular F μ dom dirs) {data : List X} {q : N} (hq : q ∈ dom)
    (hd : ∀ q' ∈ dom, (data.map (F.logPdf q')).sum ≤ (data.map (F.logPdf q)).sum) {v : N} (hv : v ∈ dirs) :
    data.length * F.dot v (F.toExp q) = (data.map fun x => F.dot v (F.stat x)).sum := by
  let c := (data.map fun x => F.dot v (F.stat x)).sum
  have e : ∀ t : ℝ, (data.map (F.logPdf (q + t • v))).sum = (data.map (F.logPdf q)).sum +
      (t * c + data.length * (F.logNormalizer q - F.logNormalizer (q + t • v))) := by
    intro t
    have := R.logLikelihood data (q + t • v) q
    have h2 : (data.map fun x => F.dot (q + t • v - q) (F.stat x)).sum = t * c := by
      rw [add_sub_cancel_left]
      simp only [R.dot_zero_smul, c, List.sum_map_mul_left]
    rw [h2] at this
    linarith
  have hg : HasDerivAt (fun t : ℝ => (data.map (F.logPdf (q + t • v))).sum)
      (0 + (1 * c + data.length * (0 - F.dot v (F.toExp q)))) 0 := by
    rw [funext e]
    exact (hasDerivAt_const _ _).add (((hasDerivAt_id _).mul_const c).add
      (((hasDerivAt_const _ _).sub (R.gradient q hq v hv)).const_mul _))
  have hm : IsLocalMax (fun t : ℝ => (data.map (F.logPdf (q + t • v))).sum) 0 := by
    filter_upwards [R.is_open q hq v hv] with t ht
    simpa using hd _ ht
  have := hm.hasDerivAt_eq_zero hg
  linarith

namespace Spec.Setting.Lawful

theorem density (h : S.Lawful) {p : K.P} (hp : S.ok p) {q : K.N} (hq : q ∈ S.dom p) :
    letI := S.ms
    IsDensity S.μ ((K.F p).pdf q) := by
  have h := h.regular p hp
  obtain ⟨G, M, MS, μ, ok, dom, dirs, closed⟩ := S
  exact h.density q hq

theorem mean (h : S.Lawful) {p : K.P} (hp : S.ok p) {q v : K.N} (hq : q ∈ S.dom p)
    (hv : v ∈ S.dirs) : letI := S.ms
    HasMean S.μ ((K.F p).pdf q) (fun x => (K.F p).dot v ((K.F p).stat x))
      ((K.F p).dot v ((K.F p).toExp q)) := by
  have h := h.regular p hp
  obtain ⟨G, M, MS, μ, ok, dom, dirs, closed⟩ := S
  exact h.meanCorrect q hq v hv

theorem kl (h : S.Lawful) {p : K.P} (hp : S.ok p) {a b : K.N} (ha : a ∈ S.dom p)
    (hb : b ∈ S.dom p) : letI := S.ms
    IsKL S.μ ((K.F p).pdf a) ((K.F p).pdf b) ((K.F p).kl a b) ∧ 0 ≤ (K.F p).kl a b ∧
      ((K.F p).kl a b = 0 ↔ a = b) := by
  have h1 := h.regular p hp
  have h2 := h.minimal p hp
  have h3 := h.sub a b
  obtain ⟨G, M, MS, μ, ok, dom, dirs, closed⟩ := S
  have e : (K.F p).kl a b = @ExpFam.kl _ _ _ (K.F p) G.toSub a b := by
    simp only [ExpFam.kl, ExpFam.klWith]
    rw [h3]
    rfl
  rw [e]
  exact h1.klCorrect h2 a ha b hb

theorem entropy (h : S.Lawful) (he : K.ent) {p : K.P} (hp : S.ok p) {a : K.N}
    (ha : a ∈ S.dom p) (hx : K.toNat p ((K.F p).toExp a) = a) : letI := S.ms
    IsCrossEntropy S.μ ((K.F p).pdf a) ((K.F p).pdf a) ((K.F p).entropyN (K.ecm p) a) ∧
    ∀ b ∈ S.dom p, IsCrossEntropy S.μ ((K.F p).pdf a) ((K.F p).pdf b)
        ((K.F p).crossEntropy (K.ecm p) ((K.F p).toExp a) b) ∧
      (K.F p).crossEntropy (K.ecm p) ((K.F p).toExp a) b - (K.F p).entropyN (K.ecm p) a =
        (K.F p).kl a b := by
  have h1 := h.regular p hp
  have h2 := h.ecm he p hp a ha hx
  have h3 := h.sub
  obtain ⟨G, M, MS, μ, ok, dom, dirs, closed⟩ := S
  have h4 := h1.entropyCorrectAt _ ha h2
  refine ⟨h4.1, fun b hb => ⟨(h4.2 b hb).1, ?_⟩⟩
  have e : (K.F p).kl a b = @ExpFam.kl _ _ _ (K.F p) G.toSub a b := by
    simp only [ExpFam.kl, ExpFam.klWith]
    rw [h3]
    rfl
  rw [e]
  exact (h4.2 b hb).2

theorem inj (h : S.Lawful) {p : K.P} (hp : S.ok p) {a b : K.N} (ha : a ∈ S.dom p) (hb : b ∈ S.dom p)
    (e : (K.F p).toExp a = (K.F p).toExp b) : a = b := by
  have h1 := h.regular p hp
  have h2 := h.minimal p hp
  obtain ⟨G, M, MS, μ, ok, dom, dirs, closed⟩ := S
  exact h1.toExp_injOn h2 ha hb e

theorem gradient (h : S.Lawful) {p : K.P} (hp : S.ok p) {q v : K.N} (hq : q ∈ S.dom p)
    (hv : v ∈ S.dirs) :
    HasDerivAt (fun t => (K.F p).logNormalizer (S.line q v t)) ((K.F p).dot v ((K.F p).toExp q)) 0 := by
  have h := h.regular p hp
  obtain ⟨G, M, MS, μ, ok, dom, dirs, closed⟩ := S
  exact h.gradient q hq v hv

theorem fisher (h : S.Lawful) {p : K.P} (hp : S.ok p) {q u v : K.N} (hq : q ∈ S.dom p)
    (hu : u ∈ S.dirs) (hv : v ∈ S.dirs) : letI := S.ms
    ∃ c, HasCov S.μ ((K.F p).pdf q) (fun x => (K.F p).dot u ((K.F p).stat x))
        (fun x => (K.F p).dot v ((K.F p).stat x)) c ∧
      HasDerivAt (fun t => deriv (fun s => (K.F p).logNormalizer (S.line (S.line q v t) u s)) 0) c 0 := by
  have h := h.regular p hp
  obtain ⟨G, M, MS, μ, ok, dom, dirs, closed⟩ := S
  obtain ⟨c, h1, h2, -⟩ := h.fisherCorrect q hq u hu v hv
  exact ⟨c, h1, h2⟩

theorem mle (h : S.Lawful) {p : K.P} (hp : S.ok p) (data : List K.X) {q : K.N} (hq : q ∈ S.dom p)
    (hd : ∀ v ∈ S.dirs, data.length * (K.F p).dot v ((K.F p).toExp q) =
      (data.map fun x => (K.F p).dot v ((K.F p).stat x)).sum) {q' : K.N} (hq' : q' ∈ S.dom p) :
    (data.map ((K.F p).logPdf q')).sum ≤ (data.map ((K.F p).logPdf q)).sum := by
  have h := h.regular p hp
  obtain ⟨G, M, MS, μ, ok, dom, dirs, closed⟩ := S
  exact h.mleCorrect data q hq hd q' hq'

theorem mle_unique (h : S.Lawful) {p : K.P} (hp : S.ok p) {data : List K.X} (h0 : data ≠ []) {q : K.N}
    (hq : q ∈ S.dom p)
    (hd : ∀ v ∈ S.dirs, data.length * (K.F p).dot v ((K.F p).toExp q) =
      (data.map fun x => (K.F p).dot v ((K.F p).stat x)).sum) {q' : K.N} (hq' : q' ∈ S.dom p)
    (hne : q' ≠ q) : (data.map ((K.F p).logPdf q')).sum < (data.map ((K.F p).logPdf q)).sum := by
  have h1 := h.regular p hp
  have h2 := h.minimal p hp
  obtain ⟨G, M, MS, μ, ok, dom, dirs, closed⟩ := S
  exact h1.mle_unique h2 h0 hq hd hq' hne

theorem mle_only_if (h : S.Lawful) {p : K.P} (hp : S.ok p) {data : List K.X} {q : K.N}
    (hq : q ∈ S.dom p)
    (hd : ∀ q' ∈ S.dom p, (data.map ((K.F p).logPdf q')).sum ≤ (data.map ((K.F p).logPdf q)).sum)
    {v : K.N} (hv : v ∈ S.dirs) : data.length * (K.F p).dot v ((K.F p).toExp q) =
      (data.map fun x => (K.F p).dot v ((K.F p).stat x)).sum := by
  have h1 := h.regular p hp
  obtain ⟨G, M, MS, μ, ok, dom, dirs, closed⟩ := S
  exact h1.mle_only_if hq hd hv

end Spec.Setting.Lawful

end Efax
