import Verif.Spec.CramerRao
import Verif.Lemmas.Deviation
import Verif.Props.CramerRao

/-!
# C101: estimates deviate with probabilities that decrease exponentially, at the rate `kl_divergence`
-/

namespace Efax

open MeasureTheory Spec Calc Filter Topology

namespace Spec.Setting.Lawful

variable {C : Type} {K : Kind C} {S : Setting K}

theorem chernoff (h : S.Lawful) {p : K.P} (hp : S.ok p) {a b : K.N} (ha : a ∈ S.dom p) (hb : b ∈ S.dom p)
    {ι : Type} [Fintype ι] [Nonempty ι] : letI := S.ms
    ∃ P, HasMean (Measure.pi fun _ : ι => S.μ) (fun y => ∏ j, (K.F p).pdf b (y j))
      ({y | (K.F p).dot (a - b) ((K.F p).toExp a) ≤
        (Fintype.card ι : ℝ)⁻¹ * ∑ j, (K.F p).dot (a - b) ((K.F p).stat (y j))}.indicator 1) P ∧
      P ≤ Real.exp (-(Fintype.card ι * (K.F p).kl a b)) := by
  have h1 := h.regular p hp
  have h2 := h.sigma
  have h3 := h.sub a b
  obtain ⟨G, M, MS, μ, ok, dom, dirs, closed⟩ := S
  simp only [ExpFam.kl, ExpFam.klWith]
  rw [h3]
  exact h1.chernoff ha hb

theorem cramer (h : S.Lawful) {p : K.P} (hp : S.ok p) {a b : K.N} (ha : a ∈ S.dom p) (hb : b ∈ S.dom p)
    (hne : a ≠ b) {ε : ℝ} (hε : 0 < ε) : letI := S.ms
    ∃ n₀ : ℕ, ∀ (ι : Type) [Fintype ι] [Nonempty ι], n₀ ≤ Fintype.card ι → ∀ P,
      HasMean (Measure.pi fun _ : ι => S.μ) (fun y => ∏ j, (K.F p).pdf b (y j))
        ({y | (K.F p).dot (a - b) ((K.F p).toExp a) ≤
          (Fintype.card ι : ℝ)⁻¹ * ∑ j, (K.F p).dot (a - b) ((K.F p).stat (y j))}.indicator 1) P →
      Real.exp (-(Fintype.card ι * ((K.F p).kl a b + ε))) ≤ P := by
  have h1 := h.regular p hp
  have h2 := h.sigma
  have h3 := h.sub a b
  have h4 := h.minimal p hp
  obtain ⟨G, M, MS, μ, ok, dom, dirs, closed⟩ := S
  simp only [ExpFam.kl, ExpFam.klWith]
  rw [h3]
  exact h1.cramer h4 ha hb hne hε

end Spec.Setting.Lawful

variable [MachEps] {solve : Solver} {search : Cls → List Val → Except Err (List Val)}

/-- **C101.** Let `q'` be other parameters than the parameters `q` of a batch, and `k` the result of
`kl_divergence`.  The probability that the recipe for maximum likelihood estimation, applied to `n` observations
of `q`, estimates the component in the direction `q' - q` to be at least that of `q'` is at most `exp(-n k)`;
and for every `ε > 0` it is at least `exp(-n (k + ε))`, if `n` is large. -/
theorem C101_rate (hs : solve.For search) {K : Kind Cls} {S : Setting K} (hK : LibrarySetting solve K S)
    {rs : List ℕ} {p : List ℕ → K.P} {q q' : List ℕ → K.N} (hq : S.Inside rs p q) (hq' : S.Inside rs p q')
    (hr : EachLeaf RegularVals (K.nat rs p q')) {f : List ℕ → K.X → ℝ}
    (hf : PdfIs (library search) K rs (K.nat rs p q) f) :
    ∃ e k c, (K.nat rs p q').toExp (library search).toExp = .ok e ∧
      (K.nat rs p q').klN (library search) (K.nat rs p q) = ok (scalars rs k) ∧
      dotCalc (K.nat rs p fun i => q' i - q i) e = ok (scalars rs c) ∧
      ∀ i, inB rs i = true → ∃ P : List ℕ → ℝ,
        (∀ ss : List ℕ, (∀ n ∈ ss, 0 < n) → ∃ R : (box ss → K.X) → ℝ,
          RecipeIs (library search) K rs ss p (fun i => q' i - q i) i R ∧
          Expects S (f i) ({y | c i ≤ R y}.indicator 1) (P ss) ∧
          P ss ≤ Real.exp (-(ss.prod * k i))) ∧
        (q' i ≠ q i → ∀ ε : ℝ, 0 < ε → ∃ n₀ : ℕ, ∀ ss : List ℕ, (∀ n ∈ ss, 0 < n) → n₀ ≤ ss.prod →
          Real.exp (-(ss.prod * (k i + ε))) ≤ P ss) := by
  have h := C51_library hs hK.kind
  have hL := library_lawful hK
  refine ⟨_, _, _, h.toExp rs p q' (regular_dom hK.kind hr),
    C51_kl_natural h rs p q' q (regular_dom hK.kind hr), h.dotCalc _ _ _ _ _, fun i hi => ?_⟩
  rw [pdfIs_eq hs hK hf hi]
  have hcard : ∀ ss : List ℕ, Fintype.card (box ss) = ss.prod := fun ss => by rw [Fintype.card_coe, card_box]
  have hne : ∀ ss : List ℕ, (∀ n ∈ ss, 0 < n) → Nonempty (box ss) := fun ss hss => by
    rw [← Fintype.card_pos_iff, hcard]
    exact List.prod_pos hss
  have hP : ∀ ss : List ℕ, ∃ P, (∀ n ∈ ss, 0 < n) → _ := fun ss => by
    by_cases hss : ∀ n ∈ ss, 0 < n
    · have := hne ss hss
      obtain ⟨P, h1, h2⟩ := hL.chernoff (hq i hi).1 (hq' i hi).2 (hq i hi).2 (ι := box ss)
      exact ⟨P, fun _ => And.intro h1 h2⟩
    · exact ⟨0, fun h => absurd h hss⟩
  choose P hP using hP
  refine ⟨P, fun ss hss => ⟨_, recipeIs_average hs hK hss _ hi, (hP ss hss).1, ?_⟩, fun hqq ε hε => ?_⟩
  · rw [← hcard ss]
    exact (hP ss hss).2
  · obtain ⟨n₀, hn₀⟩ := hL.cramer (hq i hi).1 (hq' i hi).2 (hq i hi).2 hqq hε
    refine ⟨n₀, fun ss hss hn => ?_⟩
    have := hne ss hss
    rw [← hcard ss]
    exact hn₀ (box ss) (by rw [hcard]; exact hn) _ (hP ss hss).1

/-- The chance that the mean of observations with the mean 1 looks like the mean 2 decreases exponentially. -/
example (hs : solve.For search) : ∃ (k : ℝ) (P : List ℕ → ℝ), 0 < k ∧
    (∀ ss : List ℕ, (∀ n ∈ ss, 0 < n) → P ss ≤ Real.exp (-(ss.prod * k))) ∧
    ∃ n₀ : ℕ, ∀ ss : List ℕ, (∀ n ∈ ss, 0 < n) → n₀ ≤ ss.prod → Real.exp (-(ss.prod * (2 * k))) ≤ P ss := by
  have hK : LibrarySetting solve _ (Simple.exponential.setting solve) := .simple .exponential
  have ha : ∀ q < (0 : ℝ), (Simple.exponential.setting solve).Inside [] (fun _ => ()) fun _ => q :=
    fun q h i _ => ⟨trivial, h⟩
  have hr : ∀ q : ℝ, EachLeaf RegularVals ((Simple.exponential.kind solve).nat [] (fun _ => ()) fun _ => q) := by
    intro q l hl
    rw [List.mem_singleton.1 hl]
    exact trivial
  obtain ⟨f, hf, -⟩ := C68_pdf hs hK (ha (-1) (by norm_num))
  obtain ⟨f', hf', -⟩ := C68_pdf hs hK (ha (-1 / 2) (by norm_num))
  obtain ⟨e, k, c, -, h1, -, h2⟩ := C101_rate hs hK (ha (-1) (by norm_num)) (ha (-1 / 2) (by norm_num)) (hr _) hf
  obtain ⟨k', h1', h3⟩ := C68_kl hs hK (ha (-1 / 2) (by norm_num)) (ha (-1) (by norm_num)) (hr _) hf' hf
  obtain ⟨-, h4, h5⟩ := h3 [] rfl
  rw [ok_scalars_inj (h1'.symm.trans h1) [] rfl] at h4 h5
  have hne : (-1 / 2 : ℝ) ≠ -1 := by norm_num
  have hk : 0 < k [] := lt_of_le_of_ne h4 fun h => hne (h5.1 h.symm)
  obtain ⟨P, h6, h7⟩ := h2 [] rfl
  refine ⟨k [], P, hk, fun ss hss => ?_, ?_⟩
  · obtain ⟨R, -, -, h8⟩ := h6 ss hss
    exact h8
  · obtain ⟨n₀, h8⟩ := h7 hne (k []) hk
    refine ⟨n₀, fun ss hss hn => ?_⟩
    rw [two_mul]
    exact h8 ss hss hn

end Efax
