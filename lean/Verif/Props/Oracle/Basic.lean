import Verif.Spec.Oracle
import Verif.Props.Analysis
import Verif.Props.ClosedForm

/-!
# The oracles of the tests: tools
-/

namespace Efax

open Spec Calc Tests MeasureTheory

variable [MachEps]

section

variable {L : Library Cls} {s : SimpleInfo} {n : ℕ}

theorem natToScipy_natTo {f : List Val → Except Err Oracle} (h : s.natTo = some f) (q : Dist Cls) :
    (TestInfo.simple s n).natToScipy L q = f q.vals := by
  simp only [TestInfo.natToScipy, h]

theorem natToScipy_expTo {f : List Val → Except Err Oracle} (h : s.natTo = none) (h' : s.expTo n = some f)
    {q e : Dist Cls} (he : q.toExp L.toExp = .ok e) : (TestInfo.simple s n).natToScipy L q = f e.vals := by
  simp only [TestInfo.natToScipy, h, h', he, Bind.bind, Except.bind]

end

/-- The translation of distributions of one kind is right, for parameters `q` inside the domain: the
oracle and the family `K.F` have the same densities and the same entropies. -/
def Agrees (L : Library Cls) (info : TestInfo) {K : Kind Cls} (S : Setting K) : Prop :=
  ∀ rs p q, S.Inside rs p q → ∃ o, info.natToScipy L (K.nat rs p q) = .ok o ∧
    (∀ t, Drawn rs info t → ∃ t' x, info.observation t = .ok t' ∧ K.obs rs x t' ∧
      o.pdf t = .ok (scalars rs fun i => (K.F (p i)).pdf (q i) (x i))) ∧
    (Found K rs p q → Entropic info →
      o.entropy = .ok (scalars rs fun i => (K.F (p i)).entropyN (K.ecm (p i)) (q i)))

theorem frozen_ok {α : Type} [Inhabited α] (density : α → ℝ → ℝ) (entropy : (ℝ → ℝ) → ℝ) (rs : List ℕ)
    (a : List ℕ → α) : ∃ o, frozen density entropy (ok (scalars rs a)) = .ok o ∧
      (∀ v x, HoldsR rs x v → o.pdf (.leaf v) = .ok (scalars rs fun i => density (a i) (x i))) ∧
      o.entropy = .ok (scalars rs fun i => entropy (density (a i))) := by
  refine ⟨_, rfl, fun v x hx => ?_, ?_⟩
  · simp only [arrayOracle]
    rw [hx, bin_scalars]
    rfl
  · refine congrArg Except.ok (Arr.ext rfl fun i hi => ?_)
    have hi : inB rs i = true := hi
    rw [Arr.map_get hi, scalars, scalars, Arr.ofFn_get hi, Arr.ofFn_get hi]

/-- Distributions of `scipy.stats`. -/
theorem agrees_frozen {L : Library Cls} {s : SimpleInfo} {n : ℕ} {K : Kind Cls} {S : Setting K} {α : Type}
    [Inhabited α] {density : α → ℝ → ℝ} {entropy : (ℝ → ℝ) → ℝ} (a : K.P → K.N → α) (R : ℝ → K.X → Prop)
    (hf : ∀ rs p q, S.Inside rs p q → (TestInfo.simple s n).natToScipy L (K.nat rs p q) =
      frozen density entropy (ok (scalars rs fun i => a (p i) (q i))))
    (ho : ∀ rs v, DrawnSimple rs s n v → ∃ y v' x, HoldsR rs y v ∧ s.observation v = .ok v' ∧
      K.obs rs x (.leaf v') ∧ ∀ i, inB rs i = true → R (y i) (x i))
    (hd : ∀ p q y x, S.ok p → q ∈ S.dom p → R y x → density (a p q) y = (K.F p).pdf q x)
    (he : EntropicSimple s → ∀ p q, S.ok p → q ∈ S.dom p → K.toNat p ((K.F p).toExp q) = q →
      entropy (density (a p q)) = (K.F p).entropyN (K.ecm p) q) : Agrees L (.simple s n) S := by
  intro rs p q hq
  obtain ⟨o, h1, h2, h3⟩ := frozen_ok density entropy rs fun i => a (p i) (q i)
  refine ⟨o, (hf rs p q hq).trans h1, ?_, fun hx hs => ?_⟩
  · rintro t ⟨v, rfl, hv⟩
    obtain ⟨y, v', x, h4, h5, h6, h7⟩ := ho rs v hv
    refine ⟨.leaf v', x, by simp only [TestInfo.observation, h5]; rfl, h6, ?_⟩
    rw [h2 v y h4]
    exact congrArg _ (scalars_congr fun i hi => hd _ _ _ _ (hq i hi).1 (hq i hi).2 (h7 i hi))
  · rw [h3]
    exact congrArg _ (scalars_congr fun i hi => he hs _ _ (hq i hi).1 (hq i hi).2 (hx i hi))

/-- The replacements of `scipy.stats`, with observations in `Y` of which `Q` holds. -/
theorem agrees_oracle {L : Library Cls} {s : SimpleInfo} {n : ℕ} {K : Kind Cls} {S : Setting K} {Y : Type}
    (H : List ℕ → (List ℕ → Y) → Val → Prop) (Q : Y → Prop) (g : K.P → K.N → Y → ℝ) (R : Y → K.X → Prop)
    (hf : ∀ rs p q, S.Inside rs p q → ∃ o, (TestInfo.simple s n).natToScipy L (K.nat rs p q) = .ok o ∧
      (∀ v y, H rs y v → (∀ i, inB rs i = true → Q (y i)) →
        o.pdf (.leaf v) = .ok (scalars rs fun i => g (p i) (q i) (y i))) ∧
      (Found K rs p q → EntropicSimple s → ∃ e, o.entropy = .ok (scalars rs e) ∧ ∀ i, inB rs i = true →
        e i = (K.F (p i)).entropyN (K.ecm (p i)) (q i)))
    (ho : ∀ rs v, DrawnSimple rs s n v → ∃ y v' x, H rs y v ∧ s.observation v = .ok v' ∧
      K.obs rs x (.leaf v') ∧ ∀ i, inB rs i = true → Q (y i) ∧ R (y i) (x i))
    (hd : ∀ p q y x, S.ok p → q ∈ S.dom p → Q y → R y x → g p q y = (K.F p).pdf q x) :
    Agrees L (.simple s n) S := by
  intro rs p q hq
  obtain ⟨o, h1, h2, h3⟩ := hf rs p q hq
  refine ⟨o, h1, ?_, fun hx hs => ?_⟩
  · rintro t ⟨v, rfl, hv⟩
    obtain ⟨y, v', x, h4, h5, h6, h7⟩ := ho rs v hv
    refine ⟨.leaf v', x, by simp only [TestInfo.observation, h5]; rfl, h6, ?_⟩
    rw [h2 v y h4 fun i hi => (h7 i hi).1]
    exact congrArg _ (scalars_congr fun i hi =>
      hd _ _ _ _ (hq i hi).1 (hq i hi).2 (h7 i hi).1 (h7 i hi).2)
  · obtain ⟨e, h4, h5⟩ := h3 hx hs
    rw [h4]
    exact congrArg _ (scalars_congr h5)

omit [MachEps] in
theorem crossEntropy_unique {X : Type} [MeasurableSpace X] {μ : Measure X} {f : X → ℝ} {a b : ℝ}
    (ha : IsCrossEntropy μ f f a) (hb : IsCrossEntropy μ f f b) : a = b := ha.2.symm.trans hb.2

theorem continuousEntropy_eq {s : Set ℝ} (hs : MeasurableSet s) {f g : ℝ → ℝ} {h : ℝ}
    (hg : ∀ x ∈ s, g x = f x) (h0 : ∀ᵐ x, x ∉ s → g x = 0)
    (hh : IsCrossEntropy (volume.restrict s) f f h) : continuousEntropy g = h := by
  rw [← hh.2, continuousEntropy, ← integral_neg, ← integral_indicator hs]
  refine integral_congr_ae (h0.mono fun x hx => ?_)
  by_cases hxs : x ∈ s
  · simp only [Set.indicator_of_mem hxs, hg x hxs]
    ring
  · simp only [Set.indicator_of_notMem hxs, hx hxs]
    simp

theorem continuousEntropy_univ {f g : ℝ → ℝ} {h : ℝ} (hg : ∀ x, g x = f x)
    (hh : IsCrossEntropy volume f f h) : continuousEntropy g = h :=
  continuousEntropy_eq MeasurableSet.univ (fun x _ => hg x) (by simp) (by rwa [Measure.restrict_univ])

/-- Distributions on the positive numbers. -/
theorem continuousEntropy_positive {f g : ℝ → ℝ} {h : ℝ} (hg : ∀ x, 0 < x → g x = f x)
    (h0 : ∀ x, x < 0 → g x = 0) (hh : IsCrossEntropy positive f f h) : continuousEntropy g = h := by
  refine continuousEntropy_eq measurableSet_Ioi (fun x hx => hg x hx) ?_ hh
  have : ∀ᵐ x : ℝ, x ≠ 0 := by simp [ae_iff]
  exact this.mono fun x hx hn => h0 x (lt_of_le_of_ne (not_lt.1 hn) hx)

theorem discreteEntropy_eq {X : Type} [Countable X] [MeasurableSpace X] [MeasurableSingletonClass X]
    {e : X → ℤ} (he : Function.Injective e) {f : X → ℝ} {g : ℝ → ℝ} {h : ℝ} (hg : ∀ x, g (e x) = f x)
    (h0 : ∀ k : ℤ, k ∉ Set.range e → g k = 0) (hh : IsCrossEntropy Measure.count f f h) :
    discreteEntropy g = h := by
  rw [← hh.2, discreteEntropy, integral_countable' hh.1, ← he.tsum_eq fun k hk => ?_, ← tsum_neg]
  · refine tsum_congr fun x => ?_
    rw [hg, measureReal_def, Measure.count_singleton, ENNReal.toReal_one, one_smul]
    ring
  · by_contra hn
    exact hk (by simp only [h0 k hn, zero_mul])

theorem holdsR_congr {rs : List ℕ} {x y : List ℕ → ℝ} {v : Val} (h : HoldsR rs x v)
    (he : ∀ i, inB rs i = true → x i = y i) : HoldsR rs y v := by
  rw [HoldsR] at *
  rw [h, scalars_congr he]

end Efax
