import Verif.Lemmas.Kind2
import Verif.Lemmas.Refines
import Verif.Spec.Kinds
import Verif.Model.Methods.Table

/-! # Simple distributions as kinds -/

namespace Efax

open ClassTable Calc Spec

section

variable {C : Type} [ClassTable C]

/-- A class whose methods act entry by entry gives a kind. -/
theorem Spec.Kind.Ok.simple {P N E X : Type} [Sub N] {L : Library C} {c c' : C} {m : NatMethods}
    {nat : Layout P N} {exp : Layout P E} {fixed : List ℕ → (List ℕ → P) → Dict String Val}
    {obs : List ℕ → (List ℕ → X) → Val → Prop} {F : P → ExpFam N E X} {dom : P → N → Prop}
    {toNat : P → E → N} {ecm : P → E → ℝ} {ent : Prop} {domE : P → E → Prop}
    (hr : Refines m nat exp fixed obs F dom) (hm : L.nat c = some m)
    (hse : ∀ rs p χ, L.shape c' (exp rs p χ) = .ok rs)
    (hj : isJoint c = false) (hj' : isJoint c' = false) (he : expCls c = some c')
    (hn : natCls c' = some c)
    (hl : ∀ rs p q, (nat rs p q).length = (fields c).length)
    (hl' : ∀ rs p χ, (exp rs p χ).length = (fields c').length)
    (hdim : ∀ rs p q, ∃ d, dimensions c (nat rs p q) = .ok d)
    (hfix : ∀ rs p q, fixedArgs c (nat rs p q) = fixed rs p)
    (hdm : ∀ rs p q p' χ, List.Forall₂ (FieldMatch rs) (freeFields c (nat rs p q))
      (freeFields c' (exp rs p' χ)))
    (hd : ∀ rs p q p' χ i, inB rs i = true →
      (List.zipWith (fun a b => valDot a.1.support.axes a.2 b.2 i) (freeFields c (nat rs p q))
        (freeFields c' (exp rs p' χ))).sum = (F (p i)).dot (q i) (χ i))
    (hs : ∀ rs p q p' q', List.Forall₂ (fun a b => SameDtype a.2 b.2) (freeFields c (nat rs p q))
      (freeFields c (nat rs p' q')))
    (hds : ∀ p a b χ, (F p).dot (a - b) χ = (F p).dot a χ - (F p).dot b χ)
    (htn : ∀ rs p χ, (∀ i, inB rs i = true → domE (p i) (χ i)) →
      L.toNat c' (exp rs p χ) = .ok (nat rs p fun i => toNat (p i) (χ i)))
    (hent : ent → L.hasEntropy c' = true)
    (hecm : ent → ∀ rs p χ, L.ecm c' (exp rs p χ) = ok (scalars rs fun i => ecm (p i) (χ i))) :
    (Kind.simple c c' nat exp obs F toNat ecm ent dom domE).Ok L where
  wfN rs p q := ⟨hl rs p q, by simp [hj], by simp [Subs.names], trivial⟩
  wfE rs p q := ⟨hl' rs p q, by simp [hj'], by simp [Subs.names], trivial⟩
  infos rs p q base := by
    obtain ⟨d, hd⟩ := hdim rs p q
    refine ⟨[] ++ [⟨base, c, d, []⟩], Dist.walk_ok rfl ?_, by simp [he]⟩
    simp [makeInfo, Dist.cls, Dist.vals, Dist.subs, hd, Bind.bind, Except.bind]; rfl
  shapeN rs p q := by
    simp only [Kind.simple, Dist.shape, hj, Library.shape, hm]
    exact hr.shape rs p q
  shapeE rs p χ := by
    simp only [Kind.simple, Dist.shape, hj']
    exact hse rs p χ
  logNormalizer rs p q := by
    simp only [Kind.simple, Dist.logNormalizer, hj, he, Library.logNormalizer, hm]
    exact hr.logNormalizer rs p q
  toExp rs p q h := by
    simp only [Kind.simple, Dist.toExp, hj, he, Library.toExp, hm]
    have := hr.toExp rs p q h
    simp only [this]
    rfl
  toNat rs p χ h := by
    simp only [Kind.simple, Dist.toNat, hj', hn]
    have := htn rs p χ h
    simp only [this]
    rfl
  entropic h _ _ _ := .inr (hent h)
  ecm h rs p χ := by
    simp only [Kind.simple, Dist.ecm, hj', hn, hent h]
    exact hecm h rs p χ
  carrier rs p q x t h := by
    obtain ⟨v, rfl, h⟩ := h
    simp only [Kind.simple, Dist.carrier, hj, he, Library.carrier, hm]
    exact hr.carrier rs p q x v h
  distinct rs x t h := by
    obtain ⟨v, rfl, h⟩ := h
    trivial
  stat rs p q x t h := by
    obtain ⟨v, rfl, h⟩ := h
    obtain ⟨w, h1, h2⟩ := hr.stat rs p x v h
    refine ⟨.mk c' w .nil, ⟨hj, c', c, he, hn, ?_, by simp [Dist.cls, hn]⟩, rfl, h2, trivial⟩
    rw [Library.stat, hm, he]
    simp only [hfix rs p q, h1]
    rfl
  dotMatch rs p q p' χ := ⟨hdm rs p q p' χ, trivial⟩
  dot rs p q p' χ i hi := by
    have := hd rs p q p' χ i hi
    simp only [Kind.simple, treeDot, subsDot, add_zero]
    exact this
  same rs p q p' q' := by
    refine ⟨⟨rfl, trivial⟩, fun k f v w hf h h' => ?_⟩
    have key : ∀ (fs : List Field) (u u' : List Val), u.length = fs.length → u'.length = fs.length →
        List.Forall₂ (fun a b : Field × Val => SameDtype a.2 b.2)
          ((fs.zip u).filter fun fv => !fv.1.fixed) ((fs.zip u').filter fun fv => !fv.1.fixed) →
        ∀ i : ℕ, fs[i]? = some f → u[i]? = some v → u'[i]? = some w → SameDtype v w := by
      intro fs
      induction fs with
      | nil => intro u u' _ _ _ i hi; simp at hi
      | cons g fs ih =>
        intro u u' hu hu' hall i hi hv hw
        cases u with
        | nil => simp at hu
        | cons a u =>
          cases u' with
          | nil => simp at hu'
          | cons b u' =>
            rw [List.zip_cons_cons, List.zip_cons_cons] at hall
            by_cases hg : g.fixed = true
            · rw [List.filter_cons_of_neg (by simp [hg]), List.filter_cons_of_neg (by simp [hg])] at hall
              cases i with
              | zero =>
                simp only [List.getElem?_cons_zero, Option.some.injEq] at hi
                rw [hi, hf] at hg
                cases hg
              | succ i =>
                exact ih u u' (by simpa using hu) (by simpa using hu') hall i (by simpa using hi)
                  (by simpa using hv) (by simpa using hw)
            · rw [List.filter_cons_of_pos (by simp [hg]), List.filter_cons_of_pos (by simp [hg])] at hall
              cases hall with
              | cons h1 h2 =>
                cases i with
                | zero =>
                  simp only [List.getElem?_cons_zero, Option.some.injEq] at hv hw
                  subst hv hw
                  exact h1
                | succ i =>
                  exact ih u u' (by simpa using hu) (by simpa using hu') h2 i (by simpa using hi)
                    (by simpa using hv) (by simpa using hw)
    generalize hk : k = kk at h'
    cases h with
    | here h1 h2 =>
      rename_i j
      cases h' with
      | here h3 h4 =>
        rename_i j'
        have : j = j' := by
          have hnd := names_nodup c
          rw [List.nodup_iff_injective_getElem] at hnd
          obtain ⟨b1, e1⟩ := List.getElem?_eq_some_iff.1 h1
          obtain ⟨b3, e3⟩ := List.getElem?_eq_some_iff.1 h3
          have := @hnd ⟨j, by simpa using b1⟩ ⟨j', by simpa using b3⟩ (by simp [e1, e3])
          simpa using this
        subst this
        exact key _ _ _ (hl _ _ _) (hl _ _ _) (hs rs p q p' q') j h1 h2 h4
      | sub hm _ => cases hm
    | sub hm _ => cases hm
  dot_sub := hds

end

theorem valDot_scalars (rs i : List ℕ) (hi : inB rs i = true) (f g : List ℕ → ℝ) :
    valDot 0 (.real (scalars rs f)) (.real (scalars rs g)) i = f i * g i := by
  simp only [valDot, List.take_zero, boxSum, List.nil_append, Spec.entry, scalars, Arr.ofFn_get hi]
  rw [← Complex.ofReal_mul, Complex.ofReal_re]

theorem valDot_cscalars (rs i : List ℕ) (hi : inB rs i = true) (f g : List ℕ → ℂ) :
    valDot 0 (.complex (scalars rs f)) (.complex (scalars rs g)) i = (f i * g i).re := by
  simp only [valDot, List.take_zero, boxSum, List.nil_append, Spec.entry, scalars, Arr.ofFn_get hi]

theorem vectors_get {α : Type} [Inhabited α] {d : ℕ} (rs i : List ℕ) (hi : inB rs i = true)
    (f : List ℕ → Fin d → α) {k : ℕ} (hk : k < d) : (vectors rs f).get (k :: i) = f i ⟨k, hk⟩ := by
  rw [vectors, Arr.ofFn_get (by simp [inB_cons, hi, hk])]
  simp [hk]

theorem matrices_get {α : Type} [Inhabited α] {d : ℕ} (rs i : List ℕ) (hi : inB rs i = true)
    (f : List ℕ → Matrix (Fin d) (Fin d) α) {k l : ℕ} (hk : k < d) (hl : l < d) :
    (matrices rs f).get (l :: k :: i) = f i ⟨k, hk⟩ ⟨l, hl⟩ := by
  rw [matrices, Arr.ofFn_get (by simp [inB_cons, hi, hk, hl])]
  simp [hk, hl]

theorem sum_range_fin {d : ℕ} {g : ℕ → ℂ} {f : Fin d → ℂ} (h : ∀ k (hk : k < d), g k = f ⟨k, hk⟩) :
    ∑ k ∈ Finset.range d, g k = ∑ k, f k := by
  rw [Finset.sum_range]
  exact Finset.sum_congr rfl fun k _ => h k.1 k.2

theorem valDot_vectors {d : ℕ} (rs i : List ℕ) (hi : inB rs i = true) (f g : List ℕ → Fin d → ℝ) :
    valDot 1 (.real (vectors rs f)) (.real (vectors rs g)) i = ∑ k, f i k * g i k := by
  change (∑ k ∈ Finset.range d, Spec.entry (.real (vectors rs f)) (k :: i) *
    Spec.entry (.real (vectors rs g)) (k :: i)).re = _
  rw [sum_range_fin (f := fun k => ((f i k * g i k : ℝ) : ℂ)), ← Complex.ofReal_sum, Complex.ofReal_re]
  intro k hk
  have h1 := vectors_get rs i hi f hk
  have h2 := vectors_get rs i hi g hk
  simp only [Spec.entry, h1, h2, Complex.ofReal_mul]

theorem valDot_cvectors {d : ℕ} (rs i : List ℕ) (hi : inB rs i = true) (f g : List ℕ → Fin d → ℂ) :
    valDot 1 (.complex (vectors rs f)) (.complex (vectors rs g)) i = (∑ k, f i k * g i k).re := by
  change (∑ k ∈ Finset.range d, Spec.entry (.complex (vectors rs f)) (k :: i) *
    Spec.entry (.complex (vectors rs g)) (k :: i)).re = _
  rw [sum_range_fin (f := fun k => f i k * g i k)]
  intro k hk
  have h1 := vectors_get rs i hi f hk
  have h2 := vectors_get rs i hi g hk
  simp only [Spec.entry, h1, h2]

theorem valDot_matrices {d : ℕ} (rs i : List ℕ) (hi : inB rs i = true)
    (f g : List ℕ → Matrix (Fin d) (Fin d) ℝ) :
    valDot 2 (.real (matrices rs f)) (.real (matrices rs g)) i = ∑ k, ∑ l, f i k l * g i k l := by
  change (∑ l ∈ Finset.range d, ∑ k ∈ Finset.range d, Spec.entry (.real (matrices rs f)) (l :: k :: i) *
    Spec.entry (.real (matrices rs g)) (l :: k :: i)).re = _
  rw [Finset.sum_comm, sum_range_fin (f := fun k => ((∑ l, f i k l * g i k l : ℝ) : ℂ)),
    ← Complex.ofReal_sum, Complex.ofReal_re]
  intro k hk
  rw [sum_range_fin (f := fun l => ((f i ⟨k, hk⟩ l * g i ⟨k, hk⟩ l : ℝ) : ℂ)), ← Complex.ofReal_sum]
  intro l hl
  have h1 := matrices_get rs i hi f hk hl
  have h2 := matrices_get rs i hi g hk hl
  simp only [Spec.entry, h1, h2, Complex.ofReal_mul]

theorem valDot_cmatrices {d : ℕ} (rs i : List ℕ) (hi : inB rs i = true)
    (f g : List ℕ → Matrix (Fin d) (Fin d) ℂ) :
    valDot 2 (.complex (matrices rs f)) (.complex (matrices rs g)) i =
      (∑ k, ∑ l, f i k l * g i k l).re := by
  change (∑ l ∈ Finset.range d, ∑ k ∈ Finset.range d, Spec.entry (.complex (matrices rs f)) (l :: k :: i) *
    Spec.entry (.complex (matrices rs g)) (l :: k :: i)).re = _
  rw [Finset.sum_comm, sum_range_fin (f := fun k => ∑ l, f i k l * g i k l)]
  intro k hk
  rw [sum_range_fin (f := fun l => f i ⟨k, hk⟩ l * g i ⟨k, hk⟩ l)]
  intro l hl
  have h1 := matrices_get rs i hi f hk hl
  have h2 := matrices_get rs i hi g hk hl
  simp only [Spec.entry, h1, h2]

theorem dot_sub_vector {d : ℕ} (a b c : Fin d → ℝ) :
    ∑ i, (a i - b i) * c i = ∑ i, a i * c i - ∑ i, b i * c i := by
  simp only [sub_mul, Finset.sum_sub_distrib]

theorem dot_sub_matrix {d : ℕ} (a b c : Matrix (Fin d) (Fin d) ℝ) :
    ∑ i, ∑ j, (a i j - b i j) * c i j = ∑ i, ∑ j, a i j * c i j - ∑ i, ∑ j, b i j * c i j := by
  simp only [sub_mul, Finset.sum_sub_distrib]

theorem dot_sub_cscalar (a b c : ℂ) : ((a - b) * c).re = (a * c).re - (b * c).re := by
  rw [sub_mul, Complex.sub_re]

theorem dot_sub_cvector {d : ℕ} (a b c : Fin d → ℂ) :
    (∑ i, (a i - b i) * c i).re = (∑ i, a i * c i).re - (∑ i, b i * c i).re := by
  simp only [sub_mul, Finset.sum_sub_distrib, Complex.sub_re]

theorem dot_sub_cmatrix {d : ℕ} (a b c : Matrix (Fin d) (Fin d) ℂ) :
    (∑ i, ∑ j, (a i j - b i j) * c i j).re =
      (∑ i, ∑ j, a i j * c i j).re - (∑ i, ∑ j, b i j * c i j).re := by
  simp only [sub_mul, Finset.sum_sub_distrib, Complex.sub_re]

theorem dot_sub_add {a b c a' b' c' : ℝ} (h : a = b - c) (h' : a' = b' - c') :
    a + a' = b + b' - (c + c') := by
  rw [h, h']; ring

end Efax
