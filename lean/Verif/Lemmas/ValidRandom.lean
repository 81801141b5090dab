import Verif.Lemmas.Valid3
import Verif.Props.RoundTrip

/-!
# Random parameters are parameters of distributions
-/

namespace Efax

open Spec ClassTable

open scoped ComplexOrder

variable [MachEps] {solve : Solver} {rs rs₀ : List ℕ} {g : Rng}

theorem posDef_of_eq {α : Type} [_root_.Ring α] [PartialOrder α] [StarRing α] {d : ℕ} {M N : Matrix (Fin d) (Fin d) α}
    (h : N.PosDef) (e : ∀ l k, M l k = N l k) : M.PosDef := by
  rwa [show M = N from Matrix.ext e]

theorem sandwich_posDef {α : Type} [RCLike α] {d : ℕ} (M : Matrix (Fin d) (Fin d) α) (hM : M.det ≠ 0)
    (e : Fin d → ℝ) (he : ∀ n, e n < 0) :
    (-(Matrix.of fun l k : Fin d => ∑ n, M l n * (e n : α) * star (M k n))).PosDef := by
  have h1 : (Matrix.diagonal fun n => ((-e n : ℝ) : α)).PosDef :=
    Matrix.PosDef.diagonal fun n => by simpa using he n
  have h2 := h1.mul_mul_conjTranspose_same (B := M)
    (Matrix.vecMul_injective_of_isUnit ((Matrix.isUnit_iff_isUnit_det _).2 (isUnit_iff_ne_zero.2 hM)))
  convert h2 using 1
  ext l k
  simp [Matrix.mul_apply, Matrix.diagonal, Matrix.conjTranspose_apply, mul_ite, ite_mul, Finset.sum_ite_eq']

theorem eig_neg (hg : InRange g) (d : ℕ) (s : g.State) {n : ℕ} {j : List ℕ} (hn : n < d) (hj : inB rs j = true) :
    (Ring.realGenerate none (some (Ring.openMax 0)) 1 g (d :: rs) s).1.get (n :: j) < 0 := by
  have := ((realGenerate_mem hg (mn := none) (mx := some (Ring.openMax 0)) zero_le_one (by simp)
      (d :: rs) s).2 _ ((inB_cons ..).2 ⟨hn, hj⟩)).2 _ rfl
  exact this.trans_lt (openMax_lt 0)

theorem GoodField.of_inSupport {d : ℕ} {t : Support} {v : Val} (h : InSupport t d rs v) : GoodField d rs t v := by
  cases t with
  | scalar r => exact .inr h
  | vector r => exact .inr h
  | symmetric r _ _ _ => exact .inr h.1
  | simplex r => trivial
  | square r => trivial
  | circular r => trivial

theorem made_vector (hq : Generic g) {d : ℕ} (hd : 0 < d) {v : Val} (h : Made g rs d (.vector Ring.realField) v) :
    ∃ a, v = .real a ∧ a.rshape = d :: rs ∧ ∀ i, inB rs i = true → ∃ k < d, a.get (k :: i) ≠ 0 := by
  obtain ⟨h0, s, s', h⟩ := h
  have h : Except.ok (Val.real ((g.normal (d :: rs) s).1.map fun x => x * 1), (g.normal (d :: rs) s).2) =
    Except.ok (v, s') := h
  simp only [Except.ok.injEq, Prod.mk.injEq] at h
  obtain ⟨rfl, _⟩ := h
  have h1 : ((g.normal (d :: rs) s).1.map fun x => x * 1).rshape = d :: rs := h0.1
  refine ⟨_, rfl, h1, fun i hi => ?_⟩
  obtain ⟨k, hk, hne⟩ := hq.vector d rs s i hd hi
  refine ⟨k, hk, ?_⟩
  have h2 : inB (g.normal (d :: rs) s).1.rshape (k :: i) = true := by
    rw [show (g.normal (d :: rs) s).1.rshape = d :: rs from h1]
    exact (inB_cons ..).2 ⟨hk, hi⟩
  rw [Arr.map_get h2, mul_one]
  exact hne

theorem made_matrix (hg : InRange g) (hq : Generic g) {d : ℕ} {v : Val}
    (h : Made g rs d (.symmetric Ring.realField false true false) v) :
    ∃ a, v = .real a ∧ a.rshape = d :: d :: rs ∧ ∀ i, inB rs i = true →
      (-(Matrix.of fun (r c : Fin d) => a.get (c.1 :: r.1 :: i))).PosDef := by
  obtain ⟨h0, s, s', h⟩ := h
  have h : Except.ok (Val.real (Support.sandwich id id d rs ((g.normal (d :: d :: rs) s).1.map fun x => x * 1)
      (Ring.realGenerate none (some (Ring.openMax 0)) 1 g (d :: rs) (g.normal (d :: d :: rs) s).2).1),
      (Ring.realGenerate none (some (Ring.openMax 0)) 1 g (d :: rs) (g.normal (d :: d :: rs) s).2).2) =
    Except.ok (v, s') := h
  simp only [Except.ok.injEq, Prod.mk.injEq] at h
  obtain ⟨rfl, _⟩ := h
  refine ⟨_, rfl, rfl, fun i hi => ?_⟩
  have h2 := sandwich_posDef _ (hq.matrix d rs s i hi)
    (fun n => (Ring.realGenerate none (some (Ring.openMax 0)) 1 g (d :: rs) (g.normal (d :: d :: rs) s).2).1.get
      (n.1 :: i)) fun n => eig_neg hg d _ n.2 hi
  refine posDef_of_eq h2 fun l k => ?_
  simp only [Matrix.neg_apply, Matrix.of_apply, neg_inj]
  have h3 : inB (d :: d :: rs) (k.1 :: l.1 :: i) = true := (inB_cons ..).2 ⟨k.2, (inB_cons ..).2 ⟨l.2, hi⟩⟩
  rw [Support.sandwich, Arr.ofFn_get h3]
  simp only [Finset.sum_range, Matrix.of_apply]
  refine Finset.sum_congr rfl fun n _ => ?_
  have h4 : ∀ l : Fin d, ((g.normal (d :: d :: rs) s).1.map fun x => x * 1).get (n.1 :: l.1 :: i) =
      (g.normal (d :: d :: rs) s).1.get (n.1 :: l.1 :: i) := fun l => by
    rw [Arr.map_get, mul_one]
    rw [hg.normal_shape]
    exact (inB_cons ..).2 ⟨n.2, (inB_cons ..).2 ⟨l.2, hi⟩⟩
  rw [h4, h4]
  simp

/-- The complex field returns the number whose parts are drawn. -/
theorem complexField_get {s s' : g.State} {v : Val} {ts : List ℕ}
    (h : Ring.complexField.generate g ts s = .ok (v, s')) :
    ∃ a, v = .complex a ∧ a.rshape = ts ∧ ∀ i, inB ts i = true →
      a.get i = (g.normal ts s).1.get i + (g.normal ts (g.normal ts s).2).1.get i * Complex.I := by
  simp only [Ring.complexField, Ring.generate, Ring.complexUnflatArr, Bind.bind, Except.bind] at h
  split at h
  · cases h
  · rename_i w hw
    split_ifs at hw with hb
    · simp only [Functor.map, Except.map] at hw
      split at hw
      · cases hw
      · rename_i a ha
        simp only [Except.ok.injEq, Prod.mk.injEq] at h hw
        obtain ⟨rfl, _⟩ := h
        subst hw
        obtain ⟨h1, h2⟩ := Arr.mapE_eq_ok_iff.1 ha
        have h1 : a.rshape = ts := h1
        refine ⟨a, rfl, h1, fun i hi => ?_⟩
        have h3 := h2 i hi
        rw [Arr.ofFn_get hi] at h3
        have h0 : Ring.boundAt (Arr.full [] 0) i = 0 := by
          simp [Ring.boundAt, Arr.full, Arr.ofFn, inB]
        have hc : (⟨(g.normal ts s).1.get i, (g.normal ts (g.normal ts s).2).1.get i⟩ : ℂ) =
            (g.normal ts s).1.get i + (g.normal ts (g.normal ts s).2).1.get i * Complex.I := by
          apply Complex.ext <;> simp
        simp only [Option.map_none, Ring.complexUnflat, h0, add_zero, cdiv?, hc] at h3
        split_ifs at h3 with hz
        rw [← Option.some.inj h3, mul_div_cancel_right₀ _ (by exact_mod_cast hz)]

theorem made_complex (hg : InRange g) (hq : Generic g) {d : ℕ} {v : Val}
    (h : Made g rs d (.symmetric Ring.complexField false true true) v) :
    ∃ a, v = .complex a ∧ a.rshape = d :: d :: rs ∧ ∀ i, inB rs i = true →
      (-(Matrix.of fun (r c : Fin d) => a.get (c.1 :: r.1 :: i))).PosDef := by
  obtain ⟨h0, s, s', h⟩ := h
  simp only [Support.generate, Support.symmetricGenerate, Bind.bind, Except.bind] at h
  cases hm : Ring.complexField.generate g (d :: d :: rs) s with
  | error e => rw [hm] at h; cases h
  | ok m =>
    rw [hm] at h
    obtain ⟨m, s1⟩ := m
    cases m with
    | real => cases v <;> first | exact h0.1.2.elim | (simp at h)
    | bool => simp at h
    | int => simp at h
    | complex a =>
      simp only [Bool.or_false, if_true, Except.ok.injEq, Prod.mk.injEq, Bool.false_eq_true, if_false] at h
      obtain ⟨rfl, _⟩ := h
      refine ⟨_, rfl, rfl, fun i hi => ?_⟩
      obtain ⟨a', ea, _, ha⟩ := complexField_get hm
      cases ea
      have h2 := sandwich_posDef _ (hq.complex d rs s i hi)
        (fun n => (Ring.realGenerate none (some (Ring.openMax 0)) 1 g (d :: rs) s1).1.get
          (n.1 :: i)) fun n => eig_neg hg d _ n.2 hi
      refine posDef_of_eq h2 fun l k => ?_
      simp only [Matrix.neg_apply, Matrix.of_apply, neg_inj]
      have h3 : inB (d :: d :: rs) (k.1 :: l.1 :: i) = true := (inB_cons ..).2 ⟨k.2, (inB_cons ..).2 ⟨l.2, hi⟩⟩
      rw [Support.sandwich, Arr.ofFn_get h3]
      simp only [Finset.sum_range, Matrix.of_apply]
      refine Finset.sum_congr rfl fun n _ => ?_
      have h4 : ∀ l : Fin d, inB (d :: d :: rs) (n.1 :: l.1 :: i) = true := fun l =>
        (inB_cons ..).2 ⟨n.2, (inB_cons ..).2 ⟨l.2, hi⟩⟩
      show a.get (n.1 :: l.1 :: i) * _ * star (a.get (n.1 :: k.1 :: i)) = _
      rw [ha _ (h4 l), ha _ (h4 k)]
      rfl

/-- Values that belong to the supports of the fixed parameters, too. -/
theorem made_var {c : Cls} {d : ℕ} {v : List Val} (hf : c = .complexNormalNP → NoFixed c)
    (h : EachField (Made g rs d) c ((fields c).zip v) []) :
    EachField (GoodField d rs) c (varPairs c v) [] := by
  have h' : EachField (GoodField d rs) c ((fields c).zip v) [] :=
    EachField.imp (fun _ _ h => .of_inSupport h.1) h
  by_cases hc : c = .complexNormalNP
  · have : varPairs c v = (fields c).zip v := by
      rw [varPairs, List.filter_eq_self]
      intro fv hfv
      simp [hf hc fv.1 (List.of_mem_zip hfv).1]
    rw [this]
    exact h'
  · have h1 : ∀ fv ∈ (fields c).zip v, GoodField d rs fv.1.support fv.2 :=
      eachField_declared hc (fun fv hfv => (List.of_mem_zip hfv).1) h'
    have key : ∀ (l : List (Field × Val)) (kw : Dict String Val), (∀ fv ∈ l, fv ∈ (fields c).zip v) →
        EachField (GoodField d rs) c l kw := by
      intro l
      induction l with
      | nil => intro kw _; trivial
      | cons fv l ih =>
        intro kw hl
        exact ⟨⟨fv.1.support, Cls.adjust_eq (List.of_mem_zip (hl fv (by simp))).1 kw fun h => hc h.1,
          h1 fv (hl fv (by simp))⟩, ih _ fun x hx => hl x (by simp [hx])⟩
    exact key _ _ fun fv hfv => (List.mem_filter.1 hfv).1

/-- Simple distributions with random parameters. -/
theorem transfers_random (hg : InRange g) (hq : Generic g) (hne : ∃ i, inB rs₀ i = true) (s : Simple) :
    Transfers solve (SameLeaf false fun c d v => EachField (Made g rs d) c ((fields c).zip v) [])
      rs₀ rs (s.kind solve) (s.setting solve) := by
  intro p₀ q₀ hi d hw h
  obtain ⟨vals₀, e, hj⟩ : ∃ vals₀, (s.kind solve).nat rs₀ p₀ q₀ = .mk s.cls vals₀ .nil ∧
      isJoint s.cls = false := by
    cases s <;> exact ⟨_, rfl, rfl⟩
  match d, hw, h with
  | .mk c vals subs, hw, h =>
    rw [e] at h
    obtain ⟨rfl, h1, h2⟩ := h
    obtain ⟨h3, -, d, h5, h6, h7⟩ := h1 hj
    cases subs with
    | cons => exact h2.elim
    | nil =>
      obtain ⟨i₀, hi₀⟩ := hne
      have hd₀ : dimensions s.cls ((s.kind solve).nat rs₀ p₀ q₀).vals = .ok d := by rw [e]; exact h5
      have hmem : ∀ fv ∈ (fields s.cls).zip vals, fv.1 ∈ Cls.fields s.cls := fun fv hfv => (List.of_mem_zip hfv).1
      refine leaf_valid s h3 (rs₀ := rs₀) (p₀ := p₀) (q₀ := q₀) hd₀ (made_var ?_ h7) ?_ ?_
      · intro hc
        rw [hc]
        intro f hf
        have hf : f ∈ Cls.fields .complexNormalNP := hf
        simp only [Cls.fields, List.mem_cons, List.not_mem_nil, or_false] at hf
        rcases hf with rfl | rfl | rfl <;> rfl
      · clear h1 hw h6
        match s with
        | .mvFixed n =>
          obtain ⟨v, w, rfl⟩ := valid_two h3 rfl
          obtain ⟨r, rfl, hr⟩ := GoodField.scalar (.of_inSupport
            (eachField_declared (by simp [Simple.cls]) hmem h7 (_, w) (.tail _ (.head _))).1)
          exact ⟨r, fun i hi => minSup (hr i hi), rfl⟩
        | .weibull =>
          obtain ⟨v, w, rfl⟩ := valid_two h3 rfl
          obtain ⟨r, rfl, hr⟩ := GoodField.scalar (.of_inSupport
            (eachField_declared (by simp [Simple.cls]) hmem h7 (_, v) (.head _)).1)
          exact ⟨r, fun i hi => minSup (hr i hi), rfl⟩
        | .negativeBinomial =>
          obtain ⟨v, w, rfl⟩ := valid_two h3 rfl
          have h8 : BoundedBy (.integral (some 1) none) [] rs w :=
            (eachField_declared (by simp [Simple.cls]) hmem h7 (_, w) (.tail _ (.head _))).1
          obtain ⟨h8, h9⟩ := h8
          cases w with
          | real => exact h9.elim
          | bool => exact h9.elim
          | complex => exact h9.elim
          | int a =>
            have h9 : ∀ i, inB rs i = true → 1 ≤ a.get i := fun i hi => (h9 i hi).1 1 rfl
            refine ⟨fun i => (a.get i).toNat, fun i hi => ?_, ?_⟩
            · have := h9 i hi
              show 1 ≤ (a.get i).toNat
              omega
            · have : scalars rs (fun i => ((a.get i).toNat : ℤ)) = a := by
                rw [Arr.eq_scalars' (a := a) (rs := rs) h8]
                refine scalars_congr_in fun i hi => ?_
                have := h9 i hi
                rw [scalars, Arr.ofFn_get hi]
                omega
              show fixedOf _ [_, Val.int (scalars rs fun i => ((a.get i).toNat : ℤ))] = _
              rw [this]
              rfl
        | .bernoulli | .beta | .chi | .chiSquare | .cmvUnit _ | .complexNormal | .complexUnit | .dirichlet _
        | .exponential | .gamma | .genDirichlet _ | .geometric | .logarithmic | .multinomial _ | .mvDiagonal _
        | .mvIsotropic _ | .mvUnit _ | .normal | .unitNormal | .poisson
        | .rayleigh | .vonMisesFisher _ | .mvNormal _ | .cmvCircular _ =>
          refine ⟨fun _ => p₀ i₀, fun _ _ => (hi i₀ hi₀).1, (fixedOf_nil ?_ _).trans (fixedOf_nil ?_ _).symm⟩ <;>
          · intro f hf
            have hf : f ∈ Cls.fields _ := hf
            simp only [Simple.cls, Cls.fields, List.mem_cons, List.not_mem_nil, or_false] at hf
            (try rcases hf with rfl | rfl | rfl) <;> (try rcases hf with rfl | rfl) <;> (try subst hf) <;> rfl
      · match s with
        | .vonMisesFisher n =>
          obtain ⟨v, rfl⟩ := valid_one h3 rfl
          obtain rfl := dim_first (n := n) rfl rfl hd₀
          have hd : 0 < d := by
            rcases Nat.eq_zero_or_pos d with rfl | h
            · exact absurd (Subsingleton.elim (α := EuclideanSpace ℝ (Fin 0)) (q₀ i₀) 0) (hi i₀ hi₀).2
            · exact h
          obtain ⟨a, rfl, ha, hx⟩ := made_vector hq hd
            (eachField_declared (by simp [Simple.cls]) hmem h7 (_, v) (.head _))
          intro i hi
          have := hx i hi
          simpa [ha] using this
        | .mvNormal n =>
          obtain ⟨v, w, rfl⟩ := valid_two h3 rfl
          obtain ⟨a, rfl, ha, hx⟩ := made_matrix hg hq
            (eachField_declared (by simp [Simple.cls]) hmem h7 (_, w) (.tail _ (.head _)))
          intro i hi
          have hd : d = a.rshape.headD 0 := by rw [ha]; rfl
          exact hd ▸ hx i hi
        | .cmvCircular n =>
          obtain ⟨v, rfl⟩ := valid_one h3 rfl
          obtain ⟨a, rfl, ha, hx⟩ := made_complex hg hq
            (eachField_declared (by simp [Simple.cls]) hmem h7 (_, v) (.head _))
          intro i hi
          have hd : d = a.rshape.headD 0 := by rw [ha]; rfl
          exact hd ▸ hx i hi
        | .bernoulli | .beta | .chi | .chiSquare | .cmvUnit _ | .complexNormal | .complexUnit | .dirichlet _
        | .exponential | .gamma | .genDirichlet _ | .geometric | .logarithmic | .multinomial _ | .mvDiagonal _
        | .mvFixed _ | .mvIsotropic _ | .mvUnit _ | .negativeBinomial | .normal | .unitNormal | .poisson
        | .rayleigh | .weibull => trivial

end Efax
