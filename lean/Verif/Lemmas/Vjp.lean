import Verif.Lemmas.Slots
import Verif.Lemmas.ExpFam2

/-! # The Fisher information applied to a vector, from the parameter arrays to the families -/

noncomputable section

namespace Efax

open Spec Calc MeasureTheory

/-- How lists of parameter arrays hold fixed parameters and one element of `N` per entry of a batch. -/
structure VLay {P N : Type} [AddCommGroup N] [Module ℝ N] (nat exp : Layout P N) (dot : N → N → ℝ) :
    Prop where
  same : ∀ rs p₁ v p x, sameTypes (exp rs p₁ v) (exp rs p x) = true
  pair : ∀ rs p₁ v p, ∃ c, ∀ x, (List.zipWith Val.pair (exp rs p₁ v) (exp rs p x)).sum =
    c + sumBox rs fun i => dot (v i) (x i)
  grad : ∀ rs p q (D : ℕ → List ℕ → ℂ → ℝ) (ℓ : List ℕ → N →ₗ[ℝ] ℝ),
    (∀ k j z i e, inB rs i = true → (∀ (t : ℝ) p q, (nat rs p q).modify k (Val.nudge j (t * z)) =
      nat rs p (Function.update q i (q i + t • e))) → D k j z = ℓ i e) →
    ∃ p' u, (nat rs p q).mapIdx (fun k v => v.cotangent (D k)) = nat rs p' u ∧
      ∀ i, inB rs i = true → ∀ w, dot w (u i) = ℓ i w

section Layouts

variable {A B : Type} [AddCommGroup A] [Module ℝ A] [AddCommGroup B] [Module ℝ B]
  {a a' : List ℕ → (List ℕ → A) → Val} {b b' : List ℕ → (List ℕ → B) → Val}
  {da : A → A → ℝ} {db : B → B → ℝ}

theorem Slot.one {P : Type} (s : Slot A a da) :
    VLay (P := P) (fun rs _ q => [a rs q]) (fun rs _ q => [a rs q]) da where
  same rs p₁ v p x := by simp [sameTypes, s.same]
  pair rs p₁ v p := ⟨0, fun x => by simp [s.pair]⟩
  grad rs p q D ℓ h := by
    obtain ⟨u, h1, h2⟩ := s.grad rs q (D 0) ℓ fun j z i e hi he => h 0 j z i e hi fun t _ _ => by
      simp [he]
    exact ⟨p, u, by simp [h1], h2⟩

theorem update_fst (q : List ℕ → A × B) (i : List ℕ) (x : A × B) :
    (fun j => (Function.update q i x j).1) = Function.update (fun j => (q j).1) i x.1 := by
  funext j
  by_cases h : j = i
  · subst h; simp
  · simp [h]

theorem update_snd (q : List ℕ → A × B) (i : List ℕ) (x : A × B) :
    (fun j => (Function.update q i x j).2) = Function.update (fun j => (q j).2) i x.2 := by
  funext j
  by_cases h : j = i
  · subst h; simp
  · simp [h]

theorem Slot.two {P : Type} (s : Slot A a da) (s' : Slot B b db) :
    VLay (P := P) (N := A × B) (fun rs _ q => [a rs fun i => (q i).1, b rs fun i => (q i).2])
      (fun rs _ q => [a rs fun i => (q i).1, b rs fun i => (q i).2])
      fun x y => da x.1 y.1 + db x.2 y.2 where
  same rs p₁ v p x := by simp [sameTypes, s.same, s'.same]
  pair rs p₁ v p := ⟨0, fun x => by simp [s.pair, s'.pair, sumBox_add]⟩
  grad rs p q D ℓ h := by
    obtain ⟨u, h1, h2⟩ := s.grad rs (fun i => (q i).1) (D 0) (fun i => ℓ i ∘ₗ LinearMap.inl ℝ A B)
      fun j z i e hi he => h 0 j z i _ hi fun t _ _ => by
        rw [update_fst, update_snd]
        simp [he]
    obtain ⟨u', h1', h2'⟩ := s'.grad rs (fun i => (q i).2) (D 1) (fun i => ℓ i ∘ₗ LinearMap.inr ℝ A B)
      fun j z i e hi he => h 1 j z i _ hi fun t _ _ => by
        rw [update_fst, update_snd]
        simp [he]
    refine ⟨p, fun i => (u i, u' i), by simp [h1, h1'], fun i hi w => ?_⟩
    rw [h2 i hi, h2' i hi, LinearMap.comp_apply, LinearMap.comp_apply, ← map_add]
    simp

theorem Slot.three {P G : Type} [AddCommGroup G] [Module ℝ G] {g : List ℕ → (List ℕ → G) → Val}
    {dg : G → G → ℝ} (s : Slot A a da) (s' : Slot B b db) (s'' : Slot G g dg) :
    VLay (P := P) (N := A × B × G) (fun rs _ q => [a rs fun i => (q i).1, b rs fun i => (q i).2.1, g rs fun i => (q i).2.2])
      (fun rs _ q => [a rs fun i => (q i).1, b rs fun i => (q i).2.1, g rs fun i => (q i).2.2])
      fun x y => da x.1 y.1 + db x.2.1 y.2.1 + dg x.2.2 y.2.2 where
  same rs p₁ v p x := by simp [sameTypes, s.same, s'.same, s''.same]
  pair rs p₁ v p := ⟨0, fun x => by simp [s.pair, s'.pair, s''.pair, sumBox_add, add_assoc]⟩
  grad rs p q D ℓ h := by
    have e1 : ∀ (q : List ℕ → A × B × G) i x, (fun j => (Function.update q i x j).2.1) =
        Function.update (fun j => (q j).2.1) i x.2.1 := by
      intro q i x; funext j; by_cases h : j = i
      · subst h; simp
      · simp [h]
    have e2 : ∀ (q : List ℕ → A × B × G) i x, (fun j => (Function.update q i x j).2.2) =
        Function.update (fun j => (q j).2.2) i x.2.2 := by
      intro q i x; funext j; by_cases h : j = i
      · subst h; simp
      · simp [h]
    obtain ⟨u, h1, h2⟩ := s.grad rs (fun i => (q i).1) (D 0)
      (fun i => ℓ i ∘ₗ LinearMap.inl ℝ A (B × G))
      fun j z i e hi he => h 0 j z i _ hi fun t _ _ => by
        rw [update_fst, e1, e2]
        simp [he]
    obtain ⟨u', h1', h2'⟩ := s'.grad rs (fun i => (q i).2.1) (D 1)
      (fun i => ℓ i ∘ₗ LinearMap.inr ℝ A (B × G) ∘ₗ LinearMap.inl ℝ B G)
      fun j z i e hi he => h 1 j z i _ hi fun t _ _ => by
        rw [update_fst, e1, e2]
        simp [he]
    obtain ⟨u'', h1'', h2''⟩ := s''.grad rs (fun i => (q i).2.2) (D 2)
      (fun i => ℓ i ∘ₗ LinearMap.inr ℝ A (B × G) ∘ₗ LinearMap.inr ℝ B G)
      fun j z i e hi he => h 2 j z i _ hi fun t _ _ => by
        rw [update_fst, e1, e2]
        simp [he]
    refine ⟨p, fun i => (u i, u' i, u'' i), by simp [h1, h1', h1''], fun i hi w => ?_⟩
    rw [h2 i hi, h2' i hi, h2'' i hi]
    simp only [LinearMap.comp_apply]
    rw [← map_add, ← map_add]
    simp

theorem Slot.varFixed {P : Type} {r : List ℕ → (List ℕ → P) → Val} (s : Slot A a da) (f : FixedSlot P r) :
    VLay (P := P) (fun rs p q => [a rs q, r rs p]) (fun rs p q => [a rs q, r rs p]) da where
  same rs p₁ v p x := by simp [sameTypes, s.same, f.same]
  pair rs p₁ v p := ⟨(r rs p₁).pair (r rs p), fun x => by simp [s.pair, add_comm]⟩
  grad rs p q D ℓ h := by
    obtain ⟨u, h1, h2⟩ := s.grad rs q (D 0) ℓ fun j z i e hi he => h 0 j z i e hi fun t _ _ => by
      simp [he]
    obtain ⟨p', h3⟩ := f.grad rs p (D 1)
    exact ⟨p', u, by simp [h1, h3], h2⟩

theorem Slot.fixedVar {P : Type} {r : List ℕ → (List ℕ → P) → Val} (s : Slot A a da) (f : FixedSlot P r) :
    VLay (P := P) (fun rs p q => [r rs p, a rs q]) (fun rs p q => [r rs p, a rs q]) da where
  same rs p₁ v p x := by simp [sameTypes, s.same, f.same]
  pair rs p₁ v p := ⟨(r rs p₁).pair (r rs p), fun x => by simp [s.pair]⟩
  grad rs p q D ℓ h := by
    obtain ⟨u, h1, h2⟩ := s.grad rs q (D 1) ℓ fun j z i e hi he => h 1 j z i e hi fun t _ _ => by
      simp [he]
    obtain ⟨p', h3⟩ := f.grad rs p (D 0)
    exact ⟨p', u, by simp [h1, h3], h2⟩

end Layouts

variable [MachEps]

/-- If the pairing with `to_exp` is differentiable, with the covariances as derivatives, then
`apply_fisher_information` applies the Fisher information. -/
theorem VLay.applied {P N X : Type} [AddCommGroup N] [Module ℝ N] [MeasurableSpace X] {c c' : Cls}
    {nat exp : Layout P N} {dot : N → N → ℝ} (l : VLay nat exp dot) {L : Library Cls}
    {F : P → ExpFam N N X} {μ : Measure X} {dom : P → Set N} {dirs : Submodule ℝ N} {m : NatMethods}
    {fixed : List ℕ → (List ℕ → P) → Dict String Val}
    {obs : List ℕ → (List ℕ → X) → Val → Prop} {dm : P → N → Prop}
    (hr : Refines m nat exp fixed obs F dm) (hm : L.nat c = some m) (hj : Cls.isJoint c = false)
    (he : Cls.expCls c = some c') (hdot : ∀ p a b, (F p).dot a b = dot a b)
    (hd : ∀ p q, q ∈ dom p → dm p q)
    (H : ∀ p q v, q ∈ dom p → v ∈ dirs → ∃ ℓ : N →ₗ[ℝ] ℝ,
      (∀ e, HasDerivAt (fun t : ℝ => (F p).dot v ((F p).toExp (q + t • e))) (ℓ e) 0 ∧
        ∀ᶠ t : ℝ in nhds 0, dm p (q + t • e)) ∧
      ∀ w ∈ dirs, HasCov μ ((F p).pdf q) (fun x => (F p).dot w ((F p).stat x))
        (fun x => (F p).dot v ((F p).stat x)) (ℓ w)) :
    FisherApplied L (fun rs p q => .mk c (nat rs p q) .nil) (fun rs p q => .mk c' (exp rs p q) .nil)
      F μ dom dirs := by
  classical
  intro rs p q p₁ v hq
  have hE : ∀ w : List Val, (Dist.mk c w .nil).toExp L.toExp =
      (m.toExp w).bind fun v => .ok (.mk c' v .nil) := fun w => by
    simp only [Dist.toExp, ClassTable.expCls, ClassTable.isJoint, he, hj, Library.toExp, hm]
    rfl
  have hG : ∀ i, ∃ ℓ : N →ₗ[ℝ] ℝ, inB rs i = true →
      (∀ e, HasDerivAt (fun t : ℝ => (F (p i)).dot (v i) ((F (p i)).toExp (q i + t • e))) (ℓ e) 0 ∧
        ∀ᶠ t : ℝ in nhds 0, dm (p i) (q i + t • e)) ∧
      ∀ w ∈ dirs, HasCov μ ((F (p i)).pdf (q i)) (fun x => (F (p i)).dot w ((F (p i)).stat x))
        (fun x => (F (p i)).dot (v i) ((F (p i)).stat x)) (ℓ w) := fun i => by
    by_cases hi : inB rs i = true
    · obtain ⟨ℓ, h⟩ := H (p i) (q i) (v i) (hq i hi).1 (hq i hi).2
      exact ⟨ℓ, fun _ => h⟩
    · exact ⟨0, fun h => absurd h hi⟩
  choose ℓ hℓ using hG
  have hN : ∀ k i z (w : List Val), (Dist.mk c w .nil).nudge k i z [] =
      .mk c (w.modify k (Val.nudge i z)) .nil := fun k i z w => by rw [Dist.nudge]
  set D : List ℕ → ℕ → List ℕ → ℂ → ℝ := fun path k i z => deriv (fun t : ℝ =>
    pairResult (.mk c' (exp rs p₁ v) .nil)
      (((Dist.mk c (nat rs p q) .nil).nudge k i (t * z) path).toExp L.toExp)) 0 with hD
  obtain ⟨p', u, h1, h2⟩ := l.grad rs p q (D []) ℓ fun k j z i e hi hn => by
    simp only [hD, hN, hn, hE]
    have hq' : ∀ᶠ t : ℝ in nhds 0, ∀ j, inB rs j = true →
        dm (p j) (Function.update q i (q i + t • e) j) := by
      filter_upwards [((hℓ i hi).1 e).2] with t ht j hj
      by_cases h : j = i
      · subst h; simpa using ht
      · simp only [Function.update_of_ne h]; exact hd _ _ (hq j hj).1
    obtain ⟨b, hb⟩ := l.pair rs p₁ v p
    have hev : (fun t : ℝ => pairResult (.mk c' (exp rs p₁ v) .nil)
        ((m.toExp (nat rs p (Function.update q i (q i + t • e)))).bind fun v => .ok (.mk c' v .nil)))
        =ᶠ[nhds 0] fun t => (b + sumBox rs fun j => if j = i then 0 else
          (F (p j)).dot (v j) ((F (p j)).toExp (q j))) +
          (F (p i)).dot (v i) ((F (p i)).toExp (q i + t • e)) := by
      filter_upwards [hq'] with t ht
      rw [hr.toExp rs p _ ht]
      simp only [Except.bind, pairResult, Dist.pair, Subs.pair, add_zero, hb]
      rw [add_assoc, ← sumBox_update hi q (q i + t • e) fun j x => (F (p j)).dot (v j) ((F (p j)).toExp x)]
      simp only [hdot]
    rw [hev.deriv_eq]
    exact ((hℓ i hi).1 e).1.const_add _ |>.deriv
  refine ⟨p', u, ?_, fun i hi w hw => ?_⟩
  · simp only [Dist.applyFisher, hE, hr.toExp rs p q fun i hi => hd _ _ (hq i hi).1, Except.bind, Bind.bind,
      Dist.sameType, l.same, Subs.sameType, beq_self_eq_true, Bool.and_self, if_true]
    refine congrArg _ (congrArg _ ?_)
    simp only [pullback, Dist.cotangent, Subs.cotangent]
    exact congrArg (fun x => Dist.mk c x .nil) h1
  · rw [hdot, h2 i hi w]
    exact (hℓ i hi).2 w hw

/-- For a regular family whose natural parameters vary in all directions, the derivatives exist. -/
theorem Spec.LocallyRegular.deriv_linear {N E X : Type} [AddCommGroup N] [Module ℝ N] [MeasurableSpace X]
    {F : ExpFam N E X} {μ : Measure X} {D : Set N} (R : LocallyRegular F μ D ⊤) {q : N} (v : N) (hq : q ∈ D) :
    ∃ ℓ : N →ₗ[ℝ] ℝ,
      (∀ e, HasDerivAt (fun t : ℝ => F.dot v (F.toExp (q + t • e))) (ℓ e) 0) ∧
      ∀ w, HasCov μ (F.pdf q) (fun x => F.dot w (F.stat x)) (fun x => F.dot v (F.stat x)) (ℓ w) := by
  have h : ∀ w, ∃ c, HasCov μ (F.pdf q) (fun x => F.dot w (F.stat x)) (fun x => F.dot v (F.stat x)) c ∧
      HasDerivAt (fun t : ℝ => F.dot w (F.toExp (q + t • v))) c 0 ∧
      HasDerivAt (fun t : ℝ => F.dot v (F.toExp (q + t • w))) c 0 := fun w => by
    obtain ⟨c, hc, hcd⟩ := R.deriv_toExp hq (u := w) (v := v) trivial trivial
    obtain ⟨c', hc', hcd'⟩ := R.deriv_toExp hq (u := v) (v := w) trivial trivial
    have hcc : c' = c := by
      obtain ⟨a, b, ha, hb, hab⟩ := hc
      obtain ⟨b', a', hb', ha', hba⟩ := hc'
      obtain rfl := ha.unique ha'
      obtain rfl := hb.unique hb'
      exact hba.unique (hab.congr (fun x => by ring) rfl)
    exact ⟨c, hc, hcd, hcc ▸ hcd'⟩
  choose c h1 h2 h3 using h
  refine ⟨{ toFun := c, map_add' := fun a b => ?_, map_smul' := fun t a => ?_ }, h3, h1⟩
  · refine (h2 (a + b)).unique (((h2 a).add (h2 b)).congr_of_eventuallyEq (.of_forall fun t => ?_))
    exact R.dot_plus a b _
  · refine (h2 (t • a)).unique (((h2 a).const_mul t).congr_of_eventuallyEq (.of_forall fun s => ?_))
    exact R.dot_zero_smul a t _

/-- A family of one real parameter is locally regular on every open part of its domain. -/
theorem Spec.LocallyRegular.restrict {E X : Type} [MeasurableSpace X] {F : ExpFam ℝ E X} {μ : Measure X}
    {D : Set ℝ} (R : LocallyRegular F μ D ⊤) {U : Set ℝ} (hU : IsOpen U) (h : U ⊆ D) :
    LocallyRegular F μ U ⊤ where
  dot_add := R.dot_add
  is_open η hη v _ := by
    have hc : Continuous fun t : ℝ => η + t • v := by fun_prop
    exact hc.continuousAt.eventually_mem (hU.mem_nhds (by simpa using hη))
  mem_dirs _ _ := trivial
  density η hη := R.density η (h hη)
  gradient η hη := R.gradient η (h hη)

/-- The same for families whose natural parameters vary in all directions. -/
theorem VLay.appliedTop {P N X : Type} [AddCommGroup N] [Module ℝ N] [MeasurableSpace X] {c c' : Cls}
    {nat exp : Layout P N} {dot : N → N → ℝ} (l : VLay nat exp dot) {L : Library Cls}
    {F : P → ExpFam N N X} {μ : Measure X} {dom : P → Set N} {m : NatMethods}
    {fixed : List ℕ → (List ℕ → P) → Dict String Val}
    {obs : List ℕ → (List ℕ → X) → Val → Prop} {dm : P → N → Prop}
    (hr : Refines m nat exp fixed obs F dm) (hm : L.nat c = some m) (hj : Cls.isJoint c = false)
    (he : Cls.expCls c = some c') (hdot : ∀ p a b, (F p).dot a b = dot a b)
    (R : ∀ p q, q ∈ dom p → ∃ D, q ∈ D ∧ LocallyRegular (F p) μ D ⊤ ∧ ∀ q' ∈ D, dm p q') :
    FisherApplied L (fun rs p q => .mk c (nat rs p q) .nil) (fun rs p q => .mk c' (exp rs p q) .nil)
      F μ dom ⊤ := by
  refine l.applied hr hm hj he hdot (fun p q hq => ?_) fun p q v hq _ => ?_
  · obtain ⟨D, h1, _, h2⟩ := R p q hq
    exact h2 q h1
  · obtain ⟨D, h1, R, h2⟩ := R p q hq
    obtain ⟨ℓ, h3, h4⟩ := R.deriv_linear v h1
    exact ⟨ℓ, fun e => ⟨h3 e, (R.is_open q h1 e trivial).mono fun t ht => h2 _ ht⟩, fun w _ => h4 w⟩

/-- The pairing of a list of cotangents with a list of arrays, or zero. -/
def pairVals (v : List Val) : Except Err (List Val) → ℝ
  | .ok e => (List.zipWith Val.pair v e).sum
  | .error _ => 0

theorem applyFisher_simple {c c' : Cls} {L : Library Cls} {m : NatMethods} (hm : L.nat c = some m)
    (hj : Cls.isJoint c = false) (he : Cls.expCls c = some c') {w v e : List Val} (h : m.toExp w = .ok e)
    (hs : sameTypes v e = true) :
    (Dist.mk c w .nil).applyFisher L (.mk c' v .nil) = .ok (.mk c' e .nil, .mk c (w.mapIdx fun k x =>
      x.cotangent fun i z => deriv (fun t : ℝ => pairVals v (m.toExp (w.modify k (Val.nudge i (t * z))))) 0) .nil) := by
  have hE : ∀ w : List Val, (Dist.mk c w .nil).toExp L.toExp =
      (m.toExp w).bind fun v => .ok (.mk c' v .nil) := fun w => by
    simp only [Dist.toExp, ClassTable.expCls, ClassTable.isJoint, he, hj, Library.toExp, hm]
    rfl
  have hN : ∀ k i z (w : List Val), (Dist.mk c w .nil).nudge k i z [] =
      .mk c (w.modify k (Val.nudge i z)) .nil := fun k i z w => by rw [Dist.nudge]
  have hP : ∀ r : Except Err (List Val), pairResult (Dist.mk c' v .nil)
      (r.bind fun v => .ok (.mk c' v .nil)) = pairVals v r := fun r => by
    cases r with
    | error => rfl
    | ok e => simp only [Except.bind, pairResult, Dist.pair, Subs.pair, add_zero, pairVals]
  simp only [Dist.applyFisher, hE, h, Except.bind, Bind.bind]
  rw [if_pos (by simp [Dist.sameType, Subs.sameType, hs])]
  simp only [pullback, Dist.cotangent, Subs.cotangent, hN, hE, hP]

end Efax
