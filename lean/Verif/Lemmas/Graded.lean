import Verif.Lemmas.Vjp
import Verif.Lemmas.Tree3
import Verif.Spec.Setting
import Verif.Props.RoundTrip

/-! # Cotangents of the natural parameters, listed as expectation parameters -/

noncomputable section

namespace Efax

open Spec Calc ClassTable

/-! ### Nondegenerate bilinear forms -/

/-- A form that is linear and that tells vectors apart. -/
structure Form {N : Type} [AddCommGroup N] [Module ℝ N] (dot : N → N → ℝ) : Prop where
  add : ∀ a b c, dot (a + b) c = dot a c + dot b c
  smul : ∀ (t : ℝ) a c, dot (t • a) c = t * dot a c
  smul_right : ∀ (t : ℝ) a c, dot a (t • c) = t * dot a c
  ext : ∀ {a b}, (∀ w, dot w a = dot w b) → a = b

theorem formS : Form fun a b : ℝ => a * b where
  add a b c := add_mul a b c
  smul t a c := mul_assoc t a c
  smul_right t a c := mul_left_comm a t c
  ext h := by simpa using h 1

theorem formC : Form fun a b : ℂ => (a * b).re where
  add a b c := by simp [add_mul]
  smul t a c := by simp; ring
  smul_right t a c := by simp; ring
  ext {a b} h := by
    have h1 := h 1
    have h2 := h Complex.I
    simp at h1 h2
    exact Complex.ext h1 h2

section
variable {N : Type} [AddCommGroup N] [Module ℝ N] {dot : N → N → ℝ} (f : Form dot)
include f

theorem Form.zero (c : N) : dot 0 c = 0 := by simpa using f.smul 0 0 c

theorem Form.zero_right (a : N) : dot a 0 = 0 := by simpa using f.smul_right 0 a 0

/-- The linear map given by the form. -/
def Form.map (c : N) : N →ₗ[ℝ] ℝ where
  toFun a := dot a c
  map_add' a b := f.add a b c
  map_smul' t a := f.smul t a c

end

/-- The sum of forms over the entries of a vector. -/
theorem Form.pi {N ι : Type} [AddCommGroup N] [Module ℝ N] {dot : N → N → ℝ} (f : Form dot) [Fintype ι]
    [DecidableEq ι] : Form fun a b : ι → N => ∑ k, dot (a k) (b k) where
  add a b c := by simp [f.add, Finset.sum_add_distrib]
  smul t a c := by simp [f.smul, Finset.mul_sum]
  smul_right t a c := by simp [f.smul_right, Finset.mul_sum]
  ext {a b} h := funext fun k => f.ext fun w => by
    have h := h (Pi.single k w)
    have e : ∀ (x : ι → N) l, dot ((Pi.single k w : ι → N) l) (x l) = if l = k then dot w (x k) else 0 := by
      intro x l
      by_cases hl : l = k
      · subst hl; simp
      · simp [hl, f.zero]
    simpa [e] using h

theorem formV {d : ℕ} : Form fun a b : Fin d → ℝ => ∑ k, a k * b k := formS.pi

theorem formE {d : ℕ} : Form fun a b : EuclideanSpace ℝ (Fin d) => ∑ k, a k * b k where
  add a b c := formV.add (fun k => a k) (fun k => b k) fun k => c k
  smul t a c := formV.smul t (fun k => a k) fun k => c k
  smul_right t a c := formV.smul_right t (fun k => a k) fun k => c k
  ext {a b} h := by
    have : (fun k => a k) = fun k => b k := formV.ext fun w => h (WithLp.toLp 2 w)
    ext k
    exact congrFun this k

theorem formCV {d : ℕ} : Form fun a b : Fin d → ℂ => ∑ k, (a k * b k).re := formC.pi

theorem formM {d : ℕ} : Form fun a b : Matrix (Fin d) (Fin d) ℝ => ∑ r, ∑ c, a r c * b r c :=
  formS.pi.pi (ι := Fin d)

theorem formCM {d : ℕ} : Form fun a b : Matrix (Fin d) (Fin d) ℂ => ∑ r, ∑ c, (a r c * b r c).re :=
  formC.pi.pi (ι := Fin d)

theorem Form.two {A B : Type} [AddCommGroup A] [Module ℝ A] [AddCommGroup B] [Module ℝ B] {da : A → A → ℝ}
    {db : B → B → ℝ} (f : Form da) (g : Form db) : Form fun x y : A × B => da x.1 y.1 + db x.2 y.2 where
  add a b c := by simp only [Prod.fst_add, Prod.snd_add, f.add, g.add]; ring
  smul t a c := by simp only [Prod.smul_fst, Prod.smul_snd, f.smul, g.smul]; ring
  smul_right t a c := by simp only [Prod.smul_fst, Prod.smul_snd, f.smul_right, g.smul_right]; ring
  ext {a b} h := Prod.ext (f.ext fun w => by simpa [g.zero] using h (w, 0))
    (g.ext fun w => by simpa [f.zero] using h (0, w))

theorem Form.three {A B G : Type} [AddCommGroup A] [Module ℝ A] [AddCommGroup B] [Module ℝ B] [AddCommGroup G]
    [Module ℝ G] {da : A → A → ℝ} {db : B → B → ℝ} {dg : G → G → ℝ} (f : Form da) (g : Form db) (h : Form dg) :
    Form fun x y : A × B × G => da x.1 y.1 + db x.2.1 y.2.1 + dg x.2.2 y.2.2 where
  add a b c := by simp only [Prod.fst_add, Prod.snd_add, f.add, g.add, h.add]; ring
  smul t a c := by simp only [Prod.smul_fst, Prod.smul_snd, f.smul, g.smul, h.smul]; ring
  smul_right t a c := by simp only [Prod.smul_fst, Prod.smul_snd, f.smul_right, g.smul_right, h.smul_right]; ring
  ext {a b} e := Prod.ext (f.ext fun w => by simpa [g.zero, h.zero] using e (w, 0, 0))
    (Prod.ext (g.ext fun w => by simpa [f.zero, h.zero] using e (0, w, 0))
      (h.ext fun w => by simpa [f.zero, g.zero] using e (0, 0, w)))

/-! ### Objects with the same variable parameters -/

variable [MachEps]

mutual
/-- As many fields, and the same variable parameters, whichever of the two classes they are listed by. -/
def Twin : Dist Cls → Dist Cls → Prop
  | .mk c v s, .mk c' v' s' => (fields c).length = (fields c').length ∧
    nodeParams (some false) c v' = nodeParams (some false) c v ∧
    nodeParams (some false) c' v' = nodeParams (some false) c' v ∧ Twins s s'
/-- `Twin` for all parts, with the same names. -/
def Twins : Subs Cls → Subs Cls → Prop
  | .nil, .nil => True
  | .cons n d r, .cons n' d' r' => n = n' ∧ Twin d d' ∧ Twins r r'
  | _, _ => False
end

mutual
theorem Twin.parallel : {a b : Dist Cls} → Twin a b → Parallel a b
  | .mk _ _ _, .mk _ _ _, h => ⟨h.1, Twins.parallel h.2.2.2⟩
theorem Twins.parallel : {a b : Subs Cls} → Twins a b → Parallels a b
  | .nil, .nil, _ => trivial
  | .cons _ _ _, .cons _ _ _, h => ⟨h.1, Twin.parallel h.2.1, Twins.parallel h.2.2⟩
  | .nil, .cons _ _ _, h => h.elim
  | .cons _ _ _, .nil, h => h.elim
end

mutual
theorem Twin.withVals : {a b : Dist Cls} → (base : Path) → Twin a b →
    (a.withVals b).paramList (some false) base = a.paramList (some false) base
  | .mk _ _ _, .mk _ _ _, base, h => by
    simp only [Dist.withVals, Dist.paramList, h.2.1, Twins.withVals base h.2.2.2]
theorem Twins.withVals : {a b : Subs Cls} → (base : Path) → Twins a b →
    (a.withVals b).paramList (some false) base = a.paramList (some false) base
  | .nil, .nil, _, _ => rfl
  | .cons n _ _, .cons _ _ _, base, h => by
    simp only [Subs.withVals, Subs.paramList, Twin.withVals (base ++ [n]) h.2.1, Twins.withVals base h.2.2]
  | .nil, .cons _ _ _, _, h => h.elim
  | .cons _ _ _, .nil, _, h => h.elim
end

mutual
theorem Twin.both : {a b b' : Dist Cls} → (base : Path) → SameTree b b' → Twin a b → Twin a b' →
    b.paramList (some false) base = b'.paramList (some false) base
  | .mk _ _ _, .mk _ _ _, .mk _ _ _, base, e, h, h' => by
    obtain ⟨rfl, e⟩ := e
    simp only [Dist.paramList, h.2.2.1, h'.2.2.1, Twins.both base e h.2.2.2 h'.2.2.2]
theorem Twins.both : {a b b' : Subs Cls} → (base : Path) → SameTrees b b' → Twins a b → Twins a b' →
    b.paramList (some false) base = b'.paramList (some false) base
  | .nil, .nil, .nil, _, _, _, _ => rfl
  | .cons n _ _, .cons _ _ _, .cons _ _ _, base, e, h, h' => by
    obtain ⟨rfl, e, e'⟩ := e
    simp only [Subs.paramList, Twin.both _ e h.2.1 h'.2.1, Twins.both base e' h.2.2 h'.2.2]
  | .nil, .cons _ _ _, _, _, _, h, _ => h.elim
  | .cons _ _ _, .nil, _, _, _, h, _ => h.elim
  | .nil, _, .cons _ _ _, _, _, _, h => h.elim
  | .cons _ _ _, _, .nil, _, _, _, h => h.elim
end

mutual
theorem cotangent_same (D) : (p : Dist Cls) → WF p → SameTree p (p.cotangent D) ∧ WF (p.cotangent D)
  | .mk c v s, h => by
    obtain ⟨h1, h2, h3⟩ := cotangents_same (fun n path => D (n :: path)) s h.2.2.2
    rw [Dist.cotangent]
    refine ⟨⟨rfl, h1⟩, by simpa using h.1, h.2.1.trans (not_congr ?_), by rw [h3]; exact h.2.2.1, h2⟩
    cases s <;> simp [Subs.cotangent]
theorem cotangents_same (D) : (s : Subs Cls) → WFs s → SameTrees s (s.cotangent D) ∧ WFs (s.cotangent D) ∧
    (s.cotangent D).names = s.names
  | .nil, _ => ⟨trivial, trivial, rfl⟩
  | .cons n d r, h => by
    obtain ⟨h1, h2⟩ := cotangent_same (D 0) d h.1
    obtain ⟨h3, h4, h5⟩ := cotangents_same (fun n => D (n + 1)) r h.2
    rw [Subs.cotangent]
    exact ⟨⟨rfl, h1, h3⟩, ⟨h2, h4⟩, by simp [Subs.names, h5]⟩
end

/-! ### The cotangents of a kind of distributions -/

variable {solve : Solver}

/-- The zero vector. -/
def Spec.Setting.zero {K : Kind Cls} (S : Setting K) : K.N := letI := S.grp; 0

/-- The cotangent from derivatives `D` that are pairings with `χ` holds `χ`. -/
structure Graded {K : Kind Cls} (S : Setting K) : Prop where
  dot : ∀ p χ, (K.F p).dot S.zero χ = 0
  scale : ∀ (c : ℝ) χ, ∃ χ', ∀ p e, (K.F p).dot e χ' = c * (K.F p).dot e χ
  line : ∀ q (t : ℝ), S.line q S.zero t = q
  zero : ∀ rs p q, ∃ p' u, (K.nat rs p q).cotangent (fun _ _ _ _ => 0) = K.nat rs p' u ∧
    ∀ i, inB rs i = true → u i = S.zero
  grad : ∀ rs p q χ (D : List ℕ → ℕ → List ℕ → ℂ → ℝ),
    (∀ path k j z i e, inB rs i = true → (∀ (t : ℝ) p q, (K.nat rs p q).nudge k j (t * z) path =
      K.nat rs p (Function.update q i (S.line (q i) e t))) → D path k j z = (K.F (p i)).dot e (χ i)) →
    Twin (K.exp rs p χ) ((K.nat rs p q).cotangent D)

/-- `Graded` for the parts of a joint distribution. -/
structure Gradeds {R : Parts Cls} (T : Settings R) : Prop where
  dot : ∀ p χ, (R.F p).dot (Setting.joint Cls.jointN Cls.jointE T).zero χ = 0
  scale : ∀ (c : ℝ) χ, ∃ χ', ∀ p e, (R.F p).dot e χ' = c * (R.F p).dot e χ
  line : ∀ q (t : ℝ), (Setting.joint Cls.jointN Cls.jointE T).line q
    (Setting.joint Cls.jointN Cls.jointE T).zero t = q
  zero : ∀ rs p q, ∃ p' u, (R.nat rs p q).cotangent (fun _ _ _ _ _ => 0) = R.nat rs p' u ∧
    ∀ i, inB rs i = true → u i = (Setting.joint Cls.jointN Cls.jointE T).zero
  grad : ∀ rs p q χ (D : ℕ → List ℕ → ℕ → List ℕ → ℂ → ℝ),
    (∀ n path k j z i e, inB rs i = true → (∀ (t : ℝ) p q, (R.nat rs p q).nudge k j (t * z) n path =
      R.nat rs p (Function.update q i ((Setting.joint Cls.jointN Cls.jointE T).line (q i) e t))) →
      D n path k j z = (R.F (p i)).dot e (χ i)) →
    Twins (R.exp rs p χ) ((R.nat rs p q).cotangent D)

set_option linter.overlappingInstances false in
theorem VLay.graded {P N X : Type} [Sub N] [AddCommGroup N] [Module ℝ N] [MeasurableSpace X] {c c' : Cls}
    {lay : Layout P N} {dot : N → N → ℝ} (l : VLay lay lay dot) (f : Form dot) (hl : Local lay)
    {obs : List ℕ → (List ℕ → X) → Val → Prop}
    {F : P → ExpFam N N X} {toNat : P → N → N} {ecm : P → N → ℝ} {ent : Prop} {d : P → N → Prop}
    {e : P → N → Prop} {μ : MeasureTheory.Measure X} {dom : Set N} {dirs : Submodule ℝ N}
    {ok : P → Prop} {closed : Prop} (hdot : ∀ p a b, (F p).dot a b = dot a b)
    (hc : (fields c').length = (fields c).length)
    (hv : ∀ rs p p' χ, nodeParams (some false) c' (lay rs p' χ) = nodeParams (some false) c' (lay rs p χ))
    (hv' : ∀ rs p p' χ, nodeParams (some false) c (lay rs p' χ) = nodeParams (some false) c (lay rs p χ)) :
    Graded (Setting.simple (c := c) (c' := c') (nat := lay) (exp := lay) (obs := obs) (F := F) (toNat := toNat)
      (ecm := ecm) (ent := ent) (d := d) (e := e) μ dom dirs ok closed) where
  dot p χ := (hdot p _ _).trans (f.zero χ)
  scale c (χ : N) := ⟨(c • χ : N), fun p e => (hdot p _ _).trans ((f.smul_right c e χ).trans
    (congrArg (c * ·) (hdot p _ _).symm))⟩
  line q t := by
    have h : ∀ q : N, q + t • (0 : N) = q := by simp
    exact h q
  zero rs p q := by
    obtain ⟨p', u, h1, h2⟩ := l.grad rs p q (fun _ _ _ => 0) (fun _ => 0) fun _ _ _ _ _ _ _ => rfl
    refine ⟨p', u, ?_, fun i hi => f.ext fun w => ?_⟩
    · change Dist.mk c _ .nil = Dist.mk c _ .nil
      rw [← h1]
    · exact (h2 i hi w).trans (f.zero_right w).symm
  grad rs p q χ D h := by
    obtain ⟨p', u, h1, h2⟩ := l.grad rs p q (D []) (fun i => f.map (χ i)) fun k j z i e hi he => by
      refine (h [] k j z i e hi fun t p q => ?_).trans (hdot _ _ _)
      change Dist.nudge _ _ _ _ (Dist.mk c _ .nil) = _
      rw [Dist.nudge]
      exact congrArg (fun v => Dist.mk c v .nil) (he t p q)
    have h3 : lay rs p' u = lay rs p' χ := hl _ _ _ _ fun i hi => f.ext fun w => h2 i hi w
    change Twin (.mk c' (lay rs p χ) .nil) (Dist.cotangent D (.mk c (lay rs p q) .nil))
    rw [Dist.cotangent, h1, h3]
    exact ⟨hc, hv _ _ _ _, hv' _ _ _ _, trivial⟩

theorem fst_update {A B : Type} (q : List ℕ → A × B) (i : List ℕ) (x : A × B) :
    (fun j => (Function.update q i x j).1) = Function.update (fun j => (q j).1) i x.1 := by
  funext j
  by_cases h : j = i
  · subst h; simp
  · simp [h]

theorem snd_update {A B : Type} (q : List ℕ → A × B) (i : List ℕ) (x : A × B) :
    (fun j => (Function.update q i x j).2) = Function.update (fun j => (q j).2) i x.2 := by
  funext j
  by_cases h : j = i
  · subst h; simp
  · simp [h]

theorem Gradeds.nil : Gradeds (Settings.nil : Settings (.nil : Parts Cls)) where
  dot _ _ := rfl
  scale c χ := ⟨χ, fun _ _ => (mul_zero c).symm⟩
  line _ _ := rfl
  zero _ _ _ := ⟨fun _ => (), fun _ => (), rfl, fun _ _ => rfl⟩
  grad _ _ _ _ _ _ := trivial

theorem Gradeds.cons {n : String} {K : Kind Cls} {R : Parts Cls} {S : Setting K} {T : Settings R} (h : Graded S)
    (h' : Gradeds T) : Gradeds (Settings.cons n S T) where
  dot p χ := (congrArg₂ (· + ·) (h.dot p.1 χ.1) (h'.dot p.2 χ.2)).trans (add_zero 0)
  scale c χ := by
    obtain ⟨a, ha⟩ := h.scale c χ.1
    obtain ⟨b, hb⟩ := h'.scale c χ.2
    exact ⟨(a, b), fun p e => (congrArg₂ (· + ·) (ha p.1 e.1) (hb p.2 e.2)).trans (mul_add _ _ _).symm⟩
  line q t := Prod.ext (h.line q.1 t) (h'.line q.2 t)
  zero rs p q := by
    obtain ⟨p₁, u₁, h1, h2⟩ := h.zero rs (fun i => (p i).1) fun i => (q i).1
    obtain ⟨p₂, u₂, h3, h4⟩ := h'.zero rs (fun i => (p i).2) fun i => (q i).2
    refine ⟨fun i => (p₁ i, p₂ i), fun i => (u₁ i, u₂ i), ?_, fun i hi => Prod.ext (h2 i hi) (h4 i hi)⟩
    change Subs.cotangent _ (.cons n _ _) = Subs.cons n _ _
    rw [Subs.cotangent]
    exact congrArg₂ (Subs.cons n) h1 h3
  grad rs p q χ D hD := by
    change Twins _ (Subs.cotangent _ (.cons n _ _))
    rw [Subs.cotangent]
    refine ⟨rfl, h.grad rs _ _ _ _ fun path k j z i e hi he => ?_, h'.grad rs _ _ _ _ fun m path k j z i e hi he => ?_⟩
    · refine (hD 0 path k j z i (e, (Setting.joint Cls.jointN Cls.jointE T).zero) hi fun t p q => ?_).trans
        ((congrArg (_ + ·) (h'.dot (p i).2 (χ i).2)).trans (add_zero _))
      change Subs.nudge _ _ _ _ _ (.cons n _ _) = Subs.cons n (K.nat rs _ fun j => (Function.update q i _ j).1)
        (R.nat rs _ fun j => (Function.update q i _ j).2)
      rw [Subs.nudge]
      refine congrArg₂ (Subs.cons n) ((he t _ _).trans (congrArg (K.nat rs _) (fst_update q i
        ((Setting.joint Cls.jointN Cls.jointE (Settings.cons n S T)).line (q i)
          (e, (Setting.joint Cls.jointN Cls.jointE T).zero) t)).symm))
        (congrArg (R.nat rs _) ?_)
      exact ((snd_update q i _).trans ((congrArg _ (h'.line (q i).2 t)).trans
        (Function.update_eq_self i fun j => (q j).2))).symm
    · refine (hD (m + 1) path k j z i (S.zero, e) hi fun t p q => ?_).trans
        ((congrArg (· + _) (h.dot (p i).1 (χ i).1)).trans (zero_add _))
      change Subs.nudge _ _ _ _ _ (.cons n _ _) = Subs.cons n (K.nat rs _ fun j => (Function.update q i _ j).1)
        (R.nat rs _ fun j => (Function.update q i _ j).2)
      rw [Subs.nudge]
      refine congrArg₂ (Subs.cons n) (congrArg (K.nat rs _) ?_)
        ((he t _ _).trans (congrArg (R.nat rs _) (snd_update q i
          ((Setting.joint Cls.jointN Cls.jointE (Settings.cons n S T)).line (q i) (S.zero, e) t)).symm))
      exact ((fst_update q i _).trans ((congrArg _ (h.line (q i).1 t)).trans
        (Function.update_eq_self i fun j => (q j).1))).symm

theorem Gradeds.joint {R : Parts Cls} {T : Settings R} (h : Gradeds T) :
    Graded (Setting.joint Cls.jointN Cls.jointE T) where
  dot := h.dot
  scale := h.scale
  line := h.line
  zero rs p q := by
    obtain ⟨p', u, h1, h2⟩ := h.zero rs p q
    refine ⟨p', u, ?_, h2⟩
    change Dist.cotangent _ (.mk Cls.jointN [] _) = Dist.mk Cls.jointN [] _
    rw [Dist.cotangent]
    exact congrArg (Dist.mk Cls.jointN []) h1
  grad rs p q χ D hD := by
    change Twin _ (Dist.cotangent _ (.mk Cls.jointN [] _))
    rw [Dist.cotangent]
    refine ⟨rfl, rfl, rfl, h.grad rs p q χ _ fun m path k j z i e hi he => hD (m :: path) k j z i e hi fun t p q => ?_⟩
    change Dist.nudge _ _ _ _ (.mk Cls.jointN [] _) = Dist.mk Cls.jointN [] _
    rw [Dist.nudge]
    exact congrArg (Dist.mk Cls.jointN []) (he t p q)

theorem graded_library {K : Kind Cls} {S : Setting K} (hS : LibrarySetting solve K S) : Graded S := by
  induction hS with
  | simple s =>
    cases s
    all_goals first
      | exact slotS.one.graded formS layS_local (fun _ _ _ => rfl) rfl (fun _ _ _ _ => rfl) fun _ _ _ _ => rfl
      | exact (slotS.two slotS).graded (formS.two formS) laySS_local (fun _ _ _ => rfl) rfl (fun _ _ _ _ => rfl) fun _ _ _ _ => rfl
      | exact slotV.one.graded formV (layV_local _) (fun _ _ _ => rfl) rfl (fun _ _ _ _ => rfl) fun _ _ _ _ => rfl
      | exact slotE.one.graded formE (layE_local _) (fun _ _ _ => rfl) rfl (fun _ _ _ _ => rfl) fun _ _ _ _ => rfl
      | exact (slotV.two slotV).graded (formV.two formV) (layVV_local _) (fun _ _ _ => rfl) rfl (fun _ _ _ _ => rfl) fun _ _ _ _ => rfl
      | exact (slotV.two slotS).graded (formV.two formS) (layVS_local _) (fun _ _ _ => rfl) rfl (fun _ _ _ _ => rfl) fun _ _ _ _ => rfl
      | exact (slotV.two slotM).graded (formV.two formM) (layVM_local _) (fun _ _ _ => rfl) rfl (fun _ _ _ _ => rfl) fun _ _ _ _ => rfl
      | exact slotC.one.graded formC layC_local (fun _ _ _ => rfl) rfl (fun _ _ _ _ => rfl) fun _ _ _ _ => rfl
      | exact slotCV.one.graded formCV (layCV_local _) (fun _ _ _ => Complex.re_sum _ _) rfl (fun _ _ _ _ => rfl) fun _ _ _ _ => rfl
      | exact slotCM.one.graded formCM (layCM_local _) (fun _ a b => by simp only [cmvCircular, Complex.re_sum]) rfl (fun _ _ _ _ => rfl) fun _ _ _ _ => rfl
      | exact (slotC.three slotS slotC).graded (formC.three formS formC) layCSC_local (fun _ _ _ => rfl) rfl (fun _ _ _ _ => rfl) fun _ _ _ _ => rfl
      | exact (slotS.varFixed fixedInt).graded formS laySFixedInt_local (fun _ _ _ => rfl) rfl (fun _ _ _ _ => rfl) fun _ _ _ _ => rfl
      | exact (slotS.fixedVar fixedS).graded formS layFixedS_local (fun _ _ _ => rfl) rfl (fun _ _ _ _ => rfl) fun _ _ _ _ => rfl
      | exact (slotV.varFixed fixedS).graded formV (layVFixed_local _) (fun _ _ _ => rfl) rfl (fun _ _ _ _ => rfl) fun _ _ _ _ => rfl
  | @joint l _ _ _ ih =>
    refine Gradeds.joint ?_
    clear * - ih
    induction l with
    | nil => exact .nil
    | cons s l ih' =>
      exact .cons (ih s List.mem_cons_self) (ih' fun nk hm => ih nk (List.mem_cons_of_mem _ hm))

end Efax
