import Verif.Props.Elementwise

/-!
# C50, C51: every batch is covered

The theorems on batches speak about objects that are given by the parameters of their entries.  Here:
every object all of whose parameters have the declared types and shapes is of this form.
-/

namespace Efax

open ClassTable Calc Spec

section

variable {rs : List ℕ} {d : ℕ} {v : Val}

theorem Arr.eq_scalars' {α : Type} [Inhabited α] {a : Arr α} (h : a.rshape = rs) :
    a = scalars rs a.get := Arr.ext h fun i hi => by
  rw [h] at hi
  rw [scalars, Arr.ofFn_get hi]

theorem Arr.eq_vectors {α : Type} [Inhabited α] {a : Arr α} (h : a.rshape = d :: rs) :
    a = vectors rs fun i (k : Fin d) => a.get (k.1 :: i) := Arr.ext h fun i hi => by
  rw [h] at hi
  match i, hi with
  | [], hi => simp [inB] at hi
  | k :: j, hi =>
    obtain ⟨hk, hj⟩ := (inB_cons ..).1 hi
    exact (Efax.vectors_get rs j hj (fun i (k : Fin d) => a.get (k.1 :: i)) hk).symm

theorem Arr.eq_matrices {α : Type} [Inhabited α] {a : Arr α} (h : a.rshape = d :: d :: rs) :
    a = matrices rs fun i => (fun (r c : Fin d) => a.get (c.1 :: r.1 :: i) : Matrix _ _ α) :=
  Arr.ext h fun i hi => by
  rw [h] at hi
  match i, hi with
  | [], hi => simp [inB] at hi
  | [_], hi => simp [inB] at hi
  | k :: l :: j, hi =>
    obtain ⟨hk, hi⟩ := (inB_cons ..).1 hi
    obtain ⟨hl, hj⟩ := (inB_cons ..).1 hi
    exact (Efax.matrices_get rs j hj (fun i => (fun (r c : Fin d) => a.get (c.1 :: r.1 :: i) :
      Matrix _ _ α)) hl hk).symm

theorem InRing.real {mn mx : Option ℝ} {g : ℝ} {sup : List ℕ}
    (h : InRing (.real mn mx g) false sup rs v) : ∃ a, v = .real a ∧ a.rshape = sup ++ rs := by
  cases v with
  | real a => exact ⟨a, rfl, h.1⟩
  | complex => exact h.2.elim
  | bool => exact h.2.elim
  | int => exact h.2.elim

theorem InRing.complex {mn : Arr ℝ} {mx : Option (Arr ℝ)} {sup : List ℕ}
    (h : InRing (.complex mn mx) false sup rs v) : ∃ a, v = .complex a ∧ a.rshape = sup ++ rs := by
  cases v with
  | complex a => exact ⟨a, rfl, h.1⟩
  | real => exact h.2.elim
  | bool => exact h.2.elim
  | int => exact h.2.elim

theorem Lies.scalar {mn mx : Option ℝ} {g : ℝ}
    (h : Lies (.scalar (.real mn mx g)) false d rs v) : ∃ q, v = .real (scalars rs q) := by
  obtain ⟨x, rfl, hx⟩ := InRing.real h
  exact ⟨x.get, congrArg Val.real (Arr.eq_scalars' hx)⟩

theorem Lies.vector {mn mx : Option ℝ} {g : ℝ}
    (h : Lies (.vector (.real mn mx g)) false d rs v) :
    ∃ q : List ℕ → Fin d → ℝ, v = .real (vectors rs q) := by
  obtain ⟨x, rfl, hx⟩ := InRing.real h
  exact ⟨_, congrArg Val.real (Arr.eq_vectors hx)⟩

theorem Lies.circular {r : ℝ} (h : Lies (.circular r) false d rs v) :
    ∃ q : List ℕ → Fin d → ℝ, v = .real (vectors rs q) := by
  obtain ⟨h1, h2⟩ := h
  cases v with
  | real a => exact ⟨_, congrArg Val.real (Arr.eq_vectors h1)⟩
  | complex => exact h2.elim
  | bool => exact h2.elim
  | int => exact h2.elim

theorem Lies.matrix {mn mx : Option ℝ} {g : ℝ} {a b c : Bool}
    (h : Lies (.symmetric (.real mn mx g) a b c) false d rs v) :
    ∃ q : List ℕ → Matrix (Fin d) (Fin d) ℝ, v = .real (matrices rs q) := by
  obtain ⟨x, rfl, hx⟩ := InRing.real h
  exact ⟨_, congrArg Val.real (Arr.eq_matrices hx)⟩

theorem Lies.cscalar {mn : Arr ℝ} {mx : Option (Arr ℝ)}
    (h : Lies (.scalar (.complex mn mx)) false d rs v) : ∃ q, v = .complex (scalars rs q) := by
  obtain ⟨x, rfl, hx⟩ := InRing.complex h
  exact ⟨x.get, congrArg Val.complex (Arr.eq_scalars' hx)⟩

theorem Lies.cvector {mn : Arr ℝ} {mx : Option (Arr ℝ)}
    (h : Lies (.vector (.complex mn mx)) false d rs v) :
    ∃ q : List ℕ → Fin d → ℂ, v = .complex (vectors rs q) := by
  obtain ⟨x, rfl, hx⟩ := InRing.complex h
  exact ⟨_, congrArg Val.complex (Arr.eq_vectors hx)⟩

theorem Lies.cmatrix {mn : Arr ℝ} {mx : Option (Arr ℝ)} {a b c : Bool}
    (h : Lies (.symmetric (.complex mn mx) a b c) false d rs v) :
    ∃ q : List ℕ → Matrix (Fin d) (Fin d) ℂ, v = .complex (matrices rs q) := by
  obtain ⟨x, rfl, hx⟩ := InRing.complex h
  exact ⟨_, congrArg Val.complex (Arr.eq_matrices hx)⟩

theorem Lies.int {mn mx : Option ℤ} (h : Lies (.scalar (.integral mn mx)) false d rs v) :
    ∃ a : Arr ℤ, v = .int a ∧ a.rshape = rs := by
  obtain ⟨h1, h2⟩ := h
  cases v with
  | int a => exact ⟨a, rfl, h1⟩
  | complex => exact h2.elim
  | bool => exact h2.elim
  | real => exact h2.elim

theorem scalars_nat {a : Arr ℤ} (h : a.rshape = rs) (h0 : ∀ i, inB a.rshape i = true → 0 ≤ a.get i) :
    a = scalars rs fun i => ((a.get i).toNat : ℤ) := Arr.ext h fun i hi => by
  have hi' := hi
  rw [h] at hi'
  rw [scalars, Arr.ofFn_get hi', Int.toNat_of_nonneg (h0 i hi)]

theorem forall₂_one {α β : Type} {R : α → β → Prop} {a : α} {l : List β}
    (h : List.Forall₂ R [a] l) : ∃ b, l = [b] ∧ R a b := by
  rcases h with _ | ⟨h1, _ | _⟩
  exact ⟨_, rfl, h1⟩

theorem forall₂_two {α β : Type} {R : α → β → Prop} {a a' : α} {l : List β}
    (h : List.Forall₂ R [a, a'] l) : ∃ b b', l = [b, b'] ∧ R a b ∧ R a' b' := by
  rcases h with _ | ⟨h1, _ | ⟨h2, _ | _⟩⟩
  exact ⟨_, _, rfl, h1, h2⟩

theorem forall₂_three {α β : Type} {R : α → β → Prop} {a a' a'' : α} {l : List β}
    (h : List.Forall₂ R [a, a', a''] l) :
    ∃ b b' b'', l = [b, b', b''] ∧ R a b ∧ R a' b' ∧ R a'' b'' := by
  rcases h with _ | ⟨h1, _ | ⟨h2, _ | ⟨h3, _ | _⟩⟩⟩
  exact ⟨_, _, _, rfl, h1, h2, h3⟩

end

variable [MachEps] {solve : Solver}

theorem simple_nat_complete {rs : List ℕ} {c : Cls} {vals : List Val} (hc : (expCls c).isSome)
    (hj : isJoint c = false) {d : ℕ} (hs : Sensible d c vals)
    (hv : List.Forall₂ (fun f v => Lies f.support false d rs v) (ClassTable.fields c) vals) :
    ∃ K, LibraryKind solve K ∧ ∃ p q, .mk c vals .nil = K.nat rs p q := by
  cases c with
  | bernoulliNP =>
    obtain ⟨v, rfl, h1⟩ := forall₂_one hv
    obtain ⟨q, rfl⟩ := Lies.scalar h1
    exact ⟨_, .simple .bernoulli, fun _ => (), q, rfl⟩
  | betaNP =>
    obtain ⟨v, rfl, h1⟩ := forall₂_one hv
    obtain rfl : d = 2 := hs
    obtain ⟨q, rfl⟩ := Lies.vector h1
    exact ⟨_, .simple .beta, fun _ => (), q, rfl⟩
  | chiNP =>
    obtain ⟨v, rfl, h1⟩ := forall₂_one hv
    obtain ⟨q, rfl⟩ := Lies.scalar h1
    exact ⟨_, .simple .chi, fun _ => (), q, rfl⟩
  | chiSquareNP =>
    obtain ⟨v, rfl, h1⟩ := forall₂_one hv
    obtain ⟨q, rfl⟩ := Lies.scalar h1
    exact ⟨_, .simple .chiSquare, fun _ => (), q, rfl⟩
  | ccsnNP =>
    obtain ⟨v, rfl, h1⟩ := forall₂_one hv
    obtain ⟨q, rfl⟩ := Lies.cmatrix h1
    exact ⟨_, .simple (.cmvCircular d), fun _ => (), q, rfl⟩
  | cmvUnitNormalNP =>
    obtain ⟨v, rfl, h1⟩ := forall₂_one hv
    obtain ⟨q, rfl⟩ := Lies.cvector h1
    exact ⟨_, .simple (.cmvUnit d), fun _ => (), q, rfl⟩
  | complexNormalNP =>
    obtain ⟨v, w, u, rfl, h1, h2, h3⟩ := forall₂_three hv
    obtain ⟨q, rfl⟩ := Lies.cscalar h1
    obtain ⟨r, rfl⟩ := Lies.scalar h2
    obtain ⟨z, rfl⟩ := Lies.cscalar h3
    exact ⟨_, .simple .complexNormal, fun _ => (), fun i => (q i, r i, z i), rfl⟩
  | complexUnitNormalNP =>
    obtain ⟨v, rfl, h1⟩ := forall₂_one hv
    obtain ⟨q, rfl⟩ := Lies.cscalar h1
    exact ⟨_, .simple .complexUnit, fun _ => (), q, rfl⟩
  | dirichletNP =>
    obtain ⟨v, rfl, h1⟩ := forall₂_one hv
    obtain ⟨d, rfl⟩ := Nat.exists_eq_succ_of_ne_zero (Nat.pos_iff_ne_zero.1 hs)
    obtain ⟨q, rfl⟩ := Lies.vector h1
    exact ⟨_, .simple (.dirichlet d), fun _ => (), q, rfl⟩
  | exponentialNP =>
    obtain ⟨v, rfl, h1⟩ := forall₂_one hv
    obtain ⟨q, rfl⟩ := Lies.scalar h1
    exact ⟨_, .simple .exponential, fun _ => (), q, rfl⟩
  | gammaNP =>
    obtain ⟨v, w, rfl, h1, h2⟩ := forall₂_two hv
    obtain ⟨q, rfl⟩ := Lies.scalar h1
    obtain ⟨r, rfl⟩ := Lies.scalar h2
    exact ⟨_, .simple .gamma, fun _ => (), fun i => (q i, r i), rfl⟩
  | genDirichletNP =>
    obtain ⟨v, w, rfl, h1, h2⟩ := forall₂_two hv
    obtain ⟨q, rfl⟩ := Lies.vector h1
    obtain ⟨r, rfl⟩ := Lies.vector h2
    exact ⟨_, .simple (.genDirichlet d), fun _ => (), fun i => (q i, r i), rfl⟩
  | geometricNP =>
    obtain ⟨v, rfl, h1⟩ := forall₂_one hv
    obtain ⟨q, rfl⟩ := Lies.scalar h1
    exact ⟨_, .simple .geometric, fun _ => (), q, rfl⟩
  | logarithmicNP =>
    obtain ⟨v, rfl, h1⟩ := forall₂_one hv
    obtain ⟨q, rfl⟩ := Lies.scalar h1
    exact ⟨_, .simple .logarithmic, fun _ => (), q, rfl⟩
  | multinomialNP =>
    obtain ⟨v, rfl, h1⟩ := forall₂_one hv
    obtain ⟨d, rfl⟩ := Nat.exists_eq_succ_of_ne_zero (Nat.pos_iff_ne_zero.1 hs)
    obtain ⟨q, rfl⟩ := Lies.vector h1
    exact ⟨_, .simple (.multinomial d), fun _ => (), q, rfl⟩
  | mvNormalNP =>
    obtain ⟨v, w, rfl, h1, h2⟩ := forall₂_two hv
    obtain ⟨q, rfl⟩ := Lies.vector h1
    obtain ⟨r, rfl⟩ := Lies.matrix h2
    exact ⟨_, .simple (.mvNormal d), fun _ => (), fun i => (q i, r i), rfl⟩
  | diagonalNormalNP =>
    obtain ⟨v, w, rfl, h1, h2⟩ := forall₂_two hv
    obtain ⟨q, rfl⟩ := Lies.vector h1
    obtain ⟨r, rfl⟩ := Lies.vector h2
    exact ⟨_, .simple (.mvDiagonal d), fun _ => (), fun i => (q i, r i), rfl⟩
  | fixedVarianceNormalNP =>
    obtain ⟨v, w, rfl, h1, h2⟩ := forall₂_two hv
    obtain ⟨q, rfl⟩ := Lies.vector h1
    obtain ⟨r, rfl⟩ := Lies.scalar h2
    exact ⟨_, .simple (.mvFixed d), r, q, rfl⟩
  | isotropicNormalNP =>
    obtain ⟨v, w, rfl, h1, h2⟩ := forall₂_two hv
    obtain ⟨q, rfl⟩ := Lies.vector h1
    obtain ⟨r, rfl⟩ := Lies.scalar h2
    exact ⟨_, .simple (.mvIsotropic d), fun _ => (), fun i => (q i, r i), rfl⟩
  | mvUnitNormalNP =>
    obtain ⟨v, rfl, h1⟩ := forall₂_one hv
    obtain ⟨q, rfl⟩ := Lies.vector h1
    exact ⟨_, .simple (.mvUnit d), fun _ => (), q, rfl⟩
  | negativeBinomialNP =>
    obtain ⟨v, w, rfl, h1, h2⟩ := forall₂_two hv
    obtain ⟨q, rfl⟩ := Lies.scalar h1
    obtain ⟨a, rfl, h3⟩ := Lies.int h2
    rw [scalars_nat h3 hs]
    exact ⟨_, .simple .negativeBinomial, fun i => (a.get i).toNat, q, rfl⟩
  | normalNP =>
    obtain ⟨v, w, rfl, h1, h2⟩ := forall₂_two hv
    obtain ⟨q, rfl⟩ := Lies.scalar h1
    obtain ⟨r, rfl⟩ := Lies.scalar h2
    exact ⟨_, .simple .normal, fun _ => (), fun i => (q i, r i), rfl⟩
  | unitNormalNP =>
    obtain ⟨v, rfl, h1⟩ := forall₂_one hv
    obtain ⟨q, rfl⟩ := Lies.scalar h1
    exact ⟨_, .simple .unitNormal, fun _ => (), q, rfl⟩
  | poissonNP =>
    obtain ⟨v, rfl, h1⟩ := forall₂_one hv
    obtain ⟨q, rfl⟩ := Lies.scalar h1
    exact ⟨_, .simple .poisson, fun _ => (), q, rfl⟩
  | rayleighNP =>
    obtain ⟨v, rfl, h1⟩ := forall₂_one hv
    obtain ⟨q, rfl⟩ := Lies.scalar h1
    exact ⟨_, .simple .rayleigh, fun _ => (), q, rfl⟩
  | vonMisesFisherNP =>
    obtain ⟨v, rfl, h1⟩ := forall₂_one hv
    obtain ⟨q, rfl⟩ := Lies.vector h1
    exact ⟨_, .simple (.vonMisesFisher d), fun _ => (), fun i => WithLp.toLp 2 (q i), rfl⟩
  | weibullNP =>
    obtain ⟨v, w, rfl, h1, h2⟩ := forall₂_two hv
    obtain ⟨q, rfl⟩ := Lies.scalar h1
    obtain ⟨r, rfl⟩ := Lies.scalar h2
    exact ⟨_, .simple .weibull, q, r, rfl⟩
  | jointN => cases hj
  | _ => cases hc

theorem simple_exp_complete {rs : List ℕ} {c : Cls} {vals : List Val} (hc : (natCls c).isSome)
    (hj : isJoint c = false) {d : ℕ} (hs : Sensible d c vals)
    (hv : List.Forall₂ (fun f v => Lies f.support false d rs v) (ClassTable.fields c) vals) :
    ∃ K, LibraryKind solve K ∧ ∃ p q, .mk c vals .nil = K.exp rs p q := by
  cases c with
  | bernoulliEP =>
    obtain ⟨v, rfl, h1⟩ := forall₂_one hv
    obtain ⟨q, rfl⟩ := Lies.scalar h1
    exact ⟨_, .simple .bernoulli, fun _ => (), q, rfl⟩
  | betaEP =>
    obtain ⟨v, rfl, h1⟩ := forall₂_one hv
    obtain rfl : d = 2 := hs
    obtain ⟨q, rfl⟩ := Lies.vector h1
    exact ⟨_, .simple .beta, fun _ => (), q, rfl⟩
  | chiEP =>
    obtain ⟨v, rfl, h1⟩ := forall₂_one hv
    obtain ⟨q, rfl⟩ := Lies.scalar h1
    exact ⟨_, .simple .chi, fun _ => (), q, rfl⟩
  | chiSquareEP =>
    obtain ⟨v, rfl, h1⟩ := forall₂_one hv
    obtain ⟨q, rfl⟩ := Lies.scalar h1
    exact ⟨_, .simple .chiSquare, fun _ => (), q, rfl⟩
  | ccsnEP =>
    obtain ⟨v, rfl, h1⟩ := forall₂_one hv
    obtain ⟨q, rfl⟩ := Lies.cmatrix h1
    exact ⟨_, .simple (.cmvCircular d), fun _ => (), q, rfl⟩
  | cmvUnitNormalEP =>
    obtain ⟨v, rfl, h1⟩ := forall₂_one hv
    obtain ⟨q, rfl⟩ := Lies.cvector h1
    exact ⟨_, .simple (.cmvUnit d), fun _ => (), q, rfl⟩
  | complexNormalEP =>
    obtain ⟨v, w, u, rfl, h1, h2, h3⟩ := forall₂_three hv
    obtain ⟨q, rfl⟩ := Lies.cscalar h1
    obtain ⟨r, rfl⟩ := Lies.scalar h2
    obtain ⟨z, rfl⟩ := Lies.cscalar h3
    exact ⟨_, .simple .complexNormal, fun _ => (), fun i => (q i, r i, z i), rfl⟩
  | complexUnitNormalEP =>
    obtain ⟨v, rfl, h1⟩ := forall₂_one hv
    obtain ⟨q, rfl⟩ := Lies.cscalar h1
    exact ⟨_, .simple .complexUnit, fun _ => (), q, rfl⟩
  | dirichletEP =>
    obtain ⟨v, rfl, h1⟩ := forall₂_one hv
    obtain ⟨d, rfl⟩ := Nat.exists_eq_succ_of_ne_zero (Nat.pos_iff_ne_zero.1 hs)
    obtain ⟨q, rfl⟩ := Lies.vector h1
    exact ⟨_, .simple (.dirichlet d), fun _ => (), q, rfl⟩
  | exponentialEP =>
    obtain ⟨v, rfl, h1⟩ := forall₂_one hv
    obtain ⟨q, rfl⟩ := Lies.scalar h1
    exact ⟨_, .simple .exponential, fun _ => (), q, rfl⟩
  | gammaEP =>
    obtain ⟨v, w, rfl, h1, h2⟩ := forall₂_two hv
    obtain ⟨q, rfl⟩ := Lies.scalar h1
    obtain ⟨r, rfl⟩ := Lies.scalar h2
    exact ⟨_, .simple .gamma, fun _ => (), fun i => (q i, r i), rfl⟩
  | genDirichletEP =>
    obtain ⟨v, w, rfl, h1, h2⟩ := forall₂_two hv
    obtain ⟨q, rfl⟩ := Lies.vector h1
    obtain ⟨r, rfl⟩ := Lies.vector h2
    exact ⟨_, .simple (.genDirichlet d), fun _ => (), fun i => (q i, r i), rfl⟩
  | geometricEP =>
    obtain ⟨v, rfl, h1⟩ := forall₂_one hv
    obtain ⟨q, rfl⟩ := Lies.scalar h1
    exact ⟨_, .simple .geometric, fun _ => (), q, rfl⟩
  | logarithmicEP =>
    obtain ⟨v, rfl, h1⟩ := forall₂_one hv
    obtain ⟨q, rfl⟩ := Lies.scalar h1
    exact ⟨_, .simple .logarithmic, fun _ => (), q, rfl⟩
  | multinomialEP =>
    obtain ⟨v, rfl, h1⟩ := forall₂_one hv
    obtain ⟨d, rfl⟩ := Nat.exists_eq_succ_of_ne_zero (Nat.pos_iff_ne_zero.1 hs)
    obtain ⟨q, rfl⟩ := Lies.vector h1
    exact ⟨_, .simple (.multinomial d), fun _ => (), q, rfl⟩
  | mvNormalEP =>
    obtain ⟨v, w, rfl, h1, h2⟩ := forall₂_two hv
    obtain ⟨q, rfl⟩ := Lies.vector h1
    obtain ⟨r, rfl⟩ := Lies.matrix h2
    exact ⟨_, .simple (.mvNormal d), fun _ => (), fun i => (q i, r i), rfl⟩
  | diagonalNormalEP =>
    obtain ⟨v, w, rfl, h1, h2⟩ := forall₂_two hv
    obtain ⟨q, rfl⟩ := Lies.vector h1
    obtain ⟨r, rfl⟩ := Lies.vector h2
    exact ⟨_, .simple (.mvDiagonal d), fun _ => (), fun i => (q i, r i), rfl⟩
  | fixedVarianceNormalEP =>
    obtain ⟨v, w, rfl, h1, h2⟩ := forall₂_two hv
    obtain ⟨q, rfl⟩ := Lies.vector h1
    obtain ⟨r, rfl⟩ := Lies.scalar h2
    exact ⟨_, .simple (.mvFixed d), r, q, rfl⟩
  | isotropicNormalEP =>
    obtain ⟨v, w, rfl, h1, h2⟩ := forall₂_two hv
    obtain ⟨q, rfl⟩ := Lies.vector h1
    obtain ⟨r, rfl⟩ := Lies.scalar h2
    exact ⟨_, .simple (.mvIsotropic d), fun _ => (), fun i => (q i, r i), rfl⟩
  | mvUnitNormalEP =>
    obtain ⟨v, rfl, h1⟩ := forall₂_one hv
    obtain ⟨q, rfl⟩ := Lies.vector h1
    exact ⟨_, .simple (.mvUnit d), fun _ => (), q, rfl⟩
  | negativeBinomialEP =>
    obtain ⟨v, w, rfl, h1, h2⟩ := forall₂_two hv
    obtain ⟨q, rfl⟩ := Lies.scalar h1
    obtain ⟨a, rfl, h3⟩ := Lies.int h2
    rw [scalars_nat h3 hs]
    exact ⟨_, .simple .negativeBinomial, fun i => (a.get i).toNat, q, rfl⟩
  | normalEP =>
    obtain ⟨v, w, rfl, h1, h2⟩ := forall₂_two hv
    obtain ⟨q, rfl⟩ := Lies.scalar h1
    obtain ⟨r, rfl⟩ := Lies.scalar h2
    exact ⟨_, .simple .normal, fun _ => (), fun i => (q i, r i), rfl⟩
  | unitNormalEP =>
    obtain ⟨v, rfl, h1⟩ := forall₂_one hv
    obtain ⟨q, rfl⟩ := Lies.scalar h1
    exact ⟨_, .simple .unitNormal, fun _ => (), q, rfl⟩
  | poissonEP =>
    obtain ⟨v, rfl, h1⟩ := forall₂_one hv
    obtain ⟨q, rfl⟩ := Lies.scalar h1
    exact ⟨_, .simple .poisson, fun _ => (), q, rfl⟩
  | rayleighEP =>
    obtain ⟨v, rfl, h1⟩ := forall₂_one hv
    obtain ⟨q, rfl⟩ := Lies.scalar h1
    exact ⟨_, .simple .rayleigh, fun _ => (), q, rfl⟩
  | vonMisesFisherEP =>
    obtain ⟨v, rfl, h1⟩ := forall₂_one hv
    obtain ⟨q, rfl⟩ := Lies.circular h1
    exact ⟨_, .simple (.vonMisesFisher d), fun _ => (), fun i => WithLp.toLp 2 (q i), rfl⟩
  | weibullEP =>
    obtain ⟨v, w, rfl, h1, h2⟩ := forall₂_two hv
    obtain ⟨q, rfl⟩ := Lies.scalar h1
    obtain ⟨r, rfl⟩ := Lies.scalar h2
    exact ⟨_, .simple .weibull, q, r, rfl⟩
  | jointE => cases hj
  | _ => cases hc

mutual
/-- **C50, C51.** Every batch of natural parametrizations is covered by the theorems on kinds. -/
theorem C51_every_natural {rs : List ℕ} : (d : Dist Cls) → WF d →
    IsBatch (fun c => (expCls c).isSome = true) rs d →
    ∃ K, LibraryKind solve K ∧ ∃ p q, d = K.nat rs p q
  | .mk c vals subs, hw, h => by
    obtain ⟨hc, ⟨d, hs, hv⟩, hsub⟩ := h
    obtain ⟨h1, h2, h3, h4⟩ := hw
    by_cases hj : isJoint c = true
    · obtain ⟨l, h5, h6, p, q, rfl⟩ := C51_every_natural_parts subs h4 hsub
      obtain rfl : c = .jointN := by revert hc hj; cases c <;> simp [expCls, isJoint, ClassTable.expCls, ClassTable.isJoint, Cls.expCls, Cls.isJoint]
      obtain rfl : vals = [] := List.length_eq_zero_iff.1 h1
      refine ⟨_, .joint (l := l) ?_ (h6 ▸ h3) h5, p, q, rfl⟩
      rintro rfl
      exact h2.1 hj rfl
    · have hj : isJoint c = false := by simpa using hj
      obtain rfl : subs = .nil := by
        by_contra hn
        rw [h2.2 hn] at hj
        cases hj
      exact simple_nat_complete hc hj hs hv
theorem C51_every_natural_parts {rs : List ℕ} : (s : Subs Cls) → WFs s →
    IsBatches (fun c => (expCls c).isSome = true) rs s →
    ∃ l : List (String × Kind Cls), (∀ nk ∈ l, LibraryKind solve nk.2) ∧ l.map Prod.fst = s.names ∧
      ∃ p q, s = (Parts.ofList l).nat rs p q
  | .nil, _, _ => ⟨[], fun _ h => (by cases h), rfl, fun _ => (), fun _ => (), rfl⟩
  | .cons n d r, hw, h => by
    obtain ⟨K, h1, p, q, rfl⟩ := C51_every_natural d hw.1 h.1
    obtain ⟨l, h2, h3, p', q', rfl⟩ := C51_every_natural_parts r hw.2 h.2
    refine ⟨(n, K) :: l, fun nk hm => ?_, congrArg (n :: ·) h3, fun i => (p i, p' i),
      fun i => (q i, q' i), rfl⟩
    rcases List.mem_cons.1 hm with e | hm
    · rw [e]; exact h1
    · exact h2 nk hm
end

mutual
/-- **C50, C51.** Every batch of expectation parametrizations is covered by the theorems on kinds. -/
theorem C51_every_expectation {rs : List ℕ} : (d : Dist Cls) → WF d →
    IsBatch (fun c => (natCls c).isSome = true) rs d →
    ∃ K, LibraryKind solve K ∧ ∃ p q, d = K.exp rs p q
  | .mk c vals subs, hw, h => by
    obtain ⟨hc, ⟨d, hs, hv⟩, hsub⟩ := h
    obtain ⟨h1, h2, h3, h4⟩ := hw
    by_cases hj : isJoint c = true
    · obtain ⟨l, h5, h6, p, q, rfl⟩ := C51_every_expectation_parts subs h4 hsub
      obtain rfl : c = .jointE := by revert hc hj; cases c <;> simp [natCls, isJoint, ClassTable.natCls, ClassTable.isJoint, Cls.natCls, Cls.isJoint]
      obtain rfl : vals = [] := List.length_eq_zero_iff.1 h1
      refine ⟨_, .joint (l := l) ?_ (h6 ▸ h3) h5, p, q, rfl⟩
      rintro rfl
      exact h2.1 hj rfl
    · have hj : isJoint c = false := by simpa using hj
      obtain rfl : subs = .nil := by
        by_contra hn
        rw [h2.2 hn] at hj
        cases hj
      exact simple_exp_complete hc hj hs hv
theorem C51_every_expectation_parts {rs : List ℕ} : (s : Subs Cls) → WFs s →
    IsBatches (fun c => (natCls c).isSome = true) rs s →
    ∃ l : List (String × Kind Cls), (∀ nk ∈ l, LibraryKind solve nk.2) ∧ l.map Prod.fst = s.names ∧
      ∃ p q, s = (Parts.ofList l).exp rs p q
  | .nil, _, _ => ⟨[], fun _ h => (by cases h), rfl, fun _ => (), fun _ => (), rfl⟩
  | .cons n d r, hw, h => by
    obtain ⟨K, h1, p, q, rfl⟩ := C51_every_expectation d hw.1 h.1
    obtain ⟨l, h2, h3, p', q', rfl⟩ := C51_every_expectation_parts r hw.2 h.2
    refine ⟨(n, K) :: l, fun nk hm => ?_, congrArg (n :: ·) h3, fun i => (p i, p' i),
      fun i => (q i, q' i), rfl⟩
    rcases List.mem_cons.1 hm with e | hm
    · rw [e]; exact h1
    · exact h2 nk hm
end

end Efax
