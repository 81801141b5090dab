import Verif.Props.ArraySampling
import Verif.Props.Batch.Exp
import Verif.Props.Completeness
import Verif.Props.Sampling
import Verif.Props.Samples2

/-!
# C62: every samplable class samples entry by entry
-/

namespace Efax

open Calc Spec Val Sampling ClassTable

variable {K : Type}

/-- Arrays of values of the shape `event` that can be indexed. -/
structure IndexedOut {Y : Type} (out : List ℕ → (List ℕ → Y) → Val) (event : List ℕ) : Prop where
  rshape : ∀ t y, (out t y).rshape = event ++ t
  index : ∀ t j y z, inB t j = true → y j = z [] → (out t y).index j.reverse = .ok (out [] z)

theorem scalars_index_one {α : Type} [Inhabited α] {t j : List ℕ} {y z : List ℕ → α}
    (hj : inB t j = true) (h : y j = z []) : (scalars t y).index j.reverse = .ok (scalars [] z) := by
  refine (scalars_index (s := []) hj y).trans (congrArg Except.ok (Arr.ext rfl fun i hi => ?_))
  have hi : inB [] i = true := hi
  obtain rfl : i = [] := List.length_eq_zero_iff.1 (inB_length hi)
  rw [scalars, scalars, Arr.ofFn_get hi, Arr.ofFn_get hi]
  exact h

theorem vectors_index_one {α : Type} [Inhabited α] {d : ℕ} {t j : List ℕ} {y z : List ℕ → Fin d → α}
    (hj : inB t j = true) (h : y j = z []) : (vectors t y).index j.reverse = .ok (vectors [] z) := by
  refine (vectors_index (s := []) hj y).trans (congrArg Except.ok (Arr.ext rfl fun i hi => ?_))
  have hi : inB (d :: []) i = true := hi
  match i, hi with
  | [], hi => simp [inB] at hi
  | k :: i, hi =>
    obtain ⟨hk, hi⟩ := (inB_cons ..).1 hi
    obtain rfl : i = [] := List.length_eq_zero_iff.1 (inB_length hi)
    rw [vectors_get _ _ hi _ hk, vectors_get _ _ hi _ hk]
    exact congrFun h _

theorem outR_indexed : IndexedOut outR [] where
  rshape _ _ := rfl
  index _ _ _ _ hj h := index_real (scalars_index_one hj h)

theorem outV_indexed (d : ℕ) : IndexedOut (outV (d := d)) [d] where
  rshape _ _ := rfl
  index _ _ _ _ hj h := index_real (vectors_index_one hj h)

theorem outC_indexed : IndexedOut outC [] where
  rshape _ _ := rfl
  index _ _ _ _ hj h := index_complex (scalars_index_one hj h)

theorem outCV_indexed (d : ℕ) : IndexedOut (outCV (d := d)) [d] where
  rshape _ _ := rfl
  index _ _ _ _ hj h := index_complex (vectors_index_one hj h)

theorem outN_indexed : IndexedOut outN [] where
  rshape _ _ := rfl
  index _ _ _ _ hj h := index_int (scalars_index_one hj (congrArg Nat.cast h))

theorem outB_indexed : IndexedOut outB [] where
  rshape _ _ := rfl
  index _ _ y z hj h := by
    simp only [outB, Val.index, scalars_index_one hj h]; rfl

theorem local_local (rng : Random K) (t j : List ℕ) : local_ (local_ rng t j) [] [] = local_ rng t j := by
  simp only [local_, List.append_nil]

theorem Samples.entrywise {P N Y : Type} {sample : Random K → Sampler K} {lay : Layout P N}
    {out : List ℕ → (List ℕ → Y) → Val} {draw : Draw K P N Y} {dom : P → N → Prop} {event : List ℕ}
    (h : Samples sample lay out draw dom) (hl : IndexedLayout lay) (ho : IndexedOut out event)
    (rs : List ℕ) (p : List ℕ → P) (q : List ℕ → N) (hd : ∀ i, inB rs i = true → dom (p i) (q i)) :
    Entrywise sample event rs (lay rs p q) := fun rng key shape => by
  refine ⟨_, h rng key shape rs p q hd, ho.rshape _ _, fun j hj => ?_⟩
  have hb : inB rs (j.take rs.length) = true := inB_take hj
  refine ⟨_, _, hl [] rs (j.take rs.length) p q hb, ?_, h _ key none [] _ _ fun i hi => ?_⟩
  · refine ho.index _ _ _ _ hj ?_
    simp [local_local]
  · obtain rfl : i = [] := List.length_eq_zero_iff.1 (inB_length hi)
    exact hd _ hb

/-! ### The classes that convert with `to_nat` first -/

theorem C62_multinomial_exp (search : List Val → Except Err (List Val)) (d : ℕ) :
    Samples (K := K) (fun rng => Sampling.via (Methods.multinomialEP.toNat search)
      (Sampling.multinomialNP rng)) (layV (d + 1)) outV
    fun rng key _ χ => drawMultinomial rng key (multinomialToNat χ) :=
  Samples.via (C62_multinomial d) (fun rs p q _ => (C51_multinomial_exp d).toNat search rs p q)
    fun _ _ _ => trivial

theorem C62_mv_unit_exp (search : List Val → Except Err (List Val)) (d : ℕ) :
    Samples (K := K) (fun rng => Sampling.via (Methods.mvUnitNormalEP.toNat search)
      (Sampling.mvUnitNormalNP rng)) (layV d) outV
    fun rng key _ χ => drawMvUnit rng key (mvUnitToNat χ) :=
  Samples.via (C62_mv_unit d) (fun rs p q _ => (C51_mv_unit_exp d).toNat search rs p q)
    fun _ _ _ => trivial

theorem C62_unit_normal_exp (search : List Val → Except Err (List Val)) :
    Samples (K := K) (fun rng => Sampling.via (Methods.unitNormalEP.toNat search)
      (Sampling.unitNormalNP rng)) layS outR
    fun rng key _ χ => drawUnit rng key (unitNormalToNat χ) :=
  Samples.via C62_unit_normal (fun rs p q _ => C51_unit_normal_exp.toNat search rs p q)
    fun _ _ _ => trivial

section

variable [MachEps] {solve : Solver} {search : Cls → List Val → Except Err (List Val)}

theorem C62_beta_exp (hsolve : solve.For search) : Samples (K := K) (fun rng =>
      Sampling.via (Methods.dirichletEP.toNat (search .betaEP)) (Sampling.betaNP rng)) (layV 2) outR
    (fun rng key _ χ => drawBeta rng key (solve.beta χ)) fun _ χ => ∀ k, χ k < Ring.openMax 0 :=
  Samples.via C62_beta ((C51_dirichlet_exp 2).toNat _ _ _ hsolve.beta) fun _ _ _ => trivial

theorem C62_dirichlet_exp (hsolve : solve.For search) (d : ℕ) : Samples (K := K) (fun rng =>
      Sampling.via (Methods.dirichletEP.toNat (search .dirichletEP)) (Sampling.dirichletNP rng))
    (layV (d + 1)) (outV (d := d))
    (fun rng key _ χ => Spec.drawDirichlet rng key (solve.dirichlet (d + 1) χ))
    fun _ χ => ∀ k, χ k < Ring.openMax 0 :=
  Samples.via (C62_dirichlet d) ((C51_dirichlet_exp (d + 1)).toNat _ _ _ (hsolve.dirichlet _))
    fun _ _ _ => trivial

theorem C62_chi_square_exp (hsolve : solve.For search) : Samples (K := K) (fun rng =>
      Sampling.via (Methods.chiSquareEP.toNat (search .chiSquareEP)) (Sampling.chiSquareNP rng))
    layS outR fun rng key _ χ => drawChiSquare rng key (solve.chiSquare χ) :=
  Samples.via C62_chi_square (C51_chi_square_exp.toNat _ _ _ hsolve.chiSquare) fun _ _ _ => trivial

theorem C62_gamma_exp (hsolve : solve.For search) : Samples (K := K) (fun rng =>
      Sampling.via (Methods.gammaEP.toNat (search .gammaEP)) (Sampling.gammaNP rng)) laySS outR
    (fun rng key _ χ => drawGamma rng key (solve.gamma χ)) fun _ χ => Ring.openMin 0 < χ.1 :=
  Samples.via C62_gamma (C51_gamma_exp.toNat _ _ _ hsolve.gamma) fun _ _ _ => trivial

end

/-! ### All classes -/

theorem Lies.of_mapped {rs : List ℕ} {d : ℕ} {s : Support} {v : Val} (h : Lies s true d rs v) :
    Lies s false d rs v := by
  have key : ∀ {r : Ring} {sup : List ℕ}, InRing r true sup rs v → InRing r false sup rs v := by
    intro r sup h
    obtain ⟨h1, h2⟩ := h
    refine ⟨h1, ?_⟩
    cases r <;> cases v <;> simp_all
  cases s with
  | circular r =>
    obtain ⟨h1, h2⟩ := h
    refine ⟨h1, ?_⟩
    cases v <;> simp_all
  | simplex => exact h
  | _ => exact key h

theorem Lies.vector_below {rs : List ℕ} {d : ℕ} {M g : ℝ} {q : List ℕ → Fin d → ℝ}
    (h : Lies (.vector (.real none (some M) g)) true d rs (.real (vectors rs q))) (i : List ℕ)
    (hi : inB rs i = true) (k : Fin d) : q i k < M := by
  have := (h.2 rfl (k.1 :: i) ((inB_cons ..).2 ⟨k.2, hi⟩)).2 M rfl
  rwa [vectors_get _ _ hi _ k.2] at this

theorem Lies.scalar_above {rs : List ℕ} {d : ℕ} {m g : ℝ} {M : Option ℝ} {q : List ℕ → ℝ}
    (h : Lies (.scalar (.real (some m) M g)) true d rs (.real (scalars rs q))) (i : List ℕ)
    (hi : inB rs i = true) : m < q i := by
  have := (h.2 rfl i hi).1 m rfl
  rwa [scalars, Arr.ofFn_get hi] at this

variable [MachEps] {solve : Solver} {search : Cls → List Val → Except Err (List Val)}

/-- **C62.** Every class that is samplable samples every batch entry by entry, with results of the shape
of `domain_support()`.  (The parameters of the classes that search must lie inside their supports.) -/
theorem C62_every (hsolve : solve.For search) {c : Cls} (hc : Cls.isSamplable c = true) {d : ℕ}
    {rs : List ℕ} {vals : List Val} (hs : Sensible d c vals)
    (hv : List.Forall₂ (fun f v => Lies f.support (searches c) d rs v) (ClassTable.fields c) vals) :
    ∃ s, Cls.domainSupport c = some s ∧
      Entrywise (K := K) (fun rng => Cls.sample search rng c) (s.rshape d) rs vals := by
  cases c with
  | bernoulliNP =>
    obtain ⟨v, rfl, h1⟩ := forall₂_one hv
    obtain ⟨q, rfl⟩ := Lies.scalar h1
    exact ⟨_, rfl, Samples.entrywise C62_bernoulli layS_index outB_indexed rs
      (fun _ => ()) q fun _ _ => trivial⟩
  | bernoulliEP =>
    obtain ⟨v, rfl, h1⟩ := forall₂_one hv
    obtain ⟨q, rfl⟩ := Lies.scalar h1
    exact ⟨_, rfl, Samples.entrywise C62_bernoulli_exp layS_index outB_indexed rs
      (fun _ => ()) q fun _ _ => trivial⟩
  | betaNP =>
    obtain ⟨v, rfl, h1⟩ := forall₂_one hv
    obtain rfl : d = 2 := hs
    obtain ⟨q, rfl⟩ := Lies.vector h1
    exact ⟨_, rfl, Samples.entrywise C62_beta (layV_index 2) outR_indexed rs
      (fun _ => ()) q fun _ _ => trivial⟩
  | betaEP =>
    obtain ⟨v, rfl, h1⟩ := forall₂_one hv
    obtain rfl : d = 2 := hs
    obtain ⟨q, rfl⟩ := Lies.vector (Lies.of_mapped h1)
    exact ⟨_, rfl, Samples.entrywise (C62_beta_exp hsolve) (layV_index 2) outR_indexed rs
      (fun _ => ()) q (Lies.vector_below h1)⟩
  | chiSquareNP =>
    obtain ⟨v, rfl, h1⟩ := forall₂_one hv
    obtain ⟨q, rfl⟩ := Lies.scalar h1
    exact ⟨_, rfl, Samples.entrywise C62_chi_square layS_index outR_indexed rs
      (fun _ => ()) q fun _ _ => trivial⟩
  | chiSquareEP =>
    obtain ⟨v, rfl, h1⟩ := forall₂_one hv
    obtain ⟨q, rfl⟩ := Lies.scalar h1
    exact ⟨_, rfl, Samples.entrywise (C62_chi_square_exp hsolve) layS_index outR_indexed rs
      (fun _ => ()) q fun _ _ => trivial⟩
  | ccsnNP =>
    obtain ⟨v, rfl, h1⟩ := forall₂_one hv
    obtain ⟨q, rfl⟩ := Lies.cmatrix h1
    exact ⟨_, rfl, Samples.entrywise (C62_cmv_circular d) (layCM_index d) (outCV_indexed _) rs
      (fun _ => ()) q fun _ _ => trivial⟩
  | ccsnEP =>
    obtain ⟨v, rfl, h1⟩ := forall₂_one hv
    obtain ⟨q, rfl⟩ := Lies.cmatrix h1
    exact ⟨_, rfl, Samples.entrywise (C62_cmv_circular_exp d) (layCM_index d) (outCV_indexed _) rs
      (fun _ => ()) q fun _ _ => trivial⟩
  | cmvUnitNormalNP =>
    obtain ⟨v, rfl, h1⟩ := forall₂_one hv
    obtain ⟨q, rfl⟩ := Lies.cvector h1
    exact ⟨_, rfl, Samples.entrywise (C62_cmv_unit d) (layCV_index d) (outCV_indexed _) rs
      (fun _ => ()) q fun _ _ => trivial⟩
  | cmvUnitNormalEP =>
    obtain ⟨v, rfl, h1⟩ := forall₂_one hv
    obtain ⟨q, rfl⟩ := Lies.cvector h1
    exact ⟨_, rfl, Samples.entrywise (C62_cmv_unit_exp d) (layCV_index d) (outCV_indexed _) rs
      (fun _ => ()) q fun _ _ => trivial⟩
  | complexNormalNP =>
    obtain ⟨v, w, u, rfl, h1, h2, h3⟩ := forall₂_three hv
    obtain ⟨q, rfl⟩ := Lies.cscalar h1
    obtain ⟨r, rfl⟩ := Lies.scalar h2
    obtain ⟨z, rfl⟩ := Lies.cscalar h3
    exact ⟨_, rfl, Samples.entrywise C62_complex_normal layCSC_index outC_indexed rs
      (fun _ => ()) (fun i => (q i, r i, z i)) fun _ _ => trivial⟩
  | complexNormalEP =>
    obtain ⟨v, w, u, rfl, h1, h2, h3⟩ := forall₂_three hv
    obtain ⟨q, rfl⟩ := Lies.cscalar h1
    obtain ⟨r, rfl⟩ := Lies.scalar h2
    obtain ⟨z, rfl⟩ := Lies.cscalar h3
    exact ⟨_, rfl, Samples.entrywise C62_complex_normal_exp layCSC_index outC_indexed rs
      (fun _ => ()) (fun i => (q i, r i, z i)) fun _ _ => trivial⟩
  | complexUnitNormalNP =>
    obtain ⟨v, rfl, h1⟩ := forall₂_one hv
    obtain ⟨q, rfl⟩ := Lies.cscalar h1
    exact ⟨_, rfl, Samples.entrywise C62_complex_unit layC_index outC_indexed rs
      (fun _ => ()) q fun _ _ => trivial⟩
  | complexUnitNormalEP =>
    obtain ⟨v, rfl, h1⟩ := forall₂_one hv
    obtain ⟨q, rfl⟩ := Lies.cscalar h1
    exact ⟨_, rfl, Samples.entrywise C62_complex_unit_exp layC_index outC_indexed rs
      (fun _ => ()) q fun _ _ => trivial⟩
  | dirichletNP =>
    obtain ⟨v, rfl, h1⟩ := forall₂_one hv
    obtain ⟨d, rfl⟩ := Nat.exists_eq_succ_of_ne_zero (Nat.pos_iff_ne_zero.1 hs)
    obtain ⟨q, rfl⟩ := Lies.vector h1
    exact ⟨_, rfl, Samples.entrywise (C62_dirichlet d) (layV_index _) (outV_indexed _) rs
      (fun _ => ()) q fun _ _ => trivial⟩
  | dirichletEP =>
    obtain ⟨v, rfl, h1⟩ := forall₂_one hv
    obtain ⟨d, rfl⟩ := Nat.exists_eq_succ_of_ne_zero (Nat.pos_iff_ne_zero.1 hs)
    obtain ⟨q, rfl⟩ := Lies.vector (Lies.of_mapped h1)
    exact ⟨_, rfl, Samples.entrywise (C62_dirichlet_exp hsolve d) (layV_index _) (outV_indexed _) rs
      (fun _ => ()) q (Lies.vector_below h1)⟩
  | exponentialNP =>
    obtain ⟨v, rfl, h1⟩ := forall₂_one hv
    obtain ⟨q, rfl⟩ := Lies.scalar h1
    exact ⟨_, rfl, Samples.entrywise C62_exponential layS_index outR_indexed rs
      (fun _ => ()) q fun _ _ => trivial⟩
  | exponentialEP =>
    obtain ⟨v, rfl, h1⟩ := forall₂_one hv
    obtain ⟨q, rfl⟩ := Lies.scalar h1
    exact ⟨_, rfl, Samples.entrywise C62_exponential_exp layS_index outR_indexed rs
      (fun _ => ()) q fun _ _ => trivial⟩
  | gammaNP =>
    obtain ⟨v, w, rfl, h1, h2⟩ := forall₂_two hv
    obtain ⟨q, rfl⟩ := Lies.scalar h1
    obtain ⟨r, rfl⟩ := Lies.scalar h2
    exact ⟨_, rfl, Samples.entrywise C62_gamma laySS_index outR_indexed rs
      (fun _ => ()) (fun i => (q i, r i)) fun _ _ => trivial⟩
  | gammaEP =>
    obtain ⟨v, w, rfl, h1, h2⟩ := forall₂_two hv
    obtain ⟨q, rfl⟩ := Lies.scalar (Lies.of_mapped h1)
    obtain ⟨r, rfl⟩ := Lies.scalar (Lies.of_mapped h2)
    exact ⟨_, rfl, Samples.entrywise (C62_gamma_exp hsolve) laySS_index outR_indexed rs
      (fun _ => ()) (fun i => (q i, r i)) (Lies.scalar_above h1)⟩
  | gammaVP =>
    obtain ⟨v, w, rfl, h1, h2⟩ := forall₂_two hv
    obtain ⟨q, rfl⟩ := Lies.scalar h1
    obtain ⟨r, rfl⟩ := Lies.scalar h2
    exact ⟨_, rfl, Samples.entrywise C62_gamma_var laySS_index outR_indexed rs
      (fun _ => ()) (fun i => (q i, r i)) fun _ _ => trivial⟩
  | geometricNP =>
    obtain ⟨v, rfl, h1⟩ := forall₂_one hv
    obtain ⟨q, rfl⟩ := Lies.scalar h1
    exact ⟨_, rfl, Samples.entrywise C62_geometric layS_index outN_indexed rs
      (fun _ => ()) q fun _ _ => trivial⟩
  | geometricEP =>
    obtain ⟨v, rfl, h1⟩ := forall₂_one hv
    obtain ⟨q, rfl⟩ := Lies.scalar h1
    exact ⟨_, rfl, Samples.entrywise C62_geometric_exp layS_index outN_indexed rs
      (fun _ => ()) q fun _ _ => trivial⟩
  | multinomialNP =>
    obtain ⟨v, rfl, h1⟩ := forall₂_one hv
    obtain ⟨d, rfl⟩ := Nat.exists_eq_succ_of_ne_zero (Nat.pos_iff_ne_zero.1 hs)
    obtain ⟨q, rfl⟩ := Lies.vector h1
    exact ⟨_, rfl, Samples.entrywise (C62_multinomial d) (layV_index _) (outV_indexed _) rs
      (fun _ => ()) q fun _ _ => trivial⟩
  | multinomialEP =>
    obtain ⟨v, rfl, h1⟩ := forall₂_one hv
    obtain ⟨d, rfl⟩ := Nat.exists_eq_succ_of_ne_zero (Nat.pos_iff_ne_zero.1 hs)
    obtain ⟨q, rfl⟩ := Lies.vector h1
    exact ⟨_, rfl, Samples.entrywise (C62_multinomial_exp (search .multinomialEP) d) (layV_index _) (outV_indexed _) rs
      (fun _ => ()) q fun _ _ => trivial⟩
  | mvNormalEP =>
    obtain ⟨v, w, rfl, h1, h2⟩ := forall₂_two hv
    obtain ⟨q, rfl⟩ := Lies.vector h1
    obtain ⟨r, rfl⟩ := Lies.matrix h2
    exact ⟨_, rfl, Samples.entrywise (C62_mv_normal_exp d) (layVM_index d) (outV_indexed _) rs
      (fun _ => ()) (fun i => (q i, r i)) fun _ _ => trivial⟩
  | mvNormalVP =>
    obtain ⟨v, w, rfl, h1, h2⟩ := forall₂_two hv
    obtain ⟨q, rfl⟩ := Lies.vector h1
    obtain ⟨r, rfl⟩ := Lies.matrix h2
    exact ⟨_, rfl, Samples.entrywise (C62_mv_normal_var d) (layVM_index d) (outV_indexed _) rs
      (fun _ => ()) (fun i => (q i, r i)) fun _ _ => trivial⟩
  | diagonalNormalNP =>
    obtain ⟨v, w, rfl, h1, h2⟩ := forall₂_two hv
    obtain ⟨q, rfl⟩ := Lies.vector h1
    obtain ⟨r, rfl⟩ := Lies.vector h2
    exact ⟨_, rfl, Samples.entrywise (C62_mv_diagonal d) (layVV_index d) (outV_indexed _) rs
      (fun _ => ()) (fun i => (q i, r i)) fun _ _ => trivial⟩
  | diagonalNormalEP =>
    obtain ⟨v, w, rfl, h1, h2⟩ := forall₂_two hv
    obtain ⟨q, rfl⟩ := Lies.vector h1
    obtain ⟨r, rfl⟩ := Lies.vector h2
    exact ⟨_, rfl, Samples.entrywise (C62_mv_diagonal_exp d) (layVV_index d) (outV_indexed _) rs
      (fun _ => ()) (fun i => (q i, r i)) fun _ _ => trivial⟩
  | diagonalNormalVP =>
    obtain ⟨v, w, rfl, h1, h2⟩ := forall₂_two hv
    obtain ⟨q, rfl⟩ := Lies.vector h1
    obtain ⟨r, rfl⟩ := Lies.vector h2
    exact ⟨_, rfl, Samples.entrywise (C62_mv_diagonal_var d) (layVV_index d) (outV_indexed _) rs
      (fun _ => ()) (fun i => (q i, r i)) fun _ _ => trivial⟩
  | fixedVarianceNormalNP =>
    obtain ⟨v, w, rfl, h1, h2⟩ := forall₂_two hv
    obtain ⟨q, rfl⟩ := Lies.vector h1
    obtain ⟨r, rfl⟩ := Lies.scalar h2
    exact ⟨_, rfl, Samples.entrywise (C62_mv_fixed d) (layVFixed_index d) (outV_indexed _) rs
      r q fun _ _ => trivial⟩
  | fixedVarianceNormalEP =>
    obtain ⟨v, w, rfl, h1, h2⟩ := forall₂_two hv
    obtain ⟨q, rfl⟩ := Lies.vector h1
    obtain ⟨r, rfl⟩ := Lies.scalar h2
    exact ⟨_, rfl, Samples.entrywise (C62_mv_fixed_exp d) (layVFixed_index d) (outV_indexed _) rs
      r q fun _ _ => trivial⟩
  | isotropicNormalNP =>
    obtain ⟨v, w, rfl, h1, h2⟩ := forall₂_two hv
    obtain ⟨q, rfl⟩ := Lies.vector h1
    obtain ⟨r, rfl⟩ := Lies.scalar h2
    exact ⟨_, rfl, Samples.entrywise (C62_mv_isotropic d) (layVS_index d) (outV_indexed _) rs
      (fun _ => ()) (fun i => (q i, r i)) fun _ _ => trivial⟩
  | isotropicNormalEP =>
    obtain ⟨v, w, rfl, h1, h2⟩ := forall₂_two hv
    obtain ⟨q, rfl⟩ := Lies.vector h1
    obtain ⟨r, rfl⟩ := Lies.scalar h2
    exact ⟨_, rfl, Samples.entrywise (C62_mv_isotropic_exp d) (layVS_index d) (outV_indexed _) rs
      (fun _ => ()) (fun i => (q i, r i)) fun _ _ => trivial⟩
  | mvUnitNormalNP =>
    obtain ⟨v, rfl, h1⟩ := forall₂_one hv
    obtain ⟨q, rfl⟩ := Lies.vector h1
    exact ⟨_, rfl, Samples.entrywise (C62_mv_unit d) (layV_index d) (outV_indexed _) rs
      (fun _ => ()) q fun _ _ => trivial⟩
  | mvUnitNormalEP =>
    obtain ⟨v, rfl, h1⟩ := forall₂_one hv
    obtain ⟨q, rfl⟩ := Lies.vector h1
    exact ⟨_, rfl, Samples.entrywise (C62_mv_unit_exp (search .mvUnitNormalEP) d) (layV_index d) (outV_indexed _) rs
      (fun _ => ()) q fun _ _ => trivial⟩
  | negativeBinomialNP =>
    obtain ⟨v, w, rfl, h1, h2⟩ := forall₂_two hv
    obtain ⟨q, rfl⟩ := Lies.scalar h1
    obtain ⟨a, rfl, h3⟩ := Lies.int h2
    rw [scalars_nat h3 hs]
    exact ⟨_, rfl, Samples.entrywise C62_negative_binomial laySFixedInt_index outN_indexed rs
      (fun i => (a.get i).toNat) q fun _ _ => trivial⟩
  | negativeBinomialEP =>
    obtain ⟨v, w, rfl, h1, h2⟩ := forall₂_two hv
    obtain ⟨q, rfl⟩ := Lies.scalar h1
    obtain ⟨a, rfl, h3⟩ := Lies.int h2
    rw [scalars_nat h3 hs]
    exact ⟨_, rfl, Samples.entrywise C62_negative_binomial_exp laySFixedInt_index outN_indexed rs
      (fun i => (a.get i).toNat) q fun _ _ => trivial⟩
  | normalNP =>
    obtain ⟨v, w, rfl, h1, h2⟩ := forall₂_two hv
    obtain ⟨q, rfl⟩ := Lies.scalar h1
    obtain ⟨r, rfl⟩ := Lies.scalar h2
    exact ⟨_, rfl, Samples.entrywise C62_normal laySS_index outR_indexed rs
      (fun _ => ()) (fun i => (q i, r i)) fun _ _ => trivial⟩
  | normalEP =>
    obtain ⟨v, w, rfl, h1, h2⟩ := forall₂_two hv
    obtain ⟨q, rfl⟩ := Lies.scalar h1
    obtain ⟨r, rfl⟩ := Lies.scalar h2
    exact ⟨_, rfl, Samples.entrywise C62_normal_exp laySS_index outR_indexed rs
      (fun _ => ()) (fun i => (q i, r i)) fun _ _ => trivial⟩
  | normalVP =>
    obtain ⟨v, w, rfl, h1, h2⟩ := forall₂_two hv
    obtain ⟨q, rfl⟩ := Lies.scalar h1
    obtain ⟨r, rfl⟩ := Lies.scalar h2
    exact ⟨_, rfl, Samples.entrywise C62_normal_var laySS_index outR_indexed rs
      (fun _ => ()) (fun i => (q i, r i)) fun _ _ => trivial⟩
  | unitNormalNP =>
    obtain ⟨v, rfl, h1⟩ := forall₂_one hv
    obtain ⟨q, rfl⟩ := Lies.scalar h1
    exact ⟨_, rfl, Samples.entrywise C62_unit_normal layS_index outR_indexed rs
      (fun _ => ()) q fun _ _ => trivial⟩
  | unitNormalEP =>
    obtain ⟨v, rfl, h1⟩ := forall₂_one hv
    obtain ⟨q, rfl⟩ := Lies.scalar h1
    exact ⟨_, rfl, Samples.entrywise (C62_unit_normal_exp (search .unitNormalEP)) layS_index outR_indexed rs
      (fun _ => ()) q fun _ _ => trivial⟩
  | poissonNP =>
    obtain ⟨v, rfl, h1⟩ := forall₂_one hv
    obtain ⟨q, rfl⟩ := Lies.scalar h1
    exact ⟨_, rfl, Samples.entrywise C62_poisson layS_index outN_indexed rs
      (fun _ => ()) q fun _ _ => trivial⟩
  | poissonEP =>
    obtain ⟨v, rfl, h1⟩ := forall₂_one hv
    obtain ⟨q, rfl⟩ := Lies.scalar h1
    exact ⟨_, rfl, Samples.entrywise C62_poisson_exp layS_index outN_indexed rs
      (fun _ => ()) q fun _ _ => trivial⟩
  | rayleighNP =>
    obtain ⟨v, rfl, h1⟩ := forall₂_one hv
    obtain ⟨q, rfl⟩ := Lies.scalar h1
    exact ⟨_, rfl, Samples.entrywise C62_rayleigh layS_index outR_indexed rs
      (fun _ => ()) q fun _ _ => trivial⟩
  | rayleighEP =>
    obtain ⟨v, rfl, h1⟩ := forall₂_one hv
    obtain ⟨q, rfl⟩ := Lies.scalar h1
    exact ⟨_, rfl, Samples.entrywise C62_rayleigh_exp layS_index outR_indexed rs
      (fun _ => ()) q fun _ _ => trivial⟩
  | weibullNP =>
    obtain ⟨v, w, rfl, h1, h2⟩ := forall₂_two hv
    obtain ⟨q, rfl⟩ := Lies.scalar h1
    obtain ⟨r, rfl⟩ := Lies.scalar h2
    exact ⟨_, rfl, Samples.entrywise C62_weibull layFixedS_index outR_indexed rs
      q r fun _ _ => trivial⟩
  | weibullEP =>
    obtain ⟨v, w, rfl, h1, h2⟩ := forall₂_two hv
    obtain ⟨q, rfl⟩ := Lies.scalar h1
    obtain ⟨r, rfl⟩ := Lies.scalar h2
    exact ⟨_, rfl, Samples.entrywise C62_weibull_exp layFixedS_index outR_indexed rs
      q r fun _ _ => trivial⟩
  | _ => cases hc

/-- **C62.** The classes that are not samplable have no method `sample`. -/
theorem C62_others {c : Cls} (hc : Cls.isSamplable c = false) (rng : Random K) (vals : List Val)
    (key : K) (shape : Option (List ℕ)) : Cls.sample search rng c vals key shape = .error .typeError := by
  cases c <;> first | rfl | cases hc

/-- **C62.** A joint distribution all of whose samplable parts are batches of shape `rs` can be sampled:
the result is nested as the joint distribution, and the value of the `i`-th samplable part is its sample
with the `i`-th of the keys that are split off, of the shape `shape + rs + event`. -/
theorem C62_joint (hsolve : solve.For search) {rs : List ℕ} {s : Subs Cls}
    (hs : ∀ pd ∈ partsThat Cls.isSamplable s, ∃ d, Sensible d pd.2.cls pd.2.vals ∧
      List.Forall₂ (fun f v => Lies f.support (searches pd.2.cls) d rs v)
        (ClassTable.fields pd.2.cls) pd.2.vals)
    (rng : Random K) (shape : Option (List ℕ)) (key : K) :
    ∃ r, Subs.sample search rng shape s key = .ok r ∧ MirrorsAll Cls.isSamplable s r ∧
      List.Forall₂ (fun pd pv => pv.1 = pd.1.1 ∧ ∃ h : pd.2 < (partsThat Cls.isSamplable s).length,
        Cls.sample search rng pd.1.2.cls pd.1.2.vals (rng.split key _ ⟨pd.2, h⟩) shape = .ok pv.2 ∧
        ∃ d sup, Sensible d pd.1.2.cls pd.1.2.vals ∧ Cls.domainSupport pd.1.2.cls = some sup ∧
          pv.2.rshape = sup.rshape d ++ (rs ++ shape.getD []))
        (partsThat Cls.isSamplable s).zipIdx (r.leaves []) := by
  have hk : ∀ pd ∈ partsThat Cls.isSamplable s, Cls.isSamplable pd.2.cls = true := fun pd h =>
    (List.mem_filter.1 h).2
  obtain ⟨r, hr⟩ := C26_defined (samplable := Cls.isSamplable)
    (split := fun k n => List.ofFn (rng.split k n)) (sample := Dist.sample search rng shape) (s := s)
    (key := key) (by simp) fun pd hm k _ => by
      obtain ⟨d, h1, h2⟩ := hs pd hm
      obtain ⟨_, _, h3⟩ := C62_every (K := K) hsolve (hk pd hm) h1 h2
      obtain ⟨v, h4, _⟩ := h3 rng k shape
      exact ⟨v, h4⟩
  refine ⟨r, hr, C26_nesting hr, ?_⟩
  have h := C26_sample hr
  rw [List.forall₂_iff_get] at h ⊢
  refine ⟨h.1, fun i h₁ h₂ => ?_⟩
  obtain ⟨e, k, hk', hv⟩ := h.2 i h₁ h₂
  have hm : ((partsThat Cls.isSamplable s).zipIdx.get ⟨i, h₁⟩).1 ∈ partsThat Cls.isSamplable s := by
    simp
  obtain ⟨hl, hk'⟩ := List.getElem?_eq_some_iff.1 hk'
  simp only [List.length_ofFn] at hl
  simp only [List.getElem_ofFn] at hk'
  obtain ⟨d, h1, h2⟩ := hs _ hm
  obtain ⟨sup, h3, h4⟩ := C62_every (K := K) hsolve (hk _ hm) h1 h2
  obtain ⟨v, h5, h6, _⟩ := h4 rng k shape
  have h7 := h5.symm.trans hv
  cases h7
  exact ⟨e, hl, by rw [hk']; exact h5, d, sup, h1, h3, h6⟩

/-- A stream of numbers that depend on the key and the index. -/
def countingStream : Random ℕ where
  split k _ i := 10 * k + i
  normal k _ i := k + i.sum
  exponential k _ i := k + i.sum
  gamma k _ i a := k + i.sum + a
  chisquare k _ i a := k + i.sum + a
  rayleigh k _ i a := k + i.sum + a
  weibull k _ i a b := k + i.sum + a + b
  beta k _ i a b := k + i.sum + a + b
  bernoulli k _ i _ := (k + i.sum) % 2 = 0
  poisson k _ i _ := k + i.sum
  geometric k _ i _ := k + i.sum
  dirichlet k _ i _ a j := k + i.sum + a j
  categorical _ _ _ _ _ := 0
  factor _ m := m

omit [MachEps] in
/-- Non-vacuity: with `shape=(3,)`, a batch of two normal distributions gives an array of shape (3, 2)
whose entries differ. -/
example : ∃ v, Sampling.unitNormalNP countingStream (layS [2] (fun _ => ()) fun i => 100 * i.sum) 7
      (some [3]) = .ok (outR [2, 3] v) ∧ v [0, 0] = 7 ∧ v [1, 0] = 108 ∧ v [1, 2] = 110 := by
  refine ⟨_, C62_unit_normal countingStream 7 (some [3]) [2] _ _ fun _ _ => trivial, ?_, ?_, ?_⟩ <;>
    norm_num [drawUnit, local_, countingStream]

/-- Non-vacuity: the hypotheses of `C62_joint` (and of `C62_every` for its parts) are satisfiable. -/
example : (solverOf zeroMinimizer).For (searchFor zeroMinimizer) ∧
    (∀ pd ∈ partsThat Cls.isSamplable Samples.joint.subs, ∃ d, Sensible d pd.2.cls pd.2.vals ∧
      List.Forall₂ (fun f v => Lies f.support (searches pd.2.cls) d [3] v)
        (ClassTable.fields pd.2.cls) pd.2.vals) ∧
    (partsThat Cls.isSamplable Samples.joint.subs).map Prod.fst = [["g"], ["j", "w"]] := by
  refine ⟨C51_search zeroMinimizer_returns, fun pd hm => ?_, rfl⟩
  have : partsThat Cls.isSamplable Samples.joint.subs =
      [(["g"], Samples.gamma), (["j", "w"], Samples.weibull)] := rfl
  rw [this] at hm
  simp only [List.mem_cons, List.not_mem_nil, or_false] at hm
  rcases hm with rfl | rfl
  · exact ⟨0, trivial, .cons ⟨rfl, nofun⟩ (.cons ⟨rfl, nofun⟩ .nil)⟩
  · exact ⟨0, trivial, .cons ⟨rfl, nofun⟩ (.cons ⟨rfl, nofun⟩ .nil)⟩

end Efax
