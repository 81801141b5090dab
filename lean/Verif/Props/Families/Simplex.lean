import Verif.Props.Families.Carrier

/-!
# Simplex families: densities, gradients, divergences (C28, C29, C33-C35, C42, C44, C45, C55)

Every theorem is an instance of a specification in `Verif.Spec.ExpFam`.
-/

namespace Efax

open MeasureTheory Spec Set

/-! ### Dirichlet -/

theorem C28_dirichlet (d : ℕ) : ∀ q ∈ dirichletDom (d + 2), IsDensity (volume.restrict (simplex (d
    + 1))) ((dirichlet (d + 1)).pdf q) :=
  (dirichlet_regular (d + 1)).density

theorem C29_dirichlet (d : ℕ) : ∀ q ∈ dirichletDom (d + 2), ∀ v, HasDerivAt (fun t : ℝ =>
    (dirichlet (d + 1)).logNormalizer (q + t • v)) ((dirichlet (d + 1)).jvp q v) 0 :=
  fun q h v => (dirichlet_regular (d + 1)).gradient q h v trivial

theorem C33_dirichlet (d : ℕ) : InjOn (dirichlet (d + 1)).toExp (dirichletDom (d + 2)) :=
  (dirichlet_regular (d + 1)).toExp_injOn (dirichlet_minimal d)

theorem C34_dirichlet (d : ℕ) : KLCorrect (dirichlet (d + 1)) (volume.restrict (simplex (d + 1)))
    (dirichletDom (d + 2)) :=
  (dirichlet_regular (d + 1)).klCorrect (dirichlet_minimal d)

theorem C35_dirichlet (d : ℕ) : EntropyCorrect (dirichlet (d + 1)) (volume.restrict (simplex (d +
    1))) (dirichletDom (d + 2)) dirichletEcm :=
  (dirichlet_regular (d + 1)).entropyCorrect _ (fun _ h => C36_dirichlet h)

theorem C42_dirichlet (d : ℕ) : FisherCorrect (dirichlet (d + 1)) (volume.restrict (simplex (d +
    1))) (dirichletDom (d + 2)) ⊤ :=
  (dirichlet_regular (d + 1)).fisherCorrect

theorem C44_dirichlet (d : ℕ) : EvidenceCorrect (dirichlet (d + 1)) :=
  (dirichlet_regular (d + 1)).evidenceCorrect

theorem C45_dirichlet (d : ℕ) : MLECorrect (dirichlet (d + 1)) (dirichletDom (d + 2)) ⊤ :=
  (dirichlet_regular (d + 1)).mleCorrect

theorem C55_dirichlet (d : ℕ) : StrictConvexOn ℝ (dirichletDom (d + 2)) (dirichlet (d +
    1)).logNormalizer :=
  (dirichlet_regular (d + 1)).strictConvexOn (dirichlet_minimal d)

/-! ### Beta -/

theorem C28_beta : ∀ q ∈ dirichletDom 2, IsDensity (volume.restrict (Ioo 0 1)) (beta.pdf q) :=
  beta_regular.density

theorem C29_beta : ∀ q ∈ dirichletDom 2, ∀ v, HasDerivAt (fun t : ℝ => beta.logNormalizer (q + t •
    v)) (beta.jvp q v) 0 :=
  fun q h v => beta_regular.gradient q h v trivial

theorem C33_beta : InjOn beta.toExp (dirichletDom 2) :=
  beta_regular.toExp_injOn beta_minimal

theorem C34_beta : KLCorrect beta (volume.restrict (Ioo 0 1)) (dirichletDom 2) :=
  beta_regular.klCorrect beta_minimal

theorem C35_beta : EntropyCorrect beta (volume.restrict (Ioo 0 1)) (dirichletDom 2) dirichletEcm :=
  beta_regular.entropyCorrect _ (fun _ h => C36_beta h)

theorem C42_beta : FisherCorrect beta (volume.restrict (Ioo 0 1)) (dirichletDom 2) ⊤ :=
  beta_regular.fisherCorrect

theorem C44_beta : EvidenceCorrect beta :=
  beta_regular.evidenceCorrect

theorem C45_beta : MLECorrect beta (dirichletDom 2) ⊤ :=
  beta_regular.mleCorrect

theorem C55_beta : StrictConvexOn ℝ (dirichletDom 2) beta.logNormalizer :=
  beta_regular.strictConvexOn beta_minimal

/-! ### Gen dirichlet -/

theorem C28_gen_dirichlet (k : ℕ) : ∀ q ∈ genDirichletDom k, IsDensity (volume.restrict (simplex
    k)) ((genDirichlet k).pdf q) :=
  (genDirichlet_regular k).density

theorem C29_gen_dirichlet (k : ℕ) : ∀ q ∈ genDirichletDom k, ∀ v, HasDerivAt (fun t : ℝ =>
    (genDirichlet k).logNormalizer (q + t • v)) ((genDirichlet k).jvp q v) 0 :=
  fun q h v => (genDirichlet_regular k).gradient q h v trivial

theorem C33_gen_dirichlet (k : ℕ) : InjOn (genDirichlet k).toExp (genDirichletDom k) :=
  (genDirichlet_regular k).toExp_injOn (genDirichlet_minimal k)

theorem C34_gen_dirichlet (k : ℕ) : KLCorrect (genDirichlet k) (volume.restrict (simplex k))
    (genDirichletDom k) :=
  (genDirichlet_regular k).klCorrect (genDirichlet_minimal k)

theorem C35_gen_dirichlet (k : ℕ) : EntropyCorrect (genDirichlet k) (volume.restrict (simplex k))
    (genDirichletDom k) genDirichletEcm :=
  (genDirichlet_regular k).entropyCorrect _ (fun _ h => C36_gen_dirichlet h)

theorem C42_gen_dirichlet (k : ℕ) : FisherCorrect (genDirichlet k) (volume.restrict (simplex k))
    (genDirichletDom k) ⊤ :=
  (genDirichlet_regular k).fisherCorrect

theorem C44_gen_dirichlet (k : ℕ) : EvidenceCorrect (genDirichlet k) :=
  (genDirichlet_regular k).evidenceCorrect

theorem C45_gen_dirichlet (k : ℕ) : MLECorrect (genDirichlet k) (genDirichletDom k) ⊤ :=
  (genDirichlet_regular k).mleCorrect

theorem C55_gen_dirichlet (k : ℕ) : StrictConvexOn ℝ (genDirichletDom k) (genDirichlet
    k).logNormalizer :=
  (genDirichlet_regular k).strictConvexOn (genDirichlet_minimal k)

/-! ## Further statements -/

example : (fun i => (i : ℝ) : Fin 4 → ℝ) ∈ dirichletDom 4 := fun i => by
  have : (0 : ℝ) ≤ (i : ℝ) := Nat.cast_nonneg _
  show (-1 : ℝ) < (i : ℝ)
  linarith

/-- The documented parameters of the generalized Dirichlet family (gen_dirichlet.py 31-34:
`alpha_minus_one` above -1 and `gamma` non-negative) are in the domain used here. -/
theorem genDirichlet_documented {k : ℕ} {q : (Fin k → ℝ) × (Fin k → ℝ)} (h1 : ∀ i, -1 < q.1 i)
    (h2 : ∀ i, 0 ≤ q.2 i) : q ∈ genDirichletDom k := by
  refine ⟨h1, fun i => ?_⟩
  have a1 : 0 ≤ ∑ j, if i ≤ j then q.2 j else 0 := Finset.sum_nonneg fun j _ => by
    split
    · exact h2 j
    · exact le_rfl
  have a2 : 0 ≤ ∑ j, if i < j then q.1 j + 1 else 0 := Finset.sum_nonneg fun j _ => by
    split
    · linarith [h1 j]
    · exact le_rfl
  linarith

/-! ### C30: expectations of the statistics -/

theorem C30_dirichlet {d : ℕ} {q : Fin (d + 1) → ℝ} (h : q ∈ dirichletDom (d + 1)) :
    (∀ i : Fin d, HasMean (volume.restrict (simplex d)) ((dirichlet d).pdf q)
      (fun x => Real.log (x i)) ((dirichlet d).toExp q i.castSucc)) ∧
    HasMean (volume.restrict (simplex d)) ((dirichlet d).pdf q)
      (fun x => Real.log (1 - ∑ i, x i)) ((dirichlet d).toExp q (Fin.last d)) := by
  refine ⟨fun i => ?_, ?_⟩
  · refine ((dirichlet_regular d).mean_dot h (v := Pi.single i.castSucc 1) trivial).congr
      (fun x => ?_) ?_ <;> simp [dirichlet, Pi.single_apply, Fin.sum_univ_castSucc]
  · refine ((dirichlet_regular d).mean_dot h (v := Pi.single (Fin.last d) 1) trivial).congr
      (fun x => ?_) ?_ <;> simp [dirichlet, Pi.single_apply, Fin.sum_univ_castSucc]

theorem C30_beta {q : Fin 2 → ℝ} (h : q ∈ dirichletDom 2) :
    HasMean (volume.restrict (Ioo 0 1)) (beta.pdf q) Real.log (beta.toExp q 0) ∧
    HasMean (volume.restrict (Ioo 0 1)) (beta.pdf q) (fun x => Real.log (1 - x))
      (beta.toExp q 1) := by
  refine ⟨?_, ?_⟩
  · refine (beta_regular.mean_dot h (v := ![1, 0]) trivial).congr
      (fun x => ?_) ?_ <;> simp [beta, Fin.sum_univ_two]
  · refine (beta_regular.mean_dot h (v := ![0, 1]) trivial).congr
      (fun x => ?_) ?_ <;> simp [beta, Fin.sum_univ_two, log1p, sub_eq_add_neg]

theorem C30_gen_dirichlet {k : ℕ} {q : (Fin k → ℝ) × (Fin k → ℝ)} (h : q ∈ genDirichletDom k)
    (i : Fin k) :
    HasMean (volume.restrict (simplex k)) ((genDirichlet k).pdf q) (fun x => Real.log (x i))
      (((genDirichlet k).toExp q).1 i) ∧
    HasMean (volume.restrict (simplex k)) ((genDirichlet k).pdf q)
      (fun x => Real.log (1 - ∑ j, if j ≤ i then x j else 0)) (((genDirichlet k).toExp q).2 i) := by
  refine ⟨?_, ?_⟩
  · refine ((genDirichlet_regular k).mean_dot h (v := (Pi.single i 1, 0)) trivial).congr
      (fun x => ?_) ?_ <;> simp [genDirichlet, Pi.single_apply]
  · refine ((genDirichlet_regular k).mean_dot h (v := (0, Pi.single i 1)) trivial).congr
      (fun x => ?_) ?_
    · simp [genDirichlet, Pi.single_apply, log1p, ← csum_eq, csum, sub_eq_add_neg]
    · simp [genDirichlet, Pi.single_apply]

end Efax
