import Verif.Props.SampleLaws
import Verif.Props.Sampling

/-!
# C63: with ideal random numbers, samples of batches have independent entries with the right laws

For each class: `sample(key, shape)` on a batch returns an array whose entries are independent, and each
has the law of the distribution at its trailing indices.  The law is that of the density (`Spec.law`), or,
for the four classes whose samplers are wrong (`DESIGN.md`, section 4), what they actually sample.
-/

namespace Efax

open MeasureTheory ProbabilityTheory Spec Set

variable {K : Type}

/-- **C63.** -/
theorem C63_bernoulli_exp : Draws (K := K) Sampling.bernoulliEP layS outB
    (fun _ p => law bernoulli Measure.count (bernoulliToNat p)) (fun _ p => p ∈ Ioo (0 : ℝ) 1) :=
  reads_bernoulli_exp.draws

/-- **C63.** -/
theorem C63_bernoulli : Draws (K := K) Sampling.bernoulliNP layS outB
    (fun _ q => law bernoulli Measure.count q) (fun _ _ => True) :=
  reads_bernoulli.draws

/-- **C63.** -/
theorem C63_poisson_exp : Draws (K := K) Sampling.poissonEP layS outN
    (fun _ m => law poisson Measure.count (poissonToNat m)) (fun _ m => 0 < m) :=
  reads_poisson_exp.draws

/-- **C63.** -/
theorem C63_poisson : Draws (K := K) Sampling.poissonNP layS outN
    (fun _ q => law poisson Measure.count q) (fun _ _ => True) :=
  reads_poisson.draws

/-- **C63.** -/
theorem C63_geometric_exp : Draws (K := K) Sampling.geometricEP layS outN
    (fun _ m => geometricSampleE m) (fun _ m => 1 ≤ m) :=
  reads_geometric_exp.draws

/-- **C63.** -/
theorem C63_multinomial (d : ℕ) : Draws (K := K) Sampling.multinomialNP (layV (d + 1)) outV
    (fun _ q => multinomialSampleN q) (fun _ _ => True) :=
  (reads_multinomial d).draws

/-- **C63.** -/
theorem C63_negative_binomial_exp : Draws (K := K) Sampling.negativeBinomialEP laySFixedInt outN
    (fun r m => law (negativeBinomial r) Measure.count (negativeBinomialToNat r m))
    (fun r m => 1 ≤ r ∧ 0 < m) :=
  reads_negative_binomial_exp.draws

/-- **C63.** -/
theorem C63_negative_binomial : Draws (K := K) Sampling.negativeBinomialNP laySFixedInt outN
    (fun r q => law (negativeBinomial r) Measure.count q) (fun r q => 1 ≤ r ∧ q < 0) :=
  reads_negative_binomial.draws

/-- **C63.** -/
theorem C63_beta : Draws (K := K) Sampling.betaNP (layV 2) outR
    (fun _ q => law beta (volume.restrict (Ioo 0 1)) q) (fun _ q => q ∈ dirichletDom 2) :=
  reads_beta.draws

/-- **C63.** -/
theorem C63_chi_square : Draws (K := K) Sampling.chiSquareNP layS outR
    (fun _ q => law chiSquare positive q) (fun _ q => -1 < q) :=
  reads_chi_square.draws

/-- **C63.** -/
theorem C63_exponential : Draws (K := K) Sampling.exponentialNP layS outR
    (fun _ q => law exponential positive q) (fun _ q => q < 0) :=
  reads_exponential.draws

/-- **C63.** -/
theorem C63_exponential_exp : Draws (K := K) Sampling.exponentialEP layS outR
    (fun _ m => law exponential positive (exponentialToNat m)) (fun _ m => 0 < m) :=
  reads_exponential_exp.draws

/-- **C63.** -/
theorem C63_gamma : Draws (K := K) Sampling.gammaNP laySS outR
    (fun _ q => law gamma positive q) (fun _ q => q ∈ gammaDom) :=
  reads_gamma.draws

/-- **C63.** -/
theorem C63_gamma_var : Draws (K := K) Sampling.gammaVP laySS outR
    (fun _ w => law gamma positive (gammaVarToNat w)) (fun _ w => 0 < w.1 ∧ 0 < w.2) :=
  reads_gamma_var.draws

/-- **C63.** -/
theorem C63_rayleigh : Draws (K := K) Sampling.rayleighNP layS outR
    (fun _ q => law rayleigh positive q) (fun _ q => q < 0) :=
  reads_rayleigh.draws

/-- **C63.** -/
theorem C63_rayleigh_exp : Draws (K := K) Sampling.rayleighEP layS outR
    (fun _ χ => law rayleigh positive (rayleighToNat χ)) (fun _ χ => 0 < χ) :=
  reads_rayleigh_exp.draws

/-- **C63.** -/
theorem C63_weibull_exp : Draws (K := K) Sampling.weibullEP layFixedS outR
    (fun k χ => law (weibull k) positive (weibullToNat χ)) (fun k χ => 0 < k ∧ 0 < χ) :=
  reads_weibull_exp.draws

/-- **C63.** -/
theorem C63_weibull : Draws (K := K) Sampling.weibullNP layFixedS outR
    (fun k q => law (weibull k) positive q) (fun k q => 0 < k ∧ q < 0) :=
  reads_weibull.draws

/-- **C63.** -/
theorem C63_normal_var : Draws (K := K) Sampling.normalVP laySS outR
    (fun _ w => law normal volume (normalVarToNat w)) (fun _ w => 0 < w.2) :=
  reads_normal_var.draws

/-- **C63.** -/
theorem C63_normal_exp : Draws (K := K) Sampling.normalEP laySS outR
    (fun _ χ => law normal volume (normalToNat χ)) (fun _ χ => χ.1 ^ 2 < χ.2) :=
  reads_normal_exp.draws

/-- **C63.** -/
theorem C63_normal : Draws (K := K) Sampling.normalNP laySS outR
    (fun _ q => law normal volume q) (fun _ q => q ∈ normalDom) :=
  reads_normal.draws

/-- **C63.** -/
theorem C63_unit_normal : Draws (K := K) Sampling.unitNormalNP layS outR
    (fun _ m => law unitNormal volume m) (fun _ _ => True) :=
  reads_unit_normal.draws

/-- **C63.** -/
theorem C63_complex_unit_exp : Draws (K := K) Sampling.complexUnitNormalEP layC outC
    (fun _ m => complexUnitSampleE m) (fun _ _ => True) :=
  reads_complex_unit_exp.draws

/-- **C63.** -/
theorem C63_dirichlet (d : ℕ) : Draws (K := K) Sampling.dirichletNP (layV (d + 1)) (outV (d := d))
    (fun _ q => law (dirichlet d) (volume.restrict (simplex d)) q)
    (fun _ q => q ∈ dirichletDom (d + 1)) :=
  (reads_dirichlet d).draws

/-- **C63.** -/
theorem C63_mv_normal_var (d : ℕ) : Draws (K := K) Sampling.mvNormalVP (layVM d) outV
    (fun _ w => law (mvNormal d) volume (mvNormalToNat (mvNormalVarToExp w))) (fun _ w => w.2.PosDef) :=
  (reads_mv_normal_var d).draws

/-- **C63.** -/
theorem C63_mv_normal_exp (d : ℕ) : Draws (K := K) Sampling.mvNormalEP (layVM d) outV
    (fun _ χ => law (mvNormal d) volume (mvNormalToNat χ))
    (fun _ χ => (χ.2 - Matrix.vecMulVec χ.1 χ.1).PosDef) :=
  (reads_mv_normal_exp d).draws

/-- **C63.** -/
theorem C63_mv_diagonal_var (d : ℕ) : Draws (K := K) Sampling.diagonalNormalVP (layVV d) outV
    (fun _ w => law (mvDiagonal d) volume (mvDiagonalVarToNat w)) (fun _ w => ∀ i, 0 < w.2 i) :=
  (reads_mv_diagonal_var d).draws

/-- **C63.** -/
theorem C63_mv_diagonal_exp (d : ℕ) : Draws (K := K) Sampling.diagonalNormalEP (layVV d) outV
    (fun _ χ => law (mvDiagonal d) volume (mvDiagonalToNat χ)) (fun _ χ => ∀ i, χ.1 i ^ 2 < χ.2 i) :=
  (reads_mv_diagonal_exp d).draws

/-- **C63.** -/
theorem C63_mv_diagonal (d : ℕ) : Draws (K := K) Sampling.diagonalNormalNP (layVV d) outV
    (fun _ q => law (mvDiagonal d) volume q) (fun _ q => q ∈ mvDiagonalDom d) :=
  (reads_mv_diagonal d).draws

/-- **C63.** -/
theorem C63_mv_fixed_exp (d : ℕ) : Draws (K := K) Sampling.fixedVarianceNormalEP (layVFixed d) outV
    (fun v m => law (mvFixed d v) volume (mvFixedToNat v m)) (fun v _ => 0 < v) :=
  (reads_mv_fixed_exp d).draws

/-- **C63.** -/
theorem C63_mv_fixed (d : ℕ) : Draws (K := K) Sampling.fixedVarianceNormalNP (layVFixed d) outV
    (fun v q => law (mvFixed d v) volume q) (fun v _ => 0 < v) :=
  (reads_mv_fixed d).draws

/-- **C63.** -/
theorem C63_mv_isotropic_exp (d : ℕ) : Draws (K := K) Sampling.isotropicNormalEP (layVS (d + 1)) outV
    (fun _ χ => law (mvIsotropic (d + 1)) volume (mvIsotropicToNat χ))
    (fun _ χ => ∑ i, χ.1 i ^ 2 < χ.2) :=
  (reads_mv_isotropic_exp d).draws

/-- **C63.** -/
theorem C63_mv_isotropic (d : ℕ) : Draws (K := K) Sampling.isotropicNormalNP (layVS (d + 1)) outV
    (fun _ q => law (mvIsotropic (d + 1)) volume q) (fun _ q => q ∈ mvIsotropicDom (d + 1)) :=
  (reads_mv_isotropic d).draws

/-- **C63.** -/
theorem C63_mv_unit (d : ℕ) : Draws (K := K) Sampling.mvUnitNormalNP (layV d) outV
    (fun _ m => law (mvUnit d) volume m) (fun _ _ => True) :=
  (reads_mv_unit d).draws

/-- **C63.** -/
theorem C63_cmv_unit_exp (d : ℕ) : Draws (K := K) Sampling.cmvUnitNormalEP (layCV d) outCV
    (fun _ m => cmvUnitSampleE m) (fun _ _ => True) :=
  (reads_cmv_unit_exp d).draws

/-- **C63.** -/
theorem C63_complex_normal_exp : Draws (K := K) Sampling.complexNormalEP layCSC outC
    (fun _ χ => law complexNormal volume (complexNormalToNat χ))
    (fun _ χ => ‖χ.2.2 - χ.1 ^ 2‖ < χ.2.1 - ‖χ.1‖ ^ 2) :=
  reads_complex_normal_exp.draws

/-- **C63.** -/
theorem C63_complex_normal : Draws (K := K) Sampling.complexNormalNP layCSC outC
    (fun _ q => law complexNormal volume q) (fun _ q => q ∈ complexNormalDom) :=
  reads_complex_normal.draws

open scoped ComplexOrder in
/-- **C63.** -/
theorem C63_cmv_circular_exp (d : ℕ) : Draws (K := K) Sampling.ccsnEP (layCM d) outCV
    (fun _ χ => law (cmvCircular d) volume (cmvCircularToNat χ)) (fun _ χ => χ.PosDef) :=
  (reads_cmv_circular_exp d).draws

open scoped ComplexOrder in
/-- **C63.** -/
theorem C63_cmv_circular (d : ℕ) : Draws (K := K) Sampling.ccsnNP (layCM d) outCV
    (fun _ q => law (cmvCircular d) volume q) (fun _ q => q ∈ cmvCircularDom d) :=
  (reads_cmv_circular d).draws

/-- **C63.** -/
theorem C63_geometric : Draws (K := K) Sampling.geometricNP layS outN
    (fun _ q => geometricSampleE (geometric.toExp q)) (fun _ q => 1 ≤ geometric.toExp q) :=
  reads_geometric.draws

/-- **C63.** -/
theorem C63_complex_unit : Draws (K := K) Sampling.complexUnitNormalNP layC outC
    (fun _ q => complexUnitSampleE (complexUnit.toExp q)) (fun _ _ => True) :=
  reads_complex_unit.draws

/-- **C63.** -/
theorem C63_cmv_unit (d : ℕ) : Draws (K := K) Sampling.cmvUnitNormalNP (layCV d) outCV
    (fun _ q => cmvUnitSampleE ((cmvUnit d).toExp q)) (fun _ _ => True) :=
  (reads_cmv_unit d).draws

/-- **C63.** -/
theorem C63_multinomial_exp (search : List Val → Except Err (List Val)) (d : ℕ) :
    Draws (K := K) (fun rng => Sampling.via (Methods.multinomialEP.toNat search)
      (Sampling.multinomialNP rng)) (layV (d + 1)) outV
    (fun _ χ => multinomialSampleN (multinomialToNat χ)) (fun _ _ => True) :=
  (reads_multinomial_exp search d).draws

/-- **C63.** -/
theorem C63_mv_unit_exp (search : List Val → Except Err (List Val)) (d : ℕ) :
    Draws (K := K) (fun rng => Sampling.via (Methods.mvUnitNormalEP.toNat search)
      (Sampling.mvUnitNormalNP rng)) (layV d) outV
    (fun _ χ => law (mvUnit d) volume (mvUnitToNat χ)) (fun _ _ => True) :=
  (reads_mv_unit_exp search d).draws

/-- **C63.** -/
theorem C63_unit_normal_exp (search : List Val → Except Err (List Val)) :
    Draws (K := K) (fun rng => Sampling.via (Methods.unitNormalEP.toNat search)
      (Sampling.unitNormalNP rng)) layS outR
    (fun _ χ => law unitNormal volume (unitNormalToNat χ)) (fun _ _ => True) :=
  (reads_unit_normal_exp search).draws

section

variable [MachEps] {solve : Solver} {search : Cls → List Val → Except Err (List Val)}

/-- **C63.** -/
theorem C63_beta_exp (hsolve : solve.For search) : Draws (K := K) (fun rng =>
      Sampling.via (Methods.dirichletEP.toNat (search .betaEP)) (Sampling.betaNP rng)) (layV 2) outR
    (fun _ χ => law beta (volume.restrict (Ioo 0 1)) (solve.beta χ))
    (fun _ χ => (∀ k, χ k < Ring.openMax 0) ∧ solve.beta χ ∈ dirichletDom 2) :=
  (reads_beta_exp hsolve).draws

/-- **C63.** -/
theorem C63_dirichlet_exp (hsolve : solve.For search) (d : ℕ) : Draws (K := K) (fun rng =>
      Sampling.via (Methods.dirichletEP.toNat (search .dirichletEP)) (Sampling.dirichletNP rng))
    (layV (d + 1)) (outV (d := d))
    (fun _ χ => law (dirichlet d) (volume.restrict (simplex d)) (solve.dirichlet (d + 1) χ))
    (fun _ χ => (∀ k, χ k < Ring.openMax 0) ∧ solve.dirichlet (d + 1) χ ∈ dirichletDom (d + 1)) :=
  (reads_dirichlet_exp hsolve d).draws

/-- **C63.** -/
theorem C63_chi_square_exp (hsolve : solve.For search) : Draws (K := K) (fun rng =>
      Sampling.via (Methods.chiSquareEP.toNat (search .chiSquareEP)) (Sampling.chiSquareNP rng))
    layS outR (fun _ χ => law chiSquare positive (solve.chiSquare χ)) (fun _ χ => -1 < solve.chiSquare χ) :=
  (reads_chi_square_exp hsolve).draws

/-- **C63.** -/
theorem C63_gamma_exp (hsolve : solve.For search) : Draws (K := K) (fun rng =>
      Sampling.via (Methods.gammaEP.toNat (search .gammaEP)) (Sampling.gammaNP rng)) laySS outR
    (fun _ χ => law gamma positive (solve.gamma χ))
    (fun _ χ => Ring.openMin 0 < χ.1 ∧ solve.gamma χ ∈ gammaDom) :=
  (reads_gamma_exp hsolve).draws

end

/-! ### Joint distributions -/

section

variable [MachEps] {search : Cls → List Val → Except Err (List Val)}

/-- **C63.** The sample of a joint distribution of batches is nested as the joint distribution; all
entries of all parts are independent, and each has the law of its part at the trailing indices. -/
theorem C63_joint {rs : List ℕ} {s : Subs Cls}
    {Y : Fin (partsThat Cls.isSamplable s).length → Type} [∀ i, MeasurableSpace (Y i)]
    {out : ∀ i, List ℕ → (List ℕ → Y i) → Val} {law : ∀ i, List ℕ → Measure (Y i)}
    {bits : Fin (partsThat Cls.isSamplable s).length → Bits}
    (h : ∀ i, ReadsBatch (K := K) (fun rng => Cls.sample search rng ((partsThat Cls.isSamplable s).get i).2.cls)
      ((partsThat Cls.isSamplable s).get i).2.vals rs (out i) (law i) (bits i))
    {Ω : Type} [MeasurableSpace Ω] {P : Measure Ω} (I : IdealRandom K P) (key : K)
    (shape : Option (List ℕ)) :
    ∃ y : ∀ i, Ω → List ℕ → Y i,
      (∀ ω, ∃ r, Subs.sample search (I.rng ω) shape s key = .ok r ∧ MirrorsAll Cls.isSamplable s r ∧
        r.leaves [] = List.ofFn fun i => (((partsThat Cls.isSamplable s).get i).1,
          out i (rs ++ shape.getD []) (y i ω))) ∧
      iIndepFun (fun (e : (_ : Fin (partsThat Cls.isSamplable s).length) × Idx (rs ++ shape.getD [])) ω =>
        y e.1 ω e.2.1) P ∧
      ∀ i j, inB (rs ++ shape.getD []) j = true →
        MeasurePreserving (fun ω => y i ω j) P (law i (j.take rs.length)) := by
  obtain ⟨y, h1, h2, h3⟩ := ReadsBatch.jointly h I key shape
  refine ⟨y, fun ω => ?_, h2, h3⟩
  obtain ⟨r, hr⟩ := C26_defined (samplable := Cls.isSamplable)
    (split := fun k n => List.ofFn ((I.rng ω).split k n)) (sample := Dist.sample search (I.rng ω) shape)
    (s := s) (key := key) (by simp) fun pd hm k _ => by
      obtain ⟨i, rfl⟩ := List.get_of_mem hm
      obtain ⟨g, _, hg⟩ := h i Ω _ P I
      exact ⟨_, hg ω k shape⟩
  refine ⟨r, hr, C26_nesting hr, ?_⟩
  have h := C26_sample hr
  rw [List.forall₂_iff_get] at h
  refine List.ext_get (by simpa using h.1.symm) fun i h₁ h₂ => ?_
  obtain ⟨e, k, hk', hv⟩ := h.2 i (h.1 ▸ h₁) h₁
  obtain ⟨hl, hk'⟩ := List.getElem?_eq_some_iff.1 hk'
  simp only [List.get_eq_getElem, List.getElem_zipIdx, Nat.zero_add, List.length_ofFn,
    List.getElem_ofFn] at e hk' hl hv
  have h5 := (h1 ⟨i, hl⟩ ω).symm.trans (hk' ▸ hv)
  simp only [Except.ok.injEq] at h5
  simp only [List.get_eq_getElem, List.getElem_ofFn]
  exact Prod.ext e h5.symm

end

end Efax
