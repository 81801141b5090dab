import Verif.Spec.ClosedForm
import Verif.Props.Analysis
import Verif.Lemmas.ClosedForm3

/-!
# C74: divergences and entropies are the textbook ones

In the parameters of the densities of C57.
-/

namespace Efax

open Spec Calc

variable [MachEps] {solve : Solver} {search : Cls → List Val → Except Err (List Val)}

/-- The formula holds for batches if it holds for single distributions. -/
theorem klIs {K : Kind Cls} {S : Setting K} (hs : solve.For search) (hK : LibrarySetting solve K S)
    {f : K.P → K.N → K.N → ℝ}
    (h : ∀ p a b, S.ok p → a ∈ S.dom p → b ∈ S.dom p → (K.F p).kl a b = f p a b) :
    KLIs (library search) S f := by
  intro rs p a b ha hb hr
  have hL := C51_library hs hK.kind
  have e : ∀ i, inB rs i = true → (K.F (p i)).kl (a i) (b i) = f (p i) (a i) (b i) := fun i hi =>
    h _ _ _ (ha i hi).1 (ha i hi).2 (hb i hi).2
  refine ⟨?_, _, hL.toExp rs p a (regular_dom hK.kind hr), fun hx he => ?_⟩
  · rw [C51_kl_natural hL rs p a b (regular_dom hK.kind hr)]
    exact ok_ofFn_congr e
  · rw [C51_kl_expectation hL rs p _ b (searchable_dom hK.kind he)]
    refine ok_ofFn_congr fun i hi => ?_
    rw [ExpFam.klE, hx i hi]
    exact e i hi

/-- The formula holds for batches if it holds for single distributions. -/
theorem entropyIs {K : Kind Cls} {S : Setting K} (hs : solve.For search) (hK : LibrarySetting solve K S)
    (he : K.ent) {searches : Prop} {f : K.P → K.N → ℝ}
    (h : ∀ p a, S.ok p → a ∈ S.dom p → (searches → K.toNat p ((K.F p).toExp a) = a) →
      (K.F p).entropyN (K.ecm p) a = f p a) :
    EntropyIs (library search) S searches f := by
  intro rs p a ha hr hn
  have hL := C51_library hs hK.kind
  have e : ∀ i, inB rs i = true → (K.F (p i)).entropyN (K.ecm (p i)) (a i) = f (p i) (a i) := fun i hi =>
    h _ _ (ha i hi).1 (ha i hi).2 fun hh => hn hh i hi
  refine ⟨?_, _, hL.toExp rs p a (regular_dom hK.kind hr), fun hx hd => ?_⟩
  · rw [C51_entropy_natural hL he rs p a (regular_dom hK.kind hr)]
    exact ok_ofFn_congr e
  · rw [C51_entropy_expectation hL he rs p _ (searchable_dom hK.kind hd)]
    refine ok_ofFn_congr fun i hi => ?_
    rw [ExpFam.entropyE, hx i hi]
    exact e i hi

/-- Bernoulli. -/
theorem C74_bernoulli_kl (hs : solve.For search) :
    KLIs (library search) (Simple.setting solve .bernoulli) fun (_ : Unit) (a b : ℝ) =>
      Textbook.KL.bernoulli (bernoulli.toExp a) (bernoulli.toExp b) :=
  klIs hs (.simple .bernoulli) (fun _ a b _ _ _ => bernoulli_kl a b)

example : (Simple.setting solve .bernoulli).Inside [5] (fun _ => (() : Unit))
      (fun _ => (1 : ℝ)) ∧
    EachLeaf RegularVals ((Simple.kind solve .bernoulli).nat [5] (fun _ => (() : Unit))
      fun _ => (1 : ℝ)) :=
  ⟨fun _ _ => ⟨trivial, trivial⟩,
    fun l hl => by rw [List.mem_singleton.1 hl]; trivial⟩

/-- Bernoulli. -/
theorem C74_bernoulli_entropy (hs : solve.For search) :
    EntropyIs (library search) (Simple.setting solve .bernoulli) False fun (_ : Unit) (a : ℝ) =>
      Textbook.Entropy.bernoulli (bernoulli.toExp a) :=
  entropyIs hs (.simple .bernoulli) trivial (fun _ a _ _ _ => bernoulli_entropy a)

/-- Poisson. -/
theorem C74_poisson_kl (hs : solve.For search) :
    KLIs (library search) (Simple.setting solve .poisson) fun (_ : Unit) (a b : ℝ) =>
      Textbook.KL.poisson (poisson.toExp a) (poisson.toExp b) :=
  klIs hs (.simple .poisson) (fun _ a b _ _ _ => poisson_kl a b)

example : (Simple.setting solve .poisson).Inside [5] (fun _ => (() : Unit))
      (fun _ => (1 : ℝ)) ∧
    EachLeaf RegularVals ((Simple.kind solve .poisson).nat [5] (fun _ => (() : Unit))
      fun _ => (1 : ℝ)) :=
  ⟨fun _ _ => ⟨trivial, trivial⟩,
    fun l hl => by rw [List.mem_singleton.1 hl]; trivial⟩

/-- Negative binomial: the probability of success is `r / (r + m)` with the mean `m`. -/
theorem C74_negative_binomial_kl (hs : solve.For search) :
    KLIs (library search) (Simple.setting solve .negativeBinomial) fun (p : ℕ) (a b : ℝ) =>
      Textbook.KL.negativeBinomial p (1 / (1 + (negativeBinomial p).toExp a / p))
      (1 / (1 + (negativeBinomial p).toExp b / p)) :=
  klIs hs (.simple .negativeBinomial) (fun _ _ _ hr ha hb => negativeBinomial_kl hr ha hb)

example : (Simple.setting solve .negativeBinomial).Inside [5] (fun _ => (3 : ℕ))
      (fun _ => (-1 : ℝ)) ∧
    EachLeaf RegularVals ((Simple.kind solve .negativeBinomial).nat [5] (fun _ => (3 : ℕ))
      fun _ => (-1 : ℝ)) :=
  ⟨fun _ _ => ⟨show 1 ≤ 3 by norm_num, show (-1 : ℝ) < 0 by norm_num⟩,
    fun l hl => by rw [List.mem_singleton.1 hl]; trivial⟩

/-- Geometric: the probability of success is `1 / (1 + m)` with the mean `m`. -/
theorem C74_geometric_kl (hs : solve.For search) :
    KLIs (library search) (Simple.setting solve .geometric) fun (_ : Unit) (a b : ℝ) =>
      Textbook.KL.negativeBinomial 1 (1 / (1 + geometric.toExp a)) (1 / (1 + geometric.toExp b)) :=
  klIs hs (.simple .geometric) (fun _ _ _ _ ha hb => geometric_kl ha hb)

example : (Simple.setting solve .geometric).Inside [5] (fun _ => (() : Unit))
      (fun _ => (-1 : ℝ)) ∧
    EachLeaf RegularVals ((Simple.kind solve .geometric).nat [5] (fun _ => (() : Unit))
      fun _ => (-1 : ℝ)) :=
  ⟨fun _ _ => ⟨trivial, show (-1 : ℝ) < 0 by norm_num⟩,
    fun l hl => by rw [List.mem_singleton.1 hl]; trivial⟩

/-- Geometric: the probability of success is `1 / (1 + m)` with the mean `m`. -/
theorem C74_geometric_entropy (hs : solve.For search) :
    EntropyIs (library search) (Simple.setting solve .geometric) False fun (_ : Unit) (a : ℝ) =>
      Textbook.Entropy.geometric (1 / (1 + geometric.toExp a)) :=
  entropyIs hs (.simple .geometric) trivial (fun _ _ _ ha _ => geometric_entropy ha)

/-- Logarithmic. -/
theorem C74_logarithmic_kl (hs : solve.For search) :
    KLIs (library search) (Simple.setting solve .logarithmic) fun (_ : Unit) (a b : ℝ) =>
      Textbook.KL.logarithmic (Real.exp a) (Real.exp b) :=
  klIs hs (.simple .logarithmic) (fun _ _ _ _ ha hb => logarithmic_kl ha hb)

example : (Simple.setting solve .logarithmic).Inside [5] (fun _ => (() : Unit))
      (fun _ => (-1 : ℝ)) ∧
    EachLeaf RegularVals ((Simple.kind solve .logarithmic).nat [5] (fun _ => (() : Unit))
      fun _ => (-1 : ℝ)) :=
  ⟨fun _ _ => ⟨trivial, show (-1 : ℝ) < 0 by norm_num⟩,
    (eachLeaf_simple rfl).2 fun i hi => by
      have hi : inB [5] i = true := hi
      show _ ≤ (scalars [5] fun _ => (-1 : ℝ)).get i ∧ (scalars [5] fun _ => (-1 : ℝ)).get i ≤ _
      rw [scalars, Arr.ofFn_get hi]
      norm_num [logProbabilityFloor, logProbabilityCeiling]⟩

/-- Exponential. -/
theorem C74_exponential_kl (hs : solve.For search) :
    KLIs (library search) (Simple.setting solve .exponential) fun (_ : Unit) (a b : ℝ) =>
      Textbook.KL.exponential (exponential.toExp a) (exponential.toExp b) :=
  klIs hs (.simple .exponential) (fun _ _ _ _ ha hb => exponential_kl ha hb)

example : (Simple.setting solve .exponential).Inside [5] (fun _ => (() : Unit))
      (fun _ => (-1 : ℝ)) ∧
    EachLeaf RegularVals ((Simple.kind solve .exponential).nat [5] (fun _ => (() : Unit))
      fun _ => (-1 : ℝ)) :=
  ⟨fun _ _ => ⟨trivial, show (-1 : ℝ) < 0 by norm_num⟩,
    fun l hl => by rw [List.mem_singleton.1 hl]; trivial⟩

/-- Exponential. -/
theorem C74_exponential_entropy (hs : solve.For search) :
    EntropyIs (library search) (Simple.setting solve .exponential) False fun (_ : Unit) (a : ℝ) =>
      Textbook.Entropy.exponential (exponential.toExp a) :=
  entropyIs hs (.simple .exponential) trivial (fun _ _ _ ha _ => exponential_entropy ha)

/-- Gamma: the parameters are minus the rate, and the shape minus one. -/
theorem C74_gamma_kl (hs : solve.For search) :
    KLIs (library search) (Simple.setting solve .gamma) fun (_ : Unit) (a b : ℝ × ℝ) =>
      Textbook.KL.gamma (a.2 + 1) (-1 / a.1) (b.2 + 1) (-1 / b.1) :=
  klIs hs (.simple .gamma) (fun _ _ _ _ ha hb => gamma_kl ha hb)

example : (Simple.setting solve .gamma).Inside [5] (fun _ => (() : Unit))
      (fun _ => ((-1, 2) : ℝ × ℝ)) ∧
    EachLeaf RegularVals ((Simple.kind solve .gamma).nat [5] (fun _ => (() : Unit))
      fun _ => ((-1, 2) : ℝ × ℝ)) :=
  ⟨fun _ _ => ⟨trivial, ⟨by norm_num, by norm_num⟩⟩,
    fun l hl => by rw [List.mem_singleton.1 hl]; trivial⟩

/-- Gamma: the parameters are minus the rate, and the shape minus one. -/
theorem C74_gamma_entropy (hs : solve.For search) :
    EntropyIs (library search) (Simple.setting solve .gamma) False fun (_ : Unit) (a : ℝ × ℝ) =>
      Textbook.Entropy.gamma (a.2 + 1) (-1 / a.1) :=
  entropyIs hs (.simple .gamma) trivial (fun _ _ _ ha _ => gamma_entropy ha)

/-- Chi-square: the parameter is half the degrees of freedom minus one. -/
theorem C74_chi_square_kl (hs : solve.For search) :
    KLIs (library search) (Simple.setting solve .chiSquare) fun (_ : Unit) (a b : ℝ) =>
      Textbook.KL.chiSquare ((a + 1) * 2) ((b + 1) * 2) :=
  klIs hs (.simple .chiSquare) (fun _ _ _ _ ha hb => chiSquare_kl ha hb)

example : (Simple.setting solve .chiSquare).Inside [5] (fun _ => (() : Unit))
      (fun _ => (1 : ℝ)) ∧
    EachLeaf RegularVals ((Simple.kind solve .chiSquare).nat [5] (fun _ => (() : Unit))
      fun _ => (1 : ℝ)) :=
  ⟨fun _ _ => ⟨trivial, show (-1 : ℝ) < 1 by norm_num⟩,
    fun l hl => by rw [List.mem_singleton.1 hl]; trivial⟩

/-- Chi-square: the parameter is half the degrees of freedom minus one. -/
theorem C74_chi_square_entropy (hs : solve.For search) :
    EntropyIs (library search) (Simple.setting solve .chiSquare) True fun (_ : Unit) (a : ℝ) =>
      Textbook.Entropy.chiSquare ((a + 1) * 2) :=
  entropyIs hs (.simple .chiSquare) trivial (fun _ _ _ ha h => chiSquare_entropy ha (h trivial))

/-- Chi: the parameter is half the degrees of freedom minus one. -/
theorem C74_chi_kl (hs : solve.For search) :
    KLIs (library search) (Simple.setting solve .chi) fun (_ : Unit) (a b : ℝ) =>
      Textbook.KL.chiSquare ((a + 1) * 2) ((b + 1) * 2) :=
  klIs hs (.simple .chi) (fun _ _ _ _ ha hb => chiSquare_kl ha hb)

example : (Simple.setting solve .chi).Inside [5] (fun _ => (() : Unit))
      (fun _ => (1 : ℝ)) ∧
    EachLeaf RegularVals ((Simple.kind solve .chi).nat [5] (fun _ => (() : Unit))
      fun _ => (1 : ℝ)) :=
  ⟨fun _ _ => ⟨trivial, show (-1 : ℝ) < 1 by norm_num⟩,
    fun l hl => by rw [List.mem_singleton.1 hl]; trivial⟩

/-- Chi: the parameter is half the degrees of freedom minus one. -/
theorem C74_chi_entropy (hs : solve.For search) :
    EntropyIs (library search) (Simple.setting solve .chi) True fun (_ : Unit) (a : ℝ) =>
      Textbook.Entropy.chi ((a + 1) * 2) :=
  entropyIs hs (.simple .chi) trivial (fun _ _ _ ha h => chi_entropy ha (h trivial))

/-- Rayleigh: the mean of the square is twice the square of the scale. -/
theorem C74_rayleigh_kl (hs : solve.For search) :
    KLIs (library search) (Simple.setting solve .rayleigh) fun (_ : Unit) (a b : ℝ) =>
      Textbook.KL.rayleigh (Real.sqrt (rayleigh.toExp a / 2)) (Real.sqrt (rayleigh.toExp b / 2)) :=
  klIs hs (.simple .rayleigh) (fun _ _ _ _ ha hb => rayleigh_kl ha hb)

example : (Simple.setting solve .rayleigh).Inside [5] (fun _ => (() : Unit))
      (fun _ => (-1 : ℝ)) ∧
    EachLeaf RegularVals ((Simple.kind solve .rayleigh).nat [5] (fun _ => (() : Unit))
      fun _ => (-1 : ℝ)) :=
  ⟨fun _ _ => ⟨trivial, show (-1 : ℝ) < 0 by norm_num⟩,
    fun l hl => by rw [List.mem_singleton.1 hl]; trivial⟩

/-- Rayleigh: the mean of the square is twice the square of the scale. -/
theorem C74_rayleigh_entropy (hs : solve.For search) :
    EntropyIs (library search) (Simple.setting solve .rayleigh) False fun (_ : Unit) (a : ℝ) =>
      Textbook.Entropy.rayleigh (Real.sqrt (rayleigh.toExp a / 2)) :=
  entropyIs hs (.simple .rayleigh) trivial (fun _ _ _ ha _ => rayleigh_entropy ha)

/-- Weibull: the mean of the power `k` is that power of the scale. -/
theorem C74_weibull_kl (hs : solve.For search) :
    KLIs (library search) (Simple.setting solve .weibull) fun (p : ℝ) (a b : ℝ) =>
      Textbook.KL.weibull p ((weibull p).toExp a ^ (1 / p)) ((weibull p).toExp b ^ (1 / p)) :=
  klIs hs (.simple .weibull) (fun _ _ _ hk ha hb => weibull_kl hk ha hb)

example : (Simple.setting solve .weibull).Inside [5] (fun _ => (3 : ℝ))
      (fun _ => (-1 : ℝ)) ∧
    EachLeaf RegularVals ((Simple.kind solve .weibull).nat [5] (fun _ => (3 : ℝ))
      fun _ => (-1 : ℝ)) :=
  ⟨fun _ _ => ⟨show (0 : ℝ) < 3 by norm_num, show (-1 : ℝ) < 0 by norm_num⟩,
    fun l hl => by rw [List.mem_singleton.1 hl]; trivial⟩

/-- Weibull: the mean of the power `k` is that power of the scale. -/
theorem C74_weibull_entropy (hs : solve.For search) :
    EntropyIs (library search) (Simple.setting solve .weibull) False fun (p : ℝ) (a : ℝ) =>
      Textbook.Entropy.weibull p ((weibull p).toExp a ^ (1 / p)) :=
  entropyIs hs (.simple .weibull) trivial (fun _ _ hk ha _ => weibull_entropy hk ha)

/-- Normal. -/
theorem C74_normal_kl (hs : solve.For search) :
    KLIs (library search) (Simple.setting solve .normal) fun (_ : Unit) (a b : ℝ × ℝ) =>
      Textbook.KL.normal (normal.toExp a).1 (normalVariance (normal.toExp a))
      (normal.toExp b).1 (normalVariance (normal.toExp b)) :=
  klIs hs (.simple .normal) (fun _ _ _ _ ha hb => normal_kl ha hb)

example : (Simple.setting solve .normal).Inside [5] (fun _ => (() : Unit))
      (fun _ => ((1, -1) : ℝ × ℝ)) ∧
    EachLeaf RegularVals ((Simple.kind solve .normal).nat [5] (fun _ => (() : Unit))
      fun _ => ((1, -1) : ℝ × ℝ)) :=
  ⟨fun _ _ => ⟨trivial, show (-1 : ℝ) < 0 by norm_num⟩,
    fun l hl => by rw [List.mem_singleton.1 hl]; trivial⟩

/-- Normal. -/
theorem C74_normal_entropy (hs : solve.For search) :
    EntropyIs (library search) (Simple.setting solve .normal) False fun (_ : Unit) (a : ℝ × ℝ) =>
      Textbook.Entropy.normal (normalVariance (normal.toExp a)) :=
  entropyIs hs (.simple .normal) trivial (fun _ _ _ ha _ => normal_entropy ha)

/-- Normal with unit variance. -/
theorem C74_unit_normal_kl (hs : solve.For search) :
    KLIs (library search) (Simple.setting solve .unitNormal) fun (_ : Unit) (a b : ℝ) =>
      Textbook.KL.normal (unitNormal.toExp a) 1 (unitNormal.toExp b) 1 :=
  klIs hs (.simple .unitNormal) (fun _ a b _ _ _ => unitNormal_kl a b)

example : (Simple.setting solve .unitNormal).Inside [5] (fun _ => (() : Unit))
      (fun _ => (1 : ℝ)) ∧
    EachLeaf RegularVals ((Simple.kind solve .unitNormal).nat [5] (fun _ => (() : Unit))
      fun _ => (1 : ℝ)) :=
  ⟨fun _ _ => ⟨trivial, trivial⟩,
    fun l hl => by rw [List.mem_singleton.1 hl]; trivial⟩

/-- Normal with unit variance. -/
theorem C74_unit_normal_entropy (hs : solve.For search) :
    EntropyIs (library search) (Simple.setting solve .unitNormal) False fun (_ : Unit) (_ : ℝ) =>
      Textbook.Entropy.normal 1 :=
  entropyIs hs (.simple .unitNormal) trivial (fun _ a _ _ _ => unitNormal_entropy a)

/-- Multivariate normal. -/
theorem C74_mv_normal_kl (d : ℕ) (hs : solve.For search) :
    KLIs (library search) (Simple.setting solve (.mvNormal d))
      fun (_ : Unit) (a b : (Fin d → ℝ) × Matrix (Fin d) (Fin d) ℝ) =>
      Textbook.KL.mvNormal ((mvNormal d).toExp a).1 (mvNormalVariance ((mvNormal d).toExp a))
      ((mvNormal d).toExp b).1 (mvNormalVariance ((mvNormal d).toExp b)) :=
  klIs hs (.simple (.mvNormal d)) (fun _ _ _ _ ha hb => mvNormal_kl ha hb)

example : (Simple.setting solve (.mvNormal 2)).Inside [5] (fun _ => (() : Unit))
      (fun _ => ((1, -1) : (Fin 2 → ℝ) × Matrix (Fin 2) (Fin 2) ℝ)) ∧
    EachLeaf RegularVals ((Simple.kind solve (.mvNormal 2)).nat [5] (fun _ => (() : Unit))
      fun _ => ((1, -1) : (Fin 2 → ℝ) × Matrix (Fin 2) (Fin 2) ℝ)) :=
  ⟨fun _ _ => ⟨trivial, show (- -1 : Matrix (Fin 2) (Fin 2) ℝ).PosDef from
    (neg_neg (1 : Matrix (Fin 2) (Fin 2) ℝ)).symm ▸ Matrix.PosDef.one⟩,
    fun l hl => by rw [List.mem_singleton.1 hl]; trivial⟩

/-- Multivariate normal. -/
theorem C74_mv_normal_entropy (d : ℕ) (hs : solve.For search) :
    EntropyIs (library search) (Simple.setting solve (.mvNormal d)) False
      fun (_ : Unit) (a : (Fin d → ℝ) × Matrix (Fin d) (Fin d) ℝ) =>
      Textbook.Entropy.mvNormal (mvNormalVariance ((mvNormal d).toExp a)) :=
  entropyIs hs (.simple (.mvNormal d)) trivial (fun _ _ _ ha _ => mvNormal_entropy ha)

/-- Diagonal covariance: the coordinates are independent. -/
theorem C74_mv_diagonal_kl (d : ℕ) (hs : solve.For search) :
    KLIs (library search) (Simple.setting solve (.mvDiagonal d))
      fun (_ : Unit) (a b : (Fin d → ℝ) × (Fin d → ℝ)) =>
      ∑ i, Textbook.KL.normal (((mvDiagonal d).toExp a).1 i) (mvDiagonalVariance ((mvDiagonal d).toExp a) i)
      (((mvDiagonal d).toExp b).1 i) (mvDiagonalVariance ((mvDiagonal d).toExp b) i) :=
  klIs hs (.simple (.mvDiagonal d)) (fun _ _ _ _ ha hb => mvDiagonal_kl ha hb)

example : (Simple.setting solve (.mvDiagonal 2)).Inside [5] (fun _ => (() : Unit))
      (fun _ => ((1, -1) : (Fin 2 → ℝ) × (Fin 2 → ℝ))) ∧
    EachLeaf RegularVals ((Simple.kind solve (.mvDiagonal 2)).nat [5] (fun _ => (() : Unit))
      fun _ => ((1, -1) : (Fin 2 → ℝ) × (Fin 2 → ℝ))) :=
  ⟨fun _ _ => ⟨trivial, fun _ => show (-1 : ℝ) < 0 by norm_num⟩,
    fun l hl => by rw [List.mem_singleton.1 hl]; trivial⟩

/-- Diagonal covariance: the coordinates are independent. -/
theorem C74_mv_diagonal_entropy (d : ℕ) (hs : solve.For search) :
    EntropyIs (library search) (Simple.setting solve (.mvDiagonal d)) False
      fun (_ : Unit) (a : (Fin d → ℝ) × (Fin d → ℝ)) =>
      ∑ i, Textbook.Entropy.normal (mvDiagonalVariance ((mvDiagonal d).toExp a) i) :=
  entropyIs hs (.simple (.mvDiagonal d)) trivial (fun _ _ _ ha _ => mvDiagonal_entropy ha)

/-- Equal variances. -/
theorem C74_mv_isotropic_kl (d : ℕ) (hs : solve.For search) :
    KLIs (library search) (Simple.setting solve (.mvIsotropic d))
      fun (_ : Unit) (a b : (Fin d → ℝ) × ℝ) =>
      Textbook.KL.spherical ((mvIsotropic d).toExp a).1 (mvIsotropicVariance ((mvIsotropic d).toExp a))
      ((mvIsotropic d).toExp b).1 (mvIsotropicVariance ((mvIsotropic d).toExp b)) :=
  klIs hs (.simple (.mvIsotropic d)) (fun _ _ _ hd ha hb => mvIsotropic_kl hd ha hb)

example : (Simple.setting solve (.mvIsotropic 2)).Inside [5] (fun _ => (() : Unit))
      (fun _ => ((1, -1) : (Fin 2 → ℝ) × ℝ)) ∧
    EachLeaf RegularVals ((Simple.kind solve (.mvIsotropic 2)).nat [5] (fun _ => (() : Unit))
      fun _ => ((1, -1) : (Fin 2 → ℝ) × ℝ)) :=
  ⟨fun _ _ => ⟨show 0 < 2 by norm_num, show (-1 : ℝ) < 0 by norm_num⟩,
    fun l hl => by rw [List.mem_singleton.1 hl]; trivial⟩

/-- Equal variances. -/
theorem C74_mv_isotropic_entropy (d : ℕ) (hs : solve.For search) :
    EntropyIs (library search) (Simple.setting solve (.mvIsotropic d)) False
      fun (_ : Unit) (a : (Fin d → ℝ) × ℝ) =>
      d * Textbook.Entropy.normal (mvIsotropicVariance ((mvIsotropic d).toExp a)) :=
  entropyIs hs (.simple (.mvIsotropic d)) trivial (fun _ _ hd ha _ => mvIsotropic_entropy hd ha)

/-- Fixed variance. -/
theorem C74_mv_fixed_kl (d : ℕ) (hs : solve.For search) :
    KLIs (library search) (Simple.setting solve (.mvFixed d)) fun (p : ℝ) (a b : Fin d → ℝ) =>
      Textbook.KL.spherical ((mvFixed d p).toExp a) p ((mvFixed d p).toExp b) p :=
  klIs hs (.simple (.mvFixed d)) (fun _ a b hv _ _ => mvFixed_kl hv a b)

example : (Simple.setting solve (.mvFixed 2)).Inside [5] (fun _ => (3 : ℝ))
      (fun _ => (1 : Fin 2 → ℝ)) ∧
    EachLeaf RegularVals ((Simple.kind solve (.mvFixed 2)).nat [5] (fun _ => (3 : ℝ))
      fun _ => (1 : Fin 2 → ℝ)) :=
  ⟨fun _ _ => ⟨show (0 : ℝ) < 3 by norm_num, trivial⟩,
    fun l hl => by rw [List.mem_singleton.1 hl]; trivial⟩

/-- Fixed variance. -/
theorem C74_mv_fixed_entropy (d : ℕ) (hs : solve.For search) :
    EntropyIs (library search) (Simple.setting solve (.mvFixed d)) False fun (p : ℝ) (_ : Fin d → ℝ) =>
      d * Textbook.Entropy.normal p :=
  entropyIs hs (.simple (.mvFixed d)) trivial (fun _ a hv _ _ => mvFixed_entropy hv a)

/-- Unit variances. -/
theorem C74_mv_unit_kl (d : ℕ) (hs : solve.For search) :
    KLIs (library search) (Simple.setting solve (.mvUnit d)) fun (_ : Unit) (a b : Fin d → ℝ) =>
      Textbook.KL.spherical ((mvUnit d).toExp a) 1 ((mvUnit d).toExp b) 1 :=
  klIs hs (.simple (.mvUnit d)) (fun _ a b _ _ _ => mvUnit_kl a b)

example : (Simple.setting solve (.mvUnit 2)).Inside [5] (fun _ => (() : Unit))
      (fun _ => (1 : Fin 2 → ℝ)) ∧
    EachLeaf RegularVals ((Simple.kind solve (.mvUnit 2)).nat [5] (fun _ => (() : Unit))
      fun _ => (1 : Fin 2 → ℝ)) :=
  ⟨fun _ _ => ⟨trivial, trivial⟩,
    fun l hl => by rw [List.mem_singleton.1 hl]; trivial⟩

/-- Unit variances. -/
theorem C74_mv_unit_entropy (d : ℕ) (hs : solve.For search) :
    EntropyIs (library search) (Simple.setting solve (.mvUnit d)) False
      fun (_ : Unit) (_ : Fin d → ℝ) =>
      d * Textbook.Entropy.normal 1 :=
  entropyIs hs (.simple (.mvUnit d)) trivial (fun _ a _ _ _ => mvUnit_entropy a)

/-- Complex normal. -/
theorem C74_complex_normal_kl (hs : solve.For search) :
    KLIs (library search) (Simple.setting solve .complexNormal)
      fun (_ : Unit) (a b : ComplexNormalParams) =>
      Textbook.KL.complexNormal (complexNormal.toExp a).1
      (complexVariance (complexNormal.toExp a)) (complexPseudo (complexNormal.toExp a))
      (complexNormal.toExp b).1 (complexVariance (complexNormal.toExp b))
      (complexPseudo (complexNormal.toExp b)) :=
  klIs hs (.simple .complexNormal) (fun _ _ _ _ ha hb => complexNormal_kl ha hb)

example : (Simple.setting solve .complexNormal).Inside [5] (fun _ => (() : Unit))
      (fun _ => ((1, -2, Complex.I) : ComplexNormalParams)) ∧
    EachLeaf RegularVals ((Simple.kind solve .complexNormal).nat [5] (fun _ => (() : Unit))
      fun _ => ((1, -2, Complex.I) : ComplexNormalParams)) :=
  ⟨fun _ _ => ⟨trivial, show ‖Complex.I‖ < -(-2 : ℝ) by norm_num⟩,
    fun l hl => by rw [List.mem_singleton.1 hl]; trivial⟩

/-- Complex normal. -/
theorem C74_complex_normal_entropy (hs : solve.For search) :
    EntropyIs (library search) (Simple.setting solve .complexNormal) False
      fun (_ : Unit) (a : ComplexNormalParams) =>
      Textbook.Entropy.complexNormal (complexVariance (complexNormal.toExp a))
      (complexPseudo (complexNormal.toExp a)) :=
  entropyIs hs (.simple .complexNormal) trivial (fun _ _ _ ha _ => complexNormal_entropy ha)

/-- Complex normal with unit variance. -/
theorem C74_complex_unit_kl (hs : solve.For search) :
    KLIs (library search) (Simple.setting solve .complexUnit) fun (_ : Unit) (a b : ℂ) =>
      Textbook.KL.complexUnit (complexUnit.toExp a) (complexUnit.toExp b) :=
  klIs hs (.simple .complexUnit) (fun _ a b _ _ _ => complexUnit_kl a b)

example : (Simple.setting solve .complexUnit).Inside [5] (fun _ => (() : Unit))
      (fun _ => (Complex.I : ℂ)) ∧
    EachLeaf RegularVals ((Simple.kind solve .complexUnit).nat [5] (fun _ => (() : Unit))
      fun _ => (Complex.I : ℂ)) :=
  ⟨fun _ _ => ⟨trivial, trivial⟩,
    fun l hl => by rw [List.mem_singleton.1 hl]; trivial⟩

/-- Complex normal with unit variance. -/
theorem C74_complex_unit_entropy (hs : solve.For search) :
    EntropyIs (library search) (Simple.setting solve .complexUnit) False fun (_ : Unit) (_ : ℂ) =>
      Textbook.Entropy.complexNormal 1 0 :=
  entropyIs hs (.simple .complexUnit) trivial (fun _ a _ _ _ => complexUnit_entropy a)

/-- Complex multivariate normal with unit variance: the coordinates are independent. -/
theorem C74_cmv_unit_kl (d : ℕ) (hs : solve.For search) :
    KLIs (library search) (Simple.setting solve (.cmvUnit d)) fun (_ : Unit) (a b : Fin d → ℂ) =>
      ∑ i, Textbook.KL.complexUnit ((cmvUnit d).toExp a i) ((cmvUnit d).toExp b i) :=
  klIs hs (.simple (.cmvUnit d)) (fun _ a b _ _ _ => cmvUnit_kl a b)

example : (Simple.setting solve (.cmvUnit 2)).Inside [5] (fun _ => (() : Unit))
      (fun _ => (0 : Fin 2 → ℂ)) ∧
    EachLeaf RegularVals ((Simple.kind solve (.cmvUnit 2)).nat [5] (fun _ => (() : Unit))
      fun _ => (0 : Fin 2 → ℂ)) :=
  ⟨fun _ _ => ⟨trivial, trivial⟩,
    fun l hl => by rw [List.mem_singleton.1 hl]; trivial⟩

/-- Complex multivariate normal with unit variance: the coordinates are independent. -/
theorem C74_cmv_unit_entropy (d : ℕ) (hs : solve.For search) :
    EntropyIs (library search) (Simple.setting solve (.cmvUnit d)) False
      fun (_ : Unit) (_ : Fin d → ℂ) =>
      d * Textbook.Entropy.complexNormal 1 0 :=
  entropyIs hs (.simple (.cmvUnit d)) trivial (fun _ a _ _ _ => cmvUnit_entropy a)

/-- Circularly symmetric complex normal. -/
theorem C74_cmv_circular_kl (d : ℕ) (hs : solve.For search) :
    KLIs (library search) (Simple.setting solve (.cmvCircular d))
      fun (_ : Unit) (a b : Matrix (Fin d) (Fin d) ℂ) =>
      Textbook.KL.circular ((cmvCircular d).toExp a) ((cmvCircular d).toExp b) :=
  klIs hs (.simple (.cmvCircular d)) (fun _ _ _ _ ha hb => cmvCircular_kl ha hb)

open scoped ComplexOrder in
example : (Simple.setting solve (.cmvCircular 2)).Inside [5] (fun _ => (() : Unit))
      (fun _ => (-1 : Matrix (Fin 2) (Fin 2) ℂ)) ∧
    EachLeaf RegularVals ((Simple.kind solve (.cmvCircular 2)).nat [5] (fun _ => (() : Unit))
      fun _ => (-1 : Matrix (Fin 2) (Fin 2) ℂ)) :=
  ⟨fun _ _ => ⟨trivial, show (- -1 : Matrix (Fin 2) (Fin 2) ℂ).PosDef from
    (neg_neg (1 : Matrix (Fin 2) (Fin 2) ℂ)).symm ▸ Matrix.PosDef.one⟩,
    fun l hl => by rw [List.mem_singleton.1 hl]; trivial⟩

/-- Circularly symmetric complex normal. -/
theorem C74_cmv_circular_entropy (d : ℕ) (hs : solve.For search) :
    EntropyIs (library search) (Simple.setting solve (.cmvCircular d)) False
      fun (_ : Unit) (a : Matrix (Fin d) (Fin d) ℂ) =>
      Textbook.Entropy.circular ((cmvCircular d).toExp a) :=
  entropyIs hs (.simple (.cmvCircular d)) trivial (fun _ _ _ ha _ => cmvCircular_entropy ha)

/-- Multinomial with one trial. -/
theorem C74_multinomial_kl (d : ℕ) (hs : solve.For search) :
    KLIs (library search) (Simple.setting solve (.multinomial d))
      fun (_ : Unit) (a b : Fin (d + 1) → ℝ) =>
      Textbook.KL.categorical (Efax.categories ((multinomial d).toExp a))
      (Efax.categories ((multinomial d).toExp b)) :=
  klIs hs (.simple (.multinomial d)) (fun _ a b _ _ _ => multinomial_kl a b)

example : (Simple.setting solve (.multinomial 2)).Inside [5] (fun _ => (() : Unit))
      (fun _ => (0 : Fin 3 → ℝ)) ∧
    EachLeaf RegularVals ((Simple.kind solve (.multinomial 2)).nat [5] (fun _ => (() : Unit))
      fun _ => (0 : Fin 3 → ℝ)) :=
  ⟨fun _ _ => ⟨trivial, trivial⟩,
    fun l hl => by rw [List.mem_singleton.1 hl]; trivial⟩

/-- Multinomial with one trial. -/
theorem C74_multinomial_entropy (d : ℕ) (hs : solve.For search) :
    EntropyIs (library search) (Simple.setting solve (.multinomial d)) False
      fun (_ : Unit) (a : Fin (d + 1) → ℝ) =>
      Textbook.Entropy.categorical (Efax.categories ((multinomial d).toExp a)) :=
  entropyIs hs (.simple (.multinomial d)) trivial (fun _ a _ _ _ => multinomial_entropy a)

/-- Dirichlet: the parameters are the concentrations minus one. -/
theorem C74_dirichlet_kl (d : ℕ) (hs : solve.For search) :
    KLIs (library search) (Simple.setting solve (.dirichlet d))
      fun (_ : Unit) (a b : Fin (d + 1) → ℝ) =>
      Textbook.KL.dirichlet (fun i => a i + 1) (fun i => b i + 1) :=
  klIs hs (.simple (.dirichlet d)) (fun _ a b _ _ _ => dirichlet_kl a b)

example : (Simple.setting solve (.dirichlet 2)).Inside [5] (fun _ => (() : Unit))
      (fun _ => (0 : Fin 3 → ℝ)) ∧
    EachLeaf RegularVals ((Simple.kind solve (.dirichlet 2)).nat [5] (fun _ => (() : Unit))
      fun _ => (0 : Fin 3 → ℝ)) :=
  ⟨fun _ _ => ⟨show 0 < 2 by norm_num, fun _ => show (-1 : ℝ) < 0 by norm_num⟩,
    fun l hl => by rw [List.mem_singleton.1 hl]; trivial⟩

/-- Dirichlet: the parameters are the concentrations minus one. -/
theorem C74_dirichlet_entropy (d : ℕ) (hs : solve.For search) :
    EntropyIs (library search) (Simple.setting solve (.dirichlet d)) False
      fun (_ : Unit) (a : Fin (d + 1) → ℝ) =>
      Textbook.Entropy.dirichlet (fun i => a i + 1) :=
  entropyIs hs (.simple (.dirichlet d)) trivial (fun _ a _ _ _ => dirichlet_entropy a)

/-- Beta: the parameters are the shapes minus one. -/
theorem C74_beta_kl (hs : solve.For search) :
    KLIs (library search) (Simple.setting solve .beta) fun (_ : Unit) (a b : Fin 2 → ℝ) =>
      Textbook.KL.beta (a 0 + 1) (a 1 + 1) (b 0 + 1) (b 1 + 1) :=
  klIs hs (.simple .beta) (fun _ _ _ _ ha hb => beta_kl ha hb)

example : (Simple.setting solve .beta).Inside [5] (fun _ => (() : Unit))
      (fun _ => (0 : Fin 2 → ℝ)) ∧
    EachLeaf RegularVals ((Simple.kind solve .beta).nat [5] (fun _ => (() : Unit))
      fun _ => (0 : Fin 2 → ℝ)) :=
  ⟨fun _ _ => ⟨trivial, fun _ => show (-1 : ℝ) < 0 by norm_num⟩,
    fun l hl => by rw [List.mem_singleton.1 hl]; trivial⟩

/-- Beta: the parameters are the shapes minus one. -/
theorem C74_beta_entropy (hs : solve.For search) :
    EntropyIs (library search) (Simple.setting solve .beta) False fun (_ : Unit) (a : Fin 2 → ℝ) =>
      Textbook.Entropy.beta (a 0 + 1) (a 1 + 1) :=
  entropyIs hs (.simple .beta) trivial (fun _ _ _ ha _ => beta_entropy ha)

/-- Generalized Dirichlet. -/
theorem C74_gen_dirichlet_kl (d : ℕ) (hs : solve.For search) :
    KLIs (library search) (Simple.setting solve (.genDirichlet d))
      fun (_ : Unit) (a b : (Fin d → ℝ) × (Fin d → ℝ)) =>
      Textbook.KL.genDirichlet (genDirichletAlphaBeta a).1 (genDirichletAlphaBeta a).2
      (genDirichletAlphaBeta b).1 (genDirichletAlphaBeta b).2 :=
  klIs hs (.simple (.genDirichlet d)) (fun _ _ _ _ ha hb => genDirichlet_kl ha hb)

example : (Simple.setting solve (.genDirichlet 2)).Inside [5] (fun _ => (() : Unit))
      (fun _ => ((0, 0) : (Fin 2 → ℝ) × (Fin 2 → ℝ))) ∧
    EachLeaf RegularVals ((Simple.kind solve (.genDirichlet 2)).nat [5] (fun _ => (() : Unit))
      fun _ => ((0, 0) : (Fin 2 → ℝ) × (Fin 2 → ℝ))) :=
  ⟨fun _ _ => ⟨trivial, ⟨fun _ => by norm_num, fun _ => by simp; positivity⟩⟩,
    fun l hl => by rw [List.mem_singleton.1 hl]; trivial⟩

/-- Generalized Dirichlet. -/
theorem C74_gen_dirichlet_entropy (d : ℕ) (hs : solve.For search) :
    EntropyIs (library search) (Simple.setting solve (.genDirichlet d)) False
      fun (_ : Unit) (a : (Fin d → ℝ) × (Fin d → ℝ)) =>
      Textbook.Entropy.genDirichlet (genDirichletAlphaBeta a).1 (genDirichletAlphaBeta a).2 :=
  entropyIs hs (.simple (.genDirichlet d)) trivial (fun _ _ _ ha _ => genDirichlet_entropy ha)

/-- Von Mises-Fisher: the parameter is the mean direction times the concentration. -/
theorem C74_von_mises_fisher_kl (n : ℕ) (hs : solve.For search) :
    KLIs (library search) (Simple.setting solve (.vonMisesFisher (n + 1)))
      fun (_ : Unit) (a b : EuclideanSpace ℝ (Fin (n + 1))) =>
      Textbook.KL.vonMisesFisher (fun i => a i / vmfKappa a) (vmfKappa a)
      (fun i => b i / vmfKappa b) (vmfKappa b) :=
  klIs hs (.simple (.vonMisesFisher (n + 1))) (fun _ _ _ _ ha hb => vmf_kl ha hb)

example : (Simple.setting solve (.vonMisesFisher 3)).Inside [5] (fun _ => (() : Unit))
      (fun _ => (EuclideanSpace.single 0 1 : EuclideanSpace ℝ (Fin 3))) ∧
    EachLeaf RegularVals ((Simple.kind solve (.vonMisesFisher 3)).nat [5] (fun _ => (() : Unit))
      fun _ => (EuclideanSpace.single 0 1 : EuclideanSpace ℝ (Fin 3))) :=
  ⟨fun _ _ => ⟨show 0 < 3 by norm_num, show (EuclideanSpace.single 0 1 : EuclideanSpace ℝ (Fin 3)) ≠ 0 by simp⟩,
    fun l hl => by rw [List.mem_singleton.1 hl]; trivial⟩

/-- Von Mises-Fisher: the parameter is the mean direction times the concentration. -/
theorem C74_von_mises_fisher_entropy (n : ℕ) (hs : solve.For search) :
    EntropyIs (library search) (Simple.setting solve (.vonMisesFisher (n + 1))) False
      fun (_ : Unit) (a : EuclideanSpace ℝ (Fin (n + 1))) =>
      Textbook.Entropy.vonMisesFisher (n + 1) (vmfKappa a) :=
  entropyIs hs (.simple (.vonMisesFisher (n + 1))) trivial (fun _ _ _ ha _ => vmf_entropy ha)

-- The divergence of normal distributions with means one and three.
example (hs : solve.For search) :
    ((Simple.kind solve .unitNormal).nat [5] (fun _ => ()) (fun _ => (1 : ℝ))).klN (library search)
      ((Simple.kind solve .unitNormal).nat [5] (fun _ => ()) (fun _ => (3 : ℝ))) =
        Calc.ok (scalars [5] fun _ => 2) := by
  have h := (C74_unit_normal_kl hs [5] (fun _ => ()) (fun _ => (1 : ℝ)) (fun _ => (3 : ℝ))
    (fun _ _ => ⟨trivial, trivial⟩) (fun _ _ => ⟨trivial, trivial⟩)
    fun l hl => by rw [List.mem_singleton.1 hl]; trivial).1
  beta_reduce at h
  rw [show Textbook.KL.normal (unitNormal.toExp 1) 1 (unitNormal.toExp 3) 1 = 2 by
    norm_num [Textbook.KL.normal, unitNormal]] at h
  exact h

end Efax
