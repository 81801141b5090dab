import Mathlib.MeasureTheory.Constructions.Pi
import Mathlib.Probability.Independence.Basic
import Mathlib.LinearAlgebra.Matrix.PosDef
import Verif.Spec.Sampling
import Verif.Model.Primitives

/-!
# Specification: ideal random numbers, and the laws of samples

What the documentation of `jax.random` promises, for an ideal generator: the entries of a result are
independent, results with different keys are independent, and each entry has the documented law.
-/

namespace Efax.Spec

open MeasureTheory ProbabilityTheory Matrix

/-- The indices of an array of the shape `s`. -/
abbrev Idx (s : List ℕ) := {i : List ℕ // inB s i = true}

/-- Ideal random numbers on a probability space.  An entry of a result is a function of a random seed,
which belongs to the key, the shape and the index, and of the parameters at this index. -/
structure IdealRandom (K : Type) {Ω : Type} [MeasurableSpace Ω] (P : Measure Ω) where
  Seed : Type
  [mseed : MeasurableSpace Seed]
  ν : Measure Seed
  seed : Ω → K → List ℕ → List ℕ → Seed
  split : K → (n : ℕ) → Fin n → K
  factor : (n : ℕ) → Matrix (Fin n) (Fin n) ℝ → Matrix (Fin n) (Fin n) ℝ
  normal : Seed → ℝ
  exponential : Seed → ℝ
  gamma : ℝ → Seed → ℝ
  chisquare : ℝ → Seed → ℝ
  rayleigh : ℝ → Seed → ℝ
  weibull : ℝ → ℝ → Seed → ℝ
  beta : ℝ → ℝ → Seed → ℝ
  bernoulli : ℝ → Seed → Bool
  poisson : ℝ → Seed → ℕ
  geometric : ℝ → Seed → ℕ
  dirichlet : (n : ℕ) → (Fin (n + 1) → ℝ) → Seed → Fin (n + 1) → ℝ
  categorical : (n : ℕ) → (Fin (n + 1) → ℝ) → Seed → Fin (n + 1)
  /-- All seeds have the same law. -/
  seed_law : ∀ key s i, inB s i = true → MeasurePreserving (fun ω => seed ω key s i) P ν
  /-- Seeds of different entries and of different keys are independent; with one key, only one shape
  is considered. -/
  seed_indep : ∀ shapes : K → List ℕ, iIndepFun (fun (e : (key : K) × Idx (shapes key)) ω =>
    seed ω e.1 (shapes e.1) e.2.1) P
  /-- Keys that are split off are new. -/
  split_injective : ∀ k n i k' n' i', split k n i = split k' n' i' → k = k' ∧ n = n' ∧ i.val = i'.val
  split_ne : ∀ k n i, split k n i ≠ k
  factor_mul : ∀ n V, V.PosDef → factor n V * (factor n V)ᵀ = V
  normal_law : MeasurePreserving normal ν randomNormal
  exponential_law : MeasurePreserving exponential ν randomExponential
  gamma_law : ∀ a, 0 < a → MeasurePreserving (gamma a) ν (randomGamma a)
  chisquare_law : ∀ df, 0 < df → MeasurePreserving (chisquare df) ν (randomChisquare df)
  rayleigh_law : ∀ s, 0 < s → MeasurePreserving (rayleigh s) ν (randomRayleigh s)
  weibull_law : ∀ s c, 0 < s → 0 < c → MeasurePreserving (weibull s c) ν (randomWeibull s c)
  beta_law : ∀ a b, 0 < a → 0 < b → MeasurePreserving (beta a b) ν (randomBeta a b)
  bernoulli_law : ∀ p, 0 ≤ p → p ≤ 1 → MeasurePreserving (bernoulli p) ν (randomBernoulli p)
  poisson_law : ∀ m, 0 < m → MeasurePreserving (poisson m) ν (randomPoisson m)
  poisson_measurable : Measurable fun mu : ℝ × Seed => poisson mu.1 mu.2
  geometric_law : ∀ p, 0 < p → p ≤ 1 → MeasurePreserving (geometric p) ν (randomGeometric p)
  dirichlet_law : ∀ n a, (∀ i, 0 < a i) → MeasurePreserving (dirichlet n a) ν (randomDirichlet a)
  categorical_law : ∀ n a, MeasurePreserving (categorical n a) ν (randomCategorical a)

attribute [instance] IdealRandom.mseed

variable {K : Type} {Ω : Type} [MeasurableSpace Ω] {P : Measure Ω}

/-- The stream of random numbers. -/
def IdealRandom.rng (I : IdealRandom K P) (ω : Ω) : Random K where
  split := I.split
  normal key s i := I.normal (I.seed ω key s i)
  exponential key s i := I.exponential (I.seed ω key s i)
  gamma key s i a := I.gamma a (I.seed ω key s i)
  chisquare key s i df := I.chisquare df (I.seed ω key s i)
  rayleigh key s i scale := I.rayleigh scale (I.seed ω key s i)
  weibull key s i scale c := I.weibull scale c (I.seed ω key s i)
  beta key s i a b := I.beta a b (I.seed ω key s i)
  bernoulli key s i p := I.bernoulli p (I.seed ω key s i)
  poisson key s i m := I.poisson m (I.seed ω key s i)
  geometric key s i p := I.geometric p (I.seed ω key s i)
  dirichlet key s i n a := I.dirichlet n a (I.seed ω key s i)
  categorical key s i n a := I.categorical n a (I.seed ω key s i)
  factor := I.factor

/-- A sampler, applied to a batch with the argument `shape`, returns an array of independent entries,
each with the law of the distribution of the batch at the trailing indices. -/
def Draws {A N Y : Type} [MeasurableSpace Y] (sample : Random K → Sampler K) (lay : Layout A N)
    (out : List ℕ → (List ℕ → Y) → Val) (law : A → N → Measure Y) (dom : A → N → Prop) : Prop :=
  ∀ (Ω : Type) (_ : MeasurableSpace Ω) (P : Measure Ω) (I : IdealRandom K P) (key : K)
    (shape : Option (List ℕ)) (rs : List ℕ) (p : List ℕ → A) (q : List ℕ → N),
    (∀ i, inB rs i = true → dom (p i) (q i)) →
    ∃ y : Ω → List ℕ → Y,
      (∀ ω, sample (I.rng ω) (lay rs p q) key shape = .ok (out (rs ++ shape.getD []) (y ω))) ∧
      iIndepFun (fun (j : Idx (rs ++ shape.getD [])) ω => y ω j.1) P ∧
      ∀ j, inB (rs ++ shape.getD []) j = true →
        MeasurePreserving (fun ω => y ω j) P (law (p (j.take rs.length)) (q (j.take rs.length)))

/-! ### Which seeds a sampler reads -/

/-- The seeds from which an entry of a sample is made: those of the key or of the keys that are split
off, at some further indices. -/
structure Bits where
  B : Type
  [fin : Fintype B]
  path : B → Option (Fin 2)
  event : List ℕ
  idx : B → List ℕ
  mem : ∀ b, inB event (idx b) = true
  inj : ∀ b b', path b = path b' → idx b = idx b' → b = b'

attribute [instance] Bits.fin

/-- A key, or a key that is split off. -/
def IdealRandom.key (I : IdealRandom K P) (key : K) : Option (Fin 2) → K
  | none => key
  | some b => I.split key 2 b

/-- The seeds of one entry. -/
def Bits.read (bits : Bits) (I : IdealRandom K P) (ω : Ω) (key : K) (t j : List ℕ) (b : bits.B) : I.Seed :=
  I.seed ω (I.key key (bits.path b)) (bits.event ++ t) (bits.idx b ++ j)

/-- Every entry of the samples of one batch of shape `rs` is made from the seeds of the entry, and has the
law that belongs to the trailing indices. -/
def ReadsBatch {Y : Type} [MeasurableSpace Y] (sample : Random K → Sampler K) (vals : List Val)
    (rs : List ℕ) (out : List ℕ → (List ℕ → Y) → Val) (law : List ℕ → Measure Y) (bits : Bits) : Prop :=
  ∀ (Ω : Type) (_ : MeasurableSpace Ω) (P : Measure Ω) (I : IdealRandom K P),
    ∃ g : List ℕ → (bits.B → I.Seed) → Y,
      (∀ i, inB rs i = true → MeasurePreserving (g i) (Measure.pi fun _ => I.ν) (law i)) ∧
      ∀ ω key shape, sample (I.rng ω) vals key shape = .ok (out (rs ++ shape.getD []) fun j =>
        g (j.take rs.length) (bits.read I ω key (rs ++ shape.getD []) j))

/-- Every entry of a sample is made from the seeds of the entry, with a given law. -/
def ReadsLaw {A N Y : Type} [MeasurableSpace Y] (sample : Random K → Sampler K) (lay : Layout A N)
    (out : List ℕ → (List ℕ → Y) → Val) (law : A → N → Measure Y) (dom : A → N → Prop)
    (bits : Bits) : Prop :=
  ∀ rs p q, (∀ i, inB rs i = true → dom (p i) (q i)) →
    ReadsBatch sample (lay rs p q) rs out (fun i => law (p i) (q i)) bits

end Efax.Spec
