import Verif.Props.Samples2

/-!
# C50, C51 for all batches

`IsBatch cls rs d` says that every parameter of every simple distribution in `d` has the type and the
shape that its support declares, for the batch shape `rs` (last axis first).  `s ++ t` is the shape of
the batch; `i` indexes the leading axes (those of `t`), so that Python's key is `i.reverse`.
-/

namespace Efax

open ClassTable Calc Spec

variable [MachEps]

mutual
theorem shape_search (s s' : Cls → List Val → Except Err (List Val)) :
    (d : Dist Cls) → d.shape (library s) = d.shape (library s')
  | .mk c vals subs => by
    rw [Dist.shape, Dist.shape, shapes_search s s' subs]
    rfl
theorem shapes_search (s s' : Cls → List Val → Except Err (List Val)) :
    (d : Subs Cls) → d.shape (library s) = d.shape (library s')
  | .nil => rfl
  | .cons _ d _ => by rw [Subs.shape, Subs.shape, shape_search s s' d]
end

mutual
theorem logNormalizer_search (s s' : Cls → List Val → Except Err (List Val)) :
    (d : Dist Cls) → d.logNormalizer (library s) = d.logNormalizer (library s')
  | .mk c vals subs => by
    rw [Dist.logNormalizer, Dist.logNormalizer, logNormalizers_search s s' subs]
    rfl
theorem logNormalizers_search (s s' : Cls → List Val → Except Err (List Val)) :
    (d : Subs Cls) → d.logNormalizers (library s) = d.logNormalizers (library s')
  | .nil => rfl
  | .cons _ d r => by
    rw [Subs.logNormalizers, Subs.logNormalizers, logNormalizer_search s s' d,
      logNormalizers_search s s' r]
end

section

variable {search : Cls → List Val → Except Err (List Val)}

/-- **C50.** The property `shape` of a natural parametrization, simple or joint, is the shape of the
batch, and so is the shape of `log_normalizer()`. -/
theorem C50_shape_natural {rs : List ℕ} {d : Dist Cls} (h : NaturalBatch rs d) :
    d.shape (library search) = .ok rs ∧
      ∃ a, d.logNormalizer (library search) = ok a ∧ a.rshape = rs := by
  have hs := C51_search zeroMinimizer_returns
  obtain ⟨K, hK, p, q, rfl⟩ := C51_every_natural (solve := solverOf zeroMinimizer) d h.1 h.2
  have hO := C51_library hs hK
  rw [shape_search search (searchFor zeroMinimizer), logNormalizer_search search (searchFor zeroMinimizer)]
  exact ⟨hO.shapeN rs p q, _, hO.logNormalizer rs p q, rfl⟩

/-- **C50.** The property `shape` of an expectation parametrization, simple or joint, is the shape of
the batch. -/
theorem C50_shape_expectation {rs : List ℕ} {d : Dist Cls} (h : ExpectationBatch rs d) :
    d.shape (library search) = .ok rs := by
  have hs := C51_search zeroMinimizer_returns
  obtain ⟨K, hK, p, q, rfl⟩ := C51_every_expectation (solve := solverOf zeroMinimizer) d h.1 h.2
  rw [shape_search search (searchFor zeroMinimizer)]
  exact (C51_library hs hK).shapeE rs p q

/-- Non-vacuity of C50: nested joint distributions. -/
example : Samples.joint.shape (library search) = .ok [3] ∧
    Samples.jointE.shape (library search) = .ok [3] :=
  ⟨(C50_shape_natural Samples.joint_batch).1, C50_shape_expectation Samples.jointE_batch⟩

end

/-- **C50.** The property `shape` of the variance parametrizations of the normal families. -/
theorem C50_shape_variance (d : ℕ) (rs : List ℕ) (m : List ℕ → ℝ) (v : List ℕ → ℝ)
    (ms vs : List ℕ → Fin d → ℝ) (V : List ℕ → Matrix (Fin d) (Fin d) ℝ) :
    Methods.normalVPShape [.real (scalars rs m), .real (scalars rs v)] = .ok rs ∧
    Methods.diagonalVPShape [.real (vectors rs ms), .real (vectors rs vs)] = .ok rs ∧
    Methods.mvVPShape [.real (vectors rs ms), .real (matrices rs V)] = .ok rs :=
  ⟨rfl, rfl, rfl⟩

/-- **C50 is violated** by `GammaVP` (gamma.py 156-159): for two distributions, `shape` is `()`. -/
theorem C50_gamma_variance_negation : ∃ vals : List Val,
    List.Forall₂ (fun f v => Lies f.support false 1 [2] v) (fields Cls.gammaVP) vals ∧
      Methods.gammaVPShape vals = .ok [] := by
  refine ⟨[.real (scalars [2] fun _ => 1), .real (scalars [2] fun _ => 1)], ?_, rfl⟩
  exact .cons ⟨rfl, fun h => absurd h (by simp)⟩ (.cons ⟨rfl, fun h => absurd h (by simp)⟩ .nil)

variable {solve : Solver} {search : Cls → List Val → Except Err (List Val)} (hs : solve.For search)
  {s t i : List ℕ} (hi : inB t i = true)

include hs hi

/-- **C51.** `log_normalizer()`. -/
theorem C51_log_normalizer {d : Dist Cls} (h : NaturalBatch (s ++ t) d) :
    ∃ d', d.getitem i.reverse = .ok d' ∧ d'.logNormalizer (library search) =
      atIndex i.reverse (d.logNormalizer (library search)) := by
  obtain ⟨K, hK, p, q, rfl⟩ := C51_every_natural (solve := solve) d h.1 h.2
  exact C51_at_log_normalizer hs hK hi p q

/-- **C51.** `to_exp()`. -/
theorem C51_to_exp {d : Dist Cls} (h : NaturalBatch (s ++ t) d) (hr : EachLeaf RegularVals d) :
    ∃ d' e e', d.getitem i.reverse = .ok d' ∧ d.toExp (library search).toExp = .ok e ∧
      e.getitem i.reverse = .ok e' ∧ d'.toExp (library search).toExp = .ok e' := by
  obtain ⟨K, hK, p, q, rfl⟩ := C51_every_natural (solve := solve) d h.1 h.2
  exact C51_at_to_exp hs hK hi p q (regular_dom hK hr)

/-- **C51.** `to_nat()`. -/
theorem C51_to_nat {d : Dist Cls} (h : ExpectationBatch (s ++ t) d) (hr : EachLeaf SearchableVals d) :
    ∃ d' e e', d.getitem i.reverse = .ok d' ∧ d.toNat (library search).toNat = .ok e ∧
      e.getitem i.reverse = .ok e' ∧ d'.toNat (library search).toNat = .ok e' := by
  obtain ⟨K, hK, p, q, rfl⟩ := C51_every_expectation (solve := solve) d h.1 h.2
  exact C51_at_to_nat hs hK hi p q (searchable_dom hK hr)

/-- **C51.** `log_pdf(x)` of a (nested) observation `x` with the shape of the batch. -/
theorem C51_log_pdf_at {d : Dist Cls} (h : NaturalBatch (s ++ t) d) {x : Tree Val}
    (hx : Observed (s ++ t) d x) :
    ∃ d' x', d.getitem i.reverse = .ok d' ∧ treeIndex i.reverse x = .ok x' ∧
      d'.logPdf (library search) x' = atIndex i.reverse (d.logPdf (library search) x) := by
  obtain ⟨K, hK, p, q, rfl⟩ := C51_every_natural (solve := solve) d h.1 h.2
  obtain ⟨y, hy⟩ := observed_obs hK hx
  exact C51_at_log_pdf hs hK hi p q y x hy

/-- **C51.** `kl_divergence` of natural parametrizations. -/
theorem C51_kl_natural_at {d e : Dist Cls} (h : NaturalBatch (s ++ t) d) (he : Alike (· = ·) d e)
    (hr : EachLeaf RegularVals d) :
    ∃ d' e', d.getitem i.reverse = .ok d' ∧ e.getitem i.reverse = .ok e' ∧
      d'.klN (library search) e' = atIndex i.reverse (d.klN (library search) e) := by
  obtain ⟨K, hK, p, q, rfl⟩ := C51_every_natural (solve := solve) d h.1 h.2
  obtain ⟨r, rfl⟩ := natural_alike hK he
  exact C51_at_kl_natural hs hK hi p q r (regular_dom hK hr)

/-- **C51.** `kl_divergence` of an expectation parametrization. -/
theorem C51_kl_expectation_at {d e : Dist Cls} (h : ExpectationBatch (s ++ t) d)
    (he : Alike (fun c c' => natCls c = some c') d e) (hr : EachLeaf SearchableVals d) :
    ∃ d' e', d.getitem i.reverse = .ok d' ∧ e.getitem i.reverse = .ok e' ∧
      d'.klE (library search) e' = atIndex i.reverse (d.klE (library search) e) := by
  obtain ⟨K, hK, p, q, rfl⟩ := C51_every_expectation (solve := solve) d h.1 h.2
  obtain ⟨r, rfl⟩ := expectation_alike hK he
  exact C51_at_kl_expectation hs hK hi p q r (searchable_dom hK hr)

/-- **C51.** `cross_entropy`. -/
theorem C51_cross_entropy_at {d e : Dist Cls} (h : ExpectationBatch (s ++ t) d)
    (he : Alike (fun c c' => natCls c = some c') d e) (hm : EachLeaf (fun c _ => HasEcm c) d) :
    ∃ d' e', d.getitem i.reverse = .ok d' ∧ e.getitem i.reverse = .ok e' ∧
      d'.crossEntropy (library search) e' =
        atIndex i.reverse (d.crossEntropy (library search) e) := by
  obtain ⟨K, hK, p, q, rfl⟩ := C51_every_expectation (solve := solve) d h.1 h.2
  obtain ⟨r, rfl⟩ := expectation_alike hK he
  exact C51_at_cross_entropy hs hK hi p (ecm_ent hK hm) q r

/-- **C51.** `entropy()` of a natural parametrization. -/
theorem C51_entropy_natural_at {d : Dist Cls} (h : NaturalBatch (s ++ t) d)
    (hr : EachLeaf RegularVals d) (hm : EachLeaf (fun c _ => HasEcm c) d) :
    ∃ d', d.getitem i.reverse = .ok d' ∧
      d'.entropyN (library search) = atIndex i.reverse (d.entropyN (library search)) := by
  obtain ⟨K, hK, p, q, rfl⟩ := C51_every_natural (solve := solve) d h.1 h.2
  exact C51_at_entropy_natural hs hK hi p (ecm_ent_nat hK hm) q (regular_dom hK hr)

/-- **C51.** `entropy()` of an expectation parametrization. -/
theorem C51_entropy_expectation_at {d : Dist Cls} (h : ExpectationBatch (s ++ t) d)
    (hr : EachLeaf SearchableVals d) (hm : EachLeaf (fun c _ => HasEcm c) d) :
    ∃ d', d.getitem i.reverse = .ok d' ∧
      d'.entropyE (library search) = atIndex i.reverse (d.entropyE (library search)) := by
  obtain ⟨K, hK, p, q, rfl⟩ := C51_every_expectation (solve := solve) d h.1 h.2
  exact C51_at_entropy_expectation hs hK hi p (ecm_ent hK hm) q (searchable_dom hK hr)

omit hs hi

/-- Non-vacuity: a nested joint distribution satisfies all hypotheses; the key is `(1,)`. -/
example : (solverOf zeroMinimizer).For (searchFor zeroMinimizer) ∧ inB [3] [1] = true ∧
    NaturalBatch ([] ++ [3]) Samples.joint ∧ ExpectationBatch ([] ++ [3]) Samples.jointE ∧
    EachLeaf RegularVals Samples.joint ∧ EachLeaf SearchableVals Samples.jointE ∧
    EachLeaf (fun c _ => HasEcm c) Samples.joint ∧ EachLeaf (fun c _ => HasEcm c) Samples.jointE ∧
    Alike (· = ·) Samples.joint Samples.joint' ∧
    Alike (fun c c' => natCls c = some c') Samples.jointE Samples.joint' ∧
    Observed ([] ++ [3]) Samples.joint Samples.observation :=
  ⟨C51_search zeroMinimizer_returns, rfl, Samples.joint_batch, Samples.jointE_batch, Samples.joint_regular,
    Samples.jointE_searchable, Samples.joint_ecm, Samples.jointE_ecm, Samples.joint_alike,
    Samples.jointE_alike, Samples.observed⟩

end Efax
