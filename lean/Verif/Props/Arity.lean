import Verif.Props.Objects
import Verif.Props.FisherDiagonal

/-!
# C50: the number of parameters; C43: the trace over a matrix

A dataclass is constructed with one argument for every field; with another number of arguments Python
raises `TypeError`, so there is no distribution and no method has a result.
-/

namespace Efax

open ClassTable Calc Spec

section

variable [MachEps]

/-- **C50.** No method of a natural parametrization has a result for a wrong number of parameters. -/
theorem C50_arity_natural (c : Cls) {m : NatMethods} (hm : c.natMethods = some m) (v : List Val)
    (hv : v.length ≠ (fields c).length) :
    m.shape v = .error .typeError ∧ m.logNormalizer v = fail .typeError ∧
      m.toExp v = .error .typeError ∧
      ((fields c).any Field.fixed = true → ∀ x, m.carrier v x = fail .typeError) := by
  cases c <;> first | (cases hm; done) | skip
  all_goals
    cases hm
    rcases v with _ | ⟨a, _ | ⟨b, _ | ⟨c, _ | ⟨d, l⟩⟩⟩⟩ <;>
      first
        | exact absurd rfl hv
        | exact ⟨rfl, rfl, rfl, fun _ _ => rfl⟩
        | exact ⟨rfl, rfl, rfl, fun h => by cases h⟩

/-- Non-vacuity: a normal distribution with one parameter. -/
example (v : Val) : Methods.normalNP.logNormalizer [v] = fail .typeError :=
  (C50_arity_natural .normalNP rfl [v] (by simp [fields, Cls.fields])).2.1

/-- **C50.** No method of an expectation parametrization has a result for a wrong number of parameters;
the search behind `ExpToNat.to_nat` is not given a chance to return one. -/
theorem C50_arity_expectation (c : Cls) {m : ExpMethods} (hm : c.expMethods = some m) (v : List Val)
    (hv : v.length ≠ (fields c).length) :
    m.shape v = .error .typeError ∧
      m.toNat (fun _ => .error .typeError) v = .error .typeError ∧
      m.ecm (fun _ => .error .typeError) v = fail .typeError := by
  cases c <;> first | (cases hm; done) | skip
  all_goals
    cases hm
    rcases v with _ | ⟨a, _ | ⟨b, _ | ⟨c, _ | ⟨d, l⟩⟩⟩⟩ <;>
      first
        | exact absurd rfl hv
        | exact ⟨rfl, rfl, rfl⟩

/-- Non-vacuity: a normal distribution with three parameters. -/
example (v : Val) : Methods.normalEP.shape [v, v, v] = .error .typeError :=
  (C50_arity_expectation .normalEP rfl [v, v, v] (by simp [fields, Cls.fields])).1

end

/-- **C50.** No method of a variance parametrization, and no conversion to one, has a result for a
wrong number of parameters. -/
theorem C50_arity_variance (v : List Val) (hv : v.length ≠ 2) :
    Methods.normalToVar v = .error .typeError ∧ Methods.normalVPShape v = .error .typeError ∧
    Methods.normalVarToExp v = .error .typeError ∧ Methods.normalVarToNat v = .error .typeError ∧
    Methods.diagonalToVar v = .error .typeError ∧ Methods.diagonalVPShape v = .error .typeError ∧
    Methods.diagonalVarToExp v = .error .typeError ∧ Methods.diagonalVarToNat v = .error .typeError ∧
    Methods.mvToVar v = .error .typeError ∧ Methods.mvVPShape v = .error .typeError ∧
    Methods.mvVarToExp v = .error .typeError ∧ Methods.gammaToVar v = .error .typeError ∧
    Methods.gammaVPShape v = .error .typeError ∧ Methods.gammaVarToNat v = .error .typeError := by
  rcases v with _ | ⟨a, _ | ⟨b, _ | ⟨c, l⟩⟩⟩ <;>
    first
      | exact absurd rfl hv
      | exact ⟨rfl, rfl, rfl, rfl, rfl, rfl, rfl, rfl, rfl, rfl, rfl, rfl, rfl, rfl⟩

/-- Non-vacuity: one parameter. -/
example (v : Val) : Methods.mvVPShape [v] = .error .typeError :=
  (C50_arity_variance [v] (by simp)).2.2.2.2.2.2.2.2.2.1

theorem triuPart_matrices {α : Type} [Inhabited α] [Zero α] {n : ℕ} (rs : List ℕ)
    (M : List ℕ → Matrix (Fin n) (Fin n) α) :
    (matrices rs M).triuPart = .ok (matrices rs fun i => .of fun r c => if r ≤ c then M i r c else 0) :=
  ofFn_matrices fun r c i hi => by
    show (if r.val ≤ c.val then _ else _) = _
    rw [Calc.matrices_get M r c hi]
    rfl

/-- **C43.** The sum over a matrix parameter takes each entry of the upper triangle once, in every
batch (natural_parametrization.py 141-143). -/
theorem C43_trace_matrix {n : ℕ} (rs : List ℕ) (M : List ℕ → Matrix (Fin n) (Fin n) ℝ) (r : Ring)
    (a b c : Bool) :
    traceOf (.symmetric r a b c) (.real (matrices rs M)) =
      .ok (.real (scalars rs fun i => ∑ r, ∑ c with r ≤ c, M i r c)) := by
  have h1 : (matrices rs fun i => Matrix.of fun r c => if r ≤ c then M i r c else 0).sumLast =
      .ok (vectors rs fun i (r : Fin n) => ∑ c, if r ≤ c then M i r c else 0) :=
    Calc.sumLast_matrices rs fun i => Matrix.of fun r c => if r ≤ c then M i r c else 0
  have h2 : (vectors rs fun i (r : Fin n) => ∑ c, if r ≤ c then M i r c else 0).sumLast =
      .ok (scalars rs fun i => ∑ r, ∑ c, if r ≤ c then M i r c else 0) :=
    Calc.sumLast_vectors rs fun i (r : Fin n) => ∑ c, if r ≤ c then M i r c else 0
  simp only [Finset.sum_filter]
  show (do Val.real <$> (← (← (matrices rs M).triuPart).sumLast).sumLast) = _
  rw [triuPart_matrices]
  show (do Val.real <$> (← (matrices rs _).sumLast).sumLast) = _
  rw [h1]
  show Val.real <$> (vectors rs _).sumLast = _
  rw [h2]
  rfl

/-- Non-vacuity: the matrix with rows `(1, 2)` and `(2, 4)`. -/
example (r : Ring) : traceOf (.symmetric r false false false)
    (.real (matrices [] fun _ => !![1, 2; 2, 4])) = .ok (.real (scalars [] fun _ => 7)) := by
  rw [C43_trace_matrix]
  norm_num [Finset.sum_filter, Fin.sum_univ_succ]

/-- **C43.** The same for complex matrices. -/
theorem C43_trace_complex_matrix {n : ℕ} (rs : List ℕ) (M : List ℕ → Matrix (Fin n) (Fin n) ℂ)
    (r : Ring) (a b c : Bool) :
    traceOf (.symmetric r a b c) (.complex (matrices rs M)) =
      .ok (.complex (scalars rs fun i => ∑ r, ∑ c with r ≤ c, M i r c)) := by
  have h1 : (matrices rs fun i => Matrix.of fun r c => if r ≤ c then M i r c else 0).sumLast =
      .ok (vectors rs fun i (r : Fin n) => ∑ c, if r ≤ c then M i r c else 0) :=
    Calc.sumLast_matrices rs fun i => Matrix.of fun r c => if r ≤ c then M i r c else 0
  have h2 : (vectors rs fun i (r : Fin n) => ∑ c, if r ≤ c then M i r c else 0).sumLast =
      .ok (scalars rs fun i => ∑ r, ∑ c, if r ≤ c then M i r c else 0) :=
    Calc.sumLast_vectors rs fun i (r : Fin n) => ∑ c, if r ≤ c then M i r c else 0
  simp only [Finset.sum_filter]
  show (do Val.complex <$> (← (← (matrices rs M).triuPart).sumLast).sumLast) = _
  rw [triuPart_matrices]
  show (do Val.complex <$> (← (matrices rs _).sumLast).sumLast) = _
  rw [h1]
  show Val.complex <$> (vectors rs _).sumLast = _
  rw [h2]
  rfl

/-- Non-vacuity: a Hermitian matrix. -/
example (r : Ring) : traceOf (.symmetric r false false true)
    (.complex (matrices [] fun _ => !![1, Complex.I; -Complex.I, 4])) =
      .ok (.complex (scalars [] fun _ => 5 + Complex.I)) := by
  rw [C43_trace_complex_matrix]
  have h : ∑ r : Fin 2, ∑ c : Fin 2 with r ≤ c,
      (!![1, Complex.I; -Complex.I, 4] : Matrix (Fin 2) (Fin 2) ℂ) r c = 5 + Complex.I := by
    simp [Finset.sum_filter, Fin.sum_univ_succ]
    ring
  simp only [h]

end Efax
