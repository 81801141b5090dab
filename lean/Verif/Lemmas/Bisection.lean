import Verif.Lemmas.Searches
import Verif.Lemmas.RootFinding
import Verif.Model.Methods.RootFinder
import Verif.Props.Batch.Search
import Verif.Props.Batch.Exp
import Verif.Props.Batch.Positive

/-! # What the bisection is given, for the classes with a one-dimensional search -/

namespace Efax

open Spec Calc

variable [MachEps]

theorem search_vector (y : ℝ) : (Arr.ofFn [1] fun _ => y) = vectors [] fun _ (_ : Fin 1) => y :=
  Arr.ext rfl fun i hi => by
    have hi : inB [1] i = true := hi
    obtain ⟨k, j, rfl, hk, hj⟩ := inB_cons_elim hi
    rw [Calc.vectors_get _ hk hj, Arr.ofFn_get hi]

/-- The bisection for a class whose starting point and whose gradient are numbers. -/
theorem bisectionSolve_eq {find : (ℝ → EReal) → ℝ → ℝ → ℝ} {c : Cls} {v : List Val} {x : ℝ}
    {g : ℝ → EReal} (hx : initialSearchVals c v = Except.ok (vectors [] fun _ (_ : Fin 1) => x))
    (hg : ∀ y, searchGradientVals c v (vectors [] fun _ (_ : Fin 1) => y) =
      Except.ok (vectors [] fun _ (_ : Fin 1) => g y)) :
    bisectionSolve find c v = Except.ok (vectors [] fun _ (_ : Fin 1) => find g (x - 1) (x + 1)) := by
  have hs : ∀ z : EReal, (vectors [] fun _ (_ : Fin 1) => z).get [0] = z := fun z =>
    Calc.vectors_get _ one_pos rfl
  have hx0 : (vectors [] fun _ (_ : Fin 1) => x).get [0] = x := Calc.vectors_get _ one_pos rfl
  simp only [bisectionSolve, hx, Bind.bind, Except.bind, search_vector, hg, vectors_rshape, hx0, hs]
  rw [if_neg (by simp), if_pos fun y =>
    ⟨vectors [] fun _ (_ : Fin 1) => g y, by rw [search_vector]; exact hg y, rfl⟩]

theorem choosesBisection_of {c : Cls} {v : List Val} {n : ℕ} {rs : List ℕ} {x : List ℕ → Fin n → ℝ}
    (hx : initialSearchVals c v = Except.ok (vectors rs x)) :
    choosesBisection c v = .ok (decide (¬ n > 1)) := by
  simp only [choosesBisection, hx, Bind.bind, Except.bind]
  rfl

theorem gamma_initial {rs : List ℕ} {χ : List ℕ → ℝ × ℝ} {x : List ℕ → ℝ}
    (h : ∀ i, inB rs i = true → gammaInitialSearch (χ i) = some (x i)) :
    initialSearchVals .gammaEP (laySS rs (fun _ => ()) χ) =
      Except.ok (vectors rs fun i (_ : Fin 1) => x i) := by
  unfold initialSearchVals
  simp only [laySS, toR_real]
  calc_simp
  rw [finite_scalars rs _ x fun i hi => by
    have := h i hi
    rw [gammaInitialSearch, gammaInitialShape] at this
    rw [this]
    rfl]
  rw [newaxis_scalars]
  rfl

theorem gamma_searchGradient (χ : ℝ × ℝ) (y : ℝ) :
    searchGradientVals .gammaEP (laySS [] (fun _ => ()) fun _ => χ) (vectors [] fun _ (_ : Fin 1) => y) =
      Except.ok (vectors [] fun _ (_ : Fin 1) => (gammaSearchGradient χ y : EReal)) := by
  unfold searchGradientVals
  simp only [laySS, toR_real]
  have h0 : at_ 0 (ok (vectors [] fun _ (_ : Fin 1) => y)) = ok (scalars [] fun _ => y) :=
    at_vectors (by omega) [] fun _ (_ : Fin 1) => y
  simp only [h0]
  calc_simp
  rfl

theorem vmf_initial {d : ℕ} {rs : List ℕ} {χ : List ℕ → EuclideanSpace ℝ (Fin d)} {x : List ℕ → ℝ}
    (h : ∀ i, inB rs i = true → vmfInitialSearch (χ i) = some (x i)) :
    initialSearchVals .vonMisesFisherEP (layE d rs (fun _ => ()) χ) =
      Except.ok (vectors rs fun i (_ : Fin 1) => x i) := by
  unfold initialSearchVals
  simp only [layE, toR_real, whereE]
  calc_simp
  rw [finite_scalars rs _ x fun i hi => by
    have := h i hi
    simp only [vmfInitialSearch, EuclideanSpace.norm_eq, Real.norm_eq_abs, sq_abs] at this
    split_ifs at this with h1
    simp only [h1, if_false, this]
    rfl]
  rw [newaxis_scalars]
  rfl

theorem scalars_nil {α : Type} [Inhabited α] (f : List ℕ → α) : scalars [] f = (Arr.ofFn [] fun _ => f []) :=
  Arr.ext rfl fun i hi => by
    have hi : inB [] i = true := hi
    cases i with
    | nil => rfl
    | cons => simp [inB] at hi

theorem vmf_searchGradient {d : ℕ} (χ : EuclideanSpace ℝ (Fin d)) (y : ℝ) :
    searchGradientVals .vonMisesFisherEP (layE d [] (fun _ => ()) fun _ => χ)
      (vectors [] fun _ (_ : Fin 1) => y) =
      Except.ok (vectors [] fun _ (_ : Fin 1) => (vmfSearchGradient χ y : EReal)) := by
  unfold searchGradientVals
  simp only [layE, toR_real]
  calc_simp
  rw [scalars_nil, ← const, bin_vectors_const, map_vectors]
  simp only [vmfSearchGradient, EuclideanSpace.norm_eq, Real.norm_eq_abs, sq_abs]
  rfl

theorem initial_zero {c : Cls} {v : List Val} {fl : Flattener Cls} {n : ℕ} {rs : List ℕ}
    {z : List ℕ → Fin n → ℝ} (hf : flatten (.mk c v .nil) true = .ok (fl, vectors rs z))
    (h : initialSearchVals c v =
      (flatten (.mk c v .nil) true).bind fun p => ok (Arr.ofFn p.2.rshape fun _ => 0)) :
    initialSearchVals c v = Except.ok (vectors rs fun _ (_ : Fin n) => 0) := by
  rw [h, hf]
  simp only [Except.bind, vectors_rshape]
  refine congrArg Except.ok (Arr.ext (α := ℝ) rfl fun i hi => ?_)
  have hi : inB (n :: rs) i = true := hi
  obtain ⟨k, j, rfl, hk, hj⟩ := inB_cons_elim hi
  rw [Calc.vectors_get _ hk hj, Arr.ofFn_get hi]

theorem chiSquare_flat (rs : List ℕ) (χ : List ℕ → ℝ) :
    flatten (.mk .chiSquareEP (layS rs (fun _ => ()) χ) .nil) true =
      .ok (flOf .chiSquareEP 1, vectors rs fun i (_ : Fin 1) => χ i) :=
  flatten_one (name := "mean_log") (s := .scalar Ring.realField) rfl rfl rfl
    (flattened_scalar fun _ _ => rfl)

theorem logarithmic_flat {rs : List ℕ} {χ : List ℕ → ℝ}
    (h : ∀ i, inB rs i = true → Ring.openMin 1 < χ i) :
    ∃ z : List ℕ → ℝ, flatten (.mk .logarithmicEP (layS rs (fun _ => ()) χ) .nil) true =
      .ok (flOf .logarithmicEP 1, vectors rs fun i (_ : Fin 1) => z i) :=
  ⟨fun i => (Ring.realFlat (some (Ring.openMin 1)) none (χ i)).getD 0,
    flatten_one (name := "chi") (s := .scalar (Ring.mkReal (some 1) none)) rfl rfl rfl
      (flattened_scalar fun i hi => (flat_getD (by simpa using h i hi) (by simp)).1)⟩

theorem chiSquare_raw (χ : ℝ) : ∃ fl : Flattener Cls,
    flatten (.mk .chiSquareEP [.real (scalars [] fun _ => χ)] .nil) false =
      .ok (fl, vectors [] fun _ (_ : Fin 1) => χ) := by
  have hy : (Support.scalar Ring.realField).flattened false (.real (scalars [] fun _ => χ)) =
      .ok (vectors [] fun _ (_ : Fin 1) => χ) := by
    simp only [Support.flattened, Val.newaxis, Ring.realField, Ring.flattened]
    exact newaxis_scalars [] fun _ => χ
  refine ⟨⟨[⟨[], .chiSquareEP, 1, []⟩], [], false⟩, ?_⟩
  have hf : Cls.fields .chiSquareEP = [⟨"mean_log", .scalar Ring.realField, false⟩] := rfl
  have ha : Cls.adjust .chiSquareEP "mean_log" [] = .ok (.scalar Ring.realField) := rfl
  have hd : Cls.dimensions .chiSquareEP [.real (scalars [] fun _ => χ)] = .ok 1 := rfl
  simp [flatten, Dist.walk, Subs.walk, makeFlat, parametersFlat, nodeParams, ClassTable.fields, hf,
    Dist.cls, Dist.vals, Dist.subs, Dict.ofList, Dict.set, makeFlatFields, ClassTable.adjust, ha, hy, Bind.bind, Except.bind,
    reduceAppend, infosOf, makeInfo, ClassTable.dimensions, hd, parameters, Dist.paramList, Subs.paramList,
    keep, Subs.names, pure, Except.pure]

theorem chiSquare_searchToNatural (χ y : ℝ) :
    searchToNaturalVals .chiSquareEP [.real (scalars [] fun _ => χ)] (vectors [] fun _ (_ : Fin 1) => y) =
      .ok [.real (scalars [] fun _ => chiSquareSearchToNatural y)] := by
  have h1 : (Dist.mk .chiSquareEP [.real (scalars [] fun _ => χ)] .nil : Dist Cls).searchToNatural
      (vectors [] fun _ (_ : Fin 1) => y) =
      .ok (.mk .chiSquareNP [.real (scalars [] fun _ => chiSquareSearchToNatural y)] .nil) :=
    searchToNatural_one (name := "k_over_two_minus_one")
      (s := .scalar (Ring.mkReal (some (-1)) none)) (d := 1) rfl rfl rfl rfl rfl rfl rfl
      unflattened_scalar
  simp only [searchToNaturalVals, h1, Bind.bind, Except.bind]
  rfl

theorem logarithmic_searchToNatural (χ y : ℝ) :
    searchToNaturalVals .logarithmicEP [.real (scalars [] fun _ => χ)]
      (vectors [] fun _ (_ : Fin 1) => y) =
      .ok [.real (scalars [] fun _ => logarithmicSearchToNatural y)] := by
  have h1 : (Dist.mk .logarithmicEP [.real (scalars [] fun _ => χ)] .nil : Dist Cls).searchToNatural
      (vectors [] fun _ (_ : Fin 1) => y) =
      .ok (.mk .logarithmicNP [.real (scalars [] fun _ => logarithmicSearchToNatural y)] .nil) :=
    searchToNatural_one (name := "log_probability")
      (s := .scalar Ring.negativeSupport) (d := 1) rfl rfl rfl rfl rfl rfl rfl
      unflattened_scalar
  simp only [searchToNaturalVals, h1, Bind.bind, Except.bind]
  rfl

theorem chiSquare_searchGradient (χ y : ℝ) :
    searchGradientVals .chiSquareEP (layS [] (fun _ => ()) fun _ => χ)
      (vectors [] fun _ (_ : Fin 1) => y) =
      Except.ok (vectors [] fun _ (_ : Fin 1) =>
        ((searchGradient chiSquareSearchToNatural chiSquare.toExp χ y : ℝ) : EReal)) := by
  have ht : Methods.chiSquareNP.toExp [.real (scalars [] fun _ => chiSquareSearchToNatural y)] =
      .ok [.real (scalars [] fun _ => chiSquare.toExp (chiSquareSearchToNatural y))] :=
    C51_chi_square.toExp [] (fun _ => ()) (fun _ => chiSquareSearchToNatural y) fun _ _ => trivial
  obtain ⟨f1, h1⟩ := chiSquare_raw χ
  obtain ⟨f2, h2⟩ := chiSquare_raw (chiSquare.toExp (chiSquareSearchToNatural y))
  unfold searchGradientVals
  simp only [layS, chiSquare_searchToNatural, Bind.bind, Except.bind, Cls.natCls, Option.bind,
    Cls.natMethods, ht, h1, h2]
  calc_simp
  rfl

theorem logarithmic_searchGradient (χ y : ℝ) :
    searchGradientVals .logarithmicEP (layS [] (fun _ => ()) fun _ => χ)
      (vectors [] fun _ (_ : Fin 1) => y) =
      Except.ok (vectors [] fun _ (_ : Fin 1) => logarithmicSearchGradient χ y) := by
  unfold searchGradientVals
  simp only [layS, logarithmic_searchToNatural, Bind.bind, Except.bind, toR_real, whereE]
  calc_simp
  rfl

end Efax
