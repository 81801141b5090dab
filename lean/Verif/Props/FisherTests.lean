import Verif.Props.FisherForm
import Verif.Props.FisherTrace

/-!
# The Fisher information of multivariate normal distributions (C79)

`tests/test_fisher_information.py` 15-53.
-/

namespace Efax

open MeasureTheory Spec Set Matrix Calc

variable [MachEps] {search : Cls → List Val → Except Err (List Val)}

/-- The raw coordinates of multivariate normal distributions. -/
def rawMvNormal (d : ℕ) : Raw .mvNormalNP (layVM d) (d + (d + 1).choose 2)
    (fun q => True ∧ q.2.IsSymm) :=
  Raw.two codecV codecM rfl rfl (by decide) rfl (fun _ => rfl) fun _ _ _ => rfl

/-- The directions of the flat coordinates: the unit vectors of the mean, and the symmetric matrices with one
and two entries that are one, row by row. -/
noncomputable def mvNormalDirs : Fin 5 → (Fin 2 → ℝ) × Matrix (Fin 2) (Fin 2) ℝ :=
  ![(![1, 0], 0), (![0, 1], 0), (0, !![1, 0; 0, 0]), (0, !![0, 1; 1, 0]), (0, !![0, 0; 0, 1])]

theorem rawMvNormal_dec (k : Fin 5) : (rawMvNormal 2).dec (Pi.single k 1) = mvNormalDirs k := by
  refine Prod.ext ?_ ?_
  · funext i
    show (Pi.single k 1 : Fin 5 → ℝ) (Fin.castAdd 3 i) = _
    fin_cases k <;> fin_cases i <;> rfl
  · ext i j
    fin_cases k <;> fin_cases i <;> fin_cases j <;> rfl

/-- The Fisher information matrix, its diagonal and its trace for one multivariate normal distribution. -/
theorem mvNormal_fisher {d : ℕ} {q : List ℕ → (Fin d → ℝ) × Matrix (Fin d) (Fin d) ℝ}
    (hq : q [] ∈ mvNormalDom d) {M : Matrix (Fin (d + (d + 1).choose 2)) (Fin (d + (d + 1).choose 2)) ℝ}
    (hM : ∀ k l, M k l = Textbook.Info.mvNormal ((mvNormal d).toExp (q [])).1
      (mvNormalVariance ((mvNormal d).toExp (q []))) ((rawMvNormal d).dec (Pi.single k 1))
      ((rawMvNormal d).dec (Pi.single l 1))) :
    fisherMatrix (library search) (.mk .mvNormalNP (layVM d [] (fun _ => ()) q) .nil) = .ok (matrices [] fun _ => M) ∧
    fisherDiagonal (library search) (.mk .mvNormalNP (layVM d [] (fun _ => ()) q) .nil) =
      .ok (.mk .mvNormalNP (layVM d [] (fun _ => ()) fun _ => (rawMvNormal d).dec fun k => M k k) .nil) := by
  have h1 : fisherMatrix (library search) (.mk .mvNormalNP (layVM d [] (fun _ => ()) q) .nil) =
      .ok (matrices [] fun _ => M) := by
    refine ((rawMvNormal d).fisher_form (dom := fun _ => mvNormalDom d) (C51_mv_normal d) rfl rfl rfl
      (simple_dot (.mvNormal d))
      (fun _ _ h => ⟨_, h, (mvNormal_regular d).toLocallyRegular, fun _ _ => trivial⟩)
      (fun _ q h => ⟨trivial, (mvNormal_regular d).mem_dirs q h⟩) (fun z => ofUpper_symm _)
      (fun _ q h => mvNormal_info h) [] (fun _ => ()) q fun i hi => by rwa [inB_nil_iff.1 hi]).trans ?_
    refine congrArg _ (matrices_eq fun i hi => ?_)
    ext k l
    rw [inB_nil_iff.1 hi, of_apply, hM]
  refine ⟨h1, ?_⟩
  obtain ⟨u, -, h⟩ := C42_flat_mv_normal (search := search) d
  obtain ⟨M', g1, -, g2⟩ := h [] (fun _ => ()) q fun i hi => by rwa [inB_nil_iff.1 hi]
  have e := Except.ok.inj (h1.symm.trans g1)
  have hp : ∀ k, 0 < M k k := fun k => by
    have : (matrices [] fun _ => M).get [k.1, k.1] = (matrices [] M').get [k.1, k.1] := by rw [e]
    rw [Calc.matrices_get (rs := []) _ k k (i := []) rfl, Calc.matrices_get (rs := []) _ k k (i := []) rfl] at this
    rw [this]
    exact (g2 [] rfl).1.diag_pos
  have hf := (rawMvNormal d).flat [] (fun _ => ()) q fun i hi => by
    rw [inB_nil_iff.1 hi]
    exact ⟨trivial, (mvNormal_regular d).mem_dirs _ hq⟩
  simp only [fisherDiagonal, hf, h1, Bind.bind, Except.bind, diagonal_matrices]
  rw [← (rawMvNormal d).unflat [] (fun _ => ()) fun _ k => M k k]
  refine unflatten_plain (fun i hi => ?_) fun i hi => ?_
  · have hi : i ∈ [(⟨[], .mvNormalNP, d, []⟩ : Info Cls)] := hi
    obtain rfl := List.mem_singleton.1 hi
    exact plainCls rfl nofun
  · have hi : inB [d + (d + 1).choose 2] i = true := hi
    obtain ⟨i0, j, rfl, hi0, hj⟩ := inB_cons_elim hi
    rw [Calc.vectors_get _ hi0 hj]
    exact (hp _).ne'

/-- The trace of one multivariate normal distribution. -/
theorem mvNormal_trace {d : ℕ} {q : List ℕ → (Fin d → ℝ) × Matrix (Fin d) (Fin d) ℝ}
    {D : (Fin d → ℝ) × Matrix (Fin d) (Fin d) ℝ}
    (h : fisherDiagonal (library search) (.mk .mvNormalNP (layVM d [] (fun _ => ()) q) .nil) =
      .ok (.mk .mvNormalNP (layVM d [] (fun _ => ()) fun _ => D) .nil)) :
    fisherTrace (library search) (.mk .mvNormalNP (layVM d [] (fun _ => ()) q) .nil) =
      .ok (.mk .mvNormalNP [.real (scalars [] fun _ => ∑ i, D.1 i),
        .real (scalars [] fun _ => ∑ r, ∑ c with r ≤ c, D.2 r c)] .nil) := by
  have hi : infosOf (.mk Cls.mvNormalNP (layVM d [] (fun _ => ()) q) .nil) = .ok [⟨[], Cls.mvNormalNP, d, []⟩] := rfl
  simp only [fisherTrace, h, hi, Bind.bind, Except.bind]
  have hp : parametersS (.mk Cls.mvNormalNP (layVM d [] (fun _ => ()) fun _ => D) .nil) none =
      [(["mean_times_precision"], (.real (vectors [] fun _ => D.1), .vector Ring.realField)),
       (["negative_half_precision"], (.real (matrices [] fun _ => D.2), .symmetric Ring.realField false true false))] := rfl
  rw [hp]
  simp only [List.foldlM_cons, List.foldlM_nil, Bind.bind, Except.bind]
  have t1 : traceOf (.vector Ring.realField) (.real (vectors [] fun _ => D.1)) =
      .ok (.real (scalars [] fun _ => ∑ i, D.1 i)) :=
    congrArg (fun a : Except Err (Arr ℝ) => Val.real <$> a) (Calc.sumLast_vectors [] fun _ => D.1)
  rw [C43_trace_matrix, t1]
  rfl

omit [MachEps] in
theorem mvNormal_two {a b : ℝ} (ha : a < 0) (hb : b < 0) (x y : ℝ) :
    (![x, y], !![a, 0; 0, b]) ∈ mvNormalDom 2 ∧
    ((mvNormal 2).toExp (![x, y], !![a, 0; 0, b])).1 = ![-x / (2 * a), -y / (2 * b)] ∧
    mvNormalVariance ((mvNormal 2).toExp (![x, y], !![a, 0; 0, b])) = !![-1 / (2 * a), 0; 0, -1 / (2 * b)] := by
  have na := ha.ne
  have nb := hb.ne
  have e : !![a, 0; 0, b]⁻¹ = !![1 / a, 0; 0, 1 / b] := by
    refine inv_eq_left_inv ?_
    ext i j
    fin_cases i <;> fin_cases j <;> simp [Matrix.mul_apply, Fin.sum_univ_two, na, nb]
  refine ⟨?_, ?_, ?_⟩
  · have : -!![a, 0; 0, b] = diagonal ![-a, -b] := by
      ext i j
      fin_cases i <;> fin_cases j <;> simp
    show (-!![a, 0; 0, b]).PosDef
    rw [this, posDef_diagonal_iff]
    intro i
    fin_cases i <;> simp [ha, hb]
  · simp only [mvNormal, e]
    ext i
    fin_cases i <;> simp [mulVec, dotProduct, Fin.sum_univ_two] <;> norm_num <;> field_simp
  · rw [mvNormal_variance, e]
    ext i j
    fin_cases i <;> fin_cases j <;> simp <;> norm_num <;> field_simp

/-- One bivariate normal distribution. -/
theorem mvNormal_fisher_two {q : List ℕ → (Fin 2 → ℝ) × Matrix (Fin 2) (Fin 2) ℝ} (hq : q [] ∈ mvNormalDom 2)
    {M : Matrix (Fin 5) (Fin 5) ℝ}
    (hM : ∀ k l, M k l = Textbook.Info.mvNormal ((mvNormal 2).toExp (q [])).1
      (mvNormalVariance ((mvNormal 2).toExp (q []))) (mvNormalDirs k) (mvNormalDirs l)) :
    fisherMatrix (library search) (.mk .mvNormalNP (layVM 2 [] (fun _ => ()) q) .nil) = .ok (matrices [] fun _ => M) ∧
    fisherDiagonal (library search) (.mk .mvNormalNP (layVM 2 [] (fun _ => ()) q) .nil) =
      .ok (.mk .mvNormalNP [.real (vectors [] fun _ => ![M 0 0, M 1 1]),
        .real (matrices [] fun _ => !![M 2 2, M 3 3; M 3 3, M 4 4])] .nil) ∧
    fisherTrace (library search) (.mk .mvNormalNP (layVM 2 [] (fun _ => ()) q) .nil) =
      .ok (.mk .mvNormalNP [.real (scalars [] fun _ => M 0 0 + M 1 1),
        .real (scalars [] fun _ => M 2 2 + M 3 3 + M 4 4)] .nil) := by
  obtain ⟨h1, h2⟩ := mvNormal_fisher (search := search) (d := 2) hq (M := M) fun k l =>
    (hM k l).trans (congrArg₂ _ (rawMvNormal_dec k).symm (rawMvNormal_dec l).symm)
  have e : ((rawMvNormal 2).dec fun k => M k k) = (![M 0 0, M 1 1], !![M 2 2, M 3 3; M 3 3, M 4 4]) := by
    refine Prod.ext ?_ ?_
    · funext i
      fin_cases i <;> rfl
    · ext i j
      fin_cases i <;> fin_cases j <;> rfl
  rw [e] at h2
  refine ⟨h1, h2, (mvNormal_trace h2).trans ?_⟩
  have e1 : ∑ i, ![M 0 0, M 1 1] i = M 0 0 + M 1 1 := by simp [Fin.sum_univ_two]
  have e2 : ∑ r, ∑ c with r ≤ c, !![M 2 2, M 3 3; M 3 3, M 4 4] r c = M 2 2 + M 3 3 + M 4 4 := by
    simp [Finset.sum_filter, Fin.sum_univ_two]
  simp only [e1, e2]

/-- **C79.** `test_mvn_fisher_information` (tests/test_fisher_information.py 15-33). -/
theorem C79_test_a (q : List ℕ → (Fin 2 → ℝ) × Matrix (Fin 2) (Fin 2) ℝ)
    (hq : q [] = (![0, 0], !![-0.5, 0; 0, -0.5])) :
    fisherMatrix (library search) (.mk .mvNormalNP (layVM 2 [] (fun _ => ()) q) .nil) =
      .ok (matrices [] fun _ => !![(1 : ℝ), 0, 0, 0, 0; 0, 1, 0, 0, 0; 0, 0, 2, 0, 0; 0, 0, 0, 4, 0; 0, 0, 0, 0, 2]) ∧
    fisherDiagonal (library search) (.mk .mvNormalNP (layVM 2 [] (fun _ => ()) q) .nil) =
      .ok (.mk .mvNormalNP [.real (vectors [] fun _ => ![1, 1]), .real (matrices [] fun _ => !![2, 4; 4, 2])] .nil) ∧
    fisherTrace (library search) (.mk .mvNormalNP (layVM 2 [] (fun _ => ()) q) .nil) =
      .ok (.mk .mvNormalNP [.real (scalars [] fun _ => 2), .real (scalars [] fun _ => 8)] .nil) := by
  obtain ⟨h1, h2, h3⟩ := mvNormal_two (a := -0.5) (b := -0.5) (by norm_num) (by norm_num) 0 0
  obtain ⟨g1, g2, g3⟩ := mvNormal_fisher_two (search := search) (q := q) (by rw [hq]; exact h1)
    (M := !![(1 : ℝ), 0, 0, 0, 0; 0, 1, 0, 0, 0; 0, 0, 2, 0, 0; 0, 0, 0, 4, 0; 0, 0, 0, 0, 2]) fun k l => by
      rw [hq, h2, h3, Textbook.Info.mvNormal]
      fin_cases k <;> fin_cases l <;>
        simp [mvNormalDirs, mulVec, dotProduct, Matrix.mul_apply, Matrix.trace, Fin.sum_univ_two] <;> norm_num
  refine ⟨g1, g2, g3.trans ?_⟩
  have e1 : ((1 : ℝ) + 1) = 2 := by norm_num
  have e2 : ((2 : ℝ) + 4 + 2) = 8 := by norm_num
  show Except.ok (Dist.mk Cls.mvNormalNP [.real (scalars [] fun _ => ((1 + 1 : ℝ))),
    .real (scalars [] fun _ => ((2 + 4 + 2 : ℝ)))] .nil) = _
  rw [e1, e2]

/-- **C79.** `test_mvn_fisher_information_b` (tests/test_fisher_information.py 36-53), which has the values
rounded to five or six digits. -/
theorem C79_test_b (q : List ℕ → (Fin 2 → ℝ) × Matrix (Fin 2) (Fin 2) ℝ)
    (hq : q [] = (![3, 5], !![-0.5, 0; 0, -0.8])) :
    fisherMatrix (library search) (.mk .mvNormalNP (layVM 2 [] (fun _ => ()) q) .nil) =
      .ok (matrices [] fun _ => !![(1 : ℝ), 0, 6, 6.25, 0; 0, 0.625, 0, 3.75, 3.90625; 6, 0, 38, 37.5, 0;
        6.25, 3.75, 37.5, 64.0625, 23.4375; 0, 3.90625, 0, 23.4375, 25.1953125]) ∧
    fisherDiagonal (library search) (.mk .mvNormalNP (layVM 2 [] (fun _ => ()) q) .nil) =
      .ok (.mk .mvNormalNP [.real (vectors [] fun _ => ![1, 0.625]),
        .real (matrices [] fun _ => !![38, 64.0625; 64.0625, 25.1953125])] .nil) ∧
    fisherTrace (library search) (.mk .mvNormalNP (layVM 2 [] (fun _ => ()) q) .nil) =
      .ok (.mk .mvNormalNP [.real (scalars [] fun _ => 1.625), .real (scalars [] fun _ => 127.2578125)] .nil) := by
  obtain ⟨h1, h2, h3⟩ := mvNormal_two (a := -0.5) (b := -0.8) (by norm_num) (by norm_num) 3 5
  obtain ⟨g1, g2, g3⟩ := mvNormal_fisher_two (search := search) (q := q) (by rw [hq]; exact h1)
    (M := !![(1 : ℝ), 0, 6, 6.25, 0; 0, 0.625, 0, 3.75, 3.90625; 6, 0, 38, 37.5, 0;
        6.25, 3.75, 37.5, 64.0625, 23.4375; 0, 3.90625, 0, 23.4375, 25.1953125]) fun k l => by
      rw [hq, h2, h3, Textbook.Info.mvNormal]
      fin_cases k <;> fin_cases l <;>
        simp [mvNormalDirs, mulVec, dotProduct, Matrix.mul_apply, Matrix.trace, Fin.sum_univ_two] <;> norm_num
  refine ⟨g1, g2, g3.trans ?_⟩
  have e1 : (1 : ℝ) + 0.625 = 1.625 := by norm_num
  have e2 : (38 : ℝ) + 64.0625 + 25.1953125 = 127.2578125 := by norm_num
  show Except.ok (Dist.mk Cls.mvNormalNP [.real (scalars [] fun _ => ((1 + 0.625 : ℝ))),
    .real (scalars [] fun _ => ((38 + 64.0625 + 25.1953125 : ℝ)))] .nil) = _
  rw [e1, e2]

end Efax
