import Verif.Props.Oracle.Mv
import Verif.Props.Scipy.Dirichlet

/-!
# The oracles of the tests: Dirichlet distributions
-/

namespace Efax

open Spec Calc Tests MeasureTheory

section

variable {n : ℕ} {rs : List ℕ}

theorem dirichlet_ok (hn : n ≠ 0) (a : List ℕ → Fin n → ℝ) (ha : ∀ i, inB rs i = true → ∀ k, 0 < a i k) :
    ∃ o, Tests.dirichlet (ok (vectors rs a)) = .ok o ∧
      (∀ v y, HoldsV rs y v → (∀ i, inB rs i = true → (∀ k, 0 < y i k) ∧ ∑ k, y i k = 1) →
        o.pdf (.leaf v) = .ok (scalars rs fun i => Textbook.dirichlet (a i) (y i))) ∧
      o.entropy = .ok (scalars rs fun i => Scipy.dirichletEntropy (a i)) := by
  have hget : ∀ i, inB rs i = true → (fun k : Fin n => (vectors rs a).get (k.val :: i)) = a i :=
    fun i hi => funext fun k => Calc.vectors_get a k.2 hi
  have hD : Scipy.dirichletNew (vectors rs a) (fun _ _ (g : Empty) => g.elim) =
      .ok { shape := rs.reverse, rvsShape := [n],
            objects := fun i => Scipy.dirichletFrozen n (fun k => (vectors rs a).get (k.val :: i.reverse))
              fun _ g => g.elim } := by
    have h1 : (vectors rs a).lastDim = .ok n := rfl
    have h2 : (vectors rs a).rshape.tail.reverse = rs.reverse := rfl
    simp only [Scipy.dirichletNew, h1, h2, Bind.bind, Except.bind, if_neg hn, pure, Except.pure]
    rw [forM_ok_of fun i hi => if_pos fun k hk => ?_]
    have hi := inB_of_forall₂ (mem_ndindex.1 hi)
    rw [Calc.vectors_get a hk hi]
    exact ha _ hi _
  refine ⟨shapedOracle _, by
    show (do
      let D ← Scipy.dirichletNew (vectors rs a) fun _ _ (g : Empty) => g.elim
      .ok (shapedOracle D)) = _
    rw [hD]
    rfl, fun v y hy hv => ?_, ?_⟩
  · show (do Scipy.Shaped.pdf _ (← v.toR.run)) = _
    rw [hy]
    refine shaped_pdf_rows rfl (x := vectors rs y) rfl fun i hi z hz he => ?_
    simp only [List.reverse_reverse, Scipy.dirichletFrozen]
    rw [hget i hi, hz]
    haveI : NeZero n := ⟨hn⟩
    refine (if_pos rfl).trans (densities_nil ?_)
    rw [show (fun k : Fin n => z.get (k.val :: [])) = y i from
      funext fun k => (he k).trans (Calc.vectors_get y k.2 hi)]
    exact (C59_dirichlet_pdf (ha i hi) (hv i hi).1).1 (hv i hi).2
  · refine fill_scalars fun i hi => ?_
    simp only [List.reverse_reverse, Scipy.dirichletFrozen]
    rw [hget i hi]

theorem squeeze_row {r : ℕ} (hr : r ≠ 1) (f : List ℕ → ℝ) : (Arr.ofFn [r] f).squeeze = scalars [r] f := by
  have h1 : ([r] : List ℕ).filter (fun x => decide (x ≠ 1)) = [r] := by simp [hr]
  have h2 : (Arr.ofFn [r] f).squeeze = Arr.ofFn [r] fun i => (Arr.ofFn [r] f).get (unsqueeze [r] i) :=
    congrArg (fun l => Arr.ofFn l fun i => (Arr.ofFn [r] f).get (unsqueeze [r] i)) h1
  rw [h2]
  refine Arr.ext rfl fun i hi => ?_
  have hi : inB [r] i = true := hi
  have h3 : unsqueeze [r] i = i := by
    match i, hi with
    | [k], _ => simp [unsqueeze, hr]
    | [], hi => simp [inB] at hi
    | _ :: _ :: _, hi => simp [inB] at hi
  rw [Arr.ofFn_get hi, h3]
  rfl

/-- **C75.** The replacement for `scipy.stats.dirichlet` also accepts several observations of one
distribution, one in each row (which `scipy.stats.dirichlet` takes to be the columns). -/
theorem C75_dirichlet_rows {G : Type} {r : ℕ} (hn : n ≠ 0) (hr : r ≠ 1) {a : Fin n → ℝ} (ha : ∀ k, 0 < a k)
    (draw : List ℕ → G → Except Err (Arr ℝ × G)) (y : List ℕ → Fin n → ℝ)
    (hy : ∀ i, inB [r] i = true → (∀ k, 0 < y i k) ∧ ∑ k, y i k = 1) :
    (Scipy.dirichletFrozen n a draw).pdf (vectors [r] y) =
      .ok (scalars [r] fun i => Textbook.dirichlet a (y i)) := by
  haveI : NeZero n := ⟨hn⟩
  rw [← squeeze_row hr]
  refine (if_pos rfl).trans (densities_ok fun j hj => ?_)
  rw [show (fun k : Fin n => (vectors [r] y).get (k.val :: j)) = y j from
    funext fun k => Calc.vectors_get y k.2 hj]
  exact (C59_dirichlet_pdf ha (hy j hj).1).1 (hy j hj).2

/-- Non-vacuity: three observations of a uniform distribution. -/
example : (∀ k : Fin 2, (0 : ℝ) < (fun _ => 1) k) ∧
    ∀ i, inB [3] i = true → (∀ k : Fin 2, (0 : ℝ) < (fun _ _ => 1 / 2 : List ℕ → Fin 2 → ℝ) i k) ∧
      ∑ k : Fin 2, (fun _ _ => 1 / 2 : List ℕ → Fin 2 → ℝ) i k = 1 :=
  ⟨fun _ => one_pos, fun _ _ => ⟨fun _ => by norm_num, by norm_num⟩⟩

theorem prodLast_vectors (a : List ℕ → Fin n → ℝ) :
    Arr.prodLast (vectors rs a) = .ok (scalars rs fun i => ∏ k, a i k) := by
  refine ok_ofFn_congr fun i hi => ?_
  rw [Finset.prod_range]
  exact Finset.prod_congr rfl fun k _ => Calc.vectors_get a k.2 hi

theorem rollZero_vectors (hn : n ≠ 0) (a : List ℕ → Fin n → ℝ) :
    Scipy.rollZeroArr (vectors rs a) = ok (vectors rs fun i => Scipy.rollZero (a i)) := by
  obtain ⟨n, rfl⟩ := Nat.exists_eq_succ_of_ne_zero hn
  refine ofFn_vectors fun k i hi => ?_
  show (if k.val = n then 0 else (vectors rs a).get (((k.val + 1) % (n + 1)) :: i)) = _
  rw [Calc.vectors_get a (Nat.mod_lt _ (by omega)) hi, Scipy.rollZero]
  simp

theorem diffAppend_vectors (a : List ℕ → Fin n → ℝ) :
    Scipy.diffAppendArr (vectors rs a) = ok (vectors rs fun i => Scipy.diffAppend (a i)) := by
  refine ofFn_vectors fun k i hi => ?_
  show (if k.val + 1 < n then (vectors rs a).get ((k.val + 1) :: i) else 1) - (vectors rs a).get (k.val :: i) = _
  cases n with
  | zero => exact k.elim0
  | succ n =>
    rw [Calc.vectors_get a k.2 hi]
    refine Fin.lastCases ?_ (fun j => ?_) k
    · rw [diffAppend_last, if_neg (by simp)]
    · rw [diffAppend_castSucc, if_pos (by simp), Calc.vectors_get a (k := j.castSucc.val + 1) (by simp) hi]
      rfl

theorem genDirichletArrPdf_vectors (hn : n ≠ 0) (a b x : List ℕ → Fin n → ℝ) :
    Scipy.genDirichletArrPdf (vectors rs a) (vectors rs b) (vectors rs x) =
      .ok (scalars rs fun i => Scipy.genDirichletPdf (a i) (b i) (x i)) := by
  rw [Scipy.genDirichletArrPdf, rollZero_vectors hn, diffAppend_vectors]
  calc_simp
  refine (prodLast_vectors _).trans ?_
  refine congrArg Except.ok (scalars_congr fun i _ => Finset.prod_congr rfl fun k _ => ?_)
  norm_num

theorem add_one_args (q : List ℕ → Fin n → ℝ) :
    (Val.real (vectors rs q)).toR + 1.0 = ok (vectors rs fun i k => q i k + 1) := by
  rw [toR_real]
  calc_simp
  norm_num

theorem genDirichlet_args (q : List ℕ → (Fin n → ℝ) × (Fin n → ℝ)) :
    Methods.genDirichletAlphaBeta (.real (vectors rs fun i => (q i).1)) (.real (vectors rs fun i => (q i).2)) =
      (ok (vectors rs fun i => (genDirichletAlphaBeta (q i)).1),
        ok (vectors rs fun i => (genDirichletAlphaBeta (q i)).2)) := by
  have e : ∀ k : Fin n, Finset.univ.filter (fun j : Fin n => j.val < k.rev.castSucc.val) = Finset.Iio k.rev :=
    fun k => by
      ext j
      simp [Fin.lt_def]
  simp only [Methods.genDirichletAlphaBeta, toR_real]
  calc_simp
  simp only [e]
  rfl

end

variable [MachEps] {solve : Solver} {search : Cls → List Val → Except Err (List Val)} {n : ℕ}

theorem agrees_dirichlet (d : ℕ) :
    Agrees (library search) (.simple .dirichlet (d + 1)) ((Simple.dirichlet d).setting solve) := by
  refine agrees_oracle HoldsV (fun y : Fin (d + 1) → ℝ => (∀ k, 0 < y k) ∧ ∑ k, y k = 1)
    (fun _ (q : Fin (d + 1) → ℝ) => Textbook.dirichlet fun k => q k + 1)
    (fun y (x : Fin d → ℝ) => x = fun k => y k.castSucc) (fun rs p q hq => ?_) ?_ ?_
  · have hq' : ∀ i, inB rs i = true → ∀ k, 0 < (q i : Fin (d + 1) → ℝ) k + 1 := fun i hi k => by
      have := (hq i hi).2 k
      linarith
    obtain ⟨o, h1, h2, h3⟩ := dirichlet_ok (rs := rs) (Nat.succ_ne_zero d) (fun i k => q i k + 1) hq'
    exact ⟨o, (natToScipy_natTo (s := .dirichlet) (n := d + 1) rfl _).trans
      ((congrArg Tests.dirichlet (add_one_args q)).trans h1),
      h2, fun _ _ => ⟨_, h3, fun i hi => (dirichlet_entropy (q i)).symm⟩⟩
  · rintro rs v ⟨x, hx, hp⟩
    refine ⟨x, .real (vectors rs fun i (k : Fin d) => x i k.castSucc), fun i k => x i k.castSucc, hx, ?_,
      ⟨_, rfl, rfl⟩, fun i hi => ⟨hp i hi, rfl⟩⟩
    show Val.ofR v.toR.init = _
    rw [hx, init_vectors]
    rfl
  · rintro p q y x hp hq ⟨hy, hs⟩ rfl
    have hlast : y (Fin.last d) = 1 - ∑ k : Fin d, y k.castSucc := by
      rw [Fin.sum_univ_castSucc] at hs
      linarith
    have hx : (fun k : Fin d => y k.castSucc) ∈ simplex d :=
      ⟨fun k => hy _, by linarith [hy (Fin.last d)]⟩
    refine Eq.trans ?_ (C57_dirichlet d hq hx).symm
    congr 1
    funext k
    refine Fin.lastCases ?_ (fun j => ?_) k
    · rw [Fin.snoc_last, hlast]
    · rw [Fin.snoc_castSucc]

theorem agrees_genDirichlet (hn : n ≠ 0) :
    Agrees (library search) (.simple .genDirichlet n) ((Simple.genDirichlet n).setting solve) := by
  refine agrees_oracle HoldsV (fun y : Fin n → ℝ => y ∈ simplex n)
    (fun _ (q : (Fin n → ℝ) × (Fin n → ℝ)) =>
      Scipy.genDirichletPdf (genDirichletAlphaBeta q).1 (genDirichletAlphaBeta q).2)
    (fun y (x : Fin n → ℝ) => y = x) (fun rs p q hq => ?_) ?_ ?_
  · refine ⟨_, (natToScipy_natTo (s := .genDirichlet) (n := n) rfl _).trans 
      ((congrArg (fun c : Calc ℝ × Calc ℝ => Tests.genDirichlet c.1 c.2) (genDirichlet_args q)).trans rfl), fun v y hy _ => ?_, fun _ h => h.elim⟩
    show (do Scipy.genDirichletArrPdf _ _ (← v.toR.run)) = _
    rw [hy]
    exact genDirichletArrPdf_vectors hn _ _ y
  · rintro rs v ⟨x, hx, hp⟩
    exact ⟨x, v, x, hx, rfl, ⟨v, rfl, hx⟩, fun i hi => ⟨hp i hi, rfl⟩⟩
  · rintro p q y x hp hq hy rfl
    exact C59_gen_dirichlet_family hq hy

end Efax
