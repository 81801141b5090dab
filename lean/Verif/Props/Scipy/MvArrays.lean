import Verif.Props.Scipy.Arrays
import Verif.Props.Scipy.MvNormal
import Verif.Lemmas.Bessel

/-!
# C60: arrays of multivariate normal and von Mises distributions
-/

namespace Efax

open Scipy Spec MeasureTheory Matrix

variable {α G : Type} [Inhabited α] {rs : List ℕ} {n d : ℕ}

/-- The densities of an array of multivariate distributions at one observation for each. -/
theorem shaped_pdf_rows {D : Shaped (Frozen α G)} {x : Arr α} {p : List ℕ → ℝ}
    (hs : D.shape = rs.reverse) (hx : x.rshape = n :: rs)
    (h : ∀ i, inB rs i = true → ∀ y : Arr α, y.rshape = [n] →
      (∀ k : Fin n, y.get [k.val] = x.get (k.val :: i)) →
      (D.objects i.reverse).pdf y = .ok (Arr.full [] (p i))) : D.pdf x = .ok (Arr.ofFn rs p) := by
  by_cases hrs : rs = []
  · subst hrs
    rw [C60_pdf_single _ _ hs]
    have := h [] rfl x hx fun _ => rfl
    rw [List.reverse_nil] at this
    rw [this]
    refine congrArg _ (Arr.ext rfl fun j hj => ?_)
    have hj : inB [] j = true := hj
    obtain rfl : j = [] := by simpa using inB_length hj
    rfl
  · rw [Shaped.pdf, if_neg (by rw [hs]; simpa using hrs), hs]
    refine fill_scalars fun i hi => ?_
    rw [index_of (s := rs.reverse) (t := [n]) (by simp [hx]) (forall₂_of_inB hi)]
    refine h i hi _ rfl fun k => ?_
    exact (Arr.ofFn_get (by simp [inB])).trans (by simp)

/-- The density at every row of an array of vectors. -/
theorem rows_pdf {y : Arr α} {js : List ℕ} (hy : y.rshape = n :: js) {f : (Fin n → α) → Except Err ℝ}
    {p : (Fin n → α) → ℝ} (h : ∀ z, f z = .ok (p z)) :
    (match y.rshape with
    | m :: rs => if m = n then densities rs fun j => f fun k => y.get (k.val :: j)
        else .error .valueError
    | [] => .error .valueError) =
    .ok (Arr.ofFn js fun j => p fun k => y.get (k.val :: j)).squeeze := by
  rw [hy]
  exact (if_pos rfl).trans (densities_ok fun j _ => h _)

theorem row_pdf {y : Arr α} (hy : y.rshape = [n]) {z : Fin n → α} (hz : ∀ k : Fin n, y.get [k.val] = z k)
    {f : (Fin n → α) → Except Err ℝ} {p : ℝ} (h : f z = .ok p) :
    (match y.rshape with
    | m :: rs => if m = n then densities rs fun j => f fun k => y.get (k.val :: j)
        else .error .valueError
    | [] => .error .valueError) = .ok (Arr.full [] p) := by
  rw [hy]
  refine (if_pos rfl).trans (densities_nil ?_)
  rw [← h]
  exact congrArg f (funext hz)

theorem getD_vector [Zero α] {a : Option (Arr α)} {i : List ℕ} (hi : inB rs i = true) :
    (fun k : Fin n => (a.getD (Arr.full (n :: rs) 0)).get (k.val :: i)) = vectorAt n a i := by
  funext k
  cases a with
  | none => exact Arr.ofFn_get (by simp [inB, hi])
  | some x => rfl

/-- `np.tile(np.eye(n), ...)`. -/
theorem getD_matrix [Zero α] [One α] {a : Option (Arr α)} {i : List ℕ} (hi : inB rs i = true) :
    (fun r c : Fin n => (a.getD (Arr.ofFn (n :: n :: rs) fun i => if i[0]? = i[1]? then 1 else 0)).get
      (c.val :: r.val :: i)) = matrixAt a 1 i := by
  funext r c
  cases a with
  | none =>
    refine (Arr.ofFn_get (by simp [inB, hi])).trans ?_
    simp [matrixAt, Matrix.one_apply, Fin.ext_iff, eq_comm]
  | some x => rfl

theorem getD_matrix_zero [Zero α] {a : Option (Arr α)} {i : List ℕ} (hi : inB rs i = true) :
    (fun r c : Fin n => (a.getD (Arr.full (n :: n :: rs) 0)).get (c.val :: r.val :: i)) = matrixAt a 0 i := by
  funext r c
  cases a with
  | none => exact Arr.ofFn_get (by simp [inB, hi])
  | some x => rfl

/-! ### Multivariate normal distributions -/

variable {mean cov : Option (Arr ℝ)}

theorem fromMcDefaults_eq (hm : ∀ a ∈ mean, a.rshape = n :: rs) (hc : ∀ a ∈ cov, a.rshape = n :: n :: rs)
    (hne : mean.isSome ∨ cov.isSome ∨ n = 1 ∧ rs = []) :
    fromMcDefaults mean cov = .ok (mean.getD (Arr.full (n :: rs) 0),
      cov.getD (Arr.ofFn (n :: n :: rs) fun i => if i[0]? = i[1]? then 1 else 0)) := by
  cases mean with
  | some m =>
    cases cov with
    | some c => rfl
    | none =>
      have := hm m rfl
      simp only [fromMcDefaults, Bind.bind, Except.bind, Arr.lastDim, this]
      rfl
  | none =>
    cases cov with
    | some c =>
      have := hc c rfl
      simp only [fromMcDefaults, Bind.bind, Except.bind, this]
      rfl
    | none =>
      simp only [Option.isSome_none, Bool.false_eq_true, false_or] at hne
      obtain ⟨rfl, rfl⟩ := hne
      rfl

open Classical in
theorem mvnEntropy_ok {c : Matrix (Fin n) (Fin n) ℝ} : (∃ e, mvnEntropy c = .ok e) ↔ c.PosDef := by
  rw [mvnEntropy]
  by_cases h : c.PosDef
  · simp [h]
  · simp [h]

theorem fromMcCheck_ok (hm : ∀ a ∈ mean, a.rshape = n :: rs) (hc : ∀ a ∈ cov, a.rshape = n :: n :: rs)
    {i : List ℕ} (hi : List.Forall₂ (· < ·) i rs.reverse) :
    fromMcCheck n (mean.getD (Arr.full (n :: rs) 0))
      (cov.getD (Arr.ofFn (n :: n :: rs) fun i => if i[0]? = i[1]? then 1 else 0)) i = .ok () ↔
    (matrixAt (n := n) cov 1 i.reverse).PosDef := by
  rw [fromMcCheck, vectorOf_index (getD_full_rshape hm) hi, matrixOf_index (getD_rshape hc) hi,
    getD_matrix (inB_of_forall₂ hi), ← mvnEntropy_ok]
  simp only [Bind.bind, Except.bind]
  cases mvnEntropy (matrixAt (n := n) cov 1 i.reverse) with
  | error e => simp
  | ok e => simp [pure, Except.pure]

theorem fromMc_eq (hm : ∀ a ∈ mean, a.rshape = n :: rs) (hc : ∀ a ∈ cov, a.rshape = n :: n :: rs)
    (hne : mean.isSome ∨ cov.isSome ∨ n = 1 ∧ rs = []) (hn : n ≠ 0)
    {draw : List ℕ → List ℕ → G → Arr ℝ × G} {D : Shaped (Frozen ℝ G)} :
    fromMc mean cov draw = .ok D ↔
      (∀ i, inB rs i = true → (matrixAt (n := n) cov 1 i).PosDef) ∧
      D = ⟨rs.reverse, [n], fun i => mvnFrozen n
        (fun k => (mean.getD (Arr.full (n :: rs) 0)).get (k.val :: i.reverse))
        (fun r c => (cov.getD (Arr.ofFn (n :: n :: rs) fun i => if i[0]? = i[1]? then 1 else 0)).get
          (c.val :: r.val :: i.reverse)) (draw i)⟩ := by
  have hk : (∀ i ∈ ndindex rs.reverse, fromMcCheck n (mean.getD (Arr.full (n :: rs) 0))
      (cov.getD (Arr.ofFn (n :: n :: rs) fun i => if i[0]? = i[1]? then 1 else 0)) i = .ok ()) ↔
      ∀ i, inB rs i = true → (matrixAt (n := n) cov 1 i).PosDef := by
    constructor
    · intro h i hi
      have := h i.reverse (mem_ndindex.2 (forall₂_of_inB hi))
      rw [fromMcCheck_ok hm hc (forall₂_of_inB hi), List.reverse_reverse] at this
      exact this
    · intro h i hi
      rw [fromMcCheck_ok hm hc (mem_ndindex.1 hi)]
      exact h _ (inB_of_forall₂ (mem_ndindex.1 hi))
  unfold fromMc
  rw [fromMcDefaults_eq hm hc hne, ← hk, ← forM_ok]
  have hl : (mean.getD (Arr.full (n :: rs) 0)).lastDim = .ok n := by
    rw [Arr.lastDim, getD_full_rshape hm]
  simp only [Bind.bind, Except.bind, hl, hn, if_false, getD_full_rshape hm, List.tail_cons, pure, Except.pure]
  cases (ndindex rs.reverse).forM (fromMcCheck n (mean.getD (Arr.full (n :: rs) 0))
      (cov.getD (Arr.ofFn (n :: n :: rs) fun i => if i[0]? = i[1]? then 1 else 0))) with
  | error e => simp
  | ok u => simp [eq_comm]

/-- `from_mc` accepts, where the shapes agree, exactly the positive definite covariances.  The identity is
the default. -/
theorem C60_from_mc (hm : ∀ a ∈ mean, a.rshape = n :: rs) (hc : ∀ a ∈ cov, a.rshape = n :: n :: rs)
    (hne : mean.isSome ∨ cov.isSome ∨ n = 1 ∧ rs = []) (hn : n ≠ 0)
    (draw : List ℕ → List ℕ → G → Arr ℝ × G) :
    ((∃ D, fromMc mean cov draw = .ok D) ↔ ∀ i, inB rs i = true → (matrixAt (n := n) cov 1 i).PosDef) ∧
    ∀ D, fromMc mean cov draw = .ok D → D.shape = rs.reverse ∧ D.rvsShape = [n] := by
  refine ⟨⟨fun ⟨D, h⟩ => ((fromMc_eq hm hc hne hn).1 h).1, fun h =>
    ⟨_, (fromMc_eq hm hc hne hn).2 ⟨h, rfl⟩⟩⟩, fun D h => ?_⟩
  obtain ⟨-, rfl⟩ := (fromMc_eq hm hc hne hn).1 h
  exact ⟨rfl, rfl⟩

/-- The densities of an array of multivariate normal distributions at one observation for each. -/
theorem C60_from_mc_pdf (hm : ∀ a ∈ mean, a.rshape = n :: rs) (hc : ∀ a ∈ cov, a.rshape = n :: n :: rs)
    (hne : mean.isSome ∨ cov.isSome ∨ n = 1 ∧ rs = []) (hn : n ≠ 0)
    {draw : List ℕ → List ℕ → G → Arr ℝ × G} {D : Shaped (Frozen ℝ G)}
    (h : fromMc mean cov draw = .ok D) {x : Arr ℝ} (hx : x.rshape = n :: rs) :
    D.pdf x = .ok (Arr.ofFn rs fun i =>
      Textbook.mvNormal (vectorAt n mean i) (matrixAt cov 1 i) fun k => x.get (k.val :: i)) := by
  obtain ⟨hp, rfl⟩ := (fromMc_eq hm hc hne hn).1 h
  refine shaped_pdf_rows rfl hx fun i hi y hy he => ?_
  simp only [mvnFrozen, List.reverse_reverse]
  rw [getD_vector hi, getD_matrix hi]
  exact row_pdf hy he (C58_mvn_pdf (hp i hi) _ _)

/-- One multivariate normal distribution at any number of observations.  Axes of length one are dropped. -/
theorem C60_from_mc_pdf_single (hm : ∀ a ∈ mean, a.rshape = [n]) (hc : ∀ a ∈ cov, a.rshape = [n, n])
    (hne : mean.isSome ∨ cov.isSome ∨ n = 1) (hn : n ≠ 0)
    {draw : List ℕ → List ℕ → G → Arr ℝ × G} {D : Shaped (Frozen ℝ G)}
    (h : fromMc mean cov draw = .ok D) {x : Arr ℝ} {js : List ℕ} (hx : x.rshape = n :: js) :
    D.pdf x = .ok (Arr.ofFn js fun j =>
      Textbook.mvNormal (vectorAt n mean []) (matrixAt cov 1 []) fun k => x.get (k.val :: j)).squeeze := by
  obtain ⟨hp, rfl⟩ := (fromMc_eq hm hc (by simpa using hne) hn).1 h
  rw [C60_pdf_single _ _ rfl]
  simp only [mvnFrozen, List.reverse_nil]
  rw [getD_vector (rs := []) rfl, getD_matrix (rs := []) rfl]
  exact rows_pdf hx fun z => C58_mvn_pdf (hp [] rfl) _ z

/-- The entropies of an array of multivariate normal distributions. -/
theorem C60_from_mc_entropy (hm : ∀ a ∈ mean, a.rshape = n :: rs) (hc : ∀ a ∈ cov, a.rshape = n :: n :: rs)
    (hne : mean.isSome ∨ cov.isSome ∨ n = 1 ∧ rs = []) (hn : n ≠ 0)
    {draw : List ℕ → List ℕ → G → Arr ℝ × G} {D : Shaped (Frozen ℝ G)}
    (h : fromMc mean cov draw = .ok D) :
    ∃ e, D.entropy = .ok (Arr.ofFn rs e) ∧ ∀ i, inB rs i = true →
      IsCrossEntropy volume (Textbook.mvNormal (vectorAt n mean i) (matrixAt cov 1 i))
        (Textbook.mvNormal (vectorAt n mean i) (matrixAt cov 1 i)) (e i) := by
  obtain ⟨hp, rfl⟩ := (fromMc_eq hm hc hne hn).1 h
  choose! e he using fun i (hi : inB rs i = true) => C58_mvn_entropy (hp i hi) (vectorAt n mean i)
  refine ⟨e, fill_scalars fun i hi => ?_, fun i hi => (he i hi).2⟩
  simp only [mvnFrozen, List.reverse_reverse]
  rw [getD_matrix hi, (he i hi).1]
  rfl

/-- The draws from an array of multivariate normal distributions are those from each of them. -/
theorem C60_from_mc_rvs (hm : ∀ a ∈ mean, a.rshape = n :: rs) (hc : ∀ a ∈ cov, a.rshape = n :: n :: rs)
    (hne : mean.isSome ∨ cov.isSome ∨ n = 1 ∧ rs = []) (hn : n ≠ 0)
    {draw : List ℕ → List ℕ → G → Arr ℝ × G} {D : Shaped (Frozen ℝ G)}
    (h : fromMc mean cov draw = .ok D)
    (hd : ∀ i size g, (draw i size g).1.rshape = (size ++ [n]).reverse) (size : Option (ℕ ⊕ List ℕ)) (g : G) :
    ∃ l r vs g', RowMajor rs.reverse l ∧ D.rvs size g = .ok (r, g') ∧
      r.rshape = (rs.reverse ++ sizeTuple size ++ [n]).reverse ∧
      DrawsInTurn (l.map fun i g => .ok (draw i (sizeTuple size) g)) g vs g' ∧
      List.Forall₂ (fun i v => r.index i = .ok v) l vs := by
  obtain ⟨-, rfl⟩ := (fromMc_eq hm hc hne hn).1 h
  have e : ∀ i, mvnRvs n (draw i) (sizeTuple size) = fun g => .ok (draw i (sizeTuple size) g) := fun i =>
    funext fun g => C60_mvn_rvs (hd i _ g)
  obtain ⟨l, r, vs, g', h1, h2, h3, h4, h5⟩ := C60_rvs ⟨rs.reverse, [n], fun i => mvnFrozen n
        (fun k => (mean.getD (Arr.full (n :: rs) 0)).get (k.val :: i.reverse))
        (fun r c => (cov.getD (Arr.ofFn (n :: n :: rs) fun i => if i[0]? = i[1]? then 1 else 0)).get
          (c.val :: r.val :: i.reverse)) (draw i)⟩ size (fun i _ g =>
    ⟨_, _, congrFun (e i) g, hd i _ g⟩) g
  refine ⟨l, r, vs, g', h1, h2, h3, ?_, h5⟩
  have e' : (fun i => mvnRvs n (draw i) (sizeTuple size)) =
      fun i g => .ok (draw i (sizeTuple size) g) := funext e
  rw [← e']
  exact h4

/-! ### Complex multivariate normal distributions -/

variable {cmean variance pseudo : Option (Arr ℂ)}

theorem complexMvNormalDims_eq (hm : ∀ a ∈ cmean, a.rshape = d :: rs)
    (hv : ∀ a ∈ variance, a.rshape = d :: d :: rs) (hp : ∀ a ∈ pseudo, a.rshape = d :: d :: rs)
    (hne : cmean.isSome ∨ variance.isSome ∨ pseudo.isSome) :
    complexMvNormalDims cmean variance pseudo = .ok (rs, d) := by
  cases cmean with
  | some m =>
    have := hm m rfl
    simp only [complexMvNormalDims, Arr.lastDim, this, Bind.bind, Except.bind, List.tail_cons]
  | none =>
    cases variance with
    | some v =>
      have := hv v rfl
      simp only [complexMvNormalDims, Arr.lastDim, this, Bind.bind, Except.bind]
      rfl
    | none =>
      cases pseudo with
      | some p =>
        have := hp p rfl
        simp only [complexMvNormalDims, Arr.lastDim, this, Bind.bind, Except.bind]
        rfl
      | none => simp at hne

theorem complexMvNormalCheck_eq (hm : ∀ a ∈ cmean, a.rshape = d :: rs)
    (hv : ∀ a ∈ variance, a.rshape = d :: d :: rs) (hp : ∀ a ∈ pseudo, a.rshape = d :: d :: rs)
    {i : List ℕ} (hi : List.Forall₂ (· < ·) i rs.reverse) :
    complexMvNormalCheck d (cmean.getD (Arr.full (d :: rs) 0))
      (variance.getD (Arr.ofFn (d :: d :: rs) fun i => if i[0]? = i[1]? then 1 else 0))
      (pseudo.getD (Arr.full (d :: d :: rs) 0)) i =
    complexMvNormalInit (matrixAt (n := d) variance 1 i.reverse) (matrixAt pseudo 0 i.reverse) := by
  rw [complexMvNormalCheck, vectorOf_index (getD_full_rshape hm) hi, matrixOf_index (getD_rshape hv) hi,
    matrixOf_index (getD_full_rshape hp) hi, getD_matrix (inB_of_forall₂ hi),
    getD_matrix_zero (inB_of_forall₂ hi)]
  simp only [Bind.bind, Except.bind]

theorem complexMvNormalNew_eq (hm : ∀ a ∈ cmean, a.rshape = d :: rs)
    (hv : ∀ a ∈ variance, a.rshape = d :: d :: rs) (hp : ∀ a ∈ pseudo, a.rshape = d :: d :: rs)
    (hne : cmean.isSome ∨ variance.isSome ∨ pseudo.isSome) {D : Σ d, Shaped (ComplexMvNormalData d)} :
    complexMvNormalNew cmean variance pseudo = .ok D ↔
      (∀ i, inB rs i = true →
        complexMvNormalInit (matrixAt (n := d) variance 1 i) (matrixAt pseudo 0 i) = .ok ()) ∧
      D = ⟨d, ⟨rs.reverse, [d], fun i =>
        ⟨fun k => (cmean.getD (Arr.full (d :: rs) 0)).get (k.val :: i.reverse),
        fun r c => (variance.getD (Arr.ofFn (d :: d :: rs) fun i => if i[0]? = i[1]? then 1 else 0)).get
          (c.val :: r.val :: i.reverse),
        fun r c => (pseudo.getD (Arr.full (d :: d :: rs) 0)).get (c.val :: r.val :: i.reverse)⟩⟩⟩ := by
  have hk : (∀ i ∈ ndindex rs.reverse, complexMvNormalCheck d (cmean.getD (Arr.full (d :: rs) 0))
      (variance.getD (Arr.ofFn (d :: d :: rs) fun i => if i[0]? = i[1]? then 1 else 0))
      (pseudo.getD (Arr.full (d :: d :: rs) 0)) i = .ok ()) ↔ ∀ i, inB rs i = true →
        complexMvNormalInit (matrixAt (n := d) variance 1 i) (matrixAt pseudo 0 i) = .ok () := by
    constructor
    · intro h i hi
      have := h i.reverse (mem_ndindex.2 (forall₂_of_inB hi))
      rw [complexMvNormalCheck_eq hm hv hp (forall₂_of_inB hi), List.reverse_reverse] at this
      exact this
    · intro h i hi
      rw [complexMvNormalCheck_eq hm hv hp (mem_ndindex.1 hi)]
      exact h _ (inB_of_forall₂ (mem_ndindex.1 hi))
  unfold complexMvNormalNew
  rw [complexMvNormalDims_eq hm hv hp hne, ← hk, ← forM_ok]
  simp only [Bind.bind, Except.bind]
  cases (ndindex rs.reverse).forM (complexMvNormalCheck d (cmean.getD (Arr.full (d :: rs) 0))
      (variance.getD (Arr.ofFn (d :: d :: rs) fun i => if i[0]? = i[1]? then 1 else 0))
      (pseudo.getD (Arr.full (d :: d :: rs) 0))) with
  | error e => simp
  | ok u => simp [eq_comm]

/-- An array that is filled with vectors. -/
theorem fill_vectors {v : List ℕ → Fin d → α} :
    ∃ r, fill rs.reverse [d] (fun i => .ok (vectorArr (v i))) = .ok r ∧ r.rshape = d :: rs ∧
      ∀ i, inB rs i = true → ∀ k : Fin d, r.get (k.val :: i) = v i.reverse k := by
  obtain ⟨r, h1, h2, h3⟩ := fill_spec (s := rs.reverse) (t := [d])
    (f := fun i => .ok (vectorArr (v i))) (v := fun i => vectorArr (v i)) (fun i _ => ⟨rfl, rfl⟩)
  refine ⟨r, h1, by simpa using h2, fun i hi k => ?_⟩
  have h := h3 i.reverse (forall₂_of_inB hi)
  rw [index_of h2 (forall₂_of_inB hi), Except.ok.injEq] at h
  have h4 := congrArg (fun b : Arr α => b.get [k.val]) h
  have hb : inB [d] [k.val] = true := by simp [inB]
  rw [show [d].reverse = [d] from rfl, Arr.ofFn_get hb, vectorArr, Arr.ofFn_get hb, List.reverse_reverse] at h4
  refine h4.trans ((dif_pos (by simp)).trans ?_)
  rfl

/-- An array that is filled with matrices. -/
theorem fill_matrices {m : List ℕ → Matrix (Fin d) (Fin d) α} :
    ∃ r, fill rs.reverse ([d] ++ [d]) (fun i => .ok (matrixArr (m i))) = .ok r ∧ r.rshape = d :: d :: rs ∧
      ∀ i, inB rs i = true → ∀ k l : Fin d, r.get (l.val :: k.val :: i) = m i.reverse k l := by
  obtain ⟨r, h1, h2, h3⟩ := fill_spec (s := rs.reverse) (t := [d] ++ [d])
    (f := fun i => .ok (matrixArr (m i))) (v := fun i => matrixArr (m i)) (fun i _ => ⟨rfl, rfl⟩)
  refine ⟨r, h1, by simpa using h2, fun i hi k l => ?_⟩
  have h := h3 i.reverse (forall₂_of_inB hi)
  rw [index_of h2 (forall₂_of_inB hi), Except.ok.injEq] at h
  have h4 := congrArg (fun b : Arr α => b.get [l.val, k.val]) h
  have hb : inB [d, d] [l.val, k.val] = true := by simp [inB]
  rw [show ([d] ++ [d]).reverse = [d, d] from rfl, Arr.ofFn_get hb, matrixArr, Arr.ofFn_get hb,
    List.reverse_reverse] at h4
  refine h4.trans ((dif_pos (by simp)).trans ?_)
  rfl

/-- The constructor of an array of complex multivariate normal distributions accepts the parameters of
distributions (and others, `C58_cmv_accepts_violated`).  The properties give back the parameters, with the
standard ones for those that were left out. -/
theorem C60_cmv_new (hm : ∀ a ∈ cmean, a.rshape = d :: rs)
    (hv : ∀ a ∈ variance, a.rshape = d :: d :: rs) (hp : ∀ a ∈ pseudo, a.rshape = d :: d :: rs)
    (hne : cmean.isSome ∨ variance.isSome ∨ pseudo.isSome)
    (h : ∀ i, inB rs i = true → (Textbook.complexMvCov (matrixAt (n := d) variance 1 i) (matrixAt pseudo 0 i)).PosSemidef) :
    ∃ D : Shaped (ComplexMvNormalData d), complexMvNormalNew cmean variance pseudo = .ok ⟨d, D⟩ ∧
      D.shape = rs.reverse ∧ D.rvsShape = [d] ∧
      (∃ r, complexMvNormalMeans D = .ok r ∧ r.rshape = d :: rs ∧
        ∀ i, inB rs i = true → ∀ k : Fin d, r.get (k.val :: i) = vectorAt d cmean i k) ∧
      (∃ r, complexMvNormalVariances D = .ok r ∧ r.rshape = d :: d :: rs ∧
        ∀ i, inB rs i = true → ∀ k l : Fin d, r.get (l.val :: k.val :: i) = matrixAt variance 1 i k l) ∧
      (∃ r, complexMvNormalPseudoVariances D = .ok r ∧ r.rshape = d :: d :: rs ∧
        ∀ i, inB rs i = true → ∀ k l : Fin d, r.get (l.val :: k.val :: i) = matrixAt pseudo 0 i k l) := by
  refine ⟨_, (complexMvNormalNew_eq hm hv hp hne).2 ⟨fun i hi => C58_cmv_accepts (h i hi), rfl⟩, rfl, rfl,
    ?_, ?_, ?_⟩
  · obtain ⟨r, h1, h2, h3⟩ := fill_vectors (rs := rs)
      (v := fun i (k : Fin d) => (cmean.getD (Arr.full (d :: rs) 0)).get (k.val :: i.reverse))
    refine ⟨r, h1, h2, fun i hi k => ?_⟩
    rw [h3 i hi, List.reverse_reverse]
    exact congrFun (getD_vector hi) k
  · obtain ⟨r, h1, h2, h3⟩ := fill_matrices (rs := rs)
      (m := fun i (r c : Fin d) => (variance.getD (Arr.ofFn (d :: d :: rs) fun i =>
        if i[0]? = i[1]? then 1 else 0)).get (c.val :: r.val :: i.reverse))
    refine ⟨r, h1, h2, fun i hi k l => ?_⟩
    rw [h3 i hi, List.reverse_reverse]
    exact congrFun (congrFun (getD_matrix hi) k) l
  · obtain ⟨r, h1, h2, h3⟩ := fill_matrices (rs := rs)
      (m := fun i (r c : Fin d) => (pseudo.getD (Arr.full (d :: d :: rs) 0)).get (c.val :: r.val :: i.reverse))
    refine ⟨r, h1, h2, fun i hi k l => ?_⟩
    rw [h3 i hi, List.reverse_reverse]
    exact congrFun (congrFun (getD_matrix_zero hi) k) l

/-- The densities of an array of complex multivariate normal distributions at one observation for each. -/
theorem C60_cmv_pdf (hm : ∀ a ∈ cmean, a.rshape = d :: rs)
    (hv : ∀ a ∈ variance, a.rshape = d :: d :: rs) (hp : ∀ a ∈ pseudo, a.rshape = d :: d :: rs)
    (hne : cmean.isSome ∨ variance.isSome ∨ pseudo.isSome)
    (h : ∀ i, inB rs i = true → (Textbook.complexMvCov (matrixAt (n := d) variance 1 i) (matrixAt pseudo 0 i)).PosDef)
    (draw : List ℕ → List ℕ → G → Arr ℝ × G) {x : Arr ℂ} (hx : x.rshape = d :: rs) :
    ∃ D : Shaped (ComplexMvNormalData d), complexMvNormalNew cmean variance pseudo = .ok ⟨d, D⟩ ∧
      (complexMvNormalShaped D draw).pdf x = .ok (Arr.ofFn rs fun i => Textbook.complexMvNormal
        (vectorAt d cmean i) (matrixAt variance 1 i) (matrixAt pseudo 0 i) fun k => x.get (k.val :: i)) := by
  refine ⟨_, (complexMvNormalNew_eq hm hv hp hne).2
    ⟨fun i hi => C58_cmv_accepts (h i hi).posSemidef, rfl⟩, ?_⟩
  refine shaped_pdf_rows (by simp only [complexMvNormalShaped]) hx fun i hi y hy he => ?_
  simp only [complexMvNormalShaped, ComplexMvNormalData.frozen, List.reverse_reverse]
  rw [getD_vector hi, getD_matrix hi, getD_matrix_zero hi]
  exact row_pdf hy he (C58_cmv_pdf (h i hi) _ _)

/-- The entropies of an array of complex multivariate normal distributions. -/
theorem C60_cmv_entropy (hm : ∀ a ∈ cmean, a.rshape = d :: rs)
    (hv : ∀ a ∈ variance, a.rshape = d :: d :: rs) (hp : ∀ a ∈ pseudo, a.rshape = d :: d :: rs)
    (hne : cmean.isSome ∨ variance.isSome ∨ pseudo.isSome)
    (h : ∀ i, inB rs i = true → (Textbook.complexMvCov (matrixAt (n := d) variance 1 i) (matrixAt pseudo 0 i)).PosDef)
    (draw : List ℕ → List ℕ → G → Arr ℝ × G) :
    ∃ D : Shaped (ComplexMvNormalData d), ∃ e, complexMvNormalNew cmean variance pseudo = .ok ⟨d, D⟩ ∧
      (complexMvNormalShaped D draw).entropy = .ok (Arr.ofFn rs e) ∧ ∀ i, inB rs i = true →
        IsCrossEntropy volume
          (Textbook.complexMvNormal (vectorAt d cmean i) (matrixAt variance 1 i) (matrixAt pseudo 0 i))
          (Textbook.complexMvNormal (vectorAt d cmean i) (matrixAt variance 1 i) (matrixAt pseudo 0 i)) (e i) := by
  choose! e he using fun i (hi : inB rs i = true) => C58_cmv_entropy (h i hi) (vectorAt d cmean i)
  refine ⟨_, e, (complexMvNormalNew_eq hm hv hp hne).2
    ⟨fun i hi => C58_cmv_accepts (h i hi).posSemidef, rfl⟩, ?_, fun i hi => (he i hi).2⟩
  refine fill_scalars fun i hi => ?_
  simp only [complexMvNormalShaped, List.reverse_reverse, ComplexMvNormalData.frozen]
  rw [getD_matrix hi, getD_matrix_zero hi, (he i hi).1]
  rfl

/-- `as_multivariate_normal` gives objects whose `rvs` raises whenever there is a distribution with a
dimension: the number of the complex components is passed on as that of their parts. -/
theorem C60_cmv_as_multivariate_violated {D : Shaped (ComplexMvNormalData d)} (hd0 : 0 < d)
    (hm : ∀ a ∈ cmean, a.rshape = d :: rs)
    (hv : ∀ a ∈ variance, a.rshape = d :: d :: rs) (hp : ∀ a ∈ pseudo, a.rshape = d :: d :: rs)
    (hne : cmean.isSome ∨ variance.isSome ∨ pseudo.isSome)
    (h : complexMvNormalNew cmean variance pseudo = .ok ⟨d, D⟩) (h0 : 0 ∉ rs)
    {draw : List ℕ → List ℕ → G → Arr ℝ × G}
    (hd : ∀ i size g, (draw i size g).1.rshape = (size ++ [d + d]).reverse)
    (size : Option (ℕ ⊕ List ℕ)) (g : G) :
    (complexMvNormalAsMultivariate D draw).rvs size g = .error .valueError := by
  obtain ⟨-, hD⟩ := (complexMvNormalNew_eq hm hv hp hne).1 h
  obtain rfl := eq_of_heq (Sigma.mk.inj hD).2
  obtain ⟨l, hl⟩ := ndindex_cons (s := rs.reverse) (by simpa using h0)
  refine fillM_error hl (C60_mvn_rvs (hd _ _ _)) ?_
  rw [hd, List.reverse_append, List.reverse_append]
  have h1 : d + d ≠ d := by omega
  have h2 : d + d ≠ 1 := by omega
  simp [complexMvNormalAsMultivariate, assignable, h2, hd0.ne']

/-! ### Von Mises distributions -/

/-- The formula that SciPy evaluates is the von Mises density. -/
theorem C60_von_mises_formula {k : ℝ} (hk : 0 ≤ k) (l x : ℝ) : vonMisesPdf k l x = Textbook.vonMises k l x := by
  rw [vonMisesPdf, Textbook.vonMises, abs_of_nonneg hk, mul_sub, mul_one, sub_eq_add_neg, Real.exp_add,
    ← mul_assoc, mul_div_mul_right _ _ (Real.exp_pos _).ne']

/-- The densities of an array of von Mises distributions at one observation for each; the concentrations
and the locations, zero by default, are repeated as NumPy does. -/
theorem C60_von_mises_pdf {kappa : Arr ℝ} {loc : Option (Arr ℝ)}
    (hb : bcast kappa.rshape (loc.getD (Arr.full kappa.rshape 0)).rshape = .ok rs)
    (hk : ∀ i, inB rs i = true → 0 ≤ kappa.get (bidx kappa.rshape i))
    (draw : ℝ → ℝ → List ℕ → G → Except Err (Arr ℝ × G)) (entropy : ℝ → ℝ) {x : Arr ℝ} (hx : x.rshape = rs) :
    ∃ D, vonMisesNew kappa loc draw entropy = .ok D ∧ D.pdf x = .ok (Arr.ofFn rs fun i =>
      Textbook.vonMises (kappa.get (bidx kappa.rshape i))
        (loc.elim 0 fun l => l.get (bidx l.rshape i)) (x.get i)) := by
  refine ⟨_, by simp only [vonMisesNew, hb, Bind.bind, Except.bind]; rfl, ?_⟩
  refine shaped_pdf rfl hx fun i hi y hy he => ?_
  simp only [List.reverse_reverse]
  refine congrArg _ (Arr.ext hy fun j hj => ?_)
  have hj : inB y.rshape j = true := hj
  rw [Arr.map_get hj]
  rw [hy] at hj
  obtain rfl : j = [] := by simpa using inB_length hj
  refine Eq.trans ?_ (Arr.ofFn_get hj).symm
  rw [he, C60_von_mises_formula (hk i hi)]
  congr 1
  cases loc with
  | some l => rfl
  | none =>
    simp only [Option.getD_none, Option.elim_none, Arr.full, Arr.ofFn, ite_self]
    split_ifs <;> rfl

/-- The formula that SciPy evaluates is the von Mises-Fisher density. -/
theorem C60_von_mises_fisher_formula {mu x : Fin d → ℝ} {k : ℝ} (hm : mu ⬝ᵥ mu = 1) (hk : 0 < k) (hd : 2 ≤ d)
    (hx : x ⬝ᵥ x = 1) : vonMisesFisherPdf mu k x = .ok (Textbook.vonMisesFisher mu k x) := by
  have hd' : (2 : ℝ) ≤ d := by exact_mod_cast hd
  have hI : 0 < besselI (0.5 * (d : ℝ) - 1) k := besselI_pos (by linarith) hk
  rw [vonMisesFisherPdf, if_neg (by simp [hm, hk]; omega), if_neg (by simp [hx])]
  refine congrArg _ ?_
  rw [Textbook.vonMisesFisher, show (d : ℝ) / 2 = 0.5 * (d : ℝ) by ring, Real.rpow_def_of_pos hk,
    Real.rpow_def_of_pos (by positivity), Real.log_mul hI.ne' (Real.exp_pos _).ne', Real.log_exp,
    abs_of_pos hk]
  nth_rw 2 [← Real.exp_log hI]
  rw [← Real.exp_add, ← Real.exp_sub, ← Real.exp_add, dotProduct_comm x mu]
  congr 1
  ring

/-- The constructor of an array of von Mises-Fisher distributions accepts exactly unit vectors in two or
more dimensions with positive concentrations, of the same shape. -/
theorem C60_von_mises_fisher_new {mu kappa : Arr ℝ} (hm : mu.rshape = d :: rs)
    (draw : List ℕ → List ℕ → G → Except Err (Arr ℝ × G)) (entropy : ℝ → ℝ) :
    (kappa.rshape ≠ rs → vonMisesFisherNew mu kappa draw entropy = .error .assertionError) ∧
    (kappa.rshape = rs → ((∃ D, vonMisesFisherNew mu kappa draw entropy = .ok D) ↔
      ∀ i, inB rs i = true → vectorAt d (some mu) i ⬝ᵥ vectorAt d (some mu) i = 1 ∧ 0 < kappa.get i ∧
        2 ≤ d)) := by
  have hl : mu.lastDim = .ok d := by rw [Arr.lastDim, hm]
  constructor
  · intro h
    simp only [vonMisesFisherNew, hl, Bind.bind, Except.bind, hm, List.tail_cons]
    rw [if_pos (Ne.symm h)]
  · rintro rfl
    simp only [vonMisesFisherNew, hl, Bind.bind, Except.bind, hm, List.tail_cons, ne_eq, not_true_eq_false,
      if_false, pure, Except.pure]
    have hk : (∀ i ∈ ndindex kappa.rshape.reverse,
        (if ((fun k : Fin d => mu.get (k.val :: i.reverse)) ⬝ᵥ fun k : Fin d => mu.get (k.val :: i.reverse)) = 1
          ∧ 0 < kappa.get i.reverse ∧ 2 ≤ d then Except.ok () else .error Err.valueError) = Except.ok ()) ↔
        ∀ i, inB kappa.rshape i = true → vectorAt d (some mu) i ⬝ᵥ vectorAt d (some mu) i = 1 ∧
          0 < kappa.get i ∧ 2 ≤ d := by
      constructor
      · intro h i hi
        have := h i.reverse (mem_ndindex.2 (forall₂_of_inB hi))
        rw [List.reverse_reverse] at this
        split at this
        · assumption
        · cases this
      · intro h i hi
        exact if_pos (h _ (inB_of_forall₂ (mem_ndindex.1 hi)))
    rw [← hk, ← forM_ok]
    generalize List.forM (m := Except Err) (ndindex kappa.rshape.reverse) _ = r
    cases r with
    | error e => simp
    | ok u => simp

/-- The densities of an array of von Mises-Fisher distributions at one unit vector for each. -/
theorem C60_von_mises_fisher_pdf {mu kappa : Arr ℝ} (hm : mu.rshape = d :: rs) (hk : kappa.rshape = rs)
    {draw : List ℕ → List ℕ → G → Except Err (Arr ℝ × G)} {entropy : ℝ → ℝ} {D : Shaped (Frozen ℝ G)}
    (h : vonMisesFisherNew mu kappa draw entropy = .ok D) {x : Arr ℝ} (hx : x.rshape = d :: rs)
    (hu : ∀ i, inB rs i = true → vectorAt d (some x) i ⬝ᵥ vectorAt d (some x) i = 1) :
    D.pdf x = .ok (Arr.ofFn rs fun i =>
      Textbook.vonMisesFisher (vectorAt d (some mu) i) (kappa.get i) (vectorAt d (some x) i)) := by
  have hc := ((C60_von_mises_fisher_new hm draw entropy).2 hk).1 ⟨D, h⟩
  subst hk
  have hl : mu.lastDim = .ok d := by rw [Arr.lastDim, hm]
  simp only [vonMisesFisherNew, hl, Bind.bind, Except.bind, hm, List.tail_cons, ne_eq, not_true_eq_false,
    if_false, pure, Except.pure] at h
  split at h
  · cases h
  · obtain rfl := Except.ok.inj h
    refine shaped_pdf_rows rfl hx fun i hi y hy he => ?_
    simp only [List.reverse_reverse]
    obtain ⟨h1, h2, h3⟩ := hc i hi
    exact row_pdf hy he (C60_von_mises_fisher_formula h1 h2 h3 (hu i hi))

/-! ### Examples -/

-- Three standard normal vectors in two dimensions; the covariances are left out.
example : ∃ D : Shaped (Frozen ℝ ℕ), fromMc (some (Arr.full [2, 3] 0)) none
      (fun _ size g => (Arr.full (size ++ [2]).reverse 0, g)) = .ok D ∧
    D.pdf (Arr.full [2, 3] 1) = .ok (Arr.ofFn [3] fun i =>
      Textbook.mvNormal (vectorAt 2 (some (Arr.full [2, 3] 0)) i) 1
        fun k => (Arr.full [2, 3] 1).get (k.val :: i)) ∧
    (∃ e, D.entropy = .ok (Arr.ofFn [3] e)) ∧ ∃ r g', D.rvs (some (.inl 5)) 0 = .ok (r, g') ∧
      r.rshape = [2, 5, 3] := by
  have hm : ∀ a ∈ some (Arr.full [2, 3] (0 : ℝ)), a.rshape = 2 :: [3] := by
    rintro a ⟨⟩
    rfl
  obtain ⟨D, h⟩ := (C60_from_mc (cov := none) hm (by simp) (.inl rfl) (by norm_num)
    (fun _ size (g : ℕ) => (Arr.full (size ++ [2]).reverse 0, g))).1.2 fun i hi => PosDef.one
  obtain ⟨e, he, -⟩ := C60_from_mc_entropy hm (by simp) (.inl rfl) (by norm_num) h
  obtain ⟨-, r, -, g', -, h2, h3, -⟩ := C60_from_mc_rvs hm (by simp) (.inl rfl) (by norm_num) h
    (fun _ _ _ => rfl) (some (.inl 5)) 0
  exact ⟨D, h, C60_from_mc_pdf hm (by simp) (.inl rfl) (by norm_num) h rfl, ⟨e, he⟩, r, g', h2, h3⟩

-- The standard normal distribution, at four points.
example : ∃ D : Shaped (Frozen ℝ ℕ), fromMc none none
      (fun _ size g => (Arr.full (size ++ [1]).reverse 0, g)) = .ok D ∧
    D.pdf (Arr.full [1, 4] 1) = .ok (Arr.ofFn [4] fun j => Textbook.mvNormal 0 (1 : Matrix (Fin 1) (Fin 1) ℝ)
        fun k => (Arr.full [1, 4] 1).get (k.val :: j)).squeeze := by
  obtain ⟨D, h⟩ := (C60_from_mc (mean := none) (cov := none) (n := 1) (rs := []) (by simp) (by simp)
    (.inr (.inr ⟨rfl, rfl⟩)) (by norm_num)
    (fun _ size (g : ℕ) => (Arr.full (size ++ [1]).reverse 0, g))).1.2 fun i hi => PosDef.one
  exact ⟨D, h, C60_from_mc_pdf_single (by simp) (by simp) (.inr (.inr rfl)) (by norm_num) h rfl⟩

open scoped ComplexOrder in
-- Two standard complex normal vectors in three dimensions.
example : ∃ D : Shaped (ComplexMvNormalData 3), complexMvNormalNew (some (Arr.full [3, 2] 0)) none none =
      .ok ⟨3, D⟩ ∧
    (∃ p, (complexMvNormalShaped D fun _ size (g : ℕ) => (Arr.full (size ++ [6]).reverse 0, g)).pdf
      (Arr.full [3, 2] 1) = .ok (Arr.ofFn [2] p)) ∧
    (∃ e, (complexMvNormalShaped D fun _ size (g : ℕ) => (Arr.full (size ++ [6]).reverse 0, g)).entropy =
      .ok (Arr.ofFn [2] e)) ∧
    (complexMvNormalAsMultivariate D fun _ size (g : ℕ) => (Arr.full (size ++ [6]).reverse 0, g)).rvs
      (some (.inl 5)) 0 = .error .valueError := by
  have hm : ∀ a ∈ some (Arr.full [3, 2] (0 : ℂ)), a.rshape = 3 :: [2] := by
    rintro a ⟨⟩
    rfl
  have hp : ∀ i, inB [2] i = true → (Textbook.complexMvCov (matrixAt (n := 3) (none : Option (Arr ℂ)) 1 i)
      (matrixAt none 0 i)).PosDef := fun i _ => complexMvCov_posDef PosDef.one
  obtain ⟨D, h1, h2⟩ := C60_cmv_pdf hm (by simp) (by simp) (.inl rfl) hp
    (fun _ size (g : ℕ) => (Arr.full (size ++ [6]).reverse 0, g)) (x := Arr.full [3, 2] 1) rfl
  obtain ⟨D', e, h3, h4, -⟩ := C60_cmv_entropy hm (by simp) (by simp) (.inl rfl) hp
    (fun _ size (g : ℕ) => (Arr.full (size ++ [6]).reverse 0, g))
  rw [h1] at h3
  obtain rfl := eq_of_heq (Sigma.mk.inj (Except.ok.inj h3)).2
  exact ⟨D, h1, ⟨_, h2⟩, ⟨e, h4⟩, C60_cmv_as_multivariate_violated (by norm_num) hm (by simp) (by simp)
    (.inl rfl) h1 (by simp) (fun _ _ _ => rfl) _ _⟩

-- Two concentrations with three locations each.
example (draw : ℝ → ℝ → List ℕ → ℕ → Except Err (Arr ℝ × ℕ)) (entropy : ℝ → ℝ) (x : Arr ℝ)
    (hx : x.rshape = [3, 2]) :
    ∃ D, vonMisesNew (Arr.full [1, 2] 4) (some (Arr.full [3] 5)) draw entropy = .ok D ∧
      D.pdf x = .ok (Arr.ofFn [3, 2] fun i => Textbook.vonMises ((Arr.full [1, 2] 4).get (bidx [1, 2] i))
        ((Arr.full [3] 5).get (bidx [3] i)) (x.get i)) :=
  C60_von_mises_pdf (loc := some (Arr.full [3] 5)) rfl (fun i _ => by
    change 0 ≤ (Arr.full [1, 2] (4 : ℝ)).get _
    simp only [Arr.full, Arr.ofFn]
    split_ifs
    · norm_num
    · exact le_rfl) draw entropy hx

-- A unit vector in the plane.
example (draw : List ℕ → List ℕ → ℕ → Except Err (Arr ℝ × ℕ)) (entropy : ℝ → ℝ) :
    ∃ D p, vonMisesFisherNew (Arr.ofFn [2] fun i => if i = [0] then 3 / 5 else 4 / 5) (Arr.full [] 2) draw
      entropy = .ok D ∧ D.pdf (Arr.ofFn [2] fun i => if i = [0] then 1 else 0) = .ok (Arr.ofFn [] p) := by
  obtain ⟨D, h⟩ := ((C60_von_mises_fisher_new (mu := Arr.ofFn [2] fun i => if i = [0] then 3 / 5 else 4 / 5)
    (kappa := Arr.full [] 2) (d := 2) (rs := []) rfl draw entropy).2 rfl).2 fun i hi => by
      obtain rfl : i = [] := by simpa using inB_length hi
      refine ⟨?_, ?_, le_rfl⟩
      · simp [vectorAt, dotProduct, Fin.sum_univ_two, Arr.ofFn, inB]
        norm_num
      · change (0 : ℝ) < 2
        norm_num
  exact ⟨D, _, h, C60_von_mises_fisher_pdf (d := 2) (rs := []) rfl rfl h rfl fun i hi => by
    obtain rfl : i = [] := by simpa using inB_length hi
    simp [vectorAt, dotProduct, Fin.sum_univ_two, Arr.ofFn, inB]⟩

end Efax
