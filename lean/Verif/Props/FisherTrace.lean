import Verif.Lemmas.Trace
import Verif.Props.Arity
import Verif.Props.Trees

/-!
# `fisher_information_trace` (C43)
-/

namespace Efax

open MeasureTheory Spec Set ClassTable

variable [MachEps] {solve : Solver} {search : Cls → List Val → Except Err (List Val)}

section

variable {α : Type} [Inhabited α]

theorem eq_vectors {b : Arr α} {d : ℕ} (hb : b.rshape = [d]) : b = vectors [] fun _ (k : Fin d) => b.get [k.1] := by
  refine Arr.ext hb fun i hi => ?_
  rw [hb] at hi
  obtain ⟨i0, j, rfl, hi0, hj⟩ := inB_cons_elim hi
  obtain rfl := inB_nil_iff.1 hj
  rw [Calc.vectors_get _ hi0 rfl]

theorem eq_matrices {b : Arr α} {d : ℕ} (hb : b.rshape = [d, d]) :
    b = matrices [] fun _ => Matrix.of fun (r c : Fin d) => b.get [c.1, r.1] := by
  refine Arr.ext hb fun i hi => ?_
  rw [hb] at hi
  obtain ⟨i0, j, rfl, hi0, hj⟩ := inB_cons_elim hi
  obtain ⟨i1, j, rfl, hi1, hj⟩ := inB_cons_elim hj
  obtain rfl := inB_nil_iff.1 hj
  exact (Calc.matrices_get (rs := []) (fun _ => Matrix.of fun (r c : Fin d) => b.get [c.1, r.1]) ⟨i1, hi1⟩ ⟨i0, hi0⟩
    (i := []) rfl).symm

theorem eq_scalars {b : Arr α} (hb : b.rshape = []) : b = scalars [] fun _ => b.get [] := by
  refine Arr.ext hb fun i hi => ?_
  rw [hb] at hi
  obtain rfl := inB_nil_iff.1 hi
  rfl

end

/-- The sum over one parameter. -/
theorem traceOf_upperSum {s : Support} (hs : PlainSupport s) {d : ℕ} {v : Val} (h : Lies s false d [] v) :
    traceOf s v = .ok (upperSum v) := by
  match s, hs, v, h with
  | .scalar (.real _ _ _), _, .real b, h =>
    have h : b.rshape = [] := h.1
    simp only [traceOf, Support.axes, upperSum, entrySum, h, ← eq_scalars h]
  | .scalar (.complex _ _), _, .complex b, h =>
    have h : b.rshape = [] := h.1
    simp only [traceOf, Support.axes, upperSum, entrySum, h, ← eq_scalars h]
  | .vector (.real _ _ _), _, .real b, h =>
    have h : b.rshape = [d] := h.1
    have e : b.sumLast = .ok (scalars [] fun _ => ∑ k : Fin d, b.get [k.1]) :=
      (congrArg Arr.sumLast (eq_vectors h)).trans (Calc.sumLast_vectors [] fun _ (k : Fin d) => b.get [k.1])
    simp only [traceOf, Support.axes, upperSum, entrySum, h, e]
    rfl
  | .vector (.complex _ _), _, .complex b, h =>
    have h : b.rshape = [d] := h.1
    have e : b.sumLast = .ok (scalars [] fun _ => ∑ k : Fin d, b.get [k.1]) :=
      (congrArg Arr.sumLast (eq_vectors h)).trans (Calc.sumLast_vectors [] fun _ (k : Fin d) => b.get [k.1])
    simp only [traceOf, Support.axes, upperSum, entrySum, h, e]
    rfl
  | .symmetric (.real _ _ _) _ _ _, _, .real b, h =>
    have h : b.rshape = [d, d] := h.1
    simp only [upperSum, entrySum, h]
    refine (congrArg (fun b => traceOf _ (.real b)) (eq_matrices h)).trans ((C43_trace_matrix ..).trans ?_)
    simp only [Finset.sum_filter]
    rfl
  | .symmetric (.complex _ _) _ _ _, _, .complex b, h =>
    have h : b.rshape = [d, d] := h.1
    simp only [upperSum, entrySum, h]
    refine (congrArg (fun b => traceOf _ (.complex b)) (eq_matrices h)).trans
      ((C43_trace_complex_matrix ..).trans ?_)
    simp only [Finset.sum_filter]
    rfl

/-- The fixed parameters of natural distributions are numbers. -/
theorem fixed_axes {c : Cls} (hn : Natural c) : ∀ f ∈ fields c, f.fixed = true → f.support.axes = 0 := by
  intro f hf hx
  cases c <;> first
    | (exfalso; cases hn; done)
    | (simp [ClassTable.fields, Cls.fields] at hf; done)
    | (simp [ClassTable.fields, Cls.fields] at hf
       first
         | (subst hf; first | rfl | (cases hx; done))
         | (rcases hf with rfl | rfl <;> first | rfl | (cases hx; done))
         | (rcases hf with rfl | rfl | rfl <;> first | rfl | (cases hx; done)))

/-- **C43.** `fisher_information_trace()` of one distribution, simple or joint, if no class in it has a bounded
variable parameter: every variable parameter of the result is the sum of the entries of that parameter of the
diagonal (of the upper triangle for a matrix), the fixed parameters are unchanged, and the variable parameters
of the result add up to the trace of the Fisher information matrix (real and imaginary parts counted
separately). -/
theorem C43_trace (hs : solve.For search) {K : Kind Cls} {S : Setting K} (hK : LibrarySetting solve K S)
    {p : List ℕ → K.P} {q : List ℕ → K.N} (hq : S.InsideNear [] p q)
    (hb : ∀ k c v s, SubAt (K.nat [] p q) k (.mk c v s) → ¬Bounded c) :
    ∃ (n : ℕ) (M : Matrix (Fin n) (Fin n) ℝ) (r t : Dist Cls),
      fisherMatrix (library search) (K.nat [] p q) = .ok (matrices [] fun _ => M) ∧
      fisherDiagonal (library search) (K.nat [] p q) = .ok r ∧
      fisherTrace (library search) (K.nat [] p q) = .ok t ∧ SameTree (K.nat [] p q) t ∧
      (∀ k f v, ParamAt r k f v → f.fixed = false → ParamAt t k f (upperSum v)) ∧
      (∀ k f v, ParamAt (K.nat [] p q) k f v → f.fixed = true → ParamAt t k f v) ∧
      ((parameters t (some false)).map fun kv => amount kv.2).sum = M.trace := by
  obtain ⟨n, M, l, r, h1, h2, h3, h4, h5⟩ := diagonal_setup hs hK hq
  have hw := (C51_library hs hK.kind).wfN [] p q
  have hpl : ∀ i ∈ l, Natural i.cls ∧ PlainCls i.cls := fun i hi => by
    obtain ⟨k, v, s, h⟩ := Dist.walk_node h3 i hi
    exact ⟨nat_natural hK h, plainCls (nat_natural hK h) (hb k _ v s h)⟩
  rw [unflatten_plain (fun i hi => (hpl i hi).2) fun i hi => (diagonal_pos h2 hi).ne', h5] at h4
  have hd := unflatten_decode (fl := ⟨l, parameters (K.nat [] p q) (some true), false⟩)
    (y := vectors [] fun _ k => M k k) (n := n) (batch := []) hw h3 rfl rfl
  have key : WF r ∧ SameTree (K.nat [] p q) r ∧ LiesAll false [] r ∧
      parameters r (some true) = parameters (K.nat [] p q) (some true) ∧ flatten r false =
      .ok (⟨l, parameters (K.nat [] p q) (some true), false⟩, vectors [] fun _ k => M k k) := by
    by_cases hn : n = flatSize (K.nat [] p q)
    · rcases hd.1 hn with ⟨r', e, w⟩ | ⟨_, e⟩
      · rw [h5] at e
        cases e
        exact w
      · rw [h5] at e; cases e
    · rcases hd.2 hn with e | ⟨_, e⟩ <;> (rw [h5] at e; cases e)
  obtain ⟨wr, sr, lr, fr, fl⟩ := key
  obtain ⟨hl, A, a1, a2⟩ := flatten_blocks rfl fl
  have hpr : ∀ k c v s, SubAt r k (.mk c v s) → Natural c ∧ PlainCls c := fun k c v s h => by
    obtain ⟨i, hi, e, -⟩ := SubAt.info h hl
    obtain ⟨x, y⟩ := hpl i hi
    have e : i.cls = c := e
    rw [e] at x y
    exact ⟨x, y⟩
  have hsum := Dist.walk_sum (fun k c v s h => (hpr k c v s h).2) lr a1 a2
  have hvar : ∀ k f v, ParamAt r k f v → f.fixed = false → traceOf f.support v = .ok (upperSum v) := by
    intro k f v h hf
    obtain ⟨k', c, v', s', d, kw, s, g1, g2, g3, g4⟩ := ParamAt.each h lr hf
    obtain ⟨rfl, g5⟩ := (hpr _ _ _ _ g1).2 f g2 kw s g3
    exact traceOf_upperSum g5 g4
  have hfix : ∀ k f v, ParamAt r k f v → f.fixed = true → traceOf f.support v = .ok v := by
    intro k f v h hf
    obtain ⟨k', c, v', s', g1, g2⟩ := ParamAt.node h
    rw [traceOf]
    simp only [fixed_axes (hpr _ _ _ _ g1).1 f g2 hf]
  obtain ⟨final, e1, e2, -⟩ := foldlM_set (F := fun vs : Val × Support => traceOf vs.2 vs.1)
    (l := parametersS r none) (acc := parameters (K.nat [] p q) none)
    (by rw [parametersS_eq wr]; exact Dist.paramList_nodup wr) (fun kv hkv => by
      rw [parametersS_eq wr] at hkv
      obtain ⟨k, f, v, hp, -, rfl⟩ := Dist.mem_paramList.1 hkv
      cases hf : f.fixed with
      | true => exact ⟨_, hfix k f v hp hf⟩
      | false => exact ⟨_, hvar k f v hp hf⟩)
  have hget : ∀ k f v, ParamAt r k f v → ∀ x, traceOf f.support v = .ok x → final.get? k = some x := by
    intro k f v h x hx
    refine e2 (k, v, f.support) ?_ x hx
    rw [parametersS_eq wr]
    exact Dist.mem_paramList.2 ⟨k, f, v, h, rfl, rfl⟩
  obtain ⟨t, t1, t2, t3, t4⟩ := C14_assemble_values wr hl (values := final) (fun k f v h => by
    cases hf : f.fixed with
    | true => exact ⟨_, hget k f v h _ (hfix k f v h hf)⟩
    | false => exact ⟨_, hget k f v h _ (hvar k f v h hf)⟩)
  have tvar : ∀ k f v, ParamAt r k f v → f.fixed = false → ParamAt t k f (upperSum v) := fun k f v h hf =>
    (t4 k f _).2 ⟨hget k f v h _ (hvar k f v h hf), v, h⟩
  refine ⟨n, M, r, t, h1, h4, ?_, sr.trans t3, tvar, fun k f v h hf => ?_, ?_⟩
  · have h3 : infosOf (K.nat [] p q) = .ok l := h3
    simp only [fisherTrace, h4, h3, bind, Except.bind] at e1 t1 ⊢
    rw [e1]
    exact t1
  · have : (k, v) ∈ parameters r (some true) := by
      rw [fr]
      exact (mem_parameters hw).2 ⟨f, h, by simp [keep, hf]⟩
    obtain ⟨f', h', hf'⟩ := (mem_parameters wr).1 this
    have hf' : f'.fixed = true := by simpa [keep] using hf'
    obtain ⟨v', h''⟩ := Spec.ParamAt.same h sr wr
    obtain ⟨rfl, -⟩ := ParamAt.unique wr h' h''
    exact (t4 k f' _).2 ⟨hget k f' v h' _ (hfix k f' v h' hf'), v, h'⟩
  · have hp : (parameters t (some false)).Perm
        ((parameters r (some false)).map fun kv => (kv.1, upperSum kv.2)) := by
      refine (List.perm_ext_iff_of_nodup (List.Nodup.of_map _ (parameters_keys_nodup t2 _))
        (List.Nodup.of_map Prod.fst ?_)).2 fun ⟨k, x⟩ => ?_
      · rw [List.map_map]
        exact parameters_keys_nodup wr _
      · rw [mem_parameters t2, List.mem_map]
        constructor
        · rintro ⟨f, h, hf⟩
          have hf' : f.fixed = false := by simpa [keep] using hf
          obtain ⟨g, v, hv⟩ := (t4 k f x).1 h
          rw [hget k f v hv _ (hvar k f v hv hf')] at g
          exact ⟨(k, v), (mem_parameters wr).2 ⟨f, hv, hf⟩, by rw [Option.some.inj g]⟩
        · rintro ⟨⟨k', v⟩, h, e⟩
          obtain ⟨rfl, rfl⟩ := Prod.mk.inj e
          obtain ⟨f, h, hf⟩ := (mem_parameters wr).1 h
          exact ⟨f, tvar _ f v h (by simpa [keep] using hf), hf⟩
    rw [(hp.map _).sum_eq, parameters_eq wr, List.map_map, List.map_map]
    refine Eq.trans ?_ (hsum.symm.trans ?_)
    · rfl
    · rw [Nat.Ico_zero_eq_range, Finset.sum_range, Matrix.trace]
      refine Finset.sum_congr rfl fun k _ => ?_
      exact Calc.vectors_get _ k.2 rfl

-- The hypotheses hold for the multivariate normal distribution of zero mean and unit precision.
example (hs : solve.For search) : ∃ t, fisherTrace (library search)
    (.mk .mvNormalNP (layVM 2 [] (fun _ => ()) fun _ => (0, -1)) .nil) = .ok t := by
  have hd : ((0, -1) : (Fin 2 → ℝ) × Matrix (Fin 2) (Fin 2) ℝ) ∈ mvNormalDom 2 := by
    change (-(-1 : Matrix (Fin 2) (Fin 2) ℝ)).PosDef
    rw [neg_neg]
    exact Matrix.PosDef.one
  obtain ⟨n, M, r, t, -, -, h, -⟩ := C43_trace hs (.simple (.mvNormal 2)) (p := fun _ => ())
    (q := fun _ => ((0, -1) : (Fin 2 → ℝ) × Matrix (Fin 2) (Fin 2) ℝ))
    (fun i hi => ⟨trivial, hd, fun _ => .of_forall fun _ => trivial⟩) (fun k c v s h => by
      cases h with
      | here => exact id
      | sub hm _ => cases hm)
  exact ⟨t, h⟩

end Efax
