import Verif.Model.Search
import Verif.Props.Flatten

/-!
# C32 for whole (batched) distributions

The family-level statements are in `Props.Families.Search`.
-/

namespace Efax

open Spec

variable [MachEps]

/-- The flattener used by the search is the flattener of the natural class: if `n` is any object of
the natural class of `p` with the dimensions and the fixed parameters of `p`, then it is the one that
flattening `n` returns. -/
theorem createFlattener_eq {p n : Dist Cls} {fl : Flattener Cls} {y : Arr ℝ}
    (hs : p.subs = .nil) (hs' : n.subs = .nil)
    (hd : ClassTable.dimensions n.cls n.vals = ClassTable.dimensions p.cls p.vals)
    (hx : parameters n (some true) = parameters p (some true))
    (h : flatten n true = .ok (fl, y)) : createFlattener p n.cls true = .ok fl := by
  obtain ⟨h1, h2, h3⟩ := flatten_eq_ok h
  obtain ⟨c, vals, subs⟩ := n
  obtain ⟨c', vals', subs'⟩ := p
  simp only [Dist.subs] at hs hs'
  subst hs hs'
  simp only [Dist.cls, Dist.vals] at hd
  simp only [infosOf, Dist.walk, Subs.walk, makeInfo, bind, Except.bind, Dist.cls, Dist.vals,
    Dist.subs] at h1
  simp only [createFlattener, makeInfo, bind, Except.bind, Dist.cls, Dist.vals, Dist.subs]
  rw [← hd]
  cases hk : ClassTable.dimensions c vals with
  | error e => rw [hk] at h1; cases h1
  | ok k =>
    rw [hk] at h1
    obtain ⟨i, f, m⟩ := fl
    simp only at h1 h2 h3
    subst h2 h3
    cases h1
    simp only [hx]
    rfl

/-- **C32.** Every search vector accepted by `search_to_natural` gives natural parameters that lie
strictly inside their supports, and no two search vectors give the same parameters. -/
theorem C32_search_valid {p n₀ n : Dist Cls} {s y : Arr ℝ} {fl : Flattener Cls}
    (hs : p.subs = .nil) (hs' : n₀.subs = .nil) (hw : WF n₀)
    (hc : ClassTable.natCls p.cls = some n₀.cls)
    (hd : ClassTable.dimensions n₀.cls n₀.vals = ClassTable.dimensions p.cls p.vals)
    (hx : parameters n₀ (some true) = parameters p (some true))
    (h0 : flatten n₀ true = .ok (fl, y)) (h : p.searchToNatural s = .ok n) :
    flatten n true = .ok (fl, s) ∧
    ∀ {k : Path} {f : Field} {v : Val}, ParamAt n k f v → f.fixed = false →
      ∀ {mn mx : Option ℝ} {g : ℝ}, (f.support = .scalar (.real mn mx g) ∨
        f.support = .vector (.real mn mx g)) →
      ∃ a, v = .real a ∧ ∀ i, inB a.rshape i = true →
        (∀ m ∈ mn, m < a.get i) ∧ (∀ M ∈ mx, a.get i < M) := by
  simp only [Dist.searchToNatural, hc, bind, Except.bind,
    createFlattener_eq hs hs' hd hx h0] at h
  exact ⟨C03_unflatten_flatten hw h0 h,
    fun {_ _ _} hk hf {_ _ _} hr => C06_unflatten_in_support hw h0 h hk hf hr⟩

theorem subArr_eq_zero_iff {a b g : Arr ℝ} (h : subArr a b = .ok g) :
    (∀ i, inB g.rshape i = true → g.get i = 0) ↔ a = b := by
  unfold subArr at h
  split_ifs at h with hs
  cases h
  constructor
  · intro hg
    refine Arr.ext hs fun i hi => ?_
    have := hg i hi
    rw [Arr.ofFn_get hi] at this
    linarith
  · rintro rfl i hi
    have hi : inB a.rshape i = true := hi
    rw [Arr.ofFn_get hi, sub_self]

/-- **C32.** The search gradient vanishes (in every batch entry and coordinate) exactly when the
natural parameters produced from the search vector have the expectation parameters `p`. -/
theorem C32_gradient_zero_iff {p e n : Dist Cls} {s g : Arr ℝ} {batch : List ℕ}
    {toExp : Dist Cls → Except Err (Dist Cls)} (hwp : WF p) (hwe : WF e)
    (hp : EachDeclared (fun d s v => Fits s false d batch v) p)
    (he : EachDeclared (fun d s v => Fits s false d batch v) e)
    (hi : infosOf e = infosOf p) (hx : parameters e (some true) = parameters p (some true))
    (hn : p.searchToNatural s = .ok n) (hte : toExp n = .ok e)
    (hg : p.searchGradient toExp s = .ok g) :
    (∀ i, inB g.rshape i = true → g.get i = 0) ↔ e = p := by
  obtain ⟨fl, y, h1, h2⟩ := C02_flatten_unflatten_raw hwp hp
  obtain ⟨fl', y', h3, h4⟩ := C02_flatten_unflatten_raw hwe he
  simp only [Dist.searchGradient, hn, hte, h1, h3, bind, Except.bind] at hg
  rw [subArr_eq_zero_iff hg]
  constructor
  · rintro rfl
    have hf : fl' = fl := by
      obtain ⟨a1, a2, a3⟩ := flatten_eq_ok h1
      obtain ⟨b1, b2, b3⟩ := flatten_eq_ok h3
      obtain ⟨i, f, m⟩ := fl
      obtain ⟨i', f', m'⟩ := fl'
      simp only at a1 a2 a3 b1 b2 b3
      rw [hi, a1] at b1
      cases b1
      rw [a2, b2, hx, a3, b3]
    rw [hf, h2] at h4
    cases h4
    rfl
  · rintro rfl
    rw [h1] at h3
    cases h3
    rfl

/-- Non-vacuity: a batch of three chi-square distributions. -/
example : ∃ (p n₀ : Dist Cls) (fl : Flattener Cls) (s : Arr ℝ),
    p.subs = .nil ∧ n₀.subs = .nil ∧ WF n₀ ∧ ClassTable.natCls p.cls = some n₀.cls ∧
    ClassTable.dimensions n₀.cls n₀.vals = ClassTable.dimensions p.cls p.vals ∧
    parameters n₀ (some true) = parameters p (some true) ∧ flatten n₀ true = .ok (fl, s) ∧
    p.searchToNatural s = .ok n₀ ∧
    p.searchGradient (fun _ => .ok p) s = .ok (Arr.full [1, 3] 0) ∧
    WF p ∧ EachDeclared (fun d s v => Fits s false d [3] v) p := by
  let p : Dist Cls := .mk .chiSquareEP [Samples.c [3] 0] .nil
  let n₀ : Dist Cls := .mk .chiSquareNP [Samples.c [3] 0] .nil
  have hw : WF n₀ := by
    simp [n₀, WF, WFs, ClassTable.fields, ClassTable.isJoint, Cls.fields, Cls.isJoint, Subs.names]
  have hwp : WF p := by
    simp [p, WF, WFs, ClassTable.fields, ClassTable.isJoint, Cls.fields, Cls.isJoint, Subs.names]
  have hd : FitsAll true [3] n₀ := by
    refine ⟨⟨1, rfl, ⟨_, Cls.adjust_eq (c := .chiSquareNP)
      (f := ⟨"k_over_two_minus_one", .scalar (Ring.mkReal (some (-1)) none), false⟩)
      (by simp [Cls.fields]) _ (by simp), ?_⟩, trivial⟩, trivial⟩
    refine ⟨rfl, fun _ i hi => ⟨?_, by simp⟩⟩
    simp only [if_true, Option.map_some, Option.mem_def, Option.some.injEq, forall_eq',
      Samples.openMin_neg_one]
    rw [Samples.full_get (rs := [3]) hi]
    linarith [MachEps.lt]
  have hdp : EachDeclared (fun d s v => Fits s false d [3] v) p := by
    refine ⟨⟨1, rfl, ?_⟩, trivial⟩
    intro fv hfv
    simp only [varPairs, ClassTable.fields, Cls.fields] at hfv
    simp at hfv
    subst hfv
    exact ⟨rfl, fun h => absurd h (by simp)⟩
  obtain ⟨fl, y, h1, h2⟩ := C01_flatten_unflatten_mapped hw hd
  obtain ⟨fl', y', h3, h4⟩ := C02_flatten_unflatten_raw hwp hdp
  have hy : y'.rshape = [1, 3] := C04_flattened_shape hwp (fitsAll_of_declared hwp hdp) h3
  have hs : p.searchToNatural y = .ok n₀ := by
    have := createFlattener_eq (p := p) (n := n₀) rfl rfl rfl rfl h1
    simp only [Dist.searchToNatural, p, Dist.cls, ClassTable.natCls, Cls.natCls]
    simp only [n₀, Dist.cls] at this
    simp only [p] at this
    rw [this]
    exact h2
  refine ⟨p, n₀, fl, y, rfl, rfl, hw, rfl, rfl, rfl, h1, hs, ?_, hwp, hdp⟩
  simp only [Dist.searchGradient, hs, h3, bind, Except.bind, subArr, if_pos]
  refine congrArg _ (Arr.ext hy fun i hi => ?_)
  have hi : inB y'.rshape i = true := hi
  rw [Arr.ofFn_get hi, sub_self, Samples.full_get (hy ▸ hi)]

end Efax
