import Verif.Lemmas.Valid
import Verif.Props.Families.Search

/-!
# Simple distributions with parameters in their supports are valid
-/

namespace Efax

open Spec ClassTable

open scoped ComplexOrder

variable [MachEps] {solve : Solver} {rs : List ℕ} {d : ℕ} {v : Val}

/-- Type, shape and bounds, except for integers. -/
def GoodRing (r : Ring) (sup rs : List ℕ) (v : Val) : Prop :=
  (∃ mn mx, r = .integral mn mx) ∨ BoundedBy r sup rs v

/-- Type, shape and bounds; nothing is said about definiteness. -/
def GoodField (d : ℕ) (rs : List ℕ) (t : Support) (v : Val) : Prop :=
  match t with
  | .scalar r => GoodRing r [] rs v
  | .vector r => GoodRing r [d] rs v
  | .symmetric r _ _ _ => GoodRing r [d, d] rs v
  | _ => True

theorem GoodField.scalar {mn mx : Option ℝ} {g : ℝ} (h : GoodField d rs (.scalar (.real mn mx g)) v) :
    ∃ q, v = .real (scalars rs q) ∧ ∀ i, inB rs i = true → (∀ m ∈ mn, m ≤ q i) ∧ ∀ M ∈ mx, q i ≤ M := by
  obtain ⟨h1, h2⟩ := h.resolve_left (by simp)
  cases v with
  | real a => exact ⟨a.get, congrArg Val.real (Arr.eq_scalars' h1), h2⟩
  | complex => exact h2.elim
  | bool => exact h2.elim
  | int => exact h2.elim

theorem GoodField.vector {mn mx : Option ℝ} {g : ℝ} (h : GoodField d rs (.vector (.real mn mx g)) v) :
    ∃ q : List ℕ → Fin d → ℝ, v = .real (vectors rs q) ∧ ∀ i, inB rs i = true → ∀ k,
      (∀ m ∈ mn, m ≤ q i k) ∧ ∀ M ∈ mx, q i k ≤ M := by
  obtain ⟨h1, h2⟩ := h.resolve_left (by simp)
  cases v with
  | real a =>
    exact ⟨_, congrArg Val.real (Arr.eq_vectors h1), fun i hi k => h2 (k.1 :: i) ((inB_cons ..).2 ⟨k.2, hi⟩)⟩
  | complex => exact h2.elim
  | bool => exact h2.elim
  | int => exact h2.elim

theorem GoodField.matrix {mn mx : Option ℝ} {g : ℝ} {a b c : Bool}
    (h : GoodField d rs (.symmetric (.real mn mx g) a b c) v) :
    ∃ q : List ℕ → Matrix (Fin d) (Fin d) ℝ, v = .real (matrices rs q) := by
  obtain ⟨h1, h2⟩ := h.resolve_left (by simp)
  cases v with
  | real a => exact ⟨_, congrArg Val.real (Arr.eq_matrices h1)⟩
  | complex => exact h2.elim
  | bool => exact h2.elim
  | int => exact h2.elim

theorem GoodField.cscalar {mn : Arr ℝ} {mx : Option (Arr ℝ)}
    (h : GoodField d rs (.scalar (.complex mn mx)) v) : ∃ q, v = .complex (scalars rs q) ∧
      ∀ i, inB rs i = true → ∀ M ∈ mx, ‖q i‖ < boundVal mn i + boundVal M i := by
  obtain ⟨h1, h2⟩ := h.resolve_left (by simp)
  cases v with
  | complex a =>
    exact ⟨a.get, congrArg Val.complex (Arr.eq_scalars' h1), fun i hi => (h2 [] i rfl hi).2⟩
  | real => exact h2.elim
  | bool => exact h2.elim
  | int => exact h2.elim

theorem GoodField.cvector {mn : Arr ℝ} {mx : Option (Arr ℝ)}
    (h : GoodField d rs (.vector (.complex mn mx)) v) :
    ∃ q : List ℕ → Fin d → ℂ, v = .complex (vectors rs q) := by
  obtain ⟨h1, h2⟩ := h.resolve_left (by simp)
  cases v with
  | complex a => exact ⟨_, congrArg Val.complex (Arr.eq_vectors h1)⟩
  | real => exact h2.elim
  | bool => exact h2.elim
  | int => exact h2.elim

theorem GoodField.cmatrix {mn : Arr ℝ} {mx : Option (Arr ℝ)} {a b c : Bool}
    (h : GoodField d rs (.symmetric (.complex mn mx) a b c) v) :
    ∃ q : List ℕ → Matrix (Fin d) (Fin d) ℂ, v = .complex (matrices rs q) := by
  obtain ⟨h1, h2⟩ := h.resolve_left (by simp)
  cases v with
  | complex a => exact ⟨_, congrArg Val.complex (Arr.eq_matrices h1)⟩
  | real => exact h2.elim
  | bool => exact h2.elim
  | int => exact h2.elim

/-- The declared supports, for the classes that do not adjust them. -/
theorem eachField_declared {c : Cls} (hc : c ≠ .complexNormalNP) {R : Support → Val → Prop} :
    {l : List (Field × Val)} → {kw : Dict String Val} → (∀ fv ∈ l, fv.1 ∈ Cls.fields c) →
    EachField R c l kw → ∀ fv ∈ l, R fv.1.support fv.2
  | [], _, _, _ => by simp
  | fv :: l, kw, hl, ⟨⟨t, h1, h2⟩, h3⟩ => by
    intro x hx
    rcases List.mem_cons.1 hx with rfl | hx
    · have h4 : adjust c x.1.name kw = .ok x.1.support :=
        Cls.adjust_eq (hl x (by simp)) kw fun h => hc h.1
      rw [h4] at h1
      cases h1
      exact h2
    · exact eachField_declared hc (fun y hy => hl y (by simp [hy])) h3 x hx

theorem negSup {q : ℝ} (h : (∀ m ∈ (none : Option ℝ), m ≤ q) ∧ ∀ M ∈ (some 0 : Option ℝ).map Ring.openMax, q ≤ M) :
    q < 0 := (h.2 (Ring.openMax 0) (by simp)).trans_lt (openMax_lt 0)

theorem minSup {m q : ℝ} {mx : Option ℝ} (h : (∀ m' ∈ (some m : Option ℝ).map Ring.openMin, m' ≤ q) ∧ ∀ M ∈ mx, q ≤ M) :
    m < q := (openMin_gt m).trans_le (h.1 (Ring.openMin m) (by simp))

theorem valid_one {c : Cls} {vals : List Val} {f : Field} (h : vals.length = (fields c).length)
    (hf : Cls.fields c = [f]) : ∃ v, vals = [v] := by
  rw [show fields c = [f] from hf] at h
  exact List.length_eq_one_iff.1 h

theorem valid_two {c : Cls} {vals : List Val} {f g : Field} (h : vals.length = (fields c).length)
    (hf : Cls.fields c = [f, g]) : ∃ v w, vals = [v, w] := by
  rw [show fields c = [f, g] from hf] at h
  exact List.length_eq_two.1 h

theorem valid_three {c : Cls} {vals : List Val} {f g e : Field} (h : vals.length = (fields c).length)
    (hf : Cls.fields c = [f, g, e]) : ∃ v w u, vals = [v, w, u] := by
  rw [show fields c = [f, g, e] from hf] at h
  exact List.length_eq_three.1 h

/-- The dimension is the length of the first parameter. -/
theorem dim_first {c : Cls} (hc : c.isMultidimensional = true) {v : Val} {l : List Val} {n d : ℕ}
    {t : List ℕ} (hv : v.rshape = n :: t) (h : dimensions c (v :: l) = .ok d) : d = n := by
  have h : Cls.dimensions c (v :: l) = .ok d := h
  rw [Cls.dimensions, if_pos hc] at h
  simp only [Val.lastDim, hv] at h
  exact (Except.ok.inj h).symm

theorem fixedOf_eq {c : Cls} {v v' : List Val} {f g : Field} {a b a' b' : Val}
    (hf : Cls.fields c = [f, g]) (hv : v = [a, b]) (hv' : v' = [a', b'])
    (h : (nodeParams (some true) c v).map (fun kv => (kv.1, kv.2.1)) =
      (nodeParams (some true) c v').map fun kv => (kv.1, kv.2.1)) :
    (f.fixed = true → a = a') ∧ (g.fixed = true → b = b') := by
  subst hv hv'
  have hf : fields c = [f, g] := hf
  simp only [nodeParams, hf, keep] at h
  cases hf1 : f.fixed <;> cases hg1 : g.fixed <;> simp_all


/-- The fixed parameters of the object. -/
noncomputable abbrev fixedOf (c : Cls) (vals : List Val) : List (String × Val) :=
  (nodeParams (some true) c vals).map fun kv => (kv.1, kv.2.1)

/-- A simple distribution is valid, if it has the dimension of a distribution of the family, its fixed
parameters are those of valid distributions, and the others have the types, shapes and bounds of their
supports. -/
theorem leaf_valid (s : Simple) {rs₀ rs : List ℕ} {p₀ : List ℕ → (s.kind solve).P}
    {q₀ : List ℕ → (s.kind solve).N} {vals : List Val} {d : ℕ} (hl : vals.length = (fields s.cls).length)
    (hd₀ : dimensions s.cls ((s.kind solve).nat rs₀ p₀ q₀).vals = .ok d)
    (hv : EachField (GoodField d rs) s.cls (varPairs s.cls vals) [])
    (hp : ∃ p, (∀ i, inB rs i = true → (s.setting solve).ok (p i)) ∧
      fixedOf s.cls ((s.kind solve).nat rs p q₀).vals = fixedOf s.cls vals)
    (hx : Definite rs s.cls vals) :
    ValidOf (s.kind solve) (s.setting solve) rs (.mk s.cls vals .nil) := by
  obtain ⟨p, hok, hfix⟩ := hp
  have hmem : ∀ fv ∈ varPairs s.cls vals, fv.1 ∈ Cls.fields s.cls := fun fv hfv =>
    (List.of_mem_zip (List.mem_filter.1 hfv).1).1
  have hdecl : s.cls ≠ .complexNormalNP → ∀ fv ∈ varPairs s.cls vals, GoodField d rs fv.1.support fv.2 :=
    fun hc => eachField_declared hc hmem hv
  match s with
  | .bernoulli =>
    obtain ⟨v, rfl⟩ := valid_one hl rfl
    obtain ⟨q, rfl, hq⟩ := GoodField.scalar (hdecl (by decide) (_, v) (.head _))
    exact ⟨p, q, rfl, fun i hi => ⟨hok i hi, trivial⟩⟩
  | .chi =>
    obtain ⟨v, rfl⟩ := valid_one hl rfl
    obtain ⟨q, rfl, hq⟩ := GoodField.scalar (hdecl (by decide) (_, v) (.head _))
    exact ⟨p, q, rfl, fun i hi => ⟨hok i hi, minSup (hq i hi)⟩⟩
  | .chiSquare =>
    obtain ⟨v, rfl⟩ := valid_one hl rfl
    obtain ⟨q, rfl, hq⟩ := GoodField.scalar (hdecl (by decide) (_, v) (.head _))
    exact ⟨p, q, rfl, fun i hi => ⟨hok i hi, minSup (hq i hi)⟩⟩
  | .exponential =>
    obtain ⟨v, rfl⟩ := valid_one hl rfl
    obtain ⟨q, rfl, hq⟩ := GoodField.scalar (hdecl (by decide) (_, v) (.head _))
    exact ⟨p, q, rfl, fun i hi => ⟨hok i hi, negSup (hq i hi)⟩⟩
  | .geometric =>
    obtain ⟨v, rfl⟩ := valid_one hl rfl
    obtain ⟨q, rfl, hq⟩ := GoodField.scalar (hdecl (by decide) (_, v) (.head _))
    exact ⟨p, q, rfl, fun i hi => ⟨hok i hi, negSup (hq i hi)⟩⟩
  | .logarithmic =>
    obtain ⟨v, rfl⟩ := valid_one hl rfl
    obtain ⟨q, rfl, hq⟩ := GoodField.scalar (hdecl (by decide) (_, v) (.head _))
    exact ⟨p, q, rfl, fun i hi => ⟨hok i hi, negSup (hq i hi)⟩⟩
  | .rayleigh =>
    obtain ⟨v, rfl⟩ := valid_one hl rfl
    obtain ⟨q, rfl, hq⟩ := GoodField.scalar (hdecl (by decide) (_, v) (.head _))
    exact ⟨p, q, rfl, fun i hi => ⟨hok i hi, negSup (hq i hi)⟩⟩
  | .unitNormal =>
    obtain ⟨v, rfl⟩ := valid_one hl rfl
    obtain ⟨q, rfl, hq⟩ := GoodField.scalar (hdecl (by decide) (_, v) (.head _))
    exact ⟨p, q, rfl, fun i hi => ⟨hok i hi, trivial⟩⟩
  | .poisson =>
    obtain ⟨v, rfl⟩ := valid_one hl rfl
    obtain ⟨q, rfl, hq⟩ := GoodField.scalar (hdecl (by decide) (_, v) (.head _))
    exact ⟨p, q, rfl, fun i hi => ⟨hok i hi, trivial⟩⟩
  | .complexUnit =>
    obtain ⟨v, rfl⟩ := valid_one hl rfl
    obtain ⟨q, rfl, hq⟩ := GoodField.cscalar (hdecl (by decide) (_, v) (.head _))
    exact ⟨p, q, rfl, fun i hi => ⟨hok i hi, trivial⟩⟩
  | .beta =>
    obtain ⟨v, rfl⟩ := valid_one hl rfl
    obtain rfl := dim_first (n := 2) rfl rfl hd₀
    obtain ⟨q, rfl, hq⟩ := GoodField.vector (hdecl (by simp [Simple.cls]) (_, v) (.head _))
    exact ⟨p, q, rfl, fun i hi => ⟨hok i hi, fun k => minSup (hq i hi k)⟩⟩
  | .dirichlet n =>
    obtain ⟨v, rfl⟩ := valid_one hl rfl
    obtain rfl := dim_first (n := n + 1) rfl rfl hd₀
    obtain ⟨q, rfl, hq⟩ := GoodField.vector (hdecl (by simp [Simple.cls]) (_, v) (.head _))
    exact ⟨p, q, rfl, fun i hi => ⟨hok i hi, fun k => minSup (hq i hi k)⟩⟩
  | .multinomial n =>
    obtain ⟨v, rfl⟩ := valid_one hl rfl
    obtain rfl := dim_first (n := n + 1) rfl rfl hd₀
    obtain ⟨q, rfl, hq⟩ := GoodField.vector (hdecl (by simp [Simple.cls]) (_, v) (.head _))
    exact ⟨p, q, rfl, fun i hi => ⟨hok i hi, trivial⟩⟩
  | .mvUnit n =>
    obtain ⟨v, rfl⟩ := valid_one hl rfl
    obtain rfl := dim_first (n := n) rfl rfl hd₀
    obtain ⟨q, rfl, hq⟩ := GoodField.vector (hdecl (by simp [Simple.cls]) (_, v) (.head _))
    exact ⟨p, q, rfl, fun i hi => ⟨hok i hi, trivial⟩⟩
  | .cmvUnit n =>
    obtain ⟨v, rfl⟩ := valid_one hl rfl
    obtain rfl := dim_first (n := n) rfl rfl hd₀
    obtain ⟨q, rfl⟩ := GoodField.cvector (hdecl (by simp [Simple.cls]) (_, v) (.head _))
    exact ⟨p, q, rfl, fun i hi => ⟨hok i hi, trivial⟩⟩
  | .vonMisesFisher n =>
    obtain ⟨v, rfl⟩ := valid_one hl rfl
    obtain rfl := dim_first (n := n) rfl rfl hd₀
    obtain ⟨q, rfl, hq⟩ := GoodField.vector (hdecl (by simp [Simple.cls]) (_, v) (.head _))
    refine ⟨p, fun i => WithLp.toLp 2 (q i), rfl, fun i hi => ⟨hok i hi, ?_⟩⟩
    intro h0
    obtain ⟨k, hk, hne⟩ := hx i hi
    have hk : k < d := hk
    rw [vectors_get rs i hi q hk] at hne
    exact hne (congrFun (congrArg WithLp.ofLp h0) ⟨k, hk⟩)
  | .cmvCircular n =>
    obtain ⟨v, rfl⟩ := valid_one hl rfl
    obtain rfl := dim_first (n := n) rfl rfl hd₀
    obtain ⟨q, rfl⟩ := GoodField.cmatrix (hdecl (by simp [Simple.cls]) (_, v) (.head _))
    refine ⟨p, q, rfl, fun i hi => ⟨hok i hi, ?_⟩⟩
    have h1 := hx i hi
    have h2 : (Matrix.of fun (r c : Fin d) => (matrices rs q).get (c.1 :: r.1 :: i)) = q i := by
      ext r c
      exact matrices_get rs i hi q r.2 c.2
    exact h2 ▸ h1
  | .mvNormal n =>
    obtain ⟨v, w, rfl⟩ := valid_two hl rfl
    obtain rfl := dim_first (n := n) rfl rfl hd₀
    obtain ⟨q, rfl, hq⟩ := GoodField.vector (hdecl (by simp [Simple.cls]) (_, v) (.head _))
    obtain ⟨r, rfl⟩ := GoodField.matrix (hdecl (by simp [Simple.cls]) (_, w) (.tail _ (.head _)))
    refine ⟨p, fun i => (q i, r i), rfl, fun i hi => ⟨hok i hi, ?_⟩⟩
    have h1 := hx i hi
    have h2 : (Matrix.of fun (k c : Fin d) => (matrices rs r).get (c.1 :: k.1 :: i)) = r i := by
      ext k c
      exact matrices_get rs i hi r k.2 c.2
    show (-(r i)).PosDef
    rw [← h2]
    exact h1
  | .gamma =>
    obtain ⟨v, w, rfl⟩ := valid_two hl rfl
    obtain ⟨q, rfl, hq⟩ := GoodField.scalar (hdecl (by simp [Simple.cls]) (_, v) (.head _))
    obtain ⟨r, rfl, hr⟩ := GoodField.scalar (hdecl (by simp [Simple.cls]) (_, w) (.tail _ (.head _)))
    exact ⟨p, fun i => (q i, r i), rfl, fun i hi => ⟨hok i hi, negSup (hq i hi), minSup (hr i hi)⟩⟩
  | .normal =>
    obtain ⟨v, w, rfl⟩ := valid_two hl rfl
    obtain ⟨q, rfl, hq⟩ := GoodField.scalar (hdecl (by simp [Simple.cls]) (_, v) (.head _))
    obtain ⟨r, rfl, hr⟩ := GoodField.scalar (hdecl (by simp [Simple.cls]) (_, w) (.tail _ (.head _)))
    exact ⟨p, fun i => (q i, r i), rfl, fun i hi => ⟨hok i hi, negSup (hr i hi)⟩⟩
  | .mvDiagonal n =>
    obtain ⟨v, w, rfl⟩ := valid_two hl rfl
    obtain rfl := dim_first (n := n) rfl rfl hd₀
    obtain ⟨q, rfl, hq⟩ := GoodField.vector (hdecl (by simp [Simple.cls]) (_, v) (.head _))
    obtain ⟨r, rfl, hr⟩ := GoodField.vector (hdecl (by simp [Simple.cls]) (_, w) (.tail _ (.head _)))
    exact ⟨p, fun i => (q i, r i), rfl, fun i hi => ⟨hok i hi, fun k => negSup (hr i hi k)⟩⟩
  | .mvIsotropic n =>
    obtain ⟨v, w, rfl⟩ := valid_two hl rfl
    obtain rfl := dim_first (n := n) rfl rfl hd₀
    obtain ⟨q, rfl, hq⟩ := GoodField.vector (hdecl (by simp [Simple.cls]) (_, v) (.head _))
    obtain ⟨r, rfl, hr⟩ := GoodField.scalar (hdecl (by simp [Simple.cls]) (_, w) (.tail _ (.head _)))
    exact ⟨p, fun i => (q i, r i), rfl, fun i hi => ⟨hok i hi, negSup (hr i hi)⟩⟩
  | .genDirichlet n =>
    obtain ⟨v, w, rfl⟩ := valid_two hl rfl
    obtain rfl := dim_first (n := n) rfl rfl hd₀
    obtain ⟨q, rfl, hq⟩ := GoodField.vector (hdecl (by simp [Simple.cls]) (_, v) (.head _))
    obtain ⟨r, rfl, hr⟩ := GoodField.vector (hdecl (by simp [Simple.cls]) (_, w) (.tail _ (.head _)))
    exact ⟨p, fun i => (q i, r i), rfl, fun i hi => ⟨hok i hi, fun k => minSup (hq i hi k), fun k => by
      have h1 : 0 ≤ ∑ j, if k ≤ j then r i j else 0 := Finset.sum_nonneg fun j _ => by
        split
        · exact (minSup (hr i hi j)).le
        · exact le_rfl
      have h2 : 0 ≤ ∑ j, if k < j then q i j + 1 else 0 := Finset.sum_nonneg fun j _ => by
        split
        · linarith [minSup (hq i hi j)]
        · exact le_rfl
      linarith⟩⟩
  | .mvFixed n =>
    obtain ⟨v, w, rfl⟩ := valid_two hl rfl
    obtain rfl := dim_first (n := n) rfl rfl hd₀
    obtain ⟨q, rfl, hq⟩ := GoodField.vector (hdecl (by simp [Simple.cls]) (_, v) (.head _))
    obtain rfl := (fixedOf_eq rfl rfl rfl hfix).2 rfl
    exact ⟨p, q, rfl, fun i hi => ⟨hok i hi, trivial⟩⟩
  | .negativeBinomial =>
    obtain ⟨v, w, rfl⟩ := valid_two hl rfl
    obtain ⟨q, rfl, hq⟩ := GoodField.scalar (hdecl (by simp [Simple.cls]) (_, v) (.head _))
    obtain rfl := (fixedOf_eq rfl rfl rfl hfix).2 rfl
    exact ⟨p, q, rfl, fun i hi => ⟨hok i hi, negSup (hq i hi)⟩⟩
  | .weibull =>
    obtain ⟨v, w, rfl⟩ := valid_two hl rfl
    obtain ⟨q, rfl, hq⟩ := GoodField.scalar (hdecl (by simp [Simple.cls]) (_, w) (.head _))
    obtain rfl := (fixedOf_eq rfl rfl rfl hfix).1 rfl
    exact ⟨p, q, rfl, fun i hi => ⟨hok i hi, negSup (hq i hi)⟩⟩
  | .complexNormal =>
    obtain ⟨v, w, u, rfl⟩ := valid_three hl rfl
    obtain ⟨⟨t1, a1, b1⟩, ⟨t2, a2, b2⟩, ⟨t3, a3, b3⟩, -⟩ := hv
    have e1 := Cls.adjust_eq (c := .complexNormalNP) (f := ⟨"mean_times_precision", .scalar Ring.complexField, false⟩)
      (by simp [Cls.fields]) [] (by simp)
    have e2 := Cls.adjust_eq (c := .complexNormalNP) (f := ⟨"negative_precision", .scalar (Ring.mkReal none (some 0)), false⟩)
      (by simp [Cls.fields]) [("mean_times_precision", v)] (by simp)
    obtain rfl := Except.ok.inj (e1.symm.trans a1)
    obtain rfl := Except.ok.inj (e2.symm.trans a2)
    obtain ⟨q, rfl, -⟩ := GoodField.cscalar b1
    obtain ⟨r, rfl, hr⟩ := GoodField.scalar b2
    have e3 : adjust Cls.complexNormalNP "pseudo_precision" [("mean_times_precision", Val.complex (scalars rs q)),
        ("negative_precision", .real (scalars rs r))] =
        .ok (.scalar (.complex (Arr.full [] 0) (some ((scalars rs r).map fun x => |-x|)))) := by
      show Cls.adjust _ _ _ = _
      rw [Cls.adjust, if_pos ⟨rfl, rfl⟩]
      rfl
    obtain rfl := Except.ok.inj (e3.symm.trans a3)
    obtain ⟨z, rfl, hz⟩ := GoodField.cscalar b3
    refine ⟨p, fun i => (q i, r i, z i), rfl, fun i hi => ⟨hok i hi, ?_⟩⟩
    have h1 := hz i hi _ rfl
    have h2 : boundVal ((scalars rs r).map fun x => |-x|) i = |-r i| := by
      have hi : inB (scalars rs r).rshape i = true := hi
      unfold boundVal
      split_ifs with h0
      · have h0 : rs = [] := h0
        subst h0
        obtain rfl : i = [] := by cases i with | nil => rfl | cons => simp [inB, scalars, Arr.ofFn] at hi
        exact (Arr.map_get hi).trans (congrArg (fun x => |-x|) (Arr.ofFn_get hi))
      · exact (Arr.map_get hi).trans (congrArg (fun x => |-x|) (Arr.ofFn_get hi))
    have h3 : boundVal (Arr.full [] (0 : ℝ)) i = 0 := by simp [boundVal, Arr.full, Arr.ofFn, inB]
    rw [h2, h3, zero_add, abs_of_pos (neg_pos.2 (negSup (hr i hi)))] at h1
    exact h1

end Efax
