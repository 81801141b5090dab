import Verif.Lemmas.Valid3

/-!
# Whatever is unflattened is a distribution (C76)
-/

namespace Efax

open Spec ClassTable

open scoped ComplexOrder

variable [MachEps] {solve : Solver} {rs rs₀ : List ℕ}

/-- **C76.** Make a flattener from a batch of distributions of any kind, simple or joint.  If it accepts
an array in mapped mode, the result has parameters in the natural domain, i.e. is a batch of
distributions of the same kind, if and only if the vectors of its von Mises-Fisher distributions are not
zero and the matrices of its multivariate normal distributions are negative definite.  The batch shape
may change, if there are no fixed parameters. -/
theorem C76_unflatten {K : Kind Cls} {S : Setting K} (hS : LibrarySetting solve K S) {p q : Dist Cls}
    {fl : Flattener Cls} {y₀ y : Arr ℝ} {n : ℕ} (hp : ValidOf K S rs₀ p)
    (hfl : flatten p true = .ok (fl, y₀)) (hy : y.rshape = n :: rs) (hq : fl.unflatten y = .ok q)
    (hne : rs = rs₀ ∨ (∃ i, inB rs₀ i = true) ∧ AllClasses NoFixed p) :
    ValidOf K S rs q ↔ AllDefinite rs q := by
  constructor
  · rintro ⟨p', q', rfl, hi⟩
    exact nat_definite hS p' q' hi
  intro hd
  obtain ⟨p₀, q₀, rfl, hi⟩ := hp
  have hw := nat_wf (rs := rs₀) hS p₀ q₀
  obtain ⟨h1, h2, h3⟩ := flatten_eq_ok hfl
  have hdec := unflatten_decode hw h1 h2 hy
  have hn : n = flatSize (K.nat rs₀ p₀ q₀) := by
    by_contra hn
    rcases hdec.2 hn with h4 | ⟨_, h4⟩ <;> (rw [hq] at h4; cases h4)
  rcases hdec.1 hn with ⟨q', h4, h5, h6, h7, h8, h9⟩ | ⟨_, h4⟩
  · rw [hq] at h4
    cases h4
    rw [h3] at h7 h9
    refine valid_of_same hS ⟨p₀, q₀, rfl, hi⟩ hw h5 h6 h1 (flatten_eq_ok h9).1 h8
      (EachParam.imp' (fun d t v h => GoodField.of_lies h) h7) hd hne
  · rw [hq] at h4
    cases h4

/-- **C76.** Whatever is unflattened in mapped mode is a batch of distributions of the same kind, if
there is no von Mises-Fisher distribution and no multivariate normal distribution with a matrix. -/
theorem C76_unflatten_valid {K : Kind Cls} {S : Setting K} (hS : LibrarySetting solve K S) {p q : Dist Cls}
    {fl : Flattener Cls} {y₀ y : Arr ℝ} {n : ℕ} (hp : ValidOf K S rs₀ p) (hc : AllClasses NeedsNothing p)
    (hfl : flatten p true = .ok (fl, y₀)) (hy : y.rshape = n :: rs) (hq : fl.unflatten y = .ok q)
    (hne : rs = rs₀ ∨ (∃ i, inB rs₀ i = true) ∧ AllClasses NoFixed p) : ValidOf K S rs q := by
  refine (C76_unflatten hS hp hfl hy hq hne).2 (allDefinite_of ?_)
  obtain ⟨p₀, q₀, rfl, hi⟩ := hp
  have hw := nat_wf (rs := rs₀) hS p₀ q₀
  obtain ⟨h1, h2, h3⟩ := flatten_eq_ok hfl
  have hdec := unflatten_decode hw h1 h2 hy
  have hn : n = flatSize (K.nat rs₀ p₀ q₀) := by
    by_contra hn
    rcases hdec.2 hn with h4 | ⟨_, h4⟩ <;> (rw [hq] at h4; cases h4)
  rcases hdec.1 hn with ⟨q', h4, _, h6, _⟩ | ⟨_, h4⟩
  · rw [hq] at h4
    cases h4
    exact SameTree.classes h6 hc
  · rw [hq] at h4
    cases h4

/-- A batch of three gamma distributions. -/
theorem Samples.gamma_valid : ValidOf (Simple.gamma.kind solve) (Simple.gamma.setting solve) [3] Samples.gamma :=
  ⟨fun _ => (), fun _ => (-1, 0), rfl, fun _ _ => ⟨trivial, by norm_num, by norm_num⟩⟩

/-- Non-vacuity of C76: a batch of five gamma distributions is unflattened with the flattener made from a
batch of three. -/
example : ∃ fl y₀ q, flatten Samples.gamma true = .ok (fl, y₀) ∧
    fl.unflatten (Arr.full [2, 5] 0) = .ok q ∧ AllClasses NeedsNothing Samples.gamma ∧
    (∃ i, inB [3] i = true) ∧ AllClasses NoFixed Samples.gamma ∧
    ValidOf (Simple.gamma.kind solve) (Simple.gamma.setting solve) [5] q := by
  have hw : WF Samples.gamma := nat_wf (solve := solve) (.simple .gamma) (fun _ => ()) fun _ => (-1, 0)
  obtain ⟨fl, y, h1, h2⟩ := C01_flatten_unflatten_mapped hw (Samples.joint_fits true).2.1
  have hs : ¬ HasSingular Samples.gamma := by
    simp [Samples.gamma, HasSingular, HasSingulars, varFields, ClassTable.fields, Cls.fields, Singular,
      Support.ring, Ring.negativeSupport, Ring.mkReal]
  obtain ⟨q, h3, _⟩ := C03_unflatten_accepts (y := Arr.full [2, 5] 0) (batch := [5]) hw h1 (fun _ => hs) rfl
  have hc : AllClasses NeedsNothing Samples.gamma := ⟨by simp [NeedsNothing], trivial⟩
  have hn : AllClasses NoFixed Samples.gamma := ⟨by simp [NoFixed, Cls.fields], trivial⟩
  exact ⟨fl, y, q, h1, h3, hc, ⟨[0], rfl⟩, hn, C76_unflatten_valid (.simple .gamma) Samples.gamma_valid hc h1 rfl
    h3 (.inr ⟨⟨[0], rfl⟩, hn⟩)⟩

/-! ## The three families -/

theorem infosOf_leaf {c : Cls} {v : List Val} {d : ℕ} (h : dimensions c v = .ok d) :
    infosOf (.mk c v .nil) = .ok [⟨[], c, d, []⟩] := by
  simp [infosOf, Dist.walk, Subs.walk, makeInfo, Dist.cls, Dist.vals, Dist.subs, Subs.names, h, Bind.bind,
    Except.bind, pure, Except.pure]

/-- Two simple distributions of a class without fixed parameters, of the same dimension, give the same
flattener, which returns the second one for some array. -/
theorem unflatten_other {c : Cls} {v v' : List Val} {d : ℕ} (h : dimensions c v = .ok d)
    (h' : dimensions c v' = .ok d) (hn : NoFixed c) (hw : WF (.mk c v .nil : Dist Cls))
    (hw' : WF (.mk c v' .nil : Dist Cls)) (hf : FitsAll true rs (.mk c v' .nil : Dist Cls)) {fl : Flattener Cls}
    {y₀ : Arr ℝ} (hfl : flatten (.mk c v .nil) true = .ok (fl, y₀)) :
    ∃ y, fl.unflatten y = .ok (.mk c v' .nil) ∧ ∃ n, y.rshape = n :: rs := by
  obtain ⟨fl', y, h1, h2⟩ := C01_flatten_unflatten_mapped hw' hf
  obtain ⟨a1, a2, a3⟩ := flatten_eq_ok hfl
  obtain ⟨b1, b2, b3⟩ := flatten_eq_ok h1
  have hx : ∀ {w : List Val}, WF (.mk c w .nil : Dist Cls) →
      parameters (.mk c w .nil : Dist Cls) (some true) = [] := by
    intro w hw
    have : nodeParams (some true) c w = [] := List.map_eq_nil_iff.1 (fixedOf_nil hn w)
    rw [parameters_eq hw]
    simp [Dist.paramList, Subs.paramList, this]
  have : fl = fl' := by
    rw [infosOf_leaf h] at a1
    rw [infosOf_leaf h'] at b1
    rw [hx hw] at a2
    rw [hx hw'] at b2
    cases fl
    cases fl'
    simp only at a1 a2 a3 b1 b2 b3
    subst a2 a3 b2 b3
    rw [Except.ok.inj (a1.symm.trans b1)]
  subst this
  exact ⟨y, h2, _, C04_flattened_shape hw' hf h1⟩

theorem not_valid {c : Cls} {v : List Val} (h : ¬ Definite rs c v) : ¬ Valid solve rs (.mk c v .nil) := by
  rintro ⟨K, S, hS, p, q, e, hi⟩
  have := nat_definite hS p q hi
  rw [← e] at this
  exact h this.1

theorem fits_real {sup : List ℕ} {v : Val} {g : ℝ} {a : Arr ℝ} (hv : v = .real a) (h : a.rshape = sup ++ rs) :
    InRing (.real none none g) true sup rs v := by
  subst hv
  exact ⟨h, fun _ i _ => ⟨by simp, by simp⟩⟩

theorem vmf_zero_fits (d : ℕ) (rs : List ℕ) :
    FitsAll true rs (.mk Cls.vonMisesFisherNP [.real (vectors rs fun _ (_ : Fin d) => (0 : ℝ))] .nil) :=
  ⟨⟨d, rfl, ⟨_, Cls.adjust_eq (c := .vonMisesFisherNP)
    (f := ⟨"mean_times_concentration", .vector Ring.realField, false⟩) (by simp [Cls.fields]) [] (by simp),
    fits_real (g := 1) rfl rfl⟩, trivial⟩, trivial⟩

/-- The unit matrix for every entry. -/
def oneMatrix (d : ℕ) (_ : List ℕ) : Matrix (Fin d) (Fin d) ℝ := 1

theorem mvn_one_fits (d : ℕ) (rs : List ℕ) :
    FitsAll true rs (.mk Cls.mvNormalNP [.real (vectors rs fun _ (_ : Fin d) => (0 : ℝ)),
      .real (matrices rs (oneMatrix d))] .nil) := by
  have hadj : ∀ f ∈ Cls.fields .mvNormalNP, ∀ kw, adjust Cls.mvNormalNP f.name kw = .ok f.support :=
    fun f hf kw => Cls.adjust_eq hf kw (by simp)
  have hsym : IsSymm false d rs (.real (matrices rs (oneMatrix d))) := by
    intro r c j hr hc hj
    rw [matrices_get rs j hj _ hr hc, matrices_get rs j hj _ hc hr]
    simp [oneMatrix, Matrix.one_apply, eq_comm]
  exact ⟨⟨d, rfl, ⟨_, hadj _ (.head _) _, fits_real (g := 1) rfl rfl⟩, ⟨_, hadj _ (.tail _ (.head _)) _,
      fits_real (g := 1) rfl rfl, hsym⟩, trivial⟩, trivial⟩

/-- The matrix of ones for every entry. -/
def onesMatrix (d : ℕ) (_ : List ℕ) : Matrix (Fin d) (Fin d) ℂ := Matrix.of fun _ _ => 1

theorem ccsn_ones_fits (d : ℕ) (rs : List ℕ) :
    FitsAll true rs (.mk Cls.ccsnNP [.complex (matrices rs (onesMatrix d))] .nil) := by
  have hadj : ∀ f ∈ Cls.fields .ccsnNP, ∀ kw, adjust Cls.ccsnNP f.name kw = .ok f.support :=
    fun f hf kw => Cls.adjust_eq hf kw (by simp)
  have hA : ∀ j, inB rs j = true → ∀ {r c : ℕ}, r < d → c < d →
      (matrices rs (onesMatrix d)).get (c :: r :: j) = 1 :=
    fun j hj r c hr hc => matrices_get rs j hj (onesMatrix d) hr hc
  have hfit : Fits (.symmetric Ring.complexField false true true) true d rs (.complex (matrices rs (onesMatrix d))) := by
    refine ⟨⟨rfl, fun _ => ⟨.inl rfl, by simp, ?_⟩⟩, ?_⟩
    · intro k j hk hj
      match k, hk with
      | [_], hk => simp [inB] at hk
      | _ :: _ :: _ :: _, hk => simp [inB] at hk
      | [c, r], hk =>
        simp only [inB, Bool.and_eq_true, decide_eq_true_eq, and_true] at hk
        rw [show [c, r] ++ j = c :: r :: j from rfl, hA j hj hk.2 hk.1]
        simp [boundVal, Arr.full, Arr.ofFn, inB]
    · intro r c j hr hc hj
      rw [hA j hj hr hc, hA j hj hc hr]
      simp
  exact ⟨⟨d, rfl, ⟨_, hadj _ (.head _) _, hfit⟩, trivial⟩, trivial⟩

/-- **C76**, negation.  For some arrays, a flattener made from a von Mises-Fisher distribution returns
an object that is not a distribution, of any kind: one with the zero vector, whose direction and
log-normalizer are 0 / 0.  `to_exp()` and `log_normalizer()` of the object divide by its norm. -/
theorem C76_von_mises_fisher_negation {d : ℕ} (p : List ℕ → ((Simple.vonMisesFisher d).kind solve).P)
    (q : List ℕ → ((Simple.vonMisesFisher d).kind solve).N) {fl : Flattener Cls} {y₀ : Arr ℝ}
    (hfl : flatten (((Simple.vonMisesFisher d).kind solve).nat rs₀ p q) true = .ok (fl, y₀))
    {i : List ℕ} (hi : inB rs i = true) :
    ∃ y r n, y.rshape = n :: rs ∧ fl.unflatten y = .ok r ∧ ∀ solve', ¬ Valid solve' rs r := by
  obtain ⟨y, h1, n, h2⟩ := unflatten_other (rs := rs) (c := .vonMisesFisherNP) (d := d)
    (v' := [.real (vectors rs fun _ (_ : Fin d) => (0 : ℝ))]) rfl rfl (by simp [NoFixed, Cls.fields])
    (nat_wf (.simple (.vonMisesFisher d)) p q) (nat_wf (solve := solve) (.simple (.vonMisesFisher d)) (fun _ => ())
      (fun _ => (0 : EuclideanSpace ℝ (Fin d))))
    (vmf_zero_fits d rs) hfl
  refine ⟨y, _, n, h2, h1, fun solve' => not_valid fun h => ?_⟩
  obtain ⟨k, hk, hne⟩ := h i hi
  exact hne (vectors_get rs i hi (fun _ (_ : Fin d) => (0 : ℝ)) hk)

/-- **C76**, negation.  For some arrays, a flattener made from a multivariate normal distribution
returns an object that is not a distribution: the matrix is only declared to be negative semidefinite,
which flattening does not ensure either. -/
theorem C76_multivariate_normal_negation {d : ℕ} (hd : 0 < d) (p : List ℕ → ((Simple.mvNormal d).kind solve).P)
    (q : List ℕ → ((Simple.mvNormal d).kind solve).N) {fl : Flattener Cls} {y₀ : Arr ℝ}
    (hfl : flatten (((Simple.mvNormal d).kind solve).nat rs₀ p q) true = .ok (fl, y₀))
    {i : List ℕ} (hi : inB rs i = true) :
    ∃ y r n, y.rshape = n :: rs ∧ fl.unflatten y = .ok r ∧ ∀ solve', ¬ Valid solve' rs r := by
  obtain ⟨y, h1, n, h2⟩ := unflatten_other (rs := rs) (c := .mvNormalNP) (d := d)
    (v' := [.real (vectors rs fun _ (_ : Fin d) => (0 : ℝ)), .real (matrices rs (oneMatrix d))]) rfl rfl
    (by simp [NoFixed, Cls.fields])
    (nat_wf (.simple (.mvNormal d)) p q) (nat_wf (solve := solve) (.simple (.mvNormal d)) (fun _ => ())
      (fun i => (fun _ => 0, oneMatrix d i)))
    (mvn_one_fits d rs) hfl
  refine ⟨y, _, n, h2, h1, fun solve' => not_valid fun h => ?_⟩
  have h := h i hi
  have h2 := h.diag_pos (i := ⟨0, hd⟩)
  have h3 : (matrices rs (oneMatrix d)).get (0 :: 0 :: i) = 1 := by
    rw [matrices_get rs i hi _ hd hd, oneMatrix, Matrix.one_apply_eq]
  rw [Matrix.neg_apply, Matrix.of_apply, h3] at h2
  norm_num at h2

/-- **C76**, negation.  The same for the circularly symmetric complex normal distribution. -/
theorem C76_complex_circular_negation {d : ℕ} (hd : 0 < d) (p : List ℕ → ((Simple.cmvCircular d).kind solve).P)
    (q : List ℕ → ((Simple.cmvCircular d).kind solve).N) {fl : Flattener Cls} {y₀ : Arr ℝ}
    (hfl : flatten (((Simple.cmvCircular d).kind solve).nat rs₀ p q) true = .ok (fl, y₀))
    {i : List ℕ} (hi : inB rs i = true) :
    ∃ y r n, y.rshape = n :: rs ∧ fl.unflatten y = .ok r ∧ ∀ solve', ¬ Valid solve' rs r := by
  have hA : ∀ j, inB rs j = true → ∀ {r c : ℕ}, r < d → c < d → (matrices rs (onesMatrix d)).get (c :: r :: j) = 1 :=
    fun j hj r c hr hc => matrices_get rs j hj (onesMatrix d) hr hc
  obtain ⟨y, h1, n, h2⟩ := unflatten_other (rs := rs) (c := .ccsnNP) (d := d)
    (v' := [.complex (matrices rs (onesMatrix d))]) rfl rfl
    (by simp [NoFixed, Cls.fields])
    (nat_wf (.simple (.cmvCircular d)) p q) (nat_wf (solve := solve) (.simple (.cmvCircular d)) (fun _ => ()) (onesMatrix d))
    (ccsn_ones_fits d rs) hfl
  refine ⟨y, _, n, h2, h1, fun solve' => not_valid fun h => ?_⟩
  have h := h i hi
  have h2 := h.diag_pos (i := ⟨0, hd⟩)
  rw [Matrix.neg_apply, Matrix.of_apply, hA i hi hd hd, Left.neg_pos_iff] at h2
  exact absurd h2 (by simp [Complex.lt_def])

/-- Non-vacuity of the negations: such flatteners exist. -/
example : ∃ fl y₀, flatten (((Simple.vonMisesFisher 2).kind solve).nat [3] (fun _ => ())
    (fun _ => (0 : EuclideanSpace ℝ (Fin 2)))) true = .ok (fl, y₀) := by
  obtain ⟨fl, y, h1, _⟩ := C01_flatten_unflatten_mapped
    (nat_wf (solve := solve) (.simple (.vonMisesFisher 2)) (fun _ => ()) (fun _ => (0 : EuclideanSpace ℝ (Fin 2))))
    (vmf_zero_fits 2 [3])
  exact ⟨fl, y, h1⟩

example : ∃ fl y₀, flatten (((Simple.mvNormal 2).kind solve).nat [3] (fun _ => ())
    (fun i => (fun _ => 0, oneMatrix 2 i))) true = .ok (fl, y₀) := by
  obtain ⟨fl, y, h1, _⟩ := C01_flatten_unflatten_mapped
    (nat_wf (solve := solve) (.simple (.mvNormal 2)) (fun _ => ()) (fun i => (fun _ => 0, oneMatrix 2 i)))
    (mvn_one_fits 2 [3])
  exact ⟨fl, y, h1⟩

example : ∃ fl y₀, flatten (((Simple.cmvCircular 2).kind solve).nat [3] (fun _ => ()) (onesMatrix 2)) true =
    .ok (fl, y₀) := by
  obtain ⟨fl, y, h1, _⟩ := C01_flatten_unflatten_mapped
    (nat_wf (solve := solve) (.simple (.cmvCircular 2)) (fun _ => ()) (onesMatrix 2)) (ccsn_ones_fits 2 [3])
  exact ⟨fl, y, h1⟩

end Efax
