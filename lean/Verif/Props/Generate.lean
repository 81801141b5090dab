import Verif.Lemmas.Generate2
import Verif.Props.Samples
import Mathlib.Tactic.NormNum

/-!
# Random distributions (C22)
-/

namespace Efax

open Spec ClassTable

variable [MachEps]

namespace Cls

theorem generates_real (batch : List ℕ) : RingGenerates Ring.realField batch :=
  ⟨zero_le_one, by simp⟩

theorem generates_min (m : ℝ) {s : ℝ} (hs : 0 ≤ s) (batch : List ℕ) :
    RingGenerates (Ring.mkReal (some m) none s) batch := ⟨hs, by simp⟩

theorem generates_max (m : ℝ) (batch : List ℕ) :
    RingGenerates (Ring.mkReal none (some m)) batch := ⟨zero_le_one, by simp⟩

theorem generates_unit (batch : List ℕ) : RingGenerates (Ring.mkReal (some 0) (some 1)) batch :=
  ⟨zero_le_one, fun m hm M hM => (ringOk_unit true batch rfl m hm M hM).le⟩

theorem generates_complex (batch : List ℕ) : RingGenerates Ring.complexField batch :=
  ⟨.inl rfl, by simp, fun j _ => ⟨by simp [boundVal, Arr.full, Arr.ofFn, inB], by simp⟩⟩

theorem generates_integral (batch : List ℕ) : RingGenerates (.integral (some 1) none) batch :=
  ⟨by simp, rfl⟩

theorem generates_symmetric (psd nsd : Bool) (h : ¬(psd = true ∧ nsd = true)) (batch : List ℕ) :
    Generates (.symmetric Ring.realField psd nsd false) batch := ⟨h, zero_le_one⟩

theorem generates_hermitian (psd nsd : Bool) (h : ¬(psd = true ∧ nsd = true)) (batch : List ℕ) :
    Generates (.symmetric Ring.complexField psd nsd true) batch := ⟨h, rfl, fun _ => rfl⟩

/-- Every declared support except the disk of `VonMisesFisherEP` can be generated. -/
theorem declared_generates {c : Cls} (hc : c ≠ vonMisesFisherEP) {f : Field} (h : f ∈ Cls.fields c)
    (batch : List ℕ) : Generates f.support batch := by
  have hr := generates_real batch
  have hm := fun m => generates_min m zero_le_one batch
  have hm3 := fun m => generates_min m (show (0 : ℝ) ≤ 3 by norm_num) batch
  have hM := fun m => generates_max m batch
  have hu := generates_unit batch
  have hz := generates_complex batch
  have hi := generates_integral batch
  have hs := fun psd nsd h => generates_symmetric psd nsd h batch
  have hh := fun psd nsd h => generates_hermitian psd nsd h batch
  cases c <;> simp only [Cls.fields, List.mem_cons, List.not_mem_nil, or_false] at h <;>
    (try rcases h with rfl | rfl | rfl) <;> (try rcases h with rfl | rfl) <;> (try subst h) <;>
    first
    | exact absurd rfl hc
    | exact hr
    | exact hm _
    | exact hm3 _
    | exact hM _
    | exact hu
    | exact hz
    | exact hi
    | exact hs _ _ (by simp)
    | exact hh _ _ (by simp)

/-- The parameters of every class except `VonMisesFisherEP` can be generated one after the other. -/
theorem classGenerates {g : Rng} {c : Cls} (hc : c ≠ vonMisesFisherEP)
    (hz : ∀ f ∈ Cls.fields c, ∀ mn mx, f.support.ring = .complex mn mx → NeverZero g)
    (batch : List ℕ) : ClassGenerates g batch c := by
  intro d pre f post hv vs hvs
  have hv : Cls.fields c = pre ++ f :: post := hv
  have hf : f ∈ Cls.fields c := by rw [hv]; simp
  by_cases hn : c = complexNormalNP ∧ f.name = "pseudo_precision"
  · obtain ⟨rfl, hn⟩ := hn
    have := adjust_pseudo hf hn
    subst this
    simp only [Cls.fields] at hv
    have hpre : pre = [⟨"mean_times_precision", .scalar Ring.complexField, false⟩,
        ⟨"negative_precision", .scalar (Ring.mkReal none (some 0)), false⟩] := by
      rcases pre with _ | ⟨a, _ | ⟨b, _ | ⟨e, pre⟩⟩⟩ <;> simp_all
    subst hpre
    obtain ⟨v1, r1, _, hvs1, rfl⟩ := List.forall₂_cons_left_iff.1 hvs
    obtain ⟨v2, r2, hl2, hvs2, rfl⟩ := List.forall₂_cons_left_iff.1 hvs1
    rw [List.forall₂_nil_left_iff] at hvs2
    subst hvs2
    have hl2 : BoundedBy (Ring.mkReal none (some 0)) [] batch v2 := hl2
    obtain ⟨hs2, hl2⟩ := hl2
    cases v2 with
    | complex a => exact hl2.elim
    | bool a => exact hl2.elim
    | int a => exact hl2.elim
    | real a =>
      have hs : a.rshape = batch := hs2
      refine ⟨.scalar (.complex (Arr.full [] 0) (some (a.map fun x => |-x|))), ?_, ?_,
        fun _ _ _ => hz _ hf _ _ rfl, ?_⟩
      · change adjust complexNormalNP "pseudo_precision" _ = _
        rw [adjust, if_pos ⟨rfl, rfl⟩]
        rfl
      · refine ⟨.inl rfl, ?_, fun j hj => ⟨?_, ?_⟩⟩
        · intro M hM
          cases hM
          exact .inr hs
        · simp [boundVal, Arr.full, Arr.ofFn, inB]
        · intro M hM
          cases hM
          have key : ∀ j, inB batch j = true → 0 < (a.map fun x => |-x|).get j := by
            intro j hj
            rw [Arr.map_get (by rw [hs]; exact hj)]
            have h3 := (hl2 j hj).2 (Ring.openMax 0) (by simp)
            have h4 : Ring.openMax 0 ≤ -MachEps.eps := by
              rw [Ring.openMax]; exact (min_le_left _ _).trans (by simp)
            have := MachEps.pos
            rw [abs_neg, abs_pos]
            linarith [h3, h4]
          unfold boundVal
          split_ifs with h0
          · refine key [] ?_
            rw [Arr.map_rshape, hs] at h0
            rw [h0]; rfl
          · exact key j hj
      · rintro v ⟨h1, h2⟩
        refine ⟨h1, ?_⟩
        cases v with
        | complex b => exact fun i j hi hj => ⟨(h2 i j hi hj).1, by simp⟩
        | real b => exact h2
        | bool b => exact h2
        | int b => exact h2
  · exact ⟨f.support, adjust_eq hf _ hn, declared_generates hc hf batch, hz f hf, fun v h => h⟩

end Cls

omit [MachEps] in
mutual
theorem AllClasses.imp {C : Type} {P Q : C → Prop} (h : ∀ c, P c → Q c) :
    {p : Dist C} → AllClasses P p → AllClasses Q p
  | .mk c _ _, hp => ⟨h c hp.1, AllClassess.imp h hp.2⟩
theorem AllClassess.imp {C : Type} {P Q : C → Prop} (h : ∀ c, P c → Q c) :
    {s : Subs C} → AllClassess P s → AllClassess Q s
  | .nil, _ => trivial
  | .cons _ _ _, hp => ⟨AllClasses.imp h hp.1, AllClassess.imp h hp.2⟩
end

/-- **C22.** For every distribution without a `VonMisesFisherEP`, every batch shape and every random
stream in the ranges of the primitive generators, `generate_random` returns a distribution with the
same classes and names and the same structure, in which every parameter has the batch shape and lies
in the support that is declared for it, and even in the support adjusted to the preceding
parameters.  If there are complex parameters, the stream must not draw the complex number zero, at
which the code divides zero by zero. -/
theorem C22_generate_random {p : Dist Cls} (hw : WF p) {L : List (Info Cls)}
    (hL : infosOf p = .ok L) {g : Rng} (hg : InRange g)
    (hc : AllClasses (fun c => c ≠ Cls.vonMisesFisherEP ∧
      ∀ f ∈ Cls.fields c, ∀ mn mx, f.support.ring = .complex mn mx → NeverZero g) p)
    (batch : List ℕ) (s : g.State) :
    ∃ q s', generateRandom L g batch s = .ok (q, s') ∧ WF q ∧ SameTree p q ∧ infosOf q = .ok L ∧
      EachValue (fun d t v => InSupport t d batch v) q ∧
      ∀ k e, SubAt q k e → ∃ d, dimensions e.cls e.vals = .ok d ∧
        ∀ fv ∈ (fields e.cls).zip e.vals, fv.2.rshape = fv.1.support.rshape d ++ batch ∧
          InSupport fv.1.support d batch fv.2 := by
  obtain ⟨q, ps, s', h1, h2, h3, h4, h5, h6, h7, _⟩ := Dist.generate_ok hg (batch := batch)
    (base := []) hw hL (AllClasses.imp (fun c hc => Cls.classGenerates hc.1 hc.2 batch) hc) [] s
  refine ⟨q, s', ?_, h2, h3, h4, EachValue.imp (fun _ _ _ h => h.1) h5, fun k e he => ?_⟩
  · simp only [generateRandom, h1, Bind.bind, Except.bind]
    rw [assemble_ok h2 ((infosOf_skel hL).trans (Dist.skel_same h3)) h7]
  · obtain ⟨d, h8, h9⟩ := h6 k e he
    exact ⟨d, h8, fun fv hfv => ⟨inSupport_rshape (h9 fv hfv), h9 fv hfv⟩⟩

/-- **C22.** The stored bounds are strictly inside the open bounds with which a real support is
declared, so that generated values lie strictly between the declared bounds. -/
theorem C22_open_bounds {mn mx : Option ℝ} {scale : ℝ} {sup batch : List ℕ} {a : Arr ℝ}
    (h : BoundedBy (Ring.mkReal mn mx scale) sup batch (.real a)) {i : List ℕ}
    (hi : inB (sup ++ batch) i = true) : (∀ m ∈ mn, m < a.get i) ∧ ∀ M ∈ mx, a.get i < M := by
  have hp := MachEps.pos
  obtain ⟨h1, h2⟩ := h.2 i hi
  refine ⟨fun m hm => ?_, fun M hM => ?_⟩
  · refine lt_of_lt_of_le ?_ (h1 (Ring.openMin m) (by simp [Option.mem_def.1 hm]))
    exact lt_of_lt_of_le (by linarith) (le_max_left _ _)
  · refine lt_of_le_of_lt (h2 (Ring.openMax M) (by simp [Option.mem_def.1 hM])) ?_
    exact lt_of_le_of_lt (min_le_left _ _) (by linarith)

/-- **C22.** The pseudo-precision of a generated complex normal distribution is smaller in modulus
than its precision, as the family requires. -/
theorem C22_pseudo_precision {batch : List ℕ} {m : Val} {a : Arr ℝ} {b : Arr ℂ}
    (h : EachValue (fun d t v => InSupport t d batch v)
      (.mk Cls.complexNormalNP [m, .real a, .complex b] .nil)) {j : List ℕ}
    (hj : inB batch j = true) : ‖b.get j‖ < |a.get j| := by
  obtain ⟨⟨d, _, _, ⟨t2, h2, h3⟩, ⟨t, h4, h5⟩, _⟩, _⟩ := h
  have ht2 : t2 = .scalar (Ring.mkReal none (some 0)) := by
    have : Cls.adjust .complexNormalNP "negative_precision" _ = .ok t2 := h2
    rw [Cls.adjust_eq (f := ⟨"negative_precision", .scalar (Ring.mkReal none (some 0)), false⟩)
      (by simp [Cls.fields]) _ (by simp)] at this
    exact (Except.ok.inj this).symm
  subst ht2
  have hs : a.rshape = batch := h3.1
  have ht : t = .scalar (.complex (Arr.full [] 0) (some (a.map fun x => |-x|))) := by
    have : Cls.adjust .complexNormalNP "pseudo_precision" _ = .ok t := h4
    rw [Cls.adjust, if_pos ⟨rfl, rfl⟩] at this
    exact (Except.ok.inj this).symm
  subst ht
  have := (h5.2 [] j rfl hj).2 _ rfl
  have hb : boundVal (a.map fun x => |-x|) j = |a.get j| := by
    unfold boundVal
    have hj' : inB a.rshape j = true := by rwa [hs]
    split_ifs with h0
    · have h0 : a.rshape = [] := h0
      have : j = [] := by
        rw [h0] at hj'
        cases j with
        | nil => rfl
        | cons k j => simp [inB] at hj'
      subst this
      rw [Arr.map_get hj', abs_neg]
    · rw [Arr.map_get hj', abs_neg]
  rw [hb] at this
  simpa [boundVal, Arr.full, Arr.ofFn, inB] using this

namespace Samples

/-- A generator whose primitive draws are constant. -/
noncomputable def constant (e u n : ℝ) (b : ℤ) : Rng where
  State := Unit
  exponential rs _ := (Arr.full rs e, ())
  uniform rs _ := (Arr.full rs u, ())
  normal rs _ := (Arr.full rs n, ())
  binomial rs _ := (Arr.full rs b, ())

theorem constant_inRange {e u n : ℝ} {b : ℤ} (he : 0 ≤ e) (hu : 0 ≤ u) (hu1 : u < 1)
    (hb : b = 0 ∨ b = 1) : InRange (constant e u n b) where
  exponential_shape _ _ := rfl
  exponential_nonneg rs _ i hi := by
    change 0 ≤ (Arr.full rs e).get i
    rwa [full_get hi]
  uniform_shape _ _ := rfl
  uniform_nonneg rs _ i hi := by
    change 0 ≤ (Arr.full rs u).get i
    rwa [full_get hi]
  uniform_lt rs _ i hi := by
    change (Arr.full rs u).get i < 1
    rwa [full_get hi]
  normal_shape _ _ := rfl
  binomial_shape _ _ := rfl
  binomial_mem rs _ i hi := by
    change (Arr.full rs b).get i = 0 ∨ (Arr.full rs b).get i = 1
    rwa [show (Arr.full rs b).get i = b from Arr.ofFn_get hi]

theorem constant_neverZero {e u n : ℝ} {b : ℤ} (hn : n ≠ 0) : NeverZero (constant e u n b) := by
  intro rs s i hi
  left
  change (Arr.full rs n).get i ≠ 0
  rwa [full_get hi]

end Samples

/-- Non-vacuity of C22: the nested sample (a gamma distribution next to a Weibull and a normal
distribution), a complex normal distribution, and a generator. -/
example : ∃ g : Rng, InRange g ∧ NeverZero g ∧ ∃ L, infosOf Samples.joint = .ok L ∧
    AllClasses (fun c => c ≠ Cls.vonMisesFisherEP ∧
      ∀ f ∈ Cls.fields c, ∀ mn mx, f.support.ring = .complex mn mx → NeverZero g) Samples.joint ∧
    Cls.complexNormalNP ≠ Cls.vonMisesFisherEP := by
  have hz := Samples.constant_neverZero (e := 1) (u := 0) (b := 0) one_ne_zero
  refine ⟨Samples.constant 1 0 1 0, Samples.constant_inRange (by norm_num) le_rfl (by norm_num)
    (.inl rfl), hz, _, rfl, ?_, by simp⟩
  refine ⟨⟨by simp, fun _ _ _ _ _ => hz⟩, ⟨⟨by simp, fun _ _ _ _ _ => hz⟩, trivial⟩,
    ⟨⟨by simp, fun _ _ _ _ _ => hz⟩, ⟨⟨by simp, fun _ _ _ _ _ => hz⟩, trivial⟩,
      ⟨⟨by simp, fun _ _ _ _ _ => hz⟩, trivial⟩, trivial⟩, trivial⟩

/-- Non-vacuity of `C22_pseudo_precision`: `generate_random` returns such distributions. -/
example (batch : List ℕ) : ∃ (m : Val) (a : Arr ℝ) (b : Arr ℂ),
    EachValue (fun d t v => InSupport t d batch v)
      (.mk Cls.complexNormalNP [m, .real a, .complex b] .nil) := by
  have hz := Samples.constant_neverZero (e := 1) (u := 0) (b := 0) one_ne_zero
  obtain ⟨⟨c, vals, subs⟩, _, _, h1, ⟨rfl, h2⟩, _, h3, _⟩ := C22_generate_random
    (p := .mk .complexNormalNP [.complex (Arr.full [] 0), .real (Arr.full [] (-1)),
      .complex (Arr.full [] 0)] .nil)
    (by simp [WF, WFs, fields, isJoint, Cls.fields, Cls.isJoint, Subs.names]) rfl
    (Samples.constant_inRange (n := 1) (by norm_num) le_rfl (by norm_num) (.inl rfl))
    ⟨⟨by simp, fun _ _ _ _ _ => hz⟩, trivial⟩ batch ()
  cases subs with
  | cons => exact h2.elim
  | nil =>
    have hl : vals.length = 3 := h1.1
    match vals, hl with
    | [m, x, y], _ =>
      obtain ⟨⟨d, _, _, ⟨t2, h4, h5⟩, ⟨t, h6, h7⟩, _⟩, _⟩ := id h3
      have ht2 : t2 = .scalar (Ring.mkReal none (some 0)) := by
        have : Cls.adjust .complexNormalNP "negative_precision" _ = .ok t2 := h4
        rw [Cls.adjust_eq (f := ⟨"negative_precision", .scalar (Ring.mkReal none (some 0)), false⟩)
          (by simp [Cls.fields]) _ (by simp)] at this
        exact (Except.ok.inj this).symm
      subst ht2
      cases x with
      | complex a => exact h5.2.elim
      | bool a => exact h5.2.elim
      | int a => exact h5.2.elim
      | real a =>
        have ht : t = .scalar (.complex (Arr.full [] 0) (some (a.map fun x => |-x|))) := by
          have : Cls.adjust .complexNormalNP "pseudo_precision" _ = .ok t := h6
          rw [Cls.adjust, if_pos ⟨rfl, rfl⟩] at this
          exact (Except.ok.inj this).symm
        subst ht
        cases y with
        | real b => exact h7.2.elim
        | bool b => exact h7.2.elim
        | int b => exact h7.2.elim
        | complex b => exact ⟨m, a, b, h3⟩

/-- Non-vacuity of `C22_open_bounds`. -/
example : BoundedBy (Ring.mkReal (some 0) none) [] [] (.real (Arr.full [] 1)) := by
  refine ⟨rfl, fun i hi => ⟨?_, by simp⟩⟩
  simp only [if_true, Option.map_some, Option.mem_def, Option.some.injEq, forall_eq',
    Samples.openMin_zero]
  rw [Samples.full_get (rs := []) hi]
  linarith [MachEps.lt]

/-- **C22** is violated by `VonMisesFisherEP`: `CircularBoundedSupport` inherits `generate` from
`VectorSupport` and ignores its radius, so that the generated mean can lie outside the unit disk.
Here both coordinates are drawn to be 1. -/
theorem C22_disk_negation : ∃ (p : Dist Cls) (L : List (Info Cls)) (g : Rng) (s s' : g.State)
    (q : Dist Cls) (v : Val), WF p ∧ infosOf p = .ok L ∧ InRange g ∧ NeverZero g ∧
      generateRandom L g [] s = .ok (q, s') ∧
      ParamAt q ["mean"] ⟨"mean", .circular 1, false⟩ v ∧ ¬ InSupport (.circular 1) 2 [] v := by
  refine ⟨.mk .vonMisesFisherEP [.real (Arr.full [2] (1 / 2))] .nil, _,
    Samples.constant 1 0 1 0, (), (), .mk .vonMisesFisherEP
      [.real ((Arr.full [2] 1).map fun x => x * 1)] .nil,
    .real ((Arr.full [2] 1).map fun x => x * 1), ?_, rfl,
    Samples.constant_inRange (by norm_num) le_rfl (by norm_num) (.inl rfl),
    Samples.constant_neverZero one_ne_zero, ?_, ?_, ?_⟩
  · simp [WF, WFs, fields, isJoint, Cls.fields, Cls.isJoint, Subs.names]
  · rfl
  · exact .here (i := 0) (f := ⟨"mean", .circular 1, false⟩) rfl rfl
  · rintro ⟨_, h⟩
    have := h _ rfl [] rfl
    rw [Finset.sum_range_succ, Finset.sum_range_one, Arr.map_get rfl, Arr.map_get rfl,
      Samples.full_get rfl, Samples.full_get rfl] at this
    norm_num at this

/-- **C22** is violated by integral rings with a maximum (no class declares one): the draw from the
real field below the maximum is multiplied by ten. -/
theorem C22_integral_negation : ∃ (g : Rng) (s s' : g.State) (v : Val), InRange g ∧
    (Support.scalar (.integral none (some 5))).generate g [] 1 s = .ok (v, s') ∧
    ¬ InSupport (.scalar (.integral none (some 5))) 1 [] v := by
  refine ⟨Samples.constant 0 0 0 0, (), (), _,
    Samples.constant_inRange le_rfl le_rfl (by norm_num) (.inl rfl), rfl, ?_⟩
  rintro ⟨_, h⟩
  have h := (h [] rfl).2 5 rfl
  rw [Arr.map_get rfl] at h
  have h5 : (3 : ℝ) ≤ Ring.openMax 5 - 0 * 1 := by
    have := MachEps.lt
    have h0 := MachEps.pos
    rw [Ring.openMax, copysign, if_neg (by norm_num), zero_mul, sub_zero, le_min_iff]
    constructor <;> linarith
  have he : (Ring.realGenerate (Ring.integralBounds none (some 5)).1
      (Ring.integralBounds none (some 5)).2 1 (Samples.constant 0 0 0 0) [] ()).1.get [] =
        Ring.openMax 5 - 0 * 1 := by
    simp only [Ring.integralBounds, Option.map_none, Option.map_some, Ring.realGenerate]
    rw [Arr.map_get rfl]
    change Ring.openMax ((5 : ℤ) : ℝ) - (Arr.full [] 0).get [] * 1 = _
    rw [Samples.full_get rfl]
    norm_num
  rw [he] at h
  have h6 : (30 : ℤ) ≤ truncZ ((Ring.openMax 5 - 0 * 1) * 10) := by
    rw [truncZ, if_pos (by linarith), Int.le_floor]
    push_cast
    linarith
  omega

/-- **C22** is violated by the simplex support and by the square matrix support, for which nothing is
generated (no class declares a parameter with one of them). -/
theorem C22_not_implemented (r : Ring) (g : Rng) (batch : List ℕ) (d : ℕ) (s : g.State) :
    (Support.simplex r).generate g batch d s = .error .notImplemented ∧
    (Support.square r).generate g batch d s = .error .notImplemented := ⟨rfl, rfl⟩

/-- The supports that are declared for the variance in the variance parametrizations and for the
moments of the expectation parametrizations are too large: a generated diagonal normal distribution
can have a negative variance, and a generated normal distribution can have a second moment below the
square of its mean, although both lie in their declared supports. -/
theorem C22_not_a_distribution : ∃ (g : Rng) (s : g.State), InRange g ∧
    (∃ (L : List (Info Cls)) (s' : g.State) (m v : Arr ℝ),
      infosOf (.mk Cls.diagonalNormalVP [.real (Arr.full [1] 0), .real (Arr.full [1] 1)] .nil) = .ok L ∧
      generateRandom L g [] s = .ok (.mk .diagonalNormalVP [.real m, .real v] .nil, s') ∧
      v.get [0] < 0) ∧
    ∃ (L : List (Info Cls)) (s' : g.State) (m v : Arr ℝ),
      infosOf (.mk Cls.normalEP [.real (Arr.full [] 0), .real (Arr.full [] 1)] .nil) = .ok L ∧
      generateRandom L g [] s = .ok (.mk .normalEP [.real m, .real v] .nil, s') ∧
      v.get [] < m.get [] ^ 2 := by
  refine ⟨Samples.constant 0 0 (-1) 0, (),
    Samples.constant_inRange le_rfl le_rfl (by norm_num) (.inl rfl),
    ⟨_, (), (Arr.full [1] (-1)).map fun x => x * 1, (Arr.full [1] (-1)).map fun x => x * 1, rfl, rfl, ?_⟩,
    ⟨_, (), (Arr.full [] (-1)).map fun x => x * 1,
      (Arr.full [] 0).map fun x => x * 1 + Ring.openMin 0, rfl, rfl, ?_⟩⟩
  · rw [Arr.map_get rfl, Samples.full_get rfl]
    norm_num
  · rw [Arr.map_get rfl, Arr.map_get rfl, Samples.full_get rfl, Samples.full_get rfl,
      Samples.openMin_zero]
    have := MachEps.lt
    linarith

end Efax
