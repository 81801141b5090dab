import Verif.Spec.Cooperative
import Verif.Props.Generate

/-!
# Random parameters lie strictly inside their supports
-/

namespace Efax

open Spec ClassTable

variable [MachEps] {g : Rng}

/-- The rings whose random elements lie strictly inside. -/
def RingStrict (r : Ring) (batch : List ℕ) : Prop :=
  match r with
  | .real mn mx scale => 0 < scale ∧ ∀ m ∈ mn, ∀ M ∈ mx, m < M
  | .complex _ _ => RingGenerates r batch
  | _ => True

theorem realGenerate_strict (hg : InRange g) (hs : Strict g) {mn mx : Option ℝ} {scale : ℝ} (hsc : 0 < scale)
    (hb : ∀ m ∈ mn, ∀ M ∈ mx, m < M) (rs : List ℕ) (s : g.State) :
    (Ring.realGenerate mn mx scale g rs s).1.rshape = rs ∧ ∀ i, inB rs i = true →
      (∀ m ∈ mn, m < (Ring.realGenerate mn mx scale g rs s).1.get i) ∧
      ∀ M ∈ mx, (Ring.realGenerate mn mx scale g rs s).1.get i < M := by
  cases mn with
  | none =>
    cases mx with
    | none => exact ⟨hg.normal_shape rs s, fun i hi => ⟨by simp, by simp⟩⟩
    | some M =>
      refine ⟨hg.exponential_shape rs s, fun i hi => ⟨by simp, ?_⟩⟩
      rintro _ ⟨⟩
      have hi' : inB (g.exponential rs s).1.rshape i = true := by rwa [hg.exponential_shape]
      simp only [Ring.realGenerate]
      rw [Arr.map_get hi']
      have := mul_pos (hs.exponential_pos rs s i hi) hsc
      linarith
  | some m =>
    cases mx with
    | none =>
      refine ⟨hg.exponential_shape rs s, fun i hi => ⟨?_, by simp⟩⟩
      rintro _ ⟨⟩
      have hi' : inB (g.exponential rs s).1.rshape i = true := by rwa [hg.exponential_shape]
      simp only [Ring.realGenerate]
      rw [Arr.map_get hi']
      have := mul_pos (hs.exponential_pos rs s i hi) hsc
      linarith
    | some M =>
      have hmM := hb m rfl M rfl
      have h : ∀ i, inB rs i = true →
          (Ring.realGenerate (some m) (some M) scale g rs s).1.get i =
            m + (M - m) * (g.uniform rs s).1.get i := by
        intro i hi
        have hi' : inB (g.uniform rs s).1.rshape i = true := by rwa [hg.uniform_shape]
        simp only [Ring.realGenerate]
        rw [Arr.map_get hi']
      refine ⟨hg.uniform_shape rs s, fun i hi => ?_⟩
      rw [h i hi]
      have h0 := hs.uniform_pos rs s i hi
      have h1 := hg.uniform_lt rs s i hi
      constructor
      · rintro _ ⟨⟩
        nlinarith
      · rintro _ ⟨⟩
        nlinarith

theorem ring_strict (hg : InRange g) (hs : Strict g) (hz : NeverZero g) {r : Ring} {sup batch : List ℕ}
    (hr : RingStrict r batch) {s s' : g.State} {v : Val}
    (h : r.generate g (sup ++ batch) s = .ok (v, s')) : InRing r true sup batch v := by
  cases r with
  | real mn mx scale =>
    obtain ⟨h1, h2⟩ := realGenerate_strict hg hs hr.1 hr.2 (sup ++ batch) s
    cases h
    exact ⟨h1, fun _ => h2⟩
  | complex mn mx =>
    obtain ⟨a, h1, h2, h3⟩ := complexUnflatArr_ok (sup := sup) hg (c := Arr.ofFn (sup ++ batch) fun i =>
      ⟨(g.normal (sup ++ batch) s).1.get i,
        (g.normal (sup ++ batch) (g.normal (sup ++ batch) s).2).1.get i⟩) rfl hr (by
        intro i hi
        rw [Arr.ofFn_get hi]
        intro hc
        rcases hz (sup ++ batch) s i hi with h | h
        · exact h (congrArg Complex.re hc)
        · exact h (congrArg Complex.im hc))
    simp only [Ring.generate, h1, Bind.bind, Except.bind] at h
    cases h
    have hr : RingGenerates (.complex mn mx) batch := hr
    exact ⟨h2, fun _ => ⟨hr.1, hr.2.1, fun i j hi hj => ⟨(hr.2.2 j hj).1, h3 i j hi hj⟩⟩⟩
  | boolean => cases h; exact ⟨hg.binomial_shape _ s, trivial⟩
  | integral mn mx =>
    simp only [Ring.generate] at h
    cases h
    refine ⟨?_, trivial⟩
    change (Ring.realGenerate _ _ 1 g (sup ++ batch) s).1.rshape = _
    unfold Ring.realGenerate
    split
    · exact hg.exponential_shape _ _
    · exact hg.exponential_shape _ _
    · exact hg.uniform_shape _ _
    · exact hg.normal_shape _ _

/-- The supports whose random elements lie strictly inside. -/
def SupportStrict (t : Support) (batch : List ℕ) : Prop :=
  match t with
  | .scalar r | .vector r => RingStrict r batch
  | .symmetric (.real none none _) _ _ _ => True
  | .symmetric (.complex mn mx) psd nsd herm =>
    mn = Arr.full [] 0 ∧ mx = none ∧ psd = false ∧ nsd = true ∧ herm = true
  | _ => False

theorem made_fits (hg : InRange g) (hs : Strict g) (hz : NeverZero g) {t : Support} {batch : List ℕ}
    (ht : SupportStrict t batch) {d : ℕ} {v : Val} (h : Made g batch d t v) : Fits t true d batch v := by
  obtain ⟨h1, s, s', h2⟩ := h
  cases t with
  | scalar r => exact ring_strict hg hs hz (sup := []) ht h2
  | vector r => exact ring_strict hg hs hz (sup := [d]) ht h2
  | simplex r => exact ht.elim
  | square r => exact ht.elim
  | circular r => exact ht.elim
  | symmetric r psd nsd herm =>
    obtain ⟨a1, a2, _⟩ := h1
    refine ⟨⟨a1.1, ?_⟩, a2⟩
    cases r with
    | real mn mx scale =>
      cases mn with
      | some _ => cases mx <;> exact ht.elim
      | none =>
        cases mx with
        | some _ => exact ht.elim
        | none =>
          cases v with
          | real a => exact fun _ i _ => ⟨by simp, by simp⟩
          | complex a => exact a1.2.elim
          | bool a => exact a1.2.elim
          | int a => exact a1.2.elim
    | complex mn mx =>
      obtain ⟨rfl, rfl, rfl, rfl, rfl⟩ := ht
      cases v with
      | complex a =>
        have h0 : ∀ j, boundVal (Arr.full [] 0) j = 0 := fun j => by
          simp [boundVal, Arr.full, Arr.ofFn, inB]
        refine fun _ => ⟨.inl rfl, by simp, fun i j hi hj => ?_⟩
        rw [h0]
        refine ⟨le_rfl, norm_pos_iff.2 (hs.hermitian d batch s s' a h2 _ ?_), by simp⟩
        exact (inB_append (inB_length hi)).2 ⟨hi, hj⟩
      | real a => exact a1.2.elim
      | bool a => exact a1.2.elim
      | int a => exact a1.2.elim
    | boolean => exact ht.elim
    | integral mn mx => exact ht.elim

/-- The supports of the natural parameters of the families. -/
theorem declared_strict (k : Simple) {f : Field} (h : f ∈ Cls.fields k.cls) (batch : List ℕ) :
    SupportStrict f.support batch := by
  have hr : RingStrict Ring.realField batch := ⟨one_pos, by simp⟩
  have hm : ∀ m, RingStrict (Ring.mkReal (some m) none) batch := fun m => ⟨one_pos, by simp⟩
  have hm3 : ∀ m, RingStrict (Ring.mkReal (some m) none 3) batch := fun m => ⟨by norm_num, by simp⟩
  have hM : ∀ m, RingStrict (Ring.mkReal none (some m)) batch := fun m => ⟨one_pos, by simp⟩
  have hz : RingStrict Ring.complexField batch := Cls.generates_complex batch
  cases k <;> simp only [Simple.cls, Cls.fields, List.mem_cons, List.not_mem_nil, or_false] at h <;>
    (try rcases h with rfl | rfl | rfl) <;> (try rcases h with rfl | rfl) <;> (try subst h) <;>
    first
    | exact hr
    | exact hm _
    | exact hm3 _
    | exact hM _
    | exact hz
    | exact trivial
    | exact ⟨rfl, rfl, rfl, rfl, rfl⟩

/-- The fixed parameters do not influence the supports of the others. -/
theorem eachField_variable {R : Support → Val → Prop} {c : Cls} (hc : c ≠ .complexNormalNP) :
    {l : List (Field × Val)} → (∀ fv ∈ l, fv.1 ∈ Cls.fields c) → {kw kw' : Dict String Val} → EachField R c l kw →
      EachField R c (l.filter fun fv => !fv.1.fixed) kw'
  | [], _, _, _, _ => trivial
  | (f, v) :: l, hl, kw, kw', ⟨⟨t, h1, h2⟩, h3⟩ => by
    have hn : ¬(c = .complexNormalNP ∧ f.name = "pseudo_precision") := fun h => hc h.1
    have h1 : Cls.adjust c f.name kw = .ok t := h1
    have hf : f ∈ Cls.fields c := hl (f, v) (by simp)
    rw [Cls.adjust_eq hf kw hn] at h1
    have ih := fun kw' => eachField_variable (kw' := kw') hc (fun fv h => hl fv (by simp [h])) h3
    rw [List.filter_cons]
    split
    · exact ⟨⟨t, (Cls.adjust_eq hf kw' hn).trans h1, h2⟩, ih _⟩
    · exact ih _

/-- Random parameters of a class lie strictly inside. -/
theorem node_strict (hg : InRange g) (hs : Strict g) (hz : NeverZero g) {c : Cls} {batch : List ℕ} {d : ℕ}
    {vals : List Val} (hc : (∃ k : Simple, k.cls = c) ∨ c = .jointN) (hl : vals.length = (fields c).length)
    (h : EachField (Made g batch d) c ((fields c).zip vals) []) :
    EachField (fun t v => Fits t true d batch v) c (varPairs c vals) [] := by
  by_cases hn : c = .complexNormalNP
  · subst hn
    match vals, hl with
    | [v1, v2, v3], _ =>
      obtain ⟨⟨t1, a1, b1⟩, ⟨t2, a2, b2⟩, ⟨t3, a3, b3⟩, _⟩ := h
      have e1 : t1 = .scalar Ring.complexField := by
        have := (Cls.adjust_eq (c := .complexNormalNP) (f := ⟨"mean_times_precision", .scalar Ring.complexField, false⟩)
          (by simp [Cls.fields]) [] (by simp)).symm.trans a1
        cases this
        rfl
      have e2 : t2 = .scalar (Ring.mkReal none (some 0)) := by
        have := (Cls.adjust_eq (c := .complexNormalNP) (f := ⟨"negative_precision", .scalar (Ring.mkReal none (some 0)), false⟩)
          (by simp [Cls.fields]) _ (by simp)).symm.trans a2
        cases this
        rfl
      subst e1 e2
      obtain ⟨t, c1, c2, c3, c4⟩ := Cls.classGenerates (g := g) (c := .complexNormalNP) (by simp)
        (fun _ _ _ _ _ => hz) batch d
        [⟨"mean_times_precision", .scalar Ring.complexField, false⟩,
          ⟨"negative_precision", .scalar (Ring.mkReal none (some 0)), false⟩]
        ⟨"pseudo_precision", .scalar Ring.complexField, false⟩ [] rfl [v1, v2]
        (.cons b1.1 (.cons b2.1 .nil))
      have e3 : t = t3 := Except.ok.inj (c1.symm.trans a3)
      subst e3
      refine ⟨⟨_, a1, made_fits hg hs hz (t := .scalar Ring.complexField) (Cls.generates_complex batch) b1⟩,
        ⟨_, a2, made_fits hg hs hz (t := .scalar (Ring.mkReal none (some 0)))
          (show RingStrict (Ring.mkReal none (some 0)) batch from ⟨one_pos, by simp⟩) b2⟩,
        ⟨t, a3, made_fits hg hs hz ?_ b3⟩, trivial⟩
      have a3 : Cls.adjust .complexNormalNP "pseudo_precision" _ = .ok t := a3
      rw [Cls.adjust, if_pos ⟨rfl, rfl⟩] at a3
      cases v2 with
      | real a => cases a3; exact c2
      | complex a => exact b2.1.2.elim
      | bool a => exact b2.1.2.elim
      | int a => exact b2.1.2.elim
  · refine eachField_variable (kw := []) hn (fun fv h => (List.of_mem_zip h).1) ?_
    have : ∀ (l : List (Field × Val)) (kw : Dict String Val), (∀ fv ∈ l, fv.1 ∈ Cls.fields c) →
        EachField (Made g batch d) c l kw → EachField (fun t v => Fits t true d batch v) c l kw := by
      intro l
      induction l with
      | nil => exact fun _ _ _ => trivial
      | cons fv l ih =>
        obtain ⟨f, v⟩ := fv
        rintro kw hl ⟨⟨t, h1, h2⟩, h3⟩
        refine ⟨⟨t, h1, ?_⟩, ih _ (fun fv h => hl fv (by simp [h])) h3⟩
        have h1 : Cls.adjust c f.name kw = .ok t := h1
        have hf : f ∈ Cls.fields c := hl (f, v) (by simp)
        rw [Cls.adjust_eq hf kw fun h => hn h.1] at h1
        cases h1
        rcases hc with ⟨k, rfl⟩ | rfl
        · exact made_fits hg hs hz (declared_strict k hf batch) h2
        · simp [Cls.fields] at hf
    exact this _ _ (fun fv h => (List.of_mem_zip h).1) h

mutual
/-- Random parameters of a distribution lie strictly inside. -/
theorem fits_of_made (hg : InRange g) (hs : Strict g) (hz : NeverZero g) {batch : List ℕ} : {q : Dist Cls} → WF q →
    AllClasses (fun c => (∃ k : Simple, k.cls = c) ∨ c = .jointN) q → EachValue (Made g batch) q → FitsAll true batch q
  | .mk _ _ _, hw, hc, ⟨⟨d, h1, h2⟩, h3⟩ =>
    ⟨⟨d, h1, node_strict hg hs hz hc.1 hw.1 h2⟩, fits_of_mades hg hs hz hw.2.2.2 hc.2 h3⟩
theorem fits_of_mades (hg : InRange g) (hs : Strict g) (hz : NeverZero g) {batch : List ℕ} : {q : Subs Cls} → WFs q →
    AllClassess (fun c => (∃ k : Simple, k.cls = c) ∨ c = .jointN) q → EachValues (Made g batch) q →
      EachParams (fun d t v => Fits t true d batch v) q
  | .nil, _, _, _ => trivial
  | .cons _ _ _, hw, hc, h => ⟨fits_of_made hg hs hz hw.1 hc.1 h.1, fits_of_mades hg hs hz hw.2 hc.2 h.2⟩
end

end Efax
