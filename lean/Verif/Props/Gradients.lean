import Verif.Lemmas.Gradients

/-!
# C71: derivatives of divergences and entropies, and continuity of `to_nat`

For all kinds of distributions of the library, batches of them, and nested joint distributions.
-/

namespace Efax

open MeasureTheory Spec Filter Topology Calc

variable [MachEps] {solve : Solver} {search : Cls → List Val → Except Err (List Val)}
  (hs : solve.For search) {K : Kind Cls} {S : Setting K} (hK : LibrarySetting solve K S) {rs : List ℕ}
  {p : List ℕ → K.P}

include hs hK

/-- **C71.** The derivative of the cross entropy in the direction `v` of the prediction is the pairing
of `v` with the difference of the expectation parameters, whether or not the observed expectation
parameters belong to a distribution. -/
theorem C71_cross_entropy {q v : List ℕ → K.N} (χ : List ℕ → K.E) (hq : S.Inside rs p q)
    (hr : EachLeaf RegularVals (K.nat rs p q)) (hm : EachLeaf (fun c _ => HasEcm c) (K.nat rs p q))
    (hv : ∀ i, inB rs i = true → v i ∈ S.dirs) :
    ∃ e m o, ∃ c : ℝ → List ℕ → ℝ, (K.nat rs p q).toExp (library search).toExp = .ok e ∧
      dotCalc (K.nat rs p v) e = ok (scalars rs m) ∧
      dotCalc (K.nat rs p v) (K.exp rs p χ) = ok (scalars rs o) ∧
      (∀ t : ℝ, (K.exp rs p χ).crossEntropy (library search)
        (K.nat rs p fun i => S.line (q i) (v i) t) = ok (scalars rs (c t))) ∧
      ∀ i, inB rs i = true → HasDerivAt (fun t => c t i) (m i - o i) 0 := by
  have h := C51_library hs hK.kind
  exact ⟨_, _, _, _, h.toExp rs p q (regular_dom hK.kind hr), h.dotCalc _ _ _ _ _, h.dotCalc _ _ _ _ _,
    fun t => C51_cross_entropy h (ecm_ent_nat hK.kind hm) rs p χ _, fun i hi =>
    (library_lawful hK).deriv_crossEntropy (hq i hi).1 (hq i hi).2 (hv i hi) _ _⟩

/-- **C71.** The same for the divergence of expectation parameters, with any natural parameters passed
for them. -/
theorem C71_kl_expectation {q v : List ℕ → K.N} (χ : List ℕ → K.E) (a : List ℕ → K.N)
    (hq : S.Inside rs p q) (hr : EachLeaf RegularVals (K.nat rs p q))
    (hv : ∀ i, inB rs i = true → v i ∈ S.dirs) :
    ∃ e m o, ∃ k : ℝ → List ℕ → ℝ, (K.nat rs p q).toExp (library search).toExp = .ok e ∧
      dotCalc (K.nat rs p v) e = ok (scalars rs m) ∧
      dotCalc (K.nat rs p v) (K.exp rs p χ) = ok (scalars rs o) ∧
      (∀ t : ℝ, (K.exp rs p χ).klE (library search) (K.nat rs p fun i => S.line (q i) (v i) t)
        (some (K.nat rs p a)) = ok (scalars rs (k t))) ∧
      ∀ i, inB rs i = true → HasDerivAt (fun t => k t i) (m i - o i) 0 := by
  have h := C51_library hs hK.kind
  exact ⟨_, _, _, _, h.toExp rs p q (regular_dom hK.kind hr), h.dotCalc _ _ _ _ _, h.dotCalc _ _ _ _ _,
    fun t => C51_kl_with h rs p χ a _, fun i hi =>
    (library_lawful hK).deriv_klWith (hq i hi).1 (hq i hi).2 (hv i hi) _ _⟩

/-- **C71.** The same for the divergence of natural parameters. -/
theorem C71_kl {a q v : List ℕ → K.N} (hq : S.Inside rs p q)
    (ha : EachLeaf RegularVals (K.nat rs p a)) (hr : EachLeaf RegularVals (K.nat rs p q))
    (hv : ∀ i, inB rs i = true → v i ∈ S.dirs) :
    ∃ e o m n, ∃ k : ℝ → List ℕ → ℝ, (K.nat rs p q).toExp (library search).toExp = .ok e ∧
      (K.nat rs p a).toExp (library search).toExp = .ok o ∧
      dotCalc (K.nat rs p v) e = ok (scalars rs m) ∧ dotCalc (K.nat rs p v) o = ok (scalars rs n) ∧
      (∀ t : ℝ, (K.nat rs p a).klN (library search) (K.nat rs p fun i => S.line (q i) (v i) t) =
        ok (scalars rs (k t))) ∧
      ∀ i, inB rs i = true → HasDerivAt (fun t => k t i) (m i - n i) 0 := by
  have h := C51_library hs hK.kind
  have ha := regular_dom hK.kind ha
  exact ⟨_, _, _, _, _, h.toExp rs p q (regular_dom hK.kind hr), h.toExp rs p a ha,
    h.dotCalc _ _ _ _ _, h.dotCalc _ _ _ _ _, fun t => C51_kl_natural h rs p a _ ha, fun i hi =>
    (library_lawful hK).deriv_klWith (hq i hi).1 (hq i hi).2 (hv i hi) _ _⟩

/-- **C71.** The derivative of the divergence in the direction `v` of the observed distribution is the
covariance of the sufficient statistics paired with `v` and with the difference of the natural
parameters. -/
theorem C71_kl_observed {a b w v : List ℕ → K.N} {f : List ℕ → K.X → ℝ} (ha : S.Inside rs p a)
    (hb : S.Inside rs p b)
    (hr : ∀ᶠ t in 𝓝 (0 : ℝ), EachLeaf RegularVals (K.nat rs p fun i => S.line (a i) (v i) t))
    (hv : ∀ i, inB rs i = true → v i ∈ S.dirs) (hw : ∀ i, inB rs i = true → S.line (b i) (w i) 1 = a i)
    (hf : PdfIs (library search) K rs (K.nat rs p a) f) : letI := S.ms
    ∃ s s', ∃ k : ℝ → List ℕ → ℝ, StatisticIs (library search) K rs (K.nat rs p a) (K.nat rs p w) s ∧
      StatisticIs (library search) K rs (K.nat rs p a) (K.nat rs p v) s' ∧
      (∀ᶠ t in 𝓝 (0 : ℝ), (K.nat rs p fun i => S.line (a i) (v i) t).klN (library search)
        (K.nat rs p b) = ok (scalars rs (k t))) ∧
      ∀ i, inB rs i = true → ∃ c, HasCov S.μ (f i) (s i) (s' i) c ∧
        HasDerivAt (fun t => k t i) c 0 := by
  have h := C51_library hs hK.kind
  refine ⟨fun i x => (K.F (p i)).dot (w i) ((K.F (p i)).stat x),
    fun i x => (K.F (p i)).dot (v i) ((K.F (p i)).stat x), fun t i => (K.F (p i)).kl (S.line (a i) (v i) t) (b i),
    fun x t ht => statistic_eq hs hK ht, fun x t ht => statistic_eq hs hK ht, ?_, fun i hi => ?_⟩
  · filter_upwards [hr] with t ht
    exact C51_kl_natural h rs p _ b (regular_dom hK.kind ht)
  · obtain ⟨c, h1, h2⟩ := (library_lawful hK).deriv_kl_left (ha i hi).1 (ha i hi).2 (hb i hi).2 (hv i hi)
    refine ⟨c, ?_, h2⟩
    rw [pdfIs_eq hs hK hf hi]
    have e : a i - b i = w i := by rw [← hw i hi, (library_lawful hK).line_sub]
    rw [e] at h1
    exact h1

/-- **C71.** `entropy()` of expectation parameters stops the gradient at the conversion to natural
parameters.  This does not change the derivative: along every curve of distributions whose expectation
parameters are differentiable, `cross_entropy` of the moving expectation parameters with the fixed
result of `to_nat()` has the same derivative as `entropy()`. -/
theorem C71_entropy {a : ℝ → List ℕ → K.N} (ha : ∀ t, S.Inside rs p (a t))
    (hr : ∀ t, EachLeaf RegularVals (K.nat rs p (a t)))
    (hm : EachLeaf (fun c _ => HasEcm c) (K.nat rs p (a 0))) (hx : ∀ t, Found K rs p (a t))
    {e : ℝ → Dist Cls} (he : ∀ t, (K.nat rs p (a t)).toExp (library search).toExp = .ok (e t))
    (hq : ∀ t, EachLeaf SearchableVals (e t))
    (hd : ∀ v : List ℕ → K.N, (∀ i, inB rs i = true → v i ∈ S.dirs) → ∀ m : ℝ → List ℕ → ℝ,
      (∀ t, dotCalc (K.nat rs p v) (e t) = ok (scalars rs (m t))) →
      ∀ i, inB rs i = true → DifferentiableAt ℝ (fun t => m t i) 0) :
    ∃ n, ∃ c s : ℝ → List ℕ → ℝ, (e 0).toNat (library search).toNat = .ok n ∧
      (∀ t, (e t).crossEntropy (library search) n = ok (scalars rs (c t))) ∧
      (∀ t, (e t).entropyE (library search) = ok (scalars rs (s t))) ∧
      ∀ i, inB rs i = true → ∀ D, HasDerivAt (fun t => c t i) D 0 ↔ HasDerivAt (fun t => s t i) D 0 := by
  have h := C51_library hs hK.kind
  have hent := ecm_ent_nat hK.kind hm
  have e1 : ∀ t, e t = K.exp rs p fun i => (K.F (p i)).toExp (a t i) := fun t => by
    have := (he t).symm.trans (h.toExp rs p _ (regular_dom hK.kind (hr t)))
    injection this
  refine ⟨K.nat rs p fun i => K.toNat (p i) ((K.F (p i)).toExp (a 0 i)),
    fun t i => (K.F (p i)).crossEntropy (K.ecm (p i)) ((K.F (p i)).toExp (a t i))
      (K.toNat (p i) ((K.F (p i)).toExp (a 0 i))),
    fun t i => (K.F (p i)).entropyE (K.ecm (p i)) (K.toNat (p i)) ((K.F (p i)).toExp (a t i)),
    ?_, fun t => ?_, fun t => ?_, fun i hi D => ?_⟩
  · rw [e1]
    exact h.toNat rs p _ (searchable_dom hK.kind (e1 0 ▸ hq 0))
  · rw [e1]
    exact C51_cross_entropy h hent rs p _ _
  · rw [e1]
    exact C51_entropy_expectation h hent rs p _ (searchable_dom hK.kind (e1 t ▸ hq t))
  have hl := library_lawful hK
  have key : HasDerivAt (fun t => (K.F (p i)).kl (a t i) (a 0 i)) 0 0 := by
    refine hl.deriv_kl_curve (library_open hK) (ha 0 i hi).1 (fun t => (ha t i hi).2) fun v hv => ?_
    refine hd (fun _ => v) (fun _ _ => hv) (fun t i => (K.F (p i)).dot v ((K.F (p i)).toExp (a t i)))
      (fun t => ?_) i hi
    rw [e1]
    exact h.dotCalc _ _ _ _ _
  have hdiff : ∀ t, (K.F (p i)).crossEntropy (K.ecm (p i)) ((K.F (p i)).toExp (a t i))
        (K.toNat (p i) ((K.F (p i)).toExp (a 0 i))) -
      (K.F (p i)).entropyE (K.ecm (p i)) (K.toNat (p i)) ((K.F (p i)).toExp (a t i)) =
      (K.F (p i)).kl (a t i) (a 0 i) := fun t => by
    have := ((hl.entropy hent (ha 0 i hi).1 (ha t i hi).2 (hx t i hi)).2 _ (ha 0 i hi).2).2
    rw [hx 0 i hi]
    rw [ExpFam.entropyE, hx t i hi]
    exact this
  constructor
  · intro hc
    refine ((hc.sub key).congr_deriv (sub_zero D)).congr_of_eventuallyEq (Eventually.of_forall fun t => ?_)
    have := hdiff t
    simp only [Pi.sub_apply]
    linarith
  · intro hc
    refine ((hc.add key).congr_deriv (add_zero D)).congr_of_eventuallyEq (Eventually.of_forall fun t => ?_)
    have := hdiff t
    simp only [Pi.add_apply]
    linarith

/-- **C71.** `to_nat()` is continuous: if the expectation parameters (paired with every direction)
converge to those of a distribution, then the natural parameters that `to_nat()` returns converge to
the natural parameters of that distribution. -/
theorem C71_continuous {ι : Type} {l : Filter ι} {a : ι → List ℕ → K.N} {q : List ℕ → K.N}
    (hq : S.Inside rs p q) (ha : ∀ j, S.Inside rs p (a j)) (hx : ∀ j, Found K rs p (a j))
    (hrq : EachLeaf RegularVals (K.nat rs p q)) (hr : ∀ j, EachLeaf RegularVals (K.nat rs p (a j)))
    {e : Dist Cls} (he : (K.nat rs p q).toExp (library search).toExp = .ok e)
    {x : ι → Dist Cls} (hx' : ∀ j, (K.nat rs p (a j)).toExp (library search).toExp = .ok (x j))
    (hsx : ∀ j, EachLeaf SearchableVals (x j))
    (hd : ∀ v : List ℕ → K.N, (∀ i, inB rs i = true → v i ∈ S.dirs) → ∀ m : ι → List ℕ → ℝ, ∀ m₀,
      (∀ j, dotCalc (K.nat rs p v) (x j) = ok (scalars rs (m j))) →
      dotCalc (K.nat rs p v) e = ok (scalars rs m₀) →
      ∀ i, inB rs i = true → Tendsto (fun j => m j i) l (𝓝 (m₀ i))) :
    ∃ n : ι → List ℕ → K.N, (∀ j, (x j).toNat (library search).toNat = .ok (K.nat rs p (n j))) ∧
      letI := S.grp
      letI := S.mod
      ∀ i, inB rs i = true → ∀ f : K.N →ₗ[ℝ] ℝ, Tendsto (fun j => f (n j i)) l (𝓝 (f (q i))) := by
  have h := C51_library hs hK.kind
  have e1 : ∀ j, x j = K.exp rs p fun i => (K.F (p i)).toExp (a j i) := fun j => by
    have := (hx' j).symm.trans (h.toExp rs p _ (regular_dom hK.kind (hr j)))
    injection this
  have e2 : e = K.exp rs p fun i => (K.F (p i)).toExp (q i) := by
    have := he.symm.trans (h.toExp rs p _ (regular_dom hK.kind hrq))
    injection this
  refine ⟨fun j i => K.toNat (p i) ((K.F (p i)).toExp (a j i)), fun j => ?_, fun i hi f => ?_⟩
  · rw [e1]
    exact h.toNat rs p _ (searchable_dom hK.kind (e1 j ▸ hsx j))
  · simp only [hx _ i hi]
    refine (library_lawful hK).tendsto (library_open hK) (ha := fun j => (ha j i hi).2) (hq i hi).1
      (hq i hi).2 (fun v hv => ?_) f
    refine hd (fun _ => v) (fun _ _ => hv) (fun j i => (K.F (p i)).dot v ((K.F (p i)).toExp (a j i)))
      (fun i => (K.F (p i)).dot v ((K.F (p i)).toExp (q i))) (fun j => ?_) ?_ i hi
    · rw [e1]; exact h.dotCalc _ _ _ _ _
    · rw [e2]; exact h.dotCalc _ _ _ _ _

omit hs hK

namespace Samples

/-- A curve of normal distributions. -/
noncomputable def curve (t : ℝ) : ℝ × ℝ := (t, -Real.exp t)

theorem curve_inside (rs : List ℕ) (t : ℝ) :
    (Simple.normal.setting solve).Inside rs (fun _ => ()) fun _ => curve t :=
  fun _ _ => ⟨trivial, show -Real.exp t < 0 by simpa using Real.exp_pos t⟩

theorem curve_leaf (rs : List ℕ) {P : Cls → List Val → Prop} (hP : ∀ v, P .normalNP v) (t : ℝ) :
    EachLeaf P ((Simple.normal.kind solve).nat rs (fun _ => ()) fun _ => curve t) := by
  intro l h
  rw [List.mem_singleton.1 h]
  exact hP _

theorem curve_differentiable (v : ℝ × ℝ) :
    DifferentiableAt ℝ (fun t => normal.dot v (normal.toExp (curve t))) 0 := by
  have h : ∀ t : ℝ, -Real.exp t ≠ 0 := fun t => by simp
  simp only [normal, curve]
  fun_prop (disch := simp)

end Samples

/-- Non-vacuity of C71: the entropy along a curve of normal distributions. -/
example {search : Cls → List Val → Except Err (List Val)} (hs : solve.For search) :
    ∃ e : ℝ → Dist Cls, ∃ n, ∃ c s : ℝ → List ℕ → ℝ,
      (∀ t, ((Simple.normal.kind solve).nat [3] (fun _ => ()) fun _ => Samples.curve t).toExp
        (library search).toExp = .ok (e t)) ∧
      (e 0).toNat (library search).toNat = .ok n ∧
      (∀ t, (e t).crossEntropy (library search) n = ok (scalars [3] (c t))) ∧
      (∀ t, (e t).entropyE (library search) = ok (scalars [3] (s t))) ∧
      ∀ D, HasDerivAt (fun t => c t [1]) D 0 ↔ HasDerivAt (fun t => s t [1]) D 0 := by
  have hK : LibrarySetting solve _ _ := .simple .normal
  have h := C51_library hs hK.kind
  have hi := fun t => Samples.curve_inside (solve := solve) [3] t
  have hr := fun t => Samples.curve_leaf (solve := solve) [3] (P := RegularVals) (fun _ => trivial) t
  have he := fun t => h.toExp _ _ _ (regular_dom hK.kind (hr t))
  obtain ⟨n, c, s, h1, h2, h3, h4⟩ := C71_entropy hs hK hi hr
    (Samples.curve_leaf [3] (fun _ => trivial) 0) (fun t => C68_found hK (hi t) (.inl trivial)) he
    (fun t l hl => by rw [List.mem_singleton.1 hl]; exact trivial) fun v _ m hm i hi => by
      refine (Samples.curve_differentiable (v i)).congr_of_eventuallyEq (Eventually.of_forall fun t => ?_)
      exact ok_scalars_inj ((hm t).symm.trans (h.dotCalc _ _ _ _ _)) i hi
  exact ⟨_, n, c, s, he, h1, h2, h3, h4 [1] rfl⟩

/-- Non-vacuity of C71: the gradients of the cross entropy and of the divergence, with arbitrary
numbers as observed expectation parameters. -/
example {search : Cls → List Val → Except Err (List Val)} (hs : solve.For search)
    (χ : List ℕ → ℝ × ℝ) (v : ℝ × ℝ) :
    ∃ c k : ℝ → List ℕ → ℝ,
      (∀ t, ((Simple.normal.kind solve).exp [3] (fun _ => ()) χ).crossEntropy (library search)
        ((Simple.normal.kind solve).nat [3] (fun _ => ()) fun _ => (0, -1) + t • v) =
          ok (scalars [3] (c t))) ∧
      (∀ t, ((Simple.normal.kind solve).exp [3] (fun _ => ()) χ).klE (library search)
        ((Simple.normal.kind solve).nat [3] (fun _ => ()) fun _ => (0, -1) + t • v)
        (some ((Simple.normal.kind solve).nat [3] (fun _ => ()) fun _ => (0, -1))) =
          ok (scalars [3] (k t))) ∧
      DifferentiableAt ℝ (fun t => c t [1]) 0 ∧ DifferentiableAt ℝ (fun t => k t [1]) 0 := by
  have hK : LibrarySetting solve _ _ := .simple .normal
  have e : Samples.curve 0 = (0, -1) := by simp [Samples.curve]
  have hi := Samples.curve_inside (solve := solve) [3] 0
  have hr := Samples.curve_leaf (solve := solve) [3] (P := RegularVals) (fun _ => trivial) 0
  have hm := Samples.curve_leaf (solve := solve) [3] (P := fun c _ => HasEcm c) (fun _ => trivial) 0
  rw [e] at hi hr hm
  obtain ⟨_, _, _, c, -, -, -, h1, h2⟩ := C71_cross_entropy hs hK (v := fun _ => v) χ hi hr hm
    fun _ _ => trivial
  obtain ⟨_, _, _, k, -, -, -, h3, h4⟩ := C71_kl_expectation hs hK (v := fun _ => v) χ (fun _ => (0, -1))
    hi hr fun _ _ => trivial
  exact ⟨c, k, h1, h3, (h2 [1] rfl).differentiableAt, (h4 [1] rfl).differentiableAt⟩

/-- Non-vacuity of C71: the derivative with respect to the observed distribution. -/
example {search : Cls → List Val → Except Err (List Val)} (hs : solve.For search) :
    ∃ k : ℝ → List ℕ → ℝ, (∀ᶠ t in 𝓝 (0 : ℝ),
      ((Simple.normal.kind solve).nat [3] (fun _ => ()) fun _ => (0, -1) + t • (1, 1)).klN
        (library search) ((Simple.normal.kind solve).nat [3] (fun _ => ()) fun _ => (0, -1)) =
          ok (scalars [3] (k t))) ∧ DifferentiableAt ℝ (fun t => k t [1]) 0 := by
  have hK : LibrarySetting solve _ _ := .simple .normal
  have e : Samples.curve 0 = (0, -1) := by simp [Samples.curve]
  have hi := Samples.curve_inside (solve := solve) [3] 0
  rw [e] at hi
  obtain ⟨f, hf, -⟩ := C68_pdf hs hK hi
  obtain ⟨_, _, k, -, -, h1, h2⟩ := C71_kl_observed hs hK (v := fun _ => ((1, 1) : ℝ × ℝ))
    (w := fun _ => (0 : ℝ × ℝ)) hi hi
    (Eventually.of_forall fun t l h => by rw [List.mem_singleton.1 h]; exact trivial)
    (fun _ _ => trivial) (fun _ _ => by
      change ((0, -1) : ℝ × ℝ) + (1 : ℝ) • (0 : ℝ × ℝ) = (0, -1)
      simp) hf
  obtain ⟨_, -, h3⟩ := h2 [1] rfl
  exact ⟨k, h1, h3.differentiableAt⟩

/-- Non-vacuity of C71: derivatives of the divergence of nested joint distributions. -/
example {search : Cls → List Val → Except Err (List Val)} (hs : solve.For search) :
    let K := Kind.joint .jointN .jointE (.ofList (partsOf (Samples.outer solve)))
    let S : Setting K := Setting.joint .jointN .jointE (Settings.ofList (Samples.outer solve))
    ∃ k : ℝ → List ℕ → ℝ, (∀ t : ℝ,
      (K.nat [3] (fun _ => ((), ((), (), ()), ())) fun i => Samples.point (i.headD 0)).klN
        (library search) (K.nat [3] (fun _ => ((), ((), (), ()), ()))
          fun _ => S.line (Samples.point 1) (Samples.point 2) t) = ok (scalars [3] (k t))) ∧
      DifferentiableAt ℝ (fun t => k t [1]) 0 := by
  intro K S
  obtain ⟨_, _, _, _, k, _, _, _, _, h1, h2⟩ := C71_kl hs Samples.outer_setting
    (v := fun _ => Samples.point 2) (Samples.point_inside [3] fun _ => 1)
    (Samples.point_regular [3] fun i => (i.headD 0 : ℝ)) (Samples.point_regular [3] fun _ => 1)
    fun _ _ => ⟨trivial, ⟨trivial, trivial, trivial⟩, trivial⟩
  exact ⟨k, h1, (h2 [1] rfl).differentiableAt⟩

/-- Non-vacuity of C71: convergence of natural parameters. -/
example {search : Cls → List Val → Except Err (List Val)} (hs : solve.For search) :
    ∃ x : ℝ → Dist Cls, ∃ n : ℝ → List ℕ → ℝ × ℝ,
      (∀ t, (x t).toNat (library search).toNat = .ok ((Simple.normal.kind solve).nat [3] (fun _ => ()) (n t))) ∧
      Tendsto (fun t => (n t [1]).2) (𝓝 0) (𝓝 (-1)) := by
  have hK : LibrarySetting solve _ _ := .simple .normal
  have h := C51_library hs hK.kind
  have hi := fun t => Samples.curve_inside (solve := solve) [3] t
  have hr := fun t => Samples.curve_leaf (solve := solve) [3] (P := RegularVals) (fun _ => trivial) t
  have he := fun t => h.toExp _ _ _ (regular_dom hK.kind (hr t))
  obtain ⟨n, h1, h2⟩ := C71_continuous hs hK (l := 𝓝 0) (hi 0) hi
    (fun t => C68_found hK (hi t) (.inl trivial)) (hr 0) hr (he 0) he
    (fun t l hl => by rw [List.mem_singleton.1 hl]; exact trivial) fun v _ m m₀ hm hm0 i hi => by
      have e0 := ok_scalars_inj (hm0.symm.trans (h.dotCalc _ _ _ _ _)) i hi
      rw [e0]
      refine (Samples.curve_differentiable (v i)).continuousAt.tendsto.congr fun t => ?_
      exact (ok_scalars_inj ((hm t).symm.trans (h.dotCalc _ _ _ _ _)) i hi).symm
  refine ⟨_, n, h1, ?_⟩
  have h3 : Tendsto (fun t => (n t [1]).2) (𝓝 0) (𝓝 (-Real.exp 0)) := h2 [1] rfl (LinearMap.snd ℝ ℝ ℝ)
  simpa using h3

end Efax
