import Verif.Props.PoolAll
import Verif.Props.Families.VonMises

/-!
# C105: averages of von Mises-Fisher distributions whose directions are not opposite
-/

namespace Efax

open MeasureTheory Spec Calc ClassTable Set

variable [MachEps] {solve : Solver} {search : Cls → List Val → Except Err (List Val)} {n : ℕ}

omit [MachEps] in
/-- Averages of mean directions are inside the sphere, and not zero unless the directions are opposite. -/
theorem sphere_average {a b : EuclideanSpace ℝ (Fin (n + 1))} (ha : a ≠ 0) (hb : b ≠ 0)
    (hab : ∀ c : ℝ, c ≤ 0 → b ≠ c • a) {t : ℝ} (h0 : 0 ≤ t) (h1 : t ≤ 1) :
    ∃ r : EuclideanSpace ℝ (Fin (n + 1)), r ≠ 0 ∧ (vonMisesFisher (n + 1)).toExp r =
      (1 - t) • (vonMisesFisher (n + 1)).toExp a + t • (vonMisesFisher (n + 1)).toExp b := by
  have hA := C33_von_mises_fisher_range.subset ⟨a, ha, rfl⟩
  have hB := C33_von_mises_fisher_range.subset ⟨b, hb, rfl⟩
  have hlt : ‖(1 - t) • (vonMisesFisher (n + 1)).toExp a + t • (vonMisesFisher (n + 1)).toExp b‖ < 1 := by
    have := (convex_ball (0 : EuclideanSpace ℝ (Fin (n + 1))) 1) (mem_ball_zero_iff.2 hA.2) (mem_ball_zero_iff.2 hB.2)
      (sub_nonneg.2 h1) h0 (by ring)
    exact mem_ball_zero_iff.1 this
  have hne : (1 - t) • (vonMisesFisher (n + 1)).toExp a + t • (vonMisesFisher (n + 1)).toExp b ≠ 0 := by
    intro h
    rcases h0.eq_or_lt with rfl | h0
    · simp only [sub_zero, one_smul, zero_smul, add_zero] at h
      exact hA.1 h
    have hka := norm_pos_iff.2 ha
    have hkb := norm_pos_iff.2 hb
    have hα := div_pos (vmfAK_pos (n := n) hka) hka
    have hβ := div_pos (vmfAK_pos (n := n) hkb) hkb
    rw [vmf_toExp' ha, vmf_toExp' hb, smul_smul, smul_smul] at h
    set α := vmfAK (n + 1 : ℕ) ‖a‖ / ‖a‖
    set β := vmfAK (n + 1 : ℕ) ‖b‖ / ‖b‖
    have htβ : 0 < t * β := mul_pos h0 hβ
    refine hab (-((1 - t) * α / (t * β))) (neg_nonpos.2 (div_nonneg (mul_nonneg (sub_nonneg.2 h1) hα.le) htβ.le)) ?_
    have e : (t * β) • b = -((1 - t) * α) • a := by
      rw [neg_smul]
      exact eq_neg_of_add_eq_zero_right h
    calc b = (t * β)⁻¹ • (t * β) • b := by rw [smul_smul, inv_mul_cancel₀ htβ.ne', one_smul]
      _ = _ := by
        rw [e, smul_smul]
        congr 1
        field_simp
  obtain ⟨r, hr, e⟩ := C33_von_mises_fisher_range.symm.subset (show _ ∈ _ from ⟨hne, hlt⟩)
  exact ⟨r, hr, e⟩

/-- **C105.** The average of the expectation parameters of von Mises-Fisher distributions whose natural parameters are
nowhere in opposite directions is, paired with natural parameters, the expectation parameters of a distribution `r` of
the class, with any weight between 0 and 1; the weighted divergences are least from `r` only. -/
theorem C105_sphere (hs : solve.For search) {rs : List ℕ} {t : ℝ} (h0 : 0 ≤ t) (h1 : t ≤ 1)
    {a b : List ℕ → EuclideanSpace ℝ (Fin (n + 1))} (ha : ∀ i, inB rs i = true → a i ≠ 0)
    (hb : ∀ i, inB rs i = true → b i ≠ 0) (hab : ∀ i, inB rs i = true → ∀ c : ℝ, c ≤ 0 → b i ≠ c • a i) :
    let K := (Simple.vonMisesFisher (n + 1)).kind solve
    let p : List ℕ → K.P := fun _ => ()
    ∃ ea eb e d, ∃ r : List ℕ → EuclideanSpace ℝ (Fin (n + 1)),
      (K.nat rs p a).toExp (library search).toExp = .ok ea ∧ (K.nat rs p b).toExp (library search).toExp = .ok eb ∧
      paramMap (addScaled (-t)) ea [ea] = .ok e ∧ paramMap (addScaled t) e [eb] = .ok d ∧
      (∀ i, inB rs i = true → r i ≠ 0) ∧
      (∀ v : List ℕ → EuclideanSpace ℝ (Fin (n + 1)),
        dotCalc (K.nat rs p v) (K.exp rs p fun i => (K.F ()).toExp (r i)) = dotCalc (K.nat rs p v) d) ∧
      ∀ c : List ℕ → EuclideanSpace ℝ (Fin (n + 1)), (∀ i, inB rs i = true → c i ≠ 0) → ∃ ac bc ar br,
        (K.nat rs p a).klN (library search) (K.nat rs p c) = ok (scalars rs ac) ∧
        (K.nat rs p b).klN (library search) (K.nat rs p c) = ok (scalars rs bc) ∧
        (K.nat rs p a).klN (library search) (K.nat rs p r) = ok (scalars rs ar) ∧
        (K.nat rs p b).klN (library search) (K.nat rs p r) = ok (scalars rs br) ∧
        ∀ i, inB rs i = true → (1 - t) * ar i + t * br i ≤ (1 - t) * ac i + t * bc i ∧
          ((1 - t) * ar i + t * br i = (1 - t) * ac i + t * bc i ↔ r i = c i) := by
  intro K p
  have hK : LibrarySetting solve K ((Simple.vonMisesFisher (n + 1)).setting solve) := .simple (.vonMisesFisher (n + 1))
  have hr : ∀ q, EachLeaf RegularVals (K.nat rs p q) := fun q l hl => by
    rw [List.mem_singleton.1 hl]
    exact trivial
  have hn : ∀ q : List ℕ → EuclideanSpace ℝ (Fin (n + 1)), (∀ i, inB rs i = true → q i ≠ 0) →
      ((Simple.vonMisesFisher (n + 1)).setting solve).Inside rs p q := fun q h i hi => ⟨Nat.succ_pos n, h i hi⟩
  obtain ⟨ea, eb, e, d, r, k1, k2, k3, k4, k5, k6, k7⟩ := pooled_exists hs hK t (hn a ha) (hr a) (hr b)
    fun i hi => by
      obtain ⟨r, h, er⟩ := sphere_average (ha i hi) (hb i hi) (hab i hi) h0 h1
      refine ⟨r, h, fun v => ?_⟩
      change EuclideanSpace ℝ (Fin (n + 1)) at v
      show (vonMisesFisher (n + 1)).dot v ((vonMisesFisher (n + 1)).toExp r) =
        (1 - t) * (vonMisesFisher (n + 1)).dot v ((vonMisesFisher (n + 1)).toExp (a i)) +
          t * (vonMisesFisher (n + 1)).dot v ((vonMisesFisher (n + 1)).toExp (b i))
      rw [er, vmf_dot, vmf_dot, vmf_dot, inner_add_right, inner_smul_right, inner_smul_right]
  exact ⟨ea, eb, e, d, r, k1, k2, k3, k4, fun i hi => (k5 i hi).2, k6, fun c hc => k7 c (hn c hc)⟩

/-- Non-vacuity: orthogonal directions on the sphere. -/
example : ∀ i, inB [3] i = true → ∀ c : ℝ, c ≤ 0 → (EuclideanSpace.single 1 (1 : ℝ) : EuclideanSpace ℝ (Fin (2 + 1))) ≠
    c • EuclideanSpace.single 0 (1 : ℝ) := by
  intro i _ c _ h
  have := congrFun (congrArg WithLp.ofLp h) 1
  simp at this

end Efax
