import Verif.Spec.Between
import Verif.Props.PoolSphere

/-!
# C105: averages of all distributions between which no distribution is missing
-/

namespace Efax

open MeasureTheory Spec Calc ClassTable Set

/-- Averages of the expectation parameters of two distributions are those of a distribution if the natural parameters
on the line between them are valid. -/
def Spec.Setting.LinePools {C : Type} {K : Kind C} (S : Setting K) : Prop :=
  ∀ p, S.ok p → ∀ a b, (∀ s : ℝ, 0 ≤ s → s ≤ 1 → S.between a b s ∈ S.dom p) → ∀ t : ℝ, 0 ≤ t → t ≤ 1 →
    ∃ r ∈ S.dom p, ∀ v, (K.F p).dot v ((K.F p).toExp r) =
      (1 - t) * (K.F p).dot v ((K.F p).toExp a) + t * (K.F p).dot v ((K.F p).toExp b)

/-- `LinePools` for parts. -/
def Spec.Settings.LinePools {C : Type} {R : Parts C} (S : Settings R) : Prop :=
  ∀ p, S.ok p → ∀ a b, (∀ s : ℝ, 0 ≤ s → s ≤ 1 → S.between a b s ∈ S.dom p) → ∀ t : ℝ, 0 ≤ t → t ≤ 1 →
    ∃ r ∈ S.dom p, ∀ v, (R.F p).dot v ((R.F p).toExp r) =
      (1 - t) * (R.F p).dot v ((R.F p).toExp a) + t * (R.F p).dot v ((R.F p).toExp b)

theorem Spec.Settings.LinePools.ofList {C : Type} : (l : List (String × Σ K : Kind C, Setting K)) →
    (∀ s ∈ l, s.2.2.LinePools) → (Settings.ofList l).LinePools
  | [], _ => fun _ _ a _ _ t _ _ => ⟨a, trivial, fun _ => by
      show (0 : ℝ) = (1 - t) * 0 + t * 0
      ring⟩
  | s :: l, h => fun p hp a b hab t h0 h1 => by
      obtain ⟨r, hr, k⟩ := h s List.mem_cons_self p.1 hp.1 a.1 b.1 (fun u hu hv => (hab u hu hv).1) t h0 h1
      obtain ⟨r', hr', k'⟩ := ofList l (fun s' m => h s' (List.mem_cons_of_mem _ m)) p.2 hp.2 a.2 b.2
        (fun u hu hv => (hab u hu hv).2) t h0 h1
      refine ⟨(r, r'), ⟨hr, hr'⟩, fun v => ?_⟩
      have e : ∀ x y x1 x2 y1 y2 : ℝ, x = (1 - t) * x1 + t * x2 → y = (1 - t) * y1 + t * y2 →
          x + y = (1 - t) * (x1 + y1) + t * (x2 + y2) := fun x y x1 x2 y1 y2 hx hy => by rw [hx, hy]; ring
      exact e _ _ _ _ _ _ (k v.1) (k' v.2)

theorem Spec.Setting.between_zero {C : Type} {K : Kind C} (S : Setting K) (a b : K.N) : S.between a b 0 = a := by
  let _ := S.grp
  let _ := S.mod
  show ((1 : ℝ) - 0) • a + (0 : ℝ) • b = a
  rw [sub_zero, one_smul, zero_smul, add_zero]

theorem Spec.Setting.between_one {C : Type} {K : Kind C} (S : Setting K) (a b : K.N) : S.between a b 1 = b := by
  let _ := S.grp
  let _ := S.mod
  show ((1 : ℝ) - 1) • a + (1 : ℝ) • b = b
  rw [sub_self, one_smul, zero_smul, zero_add]

variable [MachEps] {solve : Solver} {search : Cls → List Val → Except Err (List Val)}

theorem simple_linePools (s : Simple) : (s.setting solve).LinePools := by
  intro p hp a b hab t h0 h1
  have ha : a ∈ (s.setting solve).dom p := by
    have := hab 0 le_rfl zero_le_one
    rwa [Setting.between_zero] at this
  have hb : b ∈ (s.setting solve).dom p := by
    have := hab 1 zero_le_one le_rfl
    rwa [Setting.between_one] at this
  by_cases h : ∃ d, s = .vonMisesFisher d
  · obtain ⟨d, rfl⟩ := h
    obtain ⟨n, rfl⟩ : ∃ n, d = n + 1 := Nat.exists_eq_succ_of_ne_zero (Nat.pos_iff_ne_zero.1 hp)
    change EuclideanSpace ℝ (Fin (n + 1)) at a b
    have hop : ∀ c : ℝ, c ≤ 0 → b ≠ c • a := fun c hc e => by
      have h1c : 0 < 1 - c := by linarith
      have hm : (1 - (1 - c)⁻¹) • a + (1 - c)⁻¹ • b ≠ 0 :=
        hab (1 - c)⁻¹ (inv_nonneg.2 h1c.le) (inv_le_one_of_one_le₀ (by linarith))
      refine hm ?_
      rw [e, smul_smul, ← add_smul]
      have : 1 - (1 - c)⁻¹ + (1 - c)⁻¹ * c = 0 := by
        field_simp
        ring
      rw [this, zero_smul]
    obtain ⟨r, hr, er⟩ := sphere_average ha hb hop h0 h1
    refine ⟨r, hr, fun v => ?_⟩
    change EuclideanSpace ℝ (Fin (n + 1)) at v
    show (vonMisesFisher (n + 1)).dot v ((vonMisesFisher (n + 1)).toExp r) =
      (1 - t) * (vonMisesFisher (n + 1)).dot v ((vonMisesFisher (n + 1)).toExp a) +
        t * (vonMisesFisher (n + 1)).dot v ((vonMisesFisher (n + 1)).toExp b)
    rw [er, vmf_dot, vmf_dot, vmf_dot, inner_add_right, inner_smul_right, inner_smul_right]
  · exact simple_pools s (fun d e => h ⟨d, e⟩) p hp a ha b hb t h0 h1

theorem library_linePools {K : Kind Cls} {S : Setting K} (h : LibrarySetting solve K S) : S.LinePools := by
  induction h with
  | simple s => exact simple_linePools s
  | joint h0 hn hS ih => exact Settings.LinePools.ofList _ ih

/-- **C105.** For all distributions, simple and joint: if the natural parameters on the line from `a` to `b` are valid,
the average of the expectation parameters of `a` and `b` with any weight `t` between 0 and 1 is, paired with natural
parameters, the expectation parameters of a distribution `r`; `r` is the only distribution from which the weighted
divergences of `a` and `b` are least. -/
theorem C105_line (hs : solve.For search) {K : Kind Cls} {S : Setting K} (hK : LibrarySetting solve K S) {rs : List ℕ}
    {p : List ℕ → K.P} {t : ℝ} (h0 : 0 ≤ t) (h1 : t ≤ 1) {a b : List ℕ → K.N}
    (hab : ∀ s : ℝ, 0 ≤ s → s ≤ 1 → S.Inside rs p fun i => S.between (a i) (b i) s)
    (hra : EachLeaf RegularVals (K.nat rs p a)) (hrb : EachLeaf RegularVals (K.nat rs p b)) :
    ∃ ea eb e d r, (K.nat rs p a).toExp (library search).toExp = .ok ea ∧
      (K.nat rs p b).toExp (library search).toExp = .ok eb ∧
      paramMap (addScaled (-t)) ea [ea] = .ok e ∧ paramMap (addScaled t) e [eb] = .ok d ∧ S.Inside rs p r ∧
      (∀ v : List ℕ → K.N,
        dotCalc (K.nat rs p v) (K.exp rs p fun i => (K.F (p i)).toExp (r i)) = dotCalc (K.nat rs p v) d) ∧
      ∀ c, S.Inside rs p c → ∃ ac bc ar br,
        (K.nat rs p a).klN (library search) (K.nat rs p c) = ok (scalars rs ac) ∧
        (K.nat rs p b).klN (library search) (K.nat rs p c) = ok (scalars rs bc) ∧
        (K.nat rs p a).klN (library search) (K.nat rs p r) = ok (scalars rs ar) ∧
        (K.nat rs p b).klN (library search) (K.nat rs p r) = ok (scalars rs br) ∧
        ∀ i, inB rs i = true → (1 - t) * ar i + t * br i ≤ (1 - t) * ac i + t * bc i ∧
          ((1 - t) * ar i + t * br i = (1 - t) * ac i + t * bc i ↔ r i = c i) :=
  have ha : S.Inside rs p a := by
    have := hab 0 le_rfl zero_le_one
    simpa only [Setting.between_zero] using this
  pooled_exists hs hK t ha hra hrb fun i hi => library_linePools hK (p i) (ha i hi).1 (a i) (b i)
    (fun s hs0 hs1 => (hab s hs0 hs1 i hi).2) t h0 h1

/-- Non-vacuity: a joint distribution of a von Mises-Fisher and a gamma distribution. -/
example (solve : Solver) :
    let S := Setting.joint Cls.jointN Cls.jointE (.ofList
      [("direction", ⟨_, (Simple.vonMisesFisher 2).setting solve⟩), ("length", ⟨_, Simple.gamma.setting solve⟩)])
    ∀ s : ℝ, 0 ≤ s → s ≤ 1 → S.Inside [3] (fun _ => ((), ((), ()))) fun _ => S.between
      ((EuclideanSpace.single 0 1, ((-1, 2), ())) : EuclideanSpace ℝ (Fin 2) × (ℝ × ℝ) × Unit)
      ((EuclideanSpace.single 1 1, ((-2, 3), ())) : EuclideanSpace ℝ (Fin 2) × (ℝ × ℝ) × Unit) s := by
  intro S s h0 h1 i _
  have hne : (1 - s) • (EuclideanSpace.single 0 1 : EuclideanSpace ℝ (Fin 2)) +
      s • (EuclideanSpace.single 1 1 : EuclideanSpace ℝ (Fin 2)) ≠ 0 := fun h => by
    have k0 := congrFun (congrArg WithLp.ofLp h) 0
    have k1 := congrFun (congrArg WithLp.ofLp h) 1
    simp at k0 k1
    linarith
  refine ⟨⟨two_pos, trivial, trivial⟩, ?_, ⟨?_, ?_⟩, trivial⟩
  · exact hne
  · show (1 - s) * (-1) + s * (-2) < 0
    linarith
  · show -1 < (1 - s) * 2 + s * 3
    linarith

end Efax
