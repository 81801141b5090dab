import Verif.Props.CramerRao
import Verif.Lemmas.Gradients

/-!
# C69: the result of the recipe is a minimal sufficient statistic
-/

namespace Efax

open MeasureTheory Spec Calc Filter Topology

theorem Spec.Setting.Lawful.dom_dirs {C : Type} {K : Kind C} {S : Setting K} (h : S.Lawful) {p : K.P} (hp : S.ok p)
    {q : K.N} (hq : q ∈ S.dom p) : q ∈ S.dirs := by
  have h1 := h.regular p hp
  obtain ⟨G, M, MS, μ, ok, dom, dirs, closed⟩ := S
  exact h1.mem_dirs q hq

variable [MachEps] {solve : Solver} {search : Cls → List Val → Except Err (List Val)}

/-- **C69.** Observations say the same about the parameters if and only if the recipe gives the same result for
them (in all directions in which the parameters can vary). -/
theorem C69_minimal (hs : solve.For search) {K : Kind Cls} {S : Setting K} (hK : LibrarySetting solve K S)
    {rs ss : List ℕ} (hss : ∀ n ∈ ss, 0 < n) {p : List ℕ → K.P} (hp : ∀ i, inB rs i = true → S.ok (p i))
    {χ : List ℕ → K.E} {x x' : List ℕ → K.X} {t t' : Tree Val} (ht : K.obs (rs ++ ss) x t)
    (ht' : K.obs (rs ++ ss) x' t') {m m' : Dist Cls}
    (hm : Estimates (library search) (K.exp rs p χ) ss.length t m)
    (hm' : Estimates (library search) (K.exp rs p χ) ss.length t' m') :
    Equivalent (library search) K S rs ss p t t' ↔
      ∀ v : List ℕ → K.N, (∀ i, inB rs i = true → v i ∈ S.dirs) →
        dotCalc (K.nat rs p v) m = dotCalc (K.nat rs p v) m' := by
  have hL := library_lawful hK
  obtain ⟨c, hc⟩ := C69_sufficient hs hK.kind hss ht hm
  obtain ⟨c', hc'⟩ := C69_sufficient hs hK.kind hss ht' hm'
  have hn : (ss.prod : ℝ) ≠ 0 := Nat.cast_ne_zero.2 (List.prod_pos hss).ne'
  have key : ∀ {f g : List ℕ → ℝ}, ok (scalars (rs ++ ss) f) = ok (scalars (rs ++ ss) g) →
      ∀ i, inB rs i = true → ∑ j ∈ box ss, f (i ++ j) = ∑ j ∈ box ss, g (i ++ j) := fun h i hi =>
    Finset.sum_congr rfl fun j hj =>
      ok_scalars_inj h _ ((inB_append (inB_length hi)).2 ⟨hi, mem_box.1 hj⟩)
  constructor
  · rintro ⟨b, hb⟩ v hv
    obtain ⟨d, h1, h2⟩ := estimate_dot hs hK.kind hss ht hm v
    obtain ⟨d', h1', h2'⟩ := estimate_dot hs hK.kind hss ht' hm' v
    rw [h1, h1']
    refine congrArg ok (scalars_congr fun i hi => ?_)
    -- parameters in the domain, and others in the direction `v`
    have hq : ∀ k, ∃ q, inB rs k = true → q ∈ S.dom (p k) := fun k => by
      by_cases hk : inB rs k = true
      · obtain ⟨q, hq⟩ := hL.nonempty _ (hp k hk)
        exact ⟨q, fun _ => hq⟩
      · have := hL.nonempty _ (hp i hi)
        exact ⟨this.some, fun h => absurd h hk⟩
    choose q hq using hq
    obtain ⟨r, hr0, hr⟩ : ∃ r : ℝ, r ≠ 0 ∧ S.line (q i) (v i) r ∈ S.dom (p i) := by
      have h3 := (hL.open_line (hp i hi) (hq i hi) (hv i hi)).filter_mono (nhdsWithin_le_nhds (s := {0}ᶜ))
      obtain ⟨r, h4, h5⟩ := (h3.and self_mem_nhdsWithin).exists
      exact ⟨r, h5, h4⟩
    classical
    set q2 : List ℕ → K.N := Function.update q i (S.line (q i) (v i) r) with hq2
    have hin : S.Inside rs p q := fun k hk => ⟨hp k hk, hq k hk⟩
    have hin2 : S.Inside rs p q2 := fun k hk => ⟨hp k hk, by
      by_cases hki : k = i
      · subst hki
        simpa [hq2] using hr
      · simpa [hq2, hki] using hq k hk⟩
    have main : ∀ q : List ℕ → K.N, S.Inside rs p q →
        ∑ j ∈ box ss, (K.F (p i)).dot (q i) ((K.F (p i)).stat (x (i ++ j))) + c i =
        ∑ j ∈ box ss, (K.F (p i)).dot (q i) ((K.F (p i)).stat (x' (i ++ j))) + c' i + b i := by
      intro q hq
      obtain ⟨l, l', e1, e2, e3⟩ := hb q hq
      obtain ⟨f, z, d, f1, f2, f3, f4⟩ := hc q
      obtain ⟨f', z', d', g1, g2, g3, g4⟩ := hc' q
      obtain ⟨D, D1, D2⟩ := estimate_dot hs hK.kind hss ht hm q
      obtain ⟨D', D1', D2'⟩ := estimate_dot hs hK.kind hss ht' hm' q
      have a1 := e3 i hi
      rw [key (e1.symm.trans f1) i hi, key (e2.symm.trans g1) i hi, f4 i hi, g4 i hi] at a1
      have a2 := ok_scalars_inj (f2.symm.trans g2) i hi
      have a3 := D2 i hi
      have a4 := D2' i hi
      rw [← ok_scalars_inj (f3.symm.trans D1) i hi] at a3
      rw [← ok_scalars_inj (g3.symm.trans D1') i hi] at a4
      rw [← a3, ← a4]
      rw [a2] at a1
      linarith
    have m1 := main q hin
    have m2 := main q2 hin2
    have e : q2 i = S.line (q i) (v i) r := by simp [hq2]
    simp only [e, hL.dot_line (hp i hi), Finset.sum_add_distrib, ← Finset.mul_sum] at m2
    have m3 := h2 i hi
    have m4 := h2' i hi
    rw [← m3, ← m4] at m2
    have m5 : r * (ss.prod * d i) = r * (ss.prod * d' i) := by linarith
    exact mul_left_cancel₀ hn (mul_left_cancel₀ hr0 m5)
  · intro hv
    refine ⟨fun i => c i - c' i, fun q hq => ?_⟩
    obtain ⟨f, z, d, f1, f2, f3, f4⟩ := hc q
    obtain ⟨f', z', d', g1, g2, g3, g4⟩ := hc' q
    refine ⟨f, f', f1, g1, fun i hi => ?_⟩
    have hmem : ∀ k, inB rs k = true → q k ∈ S.dirs := fun k hk =>
      hL.dom_dirs (hq k hk).1 (hq k hk).2
    rw [hv q hmem] at f3
    rw [f4 i hi, g4 i hi, ok_scalars_inj (f3.symm.trans g3) i hi, ok_scalars_inj (f2.symm.trans g2) i hi]
    ring

/-- The observations 1 and 3 of a Poisson distribution say the same about it as 2 and 2, but not as 2 and 3. -/
example (hs : solve.For search) :
    let obs (a b : ℕ) : Tree Val := .leaf (.real (scalars [2] fun i => if i = [0] then (a : ℝ) else b))
    let E := Equivalent (library search) (Simple.poisson.kind solve) (Simple.poisson.setting solve) [] [2] fun _ => ()
    E (obs 1 3) (obs 2 2) ∧ ¬ E (obs 1 3) (obs 2 3) := by
  intro obs E
  let K := Simple.poisson.kind solve
  have hK : LibrarySetting solve K (Simple.poisson.setting solve) := .simple .poisson
  let x (a b : ℕ) : List ℕ → ℕ := fun i => if i = [0] then a else b
  have ho : ∀ a b, K.obs ([] ++ [2]) (x a b) (obs a b) := fun a b => by
    refine ⟨_, rfl, ?_⟩
    show HoldsR [2] _ _
    rw [HoldsR]
    simp only [x, apply_ite Nat.cast]
    rfl
  have hss : ∀ n ∈ [2], 0 < n := by simp
  have he := fun a b => estimates_ok hs hK.kind hss (fun _ => ()) (fun _ => (1 : ℝ)) (ho a b)
  have hsum : ∀ (a b : ℕ) (m : Dist Cls), Estimates (library search) (K.exp [] (fun _ => ()) fun _ => (1 : ℝ)) 1
      (obs a b) m → ∀ v : List ℕ → ℝ, ∃ d, dotCalc (K.nat [] (fun _ => ()) v) m = ok (scalars [] d) ∧
        2 * d [] = v [] * a + v [] * b := fun a b m hm v => by
    obtain ⟨d, h1, h2⟩ := estimate_dot hs hK.kind hss (ho a b) hm v
    refine ⟨d, h1, ?_⟩
    have h2 := h2 [] rfl
    have hb : box [2] = {[0], [1]} := by decide
    rw [hb, Finset.sum_pair (by decide)] at h2
    have h3 : ((([2] : List ℕ).prod : ℕ) : ℝ) * d [] =
      v [] * ((x a b [0] : ℕ) : ℝ) + v [] * ((x a b [1] : ℕ) : ℝ) := h2
    simpa [x] using h3
  obtain ⟨m1, h1, -⟩ := he 1 3
  obtain ⟨m2, h2, -⟩ := he 2 2
  obtain ⟨m3, h3, -⟩ := he 2 3
  constructor
  · refine (C69_minimal hs hK hss (fun _ _ => trivial) (ho 1 3) (ho 2 2) h1 h2).2 fun (v : List ℕ → ℝ) _ => ?_
    obtain ⟨d, e1, e2⟩ := hsum _ _ _ h1 v
    obtain ⟨d', e1', e2'⟩ := hsum _ _ _ h2 v
    rw [e1, e1']
    refine congrArg ok (scalars_congr fun i hi => ?_)
    rw [inB_nil_iff.1 hi]
    push_cast at e2 e2'
    linarith
  · intro h
    have := (C69_minimal hs hK hss (fun _ _ => trivial) (ho 1 3) (ho 2 3) h1 h3).1 h (fun _ => (1 : ℝ))
      fun _ _ => trivial
    obtain ⟨d, e1, e2⟩ := hsum _ _ _ h1 fun _ => 1
    obtain ⟨d', e1', e2'⟩ := hsum _ _ _ h3 fun _ => 1
    rw [e1, e1'] at this
    rw [ok_scalars_inj this [] rfl] at e2
    push_cast at e2 e2'
    linarith

end Efax
