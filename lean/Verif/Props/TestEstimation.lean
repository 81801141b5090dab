import Verif.Lemmas.TestEstimation
import Verif.Spec.TestEstimation
import Verif.Props.FlatDict

/-!
# The test of maximum likelihood estimation (C88)
-/

namespace Efax

open Spec Tests ClassTable Calc

variable [MachEps] {solve : Solver} {search : Cls → List Val → Except Err (List Val)} {e : ℝ} {rs ss : List ℕ}
  {g : Rng}

/-! ### Clamping keeps observations -/

omit [MachEps] in
theorem clamp_holdsR {r : Ring} {x : List ℕ → ℝ} {v : Val} (h : HoldsR rs x v) :
    ∃ w x', (Support.scalar r).clamp e v = .ok w ∧ HoldsR rs x' w := by
  have hs : v.rshape = rs := rshape_of_toR h
  cases v with
  | real a =>
    obtain ⟨b, h1, h2⟩ := clamp_scalar_real (e := e) (r := r) (a := a)
    obtain ⟨x', hx⟩ := holdsR_real (h2.trans hs)
    exact ⟨_, x', h1, hx⟩
  | _ => exact ⟨_, x, by cases r <;> rfl, h⟩

omit [MachEps] in
theorem clamp_holdsV {r : Ring} {d : ℕ} {x : List ℕ → Fin d → ℝ} {v : Val} (h : HoldsV rs x v) :
    ∃ (w : Val) (x' : List ℕ → Fin d → ℝ), (Support.vector r).clamp e v = .ok w ∧ HoldsV rs x' w := by
  have hs : v.rshape = d :: rs := rshape_of_toR h
  cases v with
  | real a =>
    obtain ⟨b, h1, h2⟩ := clamp_real (e := e) (s := .vector r) (a := a) (fun h => by
      have hs : a.rshape = d :: rs := hs
      rw [h] at hs
      cases hs)
    obtain ⟨x', hx⟩ := holdsV_real (h2.trans hs)
    exact ⟨_, x', h1, hx⟩
  | _ => exact ⟨_, x, by cases r <;> rfl, h⟩

omit [MachEps] in
theorem clamp_holdsSimplex {r : Ring} {d : ℕ} {x : List ℕ → Fin d → ℝ} {a : Arr ℝ} (h : HoldsV rs x (.real a)) :
    ∃ (w : Val) (x' : List ℕ → Fin d → ℝ), (Support.simplex r).clamp e (.real a) = .ok w ∧ HoldsV rs x' w := by
  have hs : a.rshape = d :: rs := rshape_of_toR h
  obtain ⟨b, h1, h2⟩ := clamp_real (e := e) (s := .simplex r) (a := a) (fun h => by
    rw [h] at hs
    cases hs)
  obtain ⟨x', hx⟩ := holdsV_real (h2.trans hs)
  exact ⟨_, x', h1, hx⟩

omit [MachEps] in
/-- Clamping to the real line without bounds changes nothing. -/
theorem clamp_free {v : Val} : ∃ w, (Support.vector Ring.realField).clamp e v = .ok w ∧ w.toR = v.toR := by
  cases v with
  | real a =>
    refine ⟨_, rfl, congrArg ok (Arr.ext rfl fun i hi => ?_)⟩
    have hi : inB a.rshape i = true := hi
    rw [Arr.map_get hi]
    rfl
  | _ => exact ⟨_, rfl, rfl⟩

omit [MachEps] in
theorem clamp_holdsC {v : Val} {y : Arr ℂ} (h : v.toC = y) :
    ∃ w, (Support.scalar Ring.complexField).clamp e v = .ok w ∧ w.toC = y := by
  exact ⟨v, by cases v <;> rfl, h⟩

omit [MachEps] in
theorem clamp_holdsCV {v : Val} {y : Arr ℂ} (h : v.toC = y) :
    ∃ w, (Support.vector Ring.complexField).clamp e v = .ok w ∧ w.toC = y := by
  exact ⟨v, by cases v <;> rfl, h⟩

/-- An observation of a simple distribution remains one when it is clamped. -/
theorem clamped_simple (s : SimpleInfo) (n : ℕ) (p : List ℕ → ((familyOf s n).kind solve).P)
    (χ : List ℕ → ((familyOf s n).kind solve).E) (x : List ℕ → ((familyOf s n).kind solve).X) {v : Val}
    (h : ((familyOf s n).kind solve).obs ss x (.leaf v)) (hd : s = .dirichlet → ∃ a, v = .real a) :
    ∃ t x', Clamped e (((familyOf s n).kind solve).exp rs p χ) (.leaf v) t ∧
      ((familyOf s n).kind solve).obs ss x' t := by
  have wrap : ∀ {X : Type} {o : (List ℕ → X) → Val → Prop} {D : Dist Cls} {S : Support},
      isJoint D.cls = false → domainSupport D.cls = some S → (∃ w x', S.clamp e v = .ok w ∧ o x' w) →
      ∃ t x', Clamped e D (.leaf v) t ∧ ∃ w, t = .leaf w ∧ o x' w :=
    fun h1 h2 ⟨w, x', h3, h4⟩ => ⟨.leaf w, x', ⟨h1, _, w, h2, h3, rfl⟩, w, rfl, h4⟩
  cases s
  case dirichlet =>
    obtain ⟨v, h0, h⟩ := h
    cases h0
    obtain ⟨a, rfl⟩ := hd rfl
    exact wrap (D := .mk .dirichletEP _ .nil) rfl rfl (clamp_holdsSimplex h)
  all_goals
    clear hd
    obtain ⟨v, h0, h⟩ := h
    cases h0
  case vonMises =>
    obtain ⟨w, h1, h2⟩ := clamp_free (e := e) (v := v)
    exact wrap (D := .mk .vonMisesFisherEP _ .nil) rfl rfl ⟨w, x, h1, h2.trans h⟩
  case vonMisesFisher =>
    obtain ⟨w, h1, h2⟩ := clamp_free (e := e) (v := v)
    exact wrap (D := .mk .vonMisesFisherEP _ .nil) rfl rfl ⟨w, x, h1, h2.trans h⟩
  case bernoulli => exact wrap (D := .mk .bernoulliEP _ .nil) rfl rfl ⟨v, x, by cases v <;> rfl, h⟩
  case geometric => exact wrap (D := .mk .geometricEP _ .nil) rfl rfl ⟨v, x, by cases v <;> rfl, h⟩
  case poisson => exact wrap (D := .mk .poissonEP _ .nil) rfl rfl ⟨v, x, by cases v <;> rfl, h⟩
  case negativeBinomial => exact wrap (D := .mk .negativeBinomialEP _ .nil) rfl rfl ⟨v, x, by cases v <;> rfl, h⟩
  case logarithmic => exact wrap (D := .mk .logarithmicEP _ .nil) rfl rfl ⟨v, x, by cases v <;> rfl, h⟩
  all_goals first
    | exact wrap (D := Dist.mk _ _ .nil) rfl rfl (clamp_holdsR h)
    | exact wrap (D := Dist.mk _ _ .nil) rfl rfl (clamp_holdsV h)
    | (obtain ⟨w, h1, h2⟩ := clamp_holdsC (e := e) h
       exact wrap (D := Dist.mk _ _ .nil) rfl rfl ⟨w, x, h1, h2⟩)
    | (obtain ⟨w, h1, h2⟩ := clamp_holdsCV (e := e) h
       exact wrap (D := Dist.mk _ _ .nil) rfl rfl ⟨w, x, h1, h2⟩)

mutual
/-- What can be drawn is translated, and clamped to an observation. -/
theorem drawn_clamped (hs : solve.For search) : (info : TestInfo) → Sound info →
    ∀ (p : List ℕ → (settingOf solve info).1.P) (q : List ℕ → (settingOf solve info).1.N),
    (settingOf solve info).2.Inside ss p q → ∀ t, Drawn ss info t →
    ∀ (p' : List ℕ → (settingOf solve info).1.P) (χ : List ℕ → (settingOf solve info).1.E),
    ∃ t', info.observation t = .ok t' ∧ Tree.Ok t' ∧
      ∃ y x, Clamped e ((settingOf solve info).1.exp rs p' χ) t' y ∧ (settingOf solve info).1.obs ss x y
  | .simple s n, hi, p, q, hq, t, ht, p', χ => by
    obtain ⟨o, -, h1, -⟩ := agrees_all hs (.simple s n) hi ss p q hq
    obtain ⟨t', x, h2, h3, -⟩ := h1 t ht
    obtain ⟨v, rfl⟩ : ∃ v, t' = .leaf v := by
      cases s <;> exact ⟨_, h3.choose_spec.1⟩
    obtain ⟨y, x', h4, h5⟩ := clamped_simple (e := e) (rs := rs) s n p' χ x h3 (by
      rintro rfl
      obtain ⟨u, rfl, -⟩ := ht
      have h2 : Tree.leaf <$> Val.ofR u.toR.init = Except.ok (Tree.leaf v) := h2
      cases hu : u.toR.init.run with
      | error => simp [Val.ofR, hu] at h2
      | ok a => exact ⟨a, by simpa [Val.ofR, hu, eq_comm] using h2⟩)
    exact ⟨_, h2, trivial, y, x', h4, h5⟩
  | .joint infos, hi, p, q, hq, t, ht, p', χ => by
    obtain ⟨f, rfl, hp, hd⟩ := ht
    have hk : f.keys.Nodup := by
      rw [forest_keys]
      exact hp.nodup_iff.2 hi.2.1
    obtain ⟨f', h1, h2, h3, g', x, h4, h5, h6⟩ := drawns_clamped hs infos hi.2.2 hi.2.1 p q hq f hk hd p' χ
      ((Parts.ofList (partsOf (settingsOf solve infos))).exp rs p' χ) fun _ h => h
    refine ⟨.node f', ?_, ⟨?_, h3⟩, .node g', x, ⟨rfl, g', rfl, h4⟩, g', rfl, ?_, h6 g' fun _ h => h, fun n hn => ?_⟩
    · rw [TestInfo.observation, h1]
      rfl
    · obtain ⟨⟨name, info, rest, rfl⟩, -⟩ := hi
      rintro rfl
      cases h2
    · rw [h5]
      exact hi.2.1
    · rw [partNames, partsOf_names, ← h5]
      exact hn
/-- The same for parts. -/
theorem drawns_clamped (hs : solve.For search) : (infos : TestInfos) → Sounds infos → infos.names.Nodup →
    ∀ (p : List ℕ → (Parts.ofList (partsOf (settingsOf solve infos))).P)
      (q : List ℕ → (Parts.ofList (partsOf (settingsOf solve infos))).N),
    (∀ i, inB ss i = true → (Settings.ofList (settingsOf solve infos)).ok (p i) ∧
      q i ∈ (Settings.ofList (settingsOf solve infos)).dom (p i)) →
    ∀ f : Forest Val, f.keys.Nodup → Drawns ss infos f.toList →
    ∀ (p' : List ℕ → (Parts.ofList (partsOf (settingsOf solve infos))).P)
      (χ : List ℕ → (Parts.ofList (partsOf (settingsOf solve infos))).E) (S : Subs Cls),
    (∀ nd ∈ ((Parts.ofList (partsOf (settingsOf solve infos))).exp rs p' χ).toList, nd ∈ S.toList) →
    ∃ f', TestInfos.observation infos f = .ok f' ∧ f'.keys = infos.names ∧ Forest.Ok f' ∧
      ∃ g x, ClampedAll e S f' g ∧ g.keys = infos.names ∧
        ∀ g' : Forest Val, (∀ nt ∈ g.toList, nt ∈ g'.toList) →
          (Parts.ofList (partsOf (settingsOf solve infos))).obs ss x g'
  | .nil, _, _, _, _, _, _, _, _, _, _, _, _ =>
    ⟨.nil, rfl, rfl, trivial, .nil, fun _ => (), rfl, rfl, fun _ _ => trivial⟩
  | .cons name info rest, hi, hn, p, q, hq, f, hk, hd, p', χ, S, hS => by
    obtain ⟨⟨t, ht, hdt⟩, hd⟩ := hd
    have hn' : name ∉ rest.names ∧ rest.names.Nodup := List.nodup_cons.1 hn
    obtain ⟨t', h1, h2, y, x, h3, h4⟩ := drawn_clamped hs info hi.1 (fun i => (p i).1) (fun i => (q i).1)
      (fun i hi => ⟨(hq i hi).1.1, (hq i hi).2.1⟩) t hdt (fun i => (p' i).1) (fun i => (χ i).1)
    obtain ⟨f', h5, h6, h7, g', xs, h8, h9, h10⟩ := drawns_clamped hs rest hi.2 hn'.2 (fun i => (p i).2)
      (fun i => (q i).2) (fun i hi => ⟨(hq i hi).1.2, (hq i hi).2.2⟩) f hk hd (fun i => (p' i).2)
      (fun i => (χ i).2) S fun nd h => hS nd (List.mem_cons_of_mem _ h)
    refine ⟨.cons name t' f', ?_, ?_, ⟨by rw [h6]; exact hn'.1, h2, h7⟩, .cons name y g', fun i => (x i, xs i),
      ⟨_, y, g', hS _ List.mem_cons_self, rfl, h3, h8⟩, ?_, fun G hG =>
        ⟨⟨y, hG _ List.mem_cons_self, h4⟩, h10 G fun nt h => hG nt (List.mem_cons_of_mem _ h)⟩⟩
    · rw [TestInfos.observation, Forest.get?_of_mem hk ht]
      show (do
        let o ← info.observation t
        let os ← rest.observation f
        Except.ok (Forest.cons name o os)) = _
      rw [h1, h5]
      rfl
    · rw [Forest.keys, h6]
      rfl
    · rw [Forest.keys, h9]
      rfl
end

/-! ### The statistics have a structure -/

theorem first_free {c : Cls} (h : c.isMultidimensional = true) :
    ∃ f r, fields c = f :: r ∧ f.fixed = false := by
  cases c <;> first | exact ⟨_, _, rfl, rfl⟩ | cases h

mutual
theorem walk_flat : (d : Dist Cls) → WF d → (∀ k f v, ParamAt d k f v → FlatShape ss f v) →
    ∀ base, ∃ l, d.walk makeInfo base = .ok l
  | .mk c v s, hw, h, base => by
    obtain ⟨A, hA⟩ := walks_flat s hw.2.2.2 (fun n d k f v hm hp => h (n :: k) f v (.sub hm hp)) base
    have : ∃ n', dimensions c v = .ok n' := by
      change ∃ n', Cls.dimensions c v = .ok n'
      unfold Cls.dimensions
      split_ifs with hc
      · obtain ⟨f, r, h1, h2⟩ := first_free hc
        have hl : v.length = (fields c).length := hw.1
        rw [h1] at hl
        cases v with
        | nil => cases hl
        | cons u v =>
          have h3 := h [f.name] f u (.here (i := 0) (by rw [h1]; rfl) rfl)
          have h3 : u.rshape ≠ [] := by simpa [FlatShape, h2] using h3
          obtain ⟨a, b, h4⟩ := List.exists_cons_of_ne_nil h3
          exact ⟨a, by simp only [Val.lastDim, h4]⟩
      · exact ⟨1, rfl⟩
    obtain ⟨n', hn'⟩ := this
    refine ⟨_, Dist.walk_ok (b := ⟨base, c, n', s.names⟩) hA ?_⟩
    simp [makeInfo, Dist.cls, Dist.vals, Dist.subs, hn', Bind.bind, Except.bind]
theorem walks_flat : (s : Subs Cls) → WFs s → (∀ n d k f v, (n, d) ∈ s.toList → ParamAt d k f v → FlatShape ss f v) →
    ∀ base, ∃ l, s.walk makeInfo base = .ok l
  | .nil, _, _, _ => ⟨_, by rw [Subs.walk]⟩
  | .cons n d r, hw, h, base => by
    obtain ⟨a, ha⟩ := walk_flat d hw.1 (fun k f v hp => h n d k f v List.mem_cons_self hp) (base ++ [n])
    obtain ⟨b, hb⟩ := walks_flat r hw.2 (fun m d k f v hm hp => h m d k f v (List.mem_cons_of_mem _ hm) hp) base
    exact ⟨_, walk_cons ha hb⟩
end

/-! ### Closeness -/

theorem box_one (n : ℕ) (f : List ℕ → ℂ) : ∑ j ∈ box [n], f j = ∑ j ∈ Finset.range n, f [j] := by
  have h : box [n] = (Finset.range n).image fun j => [j] := by
    ext j
    simp [box]
  rw [h, Finset.sum_image fun a _ b _ h => by simpa using h]

/-- **C88.** The estimate of the test, from variates that are observations: it is computed, and the comparison
says that the expectation parameters are close to the means of the sufficient statistics. -/
theorem C88_close (hs : solve.For search) {K : Kind Cls} (hK : LibraryKind solve K) {n : ℕ} (hn : 0 < n)
    (p : List ℕ → K.P) (χ : List ℕ → K.E) {x : List ℕ → K.X} {t : Tree Val} (ht : K.obs [n] x t) :
    ∃ est w m, createEstimator (K.exp [] p χ) = .ok est ∧
      est.sufficientStatistics (library search).stat t = .ok w ∧ paramMap meanFirst w [] = .ok m ∧
      ∀ rtol atol, 0 ≤ rtol → 0 ≤ atol → (treeAllclose rtol atol (K.exp [] p χ) m ↔
        NearMeans rtol atol n (K.exp [] p χ) (K.exp [n] (fun _ => p []) fun i => (K.F (p [])).stat (x i))) := by
  have hok := C51_library hs hK
  have hc := library_collects (search := search) hK
  obtain ⟨w, h1, h2, h3⟩ := library_flat (search := search) hK [n] p χ x t (by simp) ht
  obtain ⟨l, hl⟩ := (library_indexed hs hK).infosE [] p χ []
  obtain ⟨nc, hnc⟩ := Option.isSome_iff_exists.1 (stat_natCls h1)
  have hest : createEstimator (K.exp [] p χ) = .ok ⟨l, parameters (K.exp [] p χ) (some true)⟩ := by
    simp only [createEstimator, infosOf, hl, hnc, Bind.bind, Except.bind]
  have hw := (C25_estimator (hok.wfE _ _ _) hest (hok.distinct _ _ _ ht)).2 h1
  have hwE := hok.wfE [] p χ
  have hwS := hok.wfE [n] (fun _ => p []) fun i => (K.F (p [])).stat (x i)
  have hww : WF w := h2.wf hwS
  obtain ⟨L, hL⟩ := walk_flat w hww h3 []
  -- the arrays of the statistics, of the model of the statistics, and the parameters
  have hshape : ∀ k f v w', ParamAt (K.exp [n] (fun _ => p []) fun i => (K.F (p [])).stat (x i)) k f v →
      ParamAt (K.exp [] p χ) k f w' → v.rshape = w'.rshape ++ [n] := by
    intro k f v w' hv hw'
    obtain ⟨w1, e2, ⟨s', a1, a2, -⟩, -⟩ := (hc.exp [] [n] p χ).param' hw'
    obtain ⟨v', e3, e4⟩ := (exp_rshapes hK _ _ fun i => (K.F (p [])).stat (x i)).param' e2
    obtain ⟨-, rfl⟩ := ParamAt.unique hwS e3 hv
    rw [← e4, a2, a1]
  have hfix : ∀ k f v w', f.fixed = true →
      ParamAt (K.exp [n] (fun _ => p []) fun i => (K.F (p [])).stat (x i)) k f v →
      ParamAt (K.exp [] p χ) k f w' → ∀ i j, inB w'.rshape i = true → j < n → entry v (i ++ [j]) = entry w' i := by
    intro k f v w' hf hv hw' i j hi hj
    obtain ⟨w1, e2, ⟨s', a1, a2, a3⟩, -⟩ := (hc.exp [] [n] p χ).param' hw'
    have e3 := hc.fixed [n] (fun _ => p []) (fun i => χ []) (fun i => (K.F (p [])).stat (x i)) k f w1 hf e2
    obtain ⟨-, rfl⟩ := ParamAt.unique hwS e3 hv
    rw [List.append_nil] at a1 a2 a3
    have hl := inB_length (a1 ▸ hi)
    have := a3 (i ++ [j]) ((inB_append hl).2 ⟨a1 ▸ hi, by simp [inB, hj]⟩)
    rw [toC_get, toC_get, ← hl, List.take_left] at this
    exact this
  have hmean : ∀ k f u, f.fixed = false → ParamAt w k f u → ∃ r, u.mean (some [0]) = .ok r ∧
      ∀ v w', ParamAt (K.exp [n] (fun _ => p []) fun i => (K.F (p [])).stat (x i)) k f v →
        ParamAt (K.exp [] p χ) k f w' → r.rshape = w'.rshape ∧ ∀ i, inB w'.rshape i = true →
          entry r i = (∑ j ∈ Finset.range n, entry v (i ++ [j])) / (n : ℂ) := by
    intro k f u hf hu
    obtain ⟨v, hv, huv⟩ := h2.param' hu
    have hne : u.rshape ≠ [] := by simpa [FlatShape, hf] using h3 k f u hu
    have huv : u.toC = v.toC := huv.resolve_right fun h => hne h.1
    have hr : u.rshape = v.rshape := by
      have := congrArg Arr.rshape huv
      simpa only [toC_rshape] using this
    obtain ⟨w', hw', -⟩ : ∃ w', ParamAt (K.exp [] p χ) k f w' ∧ True := by
      obtain ⟨v1, g1, -⟩ := (exp_rshapes hK (fun _ => p []) _ fun i => χ []).param' hv
      obtain ⟨w', g2, -⟩ := (hc.exp [] [n] p χ).param g1
      exact ⟨w', g2, trivial⟩
    obtain ⟨m, m1, m2⟩ := Val.mean_first (s := w'.rshape) (b := [n]) (hr.trans (hshape k f v w' hv hw'))
      (by simpa using hn)
    refine ⟨m, m1, fun v₂ w₂ hv₂ hw₂ => ?_⟩
    obtain ⟨-, rfl⟩ := ParamAt.unique hwS hv₂ hv
    obtain ⟨-, rfl⟩ := ParamAt.unique hwE hw₂ hw'
    obtain ⟨s, b, b1, b2, b3, b4, b5⟩ := m2
    obtain ⟨rfl, rfl⟩ := List.append_inj' (b3.symm.trans (hr.trans (hshape k f _ _ hv hw'))) b1
    refine ⟨b4, fun i hi => ?_⟩
    have hn0 : (n : ℂ) ≠ 0 := by exact_mod_cast hn.ne'
    have := b5 i hi
    rw [eq_div_iff hn0, mul_comm]
    simp only [List.prod_cons, List.prod_nil, mul_one] at this
    rw [this, box_one]
    refine Finset.sum_congr rfl fun j _ => ?_
    rw [← toC_get, ← toC_get, huv]
  obtain ⟨m, m1, m2, m3, m4⟩ := C16_map (ys := []) hww (by simp) hL (op := meanFirst) (by
    intro k f v vs hp hf h
    cases h
    obtain ⟨r, hr, -⟩ := hmean k f v hf hp
    exact ⟨r, hr⟩)
  refine ⟨_, w, m, hest, hw, m1, fun rtol atol hr ha => ?_⟩
  -- parameters of the estimate
  have hfree : ∀ k f u v w', f.fixed = false → ParamAt m k f u →
      ParamAt (K.exp [n] (fun _ => p []) fun i => (K.F (p [])).stat (x i)) k f v →
      ParamAt (K.exp [] p χ) k f w' → u.rshape = w'.rshape ∧ ∀ i, inB w'.rshape i = true →
        entry u i = (∑ j ∈ Finset.range n, entry v (i ++ [j])) / (n : ℂ) := by
    intro k f u v w' hf hu hv hw'
    have := (m4 k f u).1 hu
    simp only [hf, Bool.false_eq_true, if_false] at this
    obtain ⟨a, as, a1, a2, a3⟩ := this
    cases a2
    obtain ⟨r, r1, r2⟩ := hmean k f a hf a1
    obtain rfl := Except.ok.inj (r1.symm.trans a3)
    exact r2 v w' hv hw'
  have hS : ∀ k f u, ParamAt m k f u → ∃ v, ParamAt (K.exp [n] (fun _ => p []) fun i => (K.F (p [])).stat (x i)) k f v := by
    intro k f u hu
    obtain ⟨a, ha'⟩ := hu.same m3.symm hww
    obtain ⟨v, hv, -⟩ := h2.param' ha'
    exact ⟨v, hv⟩
  have hsame : SameTree (K.exp [] p χ) m :=
    ((hc.exp [] [n] p χ).same.trans ((exp_rshapes hK _ _ _).same.trans h2.same.symm)).trans m3
  rw [allclose_rel]
  constructor
  · intro h k f v w' hf hv hw' i hi
    obtain ⟨u, hu, h6⟩ := h.param' hw'
    obtain ⟨h7, h8⟩ := hfree k f u v w' hf hu hv hw'
    have := (allclose_same h7.symm).1 h6 i (h7 ▸ hi)
    rw [h8 i hi] at this
    exact this
  · intro h
    refine treeRel_of_params _ _ hwE m2 hsame fun k f w' u hw' hu => ?_
    obtain ⟨v, hv⟩ := hS k f u hu
    cases hf : f.fixed with
    | false =>
      obtain ⟨h7, h8⟩ := hfree k f u v w' hf hu hv hw'
      refine (allclose_same h7.symm).2 fun i hi => ?_
      rw [h8 i (h7 ▸ hi)]
      exact h k f v w' hf hv hw' i (h7 ▸ hi)
    | true =>
      have hu' := (m4 k f u).1 hu
      simp only [hf, if_true] at hu'
      obtain ⟨v', hv', h7⟩ := h2.param' hu'
      obtain ⟨-, rfl⟩ := ParamAt.unique hwS hv' hv
      have h8 : u.rshape = [] ∨ u.rshape = [n] := by simpa [FlatShape, hf] using h3 k f u hu'
      have h9 := hshape k f v' w' hv' hw'
      rcases h7 with h7 | ⟨h7, h10⟩
      · have hr' : u.rshape = v'.rshape := by
          have := congrArg Arr.rshape h7
          simpa only [toC_rshape] using this
        rw [h9] at hr'
        rcases h8 with h8 | h8
        · exact absurd (h8.symm.trans hr') (by simp)
        · have hw0 : w'.rshape = [] := by
            have := h8.symm.trans hr'
            exact List.append_left_eq_self.1 this.symm
          refine ⟨.inr (.inl hw0), fun i hi => ?_⟩
          rw [h8, if_neg (by simp)] at hi
          obtain ⟨j, rfl, hj⟩ : ∃ j, i = [j] ∧ j < n := by
            cases i with
            | nil => cases hi
            | cons j i =>
              cases i with
              | nil => exact ⟨j, rfl, by simpa [inB] using hi⟩
              | cons => simp [inB] at hi
          have e1 : u.broadcastAt [j] = entry w' [] := by
            rw [broadcastAt_eq (by rw [h8]; exact hi), ← toC_get, h7, toC_get]
            exact hfix k f v' w' hf hv hw' [] j (by rw [hw0]; rfl) hj
          rw [e1, broadcastAt_scalar hw0, sub_self, norm_zero]
          positivity
      · refine ⟨.inr (.inr h7), fun i hi => ?_⟩
        rw [if_pos h7] at hi
        have e1 : entry u [] = entry w' i := by
          rw [← h10 (i ++ [0]) (by
            rw [h9]
            exact (inB_append (inB_length hi)).2 ⟨hi, by simp [inB, hn]⟩)]
          exact hfix k f v' w' hf hv hw' i 0 hi hn
        rw [broadcastAt_scalar h7, broadcastAt_eq hi, e1, sub_self, norm_zero]
        positivity

/-! ### The test -/

/-- **C88.** `test_maximum_likelihood_estimation`, for every description of distributions, every cooperative
random stream and whatever variates are drawn: everything is computed, and what decides is whether the
expectation parameters are close to the means of the sufficient statistics of the clamped variates. -/
theorem C88_test (hs : solve.For search) {info : TestInfo} (hi : Sound info) (hf : Shallow info)
    (hg : InRange g) (hz : NeverZero g) (hq : Generic g) (hc : Cooperative solve info g [])
    {draw : Oracle → ℕ → g.State → Tree Val × g.State} (hd : DrawsMany info draw) (s : g.State) :
    ∃ (p : List ℕ → (settingOf solve info).1.P) (q : List ℕ → (settingOf solve info).1.N) (s' : g.State)
      (o : Oracle) (t y : Tree Val) (x : List ℕ → (settingOf solve info).1.X),
      let E := (settingOf solve info).1.exp [] p fun i => ((settingOf solve info).1.F (p i)).toExp (q i)
      info.natParameters g [] s = .ok ((settingOf solve info).1.nat [] p q, s') ∧
      info.expToScipy (library search) E = .ok o ∧
      info.observation (draw o variates s').1 = .ok t ∧ Clamped e E t y ∧
      (settingOf solve info).1.obs [variates] x y ∧
      let close := NearMeans 2e-2 (estimationAtol info) variates E
        ((settingOf solve info).1.exp [variates] (fun _ => p [])
          fun i => ((settingOf solve info).1.F (p [])).stat (x i))
      (close → testEstimation (library search) e info g draw s = .ok (draw o variates s').2) ∧
      (¬ close → testEstimation (library search) e info g draw s = .error .assertionError) := by
  have hS := sound_library (solve := solve) info hi
  obtain ⟨p, q, s', h1, h2⟩ := C76_test_parameters (solve := solve) hi hf hg hz hq [] s
  obtain ⟨hr, hse, hx⟩ := hc s s' p q h1 h2
  have h5 := C76_test_expectation hs hi h1 hr
  obtain ⟨E, hE, h6⟩ := C75_expectation hs hi h2 hr hx
  obtain rfl := Except.ok.inj (((C51_library hs hS.kind).toExp [] p q (regular_dom hS.kind hr)).symm.trans hE)
  obtain ⟨o, h7, -⟩ := h6 hse
  obtain ⟨t, h8, h9, y, x, h10, h11⟩ := drawn_clamped (e := e) (rs := []) hs info hi (fun _ => p []) (fun _ => q [])
    (fun i _ => h2 [] rfl) _ (hd o variates s') p fun i => ((settingOf solve info).1.F (p i)).toExp (q i)
  refine ⟨p, q, s', o, t, y, x, ?_⟩
  intro E
  refine ⟨h1, h7, h8, h10, h11, ?_⟩
  intro close
  obtain ⟨est, w, m, a1, a2, a3, a4⟩ := C88_close (search := search) hs hS.kind (n := variates)
    (by norm_num [variates]) p (fun i => ((settingOf solve info).1.F (p i)).toExp (q i)) h11
  have ha : 0 ≤ estimationAtol info := by
    unfold estimationAtol; split <;> norm_num
  have h12 := (C78_clamp ((C51_library hs hS.kind).wfE [] p _) h9).2 h10
  have heq : testEstimation (library search) e info g draw s =
      (check (treeAllclose 2e-2 (estimationAtol info) E m)).bind fun _ => .ok (draw o variates s').2 := by
    simp only [testEstimation, checkVariates, h5, h7, h8, h12, a1, a2, a3, Bind.bind, Except.bind]
    rfl
  rw [heq]
  have hclose := a4 2e-2 (estimationAtol info) (by norm_num) ha
  constructor
  · intro h
    rw [check_ok (hclose.2 h)]
    rfl
  · intro h
    rw [check, if_neg (fun h' => h (hclose.1 h'))]
    rfl

/-! ### Fixed parameters -/

/-- What the test computes from statistics, one parameter of which is fixed. -/
theorem meaned {n : ℕ} (hn : 0 < n) {w m : Dist Cls} (hw : WF w) (hf : ∀ k f v, ParamAt w k f v → FlatShape [n] f v)
    (hr : ∀ k f v, ParamAt w k f v → f.fixed = false → v.rshape = [n]) (hm : paramMap meanFirst w [] = .ok m) :
    WF m ∧ SameTree w m ∧ (∀ k f v, f.fixed = true → ParamAt w k f v → ParamAt m k f v) ∧
      ∀ k f v, f.fixed = false → ParamAt m k f v → v.rshape = [] := by
  obtain ⟨L, hL⟩ := walk_flat w hw hf []
  have hmean : ∀ k f v, f.fixed = false → ParamAt w k f v → ∃ r, v.mean (some [0]) = .ok r ∧ r.rshape = [] := by
    intro k f v hf hv
    obtain ⟨r, h1, s, b, b1, b2, b3, b4, -⟩ := Val.mean_first (s := []) (b := [n]) (hr k f v hv hf) (by simpa using hn)
    refine ⟨r, h1, ?_⟩
    have := b3.symm.trans (hr k f v hv hf)
    have h2 := congrArg List.length this
    rw [List.length_append, b1] at h2
    exact b4.trans (List.eq_nil_of_length_eq_zero (by simpa using h2))
  obtain ⟨m', m1, m2, m3, m4⟩ := C16_map (ys := []) hw (by simp) hL (op := meanFirst) (by
    intro k f v vs hp hf h
    cases h
    obtain ⟨r, hr, -⟩ := hmean k f v hf hp
    exact ⟨r, hr⟩)
  obtain rfl := Except.ok.inj (m1.symm.trans hm)
  refine ⟨m2, m3, fun k f v hf hv => (m4 k f v).2 (by rw [if_pos hf]; exact hv), fun k f v hf hv => ?_⟩
  have := (m4 k f v).1 hv
  simp only [hf, Bool.false_eq_true, if_false] at this
  obtain ⟨a, as, a1, a2, a3⟩ := this
  cases a2
  obtain ⟨r, r1, r2⟩ := hmean k f a hf a1
  obtain rfl := Except.ok.inj (r1.symm.trans a3)
  exact r2

theorem stat_ok {c c' : Cls} {m : NatMethods} {v : Val} {a : Dict String Val} {u : List Val}
    (hm : (library search).nat c = some m) (he : expCls c = some c') (h : m.stat v a = .ok u) :
    (library search).stat c v a = .ok (.mk c' u .nil) := by
  rw [Library.stat, hm, he]
  simp only [h]
  rfl

theorem param_two {c : Cls} {a b u : Val} {k : Path} {f : Field} (h : ParamAt (.mk c [a, b] .nil) k f u) :
    ((fields c)[0]? = some f ∧ u = a) ∨ ((fields c)[1]? = some f ∧ u = b) := by
  cases h with
  | sub h => cases h
  | @here _ _ _ n _ _ h1 h2 =>
    match n, h1, h2 with
    | 0, h1, h2 => exact .inl ⟨h1, (Option.some.inj h2).symm⟩
    | 1, h1, h2 => exact .inr ⟨h1, (Option.some.inj h2).symm⟩

/-- **C88.** The statistics of the negative binomial distribution broadcast the failures to the shape of the
observations, and the test averages free parameters only: the parameters that it computes have a mean without
axes and failures with an axis of length `n`. -/
theorem C88_negative_binomial (hs : solve.For search) {n : ℕ} (hn : 0 < n) (p : List ℕ → ℕ) (χ : List ℕ → ℝ)
    {x : List ℕ → ℕ} {t : Tree Val} (ht : (Simple.kind solve .negativeBinomial).obs [n] x t) :
    ∃ est w μ, createEstimator ((Simple.kind solve .negativeBinomial).exp [] p χ) = .ok est ∧
      est.sufficientStatistics (library search).stat t = .ok w ∧
      paramMap meanFirst w [] =
        .ok (.mk .negativeBinomialEP [μ, .int (scalars [n] fun _ => (p [] : ℤ))] .nil) ∧ μ.rshape = [] := by
  obtain ⟨est, w, m, h1, h2, h3, -⟩ := C88_close (search := search) hs (.simple .negativeBinomial) hn p χ ht
  have hwE := (C51_library hs (.simple .negativeBinomial)).wfE [] p χ
  have hd := (C51_library hs (.simple .negativeBinomial)).distinct _ _ _ ht
  obtain ⟨w', h4, h5, h6⟩ := library_flat (search := search) (.simple .negativeBinomial) [n] p χ x t (by simp) ht
  obtain rfl := Except.ok.inj (((C25_estimator hwE h1 hd).2 h4).symm.trans h2)
  have hww := h5.wf ((C51_library hs (.simple .negativeBinomial)).wfE [n] (fun _ => p []) _)
  obtain ⟨v, rfl, hv⟩ := ht
  obtain ⟨-, ec, nc, e1, e2, e3, -⟩ := h4
  cases e1
  cases e2
  have hg : ∀ w, Dict.get [("failures", w)] "failures" = .ok (w : Val) := fun _ => rfl
  have hst : Methods.negativeBinomialNP.stat v [("failures", .int (scalars [] fun i => (p i : ℤ)))] =
      .ok [v, .int (scalars [n] fun _ => (p [] : ℤ))] := by
    simp only [Methods.negativeBinomialNP, hg, Bind.bind, Except.bind, show v.toR = _ from hv,
      broadcastLike_nil [n] (fun i => (p i : ℤ)), run_ok]
  have e4 := stat_ok (search := search) (c := .negativeBinomialNP) rfl rfl hst
  obtain rfl : _ = w' := Except.ok.inj (e4.symm.trans e3)
  obtain ⟨m1, m2, m3, m4⟩ := meaned hn hww h6 (fun k f u hu hf => by
    rcases param_two hu with ⟨-, rfl⟩ | ⟨h, -⟩
    · exact rshape_of_toR hv
    · cases h
      cases hf) h3
  obtain ⟨c, vals, subs⟩ := m
  obtain ⟨rfl, hsub⟩ := m2
  cases subs with
  | cons => exact hsub.elim
  | nil =>
    match vals, m1.1 with
    | [a, b], _ =>
      have hb := m3 _ ⟨"failures", .scalar (.integral (some 1) none), true⟩ _ rfl (.here (i := 1) rfl rfl)
      have := ParamAt.unique m1 hb (.here (i := 1) rfl rfl)
      obtain ⟨-, rfl⟩ := this
      exact ⟨est, _, a, h1, h2, h3, m4 _ ⟨"mean", .scalar Ring.positiveSupport, false⟩ _ rfl (.here (i := 0) rfl rfl)⟩

/-- **C88.** The same for the concentration of the Weibull distribution. -/
theorem C88_weibull (hs : solve.For search) {n : ℕ} (hn : 0 < n) (p : List ℕ → ℝ) (χ : List ℕ → ℝ)
    {x : List ℕ → ℝ} {t : Tree Val} (ht : (Simple.kind solve .weibull).obs [n] x t) :
    ∃ est w μ, createEstimator ((Simple.kind solve .weibull).exp [] p χ) = .ok est ∧
      est.sufficientStatistics (library search).stat t = .ok w ∧
      paramMap meanFirst w [] =
        .ok (.mk .weibullEP [.real (scalars [n] fun _ => p []), μ] .nil) ∧ μ.rshape = [] := by
  obtain ⟨est, w, m, h1, h2, h3, -⟩ := C88_close (search := search) hs (.simple .weibull) hn p χ ht
  have hwE := (C51_library hs (.simple .weibull)).wfE [] p χ
  have hd := (C51_library hs (.simple .weibull)).distinct _ _ _ ht
  obtain ⟨w', h4, h5, h6⟩ := library_flat (search := search) (.simple .weibull) [n] p χ x t (by simp) ht
  obtain rfl := Except.ok.inj (((C25_estimator hwE h1 hd).2 h4).symm.trans h2)
  have hww := h5.wf ((C51_library hs (.simple .weibull)).wfE [n] (fun _ => p []) _)
  obtain ⟨v, rfl, hv⟩ := ht
  obtain ⟨-, ec, nc, e1, e2, e3, -⟩ := h4
  cases e1
  cases e2
  have hg : ∀ w, Dict.get [("concentration", w)] "concentration" = .ok (w : Val) := fun _ => rfl
  have hst : Methods.weibullNP.stat v [("concentration", .real (scalars [] p))] =
      .ok [.real (scalars [n] fun _ => p []), .real (scalars [n] fun i => x i ^ p [])] := by
    simp only [Methods.weibullNP, hg, Bind.bind, Except.bind, show v.toR = _ from hv, toR_real,
      broadcastLike_nil, bin_scalars_nil]
    rfl
  have e4 := stat_ok (search := search) (c := .weibullNP) rfl rfl hst
  obtain rfl : _ = w' := Except.ok.inj (e4.symm.trans e3)
  obtain ⟨m1, m2, m3, m4⟩ := meaned hn hww h6 (fun k f u hu hf => by
    rcases param_two hu with ⟨h, -⟩ | ⟨-, rfl⟩
    · cases h
      cases hf
    · rfl) h3
  obtain ⟨c, vals, subs⟩ := m
  obtain ⟨rfl, hsub⟩ := m2
  cases subs with
  | cons => exact hsub.elim
  | nil =>
    match vals, m1.1 with
    | [a, b], _ =>
      have hb := m3 _ ⟨"concentration", .scalar Ring.positiveSupport, true⟩ _ rfl (.here (i := 0) rfl rfl)
      have := ParamAt.unique m1 hb (.here (i := 0) rfl rfl)
      obtain ⟨-, rfl⟩ := this
      exact ⟨est, _, b, h1, h2, h3, m4 _ ⟨"chi", .scalar Ring.positiveSupport, false⟩ _ rfl (.here (i := 1) rfl rfl)⟩

/-- Non-vacuity: observations of these distributions. -/
example : ∃ t, (Simple.kind solve .negativeBinomial).obs [2] (fun _ => (3 : ℕ)) t :=
  ⟨_, .real (scalars [2] fun _ => ((3 : ℕ) : ℝ)), rfl, rfl⟩

example : ∃ t, (Simple.kind solve .weibull).obs [2] (fun _ => (3 : ℝ)) t :=
  ⟨_, .real (scalars [2] fun _ => 3), rfl, rfl⟩

namespace Samples

/-- Variates of the normal and the geometric distribution. -/
noncomputable def constantDraw (_ : Oracle) (n : ℕ) (s : Samples.diagonal.State) : Tree Val × Samples.diagonal.State :=
  (.node (.cons "g" (.leaf (.real (scalars [n] fun _ => 1)))
    (.cons "n" (.leaf (.real (scalars [n] fun _ => 1))) .nil)), s)

omit [MachEps] in
theorem constant_draws : DrawsMany plainInfo constantDraw := fun _ _ _ =>
  ⟨_, rfl, .swap _ _ _, ⟨_, List.mem_cons_of_mem _ List.mem_cons_self, _, rfl, fun _ => 1, rfl⟩,
    ⟨_, List.mem_cons_self, _, rfl, fun _ => 1, rfl, fun _ _ => ⟨1, le_refl 1, by simp⟩⟩, trivial⟩

end Samples

/-- Non-vacuity of C88: a joint distribution of a normal and a geometric distribution. -/
example (s : Samples.diagonal.State) :
    (∃ s', testEstimation (library (searchFor zeroMinimizer)) e Samples.plainInfo Samples.diagonal Samples.constantDraw s = .ok s') ∨
    testEstimation (library (searchFor zeroMinimizer)) e Samples.plainInfo Samples.diagonal Samples.constantDraw s =
      .error .assertionError := by
  obtain ⟨p, q, s', o, t, y, x, -, -, -, -, -, h1, h2⟩ := C88_test (e := e) (C51_search zeroMinimizer_returns)
    Samples.plain_sound trivial Samples.diagonal_inRange Samples.diagonal_neverZero Samples.diagonal_generic
    (cooperative_closed Samples.plain_sound Samples.plain_closed []) Samples.constant_draws s
  exact (Classical.em _).imp (fun h => ⟨_, h1 h⟩) h2

/-- Non-vacuity: means of constant arrays are near themselves, and not near other numbers. -/
example : (NearMeans 0 0 2 (.mk Cls.exponentialEP [.real (scalars [] fun _ => 3)] .nil)
      (.mk Cls.exponentialEP [.real (scalars [2] fun _ => 3)] .nil)) ∧
    ¬ NearMeans 0 0 2 (.mk Cls.exponentialEP [.real (scalars [] fun _ => 4)] .nil)
      (.mk Cls.exponentialEP [.real (scalars [2] fun _ => 3)] .nil) := by
  have sum : (∑ j ∈ Finset.range 2, Spec.entry (.real (scalars [2] fun _ => 3)) ([] ++ [j])) / ((2 : ℕ) : ℂ) = 3 := by
    simp [Finset.sum_range_succ, Spec.entry, scalars, Arr.ofFn, inB]
  constructor
  · intro k f v w _ hv hw i hi
    obtain rfl := param_only hv
    obtain rfl := param_only hw
    have hi : inB [] i = true := hi
    cases i with
    | cons => cases hi
    | nil =>
      simp only [sum]
      simp [Spec.entry, scalars, Arr.ofFn, inB]
  · intro h
    have := h [_] ((ClassTable.fields Cls.exponentialEP)[0]'Nat.one_pos)
      (.real (scalars [2] fun _ => 3)) (.real (scalars [] fun _ => 4)) rfl
      (.here (i := 0) rfl rfl) (.here (i := 0) rfl rfl) [] rfl
    simp only [sum] at this
    norm_num [Spec.entry, scalars, Arr.ofFn, inB] at this

end Efax
