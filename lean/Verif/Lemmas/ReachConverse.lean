import Verif.Spec.RandomReach
import Verif.Lemmas.Generate2

/-!
# The values that random generation returns
-/

namespace Efax

open Spec

section

variable {g : Rng} (hg : InRange g) [MachEps]

include hg

theorem realGenerate_lt {m M scale : ℝ} (hb : m < M) (rs : List ℕ) (s : g.State) {i : List ℕ}
    (hi : inB rs i = true) : (Ring.realGenerate (some m) (some M) scale g rs s).1.get i < M := by
  have hsh := hg.uniform_shape rs s
  change ((g.uniform rs s).1.map fun x => m + (M - m) * x).get i < M
  rw [Arr.map_get (by rw [hsh]; exact hi)]
  have := hg.uniform_lt rs s i hi
  nlinarith

/-- What `Ring.generate` returns is in `RingReach`, whenever it returns. -/
theorem Ring.generate_reached {r : Ring} {sup batch : List ℕ} (hr : Spread r batch) {s s' : g.State} {v : Val}
    (h : r.generate g (sup ++ batch) s = .ok (v, s')) : RingReach r sup batch v := by
  cases r with
  | real mn mx scale =>
    obtain ⟨h1, h2⟩ := realGenerate_mem hg hr.1.le (fun m hm M hM => (hr.2 m hm M hM).le) (sup ++ batch) s
    cases h
    refine ⟨h1, fun i hi => ⟨(h2 i hi).1, fun M hM => ⟨(h2 i hi).2 M hM, fun hn => ?_⟩⟩⟩
    cases mn with
    | none => exact absurd rfl hn
    | some m =>
      cases hM
      exact realGenerate_lt hg (hr.2 m rfl M rfl) _ _ hi
  | boolean =>
    cases h
    exact ⟨hg.binomial_shape _ _, trivial⟩
  | integral mn mx =>
    obtain ⟨m, rfl, hm, rfl⟩ := hr
    obtain ⟨h1, h2⟩ := realGenerate_mem hg (mn := some (Ring.openMin (m : ℝ))) (mx := none) zero_le_one
      (by simp) (sup ++ batch) s
    cases h
    refine ⟨h1, fun i hi m' hm' => ?_⟩
    cases hm'
    refine lt_of_le_of_lt ?_ (lt_of_lt_of_eq (Int.lt_floor_add_one
      ((Ring.realGenerate (some (Ring.openMin (m : ℝ))) none 1 g (sup ++ batch) s).1.get i * 10)) ?_)
    · linarith [(h2 i hi).1 _ rfl]
    · have h3 : (((Ring.realGenerate (some (Ring.openMin (m : ℝ))) none 1 g (sup ++ batch) s).1.map
          fun x => truncZ (x * 10)).get i) = truncZ ((Ring.realGenerate (some (Ring.openMin (m : ℝ))) none 1 g
          (sup ++ batch) s).1.get i * 10) := Arr.map_get (by rw [h1]; exact hi)
      have hm0 : (0 : ℝ) ≤ m := by exact_mod_cast hm
      have h4 := (hm0.trans (openMin_ge (m : ℝ))).trans ((h2 i hi).1 _ rfl)
      rw [truncZ, if_pos (by positivity)] at h3
      rw [← h3]
      rfl
  | complex mn mx =>
    simp only [Ring.generate, Bind.bind, Except.bind] at h
    cases h1 : Ring.complexUnflatArr mn mx (Arr.ofFn (sup ++ batch) fun i =>
      (⟨(g.normal (sup ++ batch) s).1.get i, (g.normal (sup ++ batch) (g.normal (sup ++ batch) s).2).1.get i⟩ : ℂ)) with
    | error e => rw [h1] at h; cases h
    | ok w =>
      rw [h1] at h
      cases h
      have h0 : ∀ i, inB (sup ++ batch) i = true → (Arr.ofFn (sup ++ batch) fun i =>
          (⟨(g.normal (sup ++ batch) s).1.get i,
            (g.normal (sup ++ batch) (g.normal (sup ++ batch) s).2).1.get i⟩ : ℂ)).get i ≠ 0 := by
        intro i hi h0
        rw [Ring.complexUnflatArr, if_pos (show Ring.boundsOk mn mx (Arr.ofFn (sup ++ batch) _).rshape = true from
          boundsOk_sup hr.1 hr.2.1)] at h1
        rw [Arr.mapE, if_neg] at h1
        · cases h1
        · intro hall
          have := hall i hi
          rw [h0, Ring.complexUnflat_zero] at this
          cases this
      obtain ⟨a, a1, a2, a3⟩ := complexUnflatArr_ok hg (sup := sup) (batch := batch) rfl hr h0
      rw [a1] at h1
      cases h1
      exact ⟨a2, a3⟩

/-- The eigenvalues drawn for a semidefinite matrix are not zero. -/
theorem eig_strict (psd : Bool) (d : ℕ) (batch : List ℕ) (s : g.State) :
    ∀ n j, n < d → inB batch j = true →
      (psd = true → 0 < (if psd then Ring.realGenerate (some (Ring.openMin 0)) none 1 g (d :: batch) s
        else Ring.realGenerate none (some (Ring.openMax 0)) 1 g (d :: batch) s).1.get (n :: j)) ∧
      (psd = false → (if psd then Ring.realGenerate (some (Ring.openMin 0)) none 1 g (d :: batch) s
        else Ring.realGenerate none (some (Ring.openMax 0)) 1 g (d :: batch) s).1.get (n :: j) < 0) := by
  intro n j hn hj
  have hi : inB (d :: batch) (n :: j) = true := (inB_cons ..).2 ⟨hn, hj⟩
  have h0 := MachEps.pos
  cases psd with
  | true =>
    refine ⟨fun _ => ?_, fun h => (by simp at h)⟩
    have := ((realGenerate_mem hg (mn := some (Ring.openMin 0)) (mx := none) zero_le_one (by simp)
      (d :: batch) s).2 _ hi).1 _ rfl
    exact (lt_of_lt_of_le (by linarith : (0 : ℝ) < 0 + MachEps.eps) (le_max_left _ _)).trans_le this
  | false =>
    refine ⟨fun h => (by simp at h), fun _ => ?_⟩
    have := ((realGenerate_mem hg (mn := none) (mx := some (Ring.openMax 0)) zero_le_one (by simp)
      (d :: batch) s).2 _ hi).2 _ rfl
    exact this.trans_lt (lt_of_le_of_lt (min_le_left _ _) (by linarith : (0 : ℝ) - MachEps.eps < 0))

/-- What `Support.generate` returns is in `Reach`, whenever it returns. -/
theorem Support.generate_reached {t : Support} {d : ℕ} {batch : List ℕ} (hS : Spreads t batch) {s s' : g.State}
    {v : Val} (h : t.generate g batch d s = .ok (v, s')) : Reach t d batch v := by
  cases t with
  | scalar r => exact Ring.generate_reached hg (sup := []) hS h
  | vector r => exact Ring.generate_reached hg (sup := [d]) hS h
  | simplex r => exact hS.elim
  | square r => exact hS.elim
  | circular r =>
    exact Ring.generate_reached hg (r := .real none none 1) (sup := [d]) ⟨one_pos, by simp⟩ h
  | symmetric r psd nsd herm =>
    cases r with
    | boolean => exact hS.elim
    | integral mn mx => exact hS.elim
    | real mn mx scale =>
      obtain ⟨rfl, rfl⟩ : mn = none ∧ mx = none := by
        cases mn <;> cases mx <;> first | exact ⟨rfl, rfl⟩ | exact hS.elim
      obtain ⟨h1, h2⟩ := hS
      obtain ⟨w, u, hw, h3, h4, h5⟩ := symmetricGenerate_ok hg (r := .real none none scale) (psd := psd)
        (nsd := nsd) (herm := herm) (batch := batch) (d := d) ⟨h2, h1.le⟩ (by simp) s
      have he : (w, u) = (v, s') := Except.ok.inj (hw.symm.trans h)
      cases he
      refine ⟨h3.1, h4, h5, ?_⟩
      cases v with
      | real a => trivial
      | _ => exact h3.2.elim
    | complex mn mx =>
      obtain ⟨rfl, rfl⟩ : mx = none ∧ herm = true := by
        cases mx <;> cases herm <;> first | exact ⟨rfl, rfl⟩ | exact hS.elim
      obtain ⟨rfl, h2⟩ := hS
      have hz : ∀ j, boundVal (Arr.full [] (0 : ℝ)) j = 0 := fun j => by
        simp [boundVal, Arr.full, Arr.ofFn, inB]
      have hs : (nsd || psd) = true := by rw [h2]; cases nsd <;> rfl
      simp only [Support.generate, Support.symmetricGenerate, hs, Bind.bind, Except.bind, if_true] at h
      cases h1 : Ring.generate (.complex (Arr.full [] 0) none) g (d :: d :: batch) s with
      | error e => rw [h1] at h; cases h
      | ok ws =>
        obtain ⟨w, s1⟩ := ws
        have hw := Ring.generate_reached hg (r := .complex (Arr.full [] 0) none) (sup := [d, d])
          (batch := batch) ⟨.inl rfl, by simp, fun j _ => ⟨(hz j).ge, by simp⟩⟩ h1
        cases w with
        | real a => exact hw.2.elim
        | bool a => exact hw.2.elim
        | int a => exact hw.2.elim
        | complex a =>
          rw [h1] at h
          simp only [Except.ok.injEq, Prod.mk.injEq] at h
          obtain ⟨rfl, -⟩ := h
          have hsign := eig_strict hg psd d batch s1
          refine ⟨rfl, isSymm_sandwich_complex d batch a _, fun j hj x => ?_, fun k j hk hj => ?_⟩
          · rw [quadratic_complex d batch a _ hj x]
            refine ⟨fun hp => Finset.sum_nonneg fun n hn => ?_, fun hn => Finset.sum_nonpos fun n hn' => ?_⟩
            · exact mul_nonneg ((hsign n j (Finset.mem_range.1 hn) hj).1 hp).le (Complex.normSq_nonneg _)
            · have hp : psd = false := by rw [h2, hn]; rfl
              exact mul_nonpos_of_nonpos_of_nonneg ((hsign n j (Finset.mem_range.1 hn') hj).2 hp).le
                (Complex.normSq_nonneg _)
          · rw [sandwich_get hk hk hj]
            have hne : ∀ n, n < d → a.get (n :: k :: j) ≠ 0 := fun n hn h0 => by
              have := (hw.2 [n, k] j ((inB_cons ..).2 ⟨hn, (inB_cons ..).2 ⟨hk, rfl⟩⟩) hj).1
              rw [hz, List.cons_append, List.cons_append, List.nil_append, h0, norm_zero] at this
              exact lt_irrefl _ this
            have hsum : ∀ n, a.get (n :: k :: j) * (((if psd = true then
                Ring.realGenerate (some (Ring.openMin 0)) none 1 g (d :: batch) s1
                else Ring.realGenerate none (some (Ring.openMax 0)) 1 g (d :: batch) s1).1.get (n :: j) : ℝ) : ℂ) *
                star (a.get (n :: k :: j)) = (((if psd = true then
                Ring.realGenerate (some (Ring.openMin 0)) none 1 g (d :: batch) s1
                else Ring.realGenerate none (some (Ring.openMax 0)) 1 g (d :: batch) s1).1.get (n :: j) *
                  Complex.normSq (a.get (n :: k :: j)) : ℝ) : ℂ) := fun n => by
              rw [mul_right_comm, Complex.star_def, Complex.mul_conj, Complex.ofReal_mul, mul_comm]
            rw [Finset.sum_congr rfl fun n _ => hsum n, ← Complex.ofReal_sum, Complex.ofReal_ne_zero]
            have hmem : k ∈ Finset.range d := Finset.mem_range.2 hk
            cases hp : psd with
            | true =>
              rw [hp] at hsign
              exact (Finset.sum_pos (fun n hn => mul_pos ((hsign n j (Finset.mem_range.1 hn) hj).1 rfl)
                (Complex.normSq_pos.2 (hne n (Finset.mem_range.1 hn)))) ⟨k, hmem⟩).ne'
            | false =>
              rw [hp] at hsign
              exact (Finset.sum_neg (fun n hn => mul_neg_of_neg_of_pos
                ((hsign n j (Finset.mem_range.1 hn) hj).2 rfl)
                (Complex.normSq_pos.2 (hne n (Finset.mem_range.1 hn)))) ⟨k, hmem⟩).ne

end

end Efax
