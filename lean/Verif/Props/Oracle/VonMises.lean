import Verif.Props.Oracle.Mv
import Verif.Props.RoundTrip

/-!
# The oracles of the tests: von Mises and von Mises-Fisher distributions
-/

namespace Efax

open Spec Calc Tests MeasureTheory

section

variable {n : ℕ} {rs : List ℕ}

theorem vonMises_ok (κ m : List ℕ → ℝ) (hκ : ∀ i, inB rs i = true → 0 ≤ κ i) :
    ∃ o, Tests.vonMises (ok (scalars rs κ)) (ok (scalars rs m)) = .ok o ∧
      (∀ v y, HoldsR rs y v →
        o.pdf (.leaf v) = .ok (scalars rs fun i => Textbook.vonMises (κ i) (m i) (y i))) ∧
      o.entropy = .ok (scalars rs fun i => vonMisesEntropy (κ i)) := by
  have hb : bcast rs rs = .ok rs := bcast_self rs
  refine ⟨shapedOracle { shape := rs.reverse, rvsShape := [], objects := fun i =>
      { rvs := fun _ g => g.elim
        pdf := fun x => .ok (x.map (Scipy.vonMisesPdf ((scalars rs κ).get (bidx rs i.reverse))
          ((scalars rs m).get (bidx rs i.reverse))))
        entropy := .ok (Arr.full [] (vonMisesEntropy ((scalars rs κ).get (bidx rs i.reverse)))) } }, ?_,
    fun v y hy => ?_, ?_⟩
  · show (do
      let D ← (do
        let rs ← bcast rs rs
        .ok _)
      .ok (shapedOracle D)) = _
    rw [hb]
    rfl
  · show (do Scipy.Shaped.pdf _ (← v.toR.run)) = _
    rw [hy]
    refine shaped_pdf rfl (x := scalars rs y) rfl fun i hi z hz he => ?_
    simp only [List.reverse_reverse]
    rw [bidx_self hi, show (scalars rs κ).get i = κ i from Arr.ofFn_get hi,
      show (scalars rs m).get i = m i from Arr.ofFn_get hi]
    refine congrArg _ (Arr.ext hz fun j hj => ?_)
    have hj : inB z.rshape j = true := hj
    rw [Arr.map_get hj]
    rw [hz] at hj
    obtain rfl : j = [] := by simpa using inB_length hj
    rw [he, C60_von_mises_formula (hκ i hi), show (scalars rs y).get i = y i from Arr.ofFn_get hi]
    rfl
  · refine fill_scalars fun i hi => ?_
    simp only [List.reverse_reverse]
    rw [bidx_self hi, show (scalars rs κ).get i = κ i from Arr.ofFn_get hi]

theorem vonMisesFisher_ok (hn : 2 ≤ n) (m : List ℕ → Fin n → ℝ) (κ : List ℕ → ℝ)
    (hm : ∀ i, inB rs i = true → ∑ k, m i k ^ 2 = 1) (hκ : ∀ i, inB rs i = true → 0 < κ i) :
    ∃ o, Tests.vonMisesFisher (ok (vectors rs m)) (ok (scalars rs κ)) = .ok o ∧
      (∀ v y, HoldsV rs y v → (∀ i, inB rs i = true → ∑ k, y i k ^ 2 = 1) →
        o.pdf (.leaf v) = .ok (scalars rs fun i => Textbook.vonMisesFisher (m i) (κ i) (y i))) ∧
      o.entropy = .ok (scalars rs fun i => vonMisesFisherEntropy n (κ i)) := by
  have hd : ∀ {x : Fin n → ℝ}, ∑ k, x k ^ 2 = 1 → x ⬝ᵥ x = 1 := fun {x} h => by
    rw [← h, dotProduct]
    exact Finset.sum_congr rfl fun k _ => (sq (x k)).symm
  obtain ⟨D, hD⟩ := ((C60_von_mises_fisher_new (mu := vectors rs m) (kappa := scalars rs κ) (rs := rs) (d := n)
    rfl (fun _ _ (g : Empty) => g.elim) (vonMisesFisherEntropy n)).2 rfl).2 fun i hi =>
      ⟨by rw [vectorAt_vectors m hi]; exact hd (hm i hi), by
        rw [show (scalars rs κ).get i = κ i from Arr.ofFn_get hi]; exact hκ i hi, hn⟩
  refine ⟨shapedOracle D, ?_, fun v y hy hu => ?_, ?_⟩
  · show (do
      let D ← Scipy.vonMisesFisherNew _ _ _ _
      .ok (shapedOracle D)) = _
    rw [show ((vectors rs m).rshape.headD 0) = n from rfl, hD]
    rfl
  · show (do Scipy.Shaped.pdf D (← v.toR.run)) = _
    rw [hy]
    refine (C60_von_mises_fisher_pdf (rs := rs) (d := n) rfl rfl hD (x := vectors rs y) rfl fun i hi => ?_).trans ?_
    · rw [vectorAt_vectors y hi]
      exact hd (hu i hi)
    · refine congrArg _ (scalars_congr fun i hi => ?_)
      rw [vectorAt_vectors y hi, vectorAt_vectors m hi]
      exact congrArg (fun k => Textbook.vonMisesFisher (m i) k (y i)) (Arr.ofFn_get hi)
  · have hl : (vectors rs m).lastDim = .ok n := rfl
    have ht : (vectors rs m).rshape.tail = rs := rfl
    have hr : (scalars rs κ).rshape = rs := rfl
    simp only [Scipy.vonMisesFisherNew, hl, ht, hr, Bind.bind, Except.bind, ne_eq, not_true_eq_false, if_false,
      pure, Except.pure] at hD
    split at hD
    · cases hD
    · cases hD
      refine fill_scalars fun i hi => ?_
      simp only [List.reverse_reverse]
      rw [show (scalars rs κ).get i = κ i from Arr.ofFn_get hi]

theorem vonMisesEntropy_eq {k : ℝ} (hk : 0 < k) : vonMisesEntropy k = Textbook.Entropy.vonMisesFisher 2 k := by
  have hI : 0 < besselI 0 k := besselI_pos (by norm_num) hk
  have he := Real.exp_pos (-|k|)
  rw [vonMisesEntropy, Textbook.Entropy.vonMisesFisher]
  norm_num
  rw [Real.log_mul (by positivity) (by positivity), Real.log_mul hI.ne' he.ne', Real.log_exp, abs_of_pos hk]
  have h1 := hI.ne'
  have h2 := (Real.exp_pos (-k)).ne'
  field_simp
  ring

theorem vonMisesFisherEntropy_eq (hn : 2 ≤ n) {k : ℝ} (hk : 0 < k) :
    vonMisesFisherEntropy n k = Textbook.Entropy.vonMisesFisher n k := by
  have hn' : (2 : ℝ) ≤ n := by exact_mod_cast hn
  have hI : 0 < besselI ((n : ℝ) / 2 - 1) k := besselI_pos (by linarith) hk
  have he := Real.exp_pos (-|k|)
  simp only [vonMisesFisherEntropy, Textbook.Entropy.vonMisesFisher]
  rw [show 0.5 * (n : ℝ) = (n : ℝ) / 2 by ring, Real.log_mul hI.ne' he.ne', Real.log_exp, abs_of_pos hk]
  have h1 := hI.ne'
  have h2 := (Real.exp_pos (-k)).ne'
  field_simp
  ring

/-- A vector of length one as a point of the sphere; another vector is replaced. -/
noncomputable def onSphere (y : Fin (n + 1) → ℝ) : Metric.sphere (0 : EuclideanSpace ℝ (Fin (n + 1))) 1 :=
  open Classical in
  if h : ∑ k, y k ^ 2 = 1 then ⟨WithLp.toLp 2 y, by
    rw [mem_sphere_zero_iff_norm, EuclideanSpace.norm_eq]
    simp [h]⟩
  else ⟨EuclideanSpace.single 0 1, by simp⟩

theorem onSphere_apply {y : Fin (n + 1) → ℝ} (h : ∑ k, y k ^ 2 = 1) : (fun k => (onSphere y).1 k) = y := by
  rw [onSphere, dif_pos h]

theorem kappa_args (q : List ℕ → EuclideanSpace ℝ (Fin n)) :
    Methods.vmfKappa (.real (vectors rs fun i k => q i k)) = ok (scalars rs fun i => vmfKappa (q i)) := by
  rw [Methods.vmfKappa, toR_real, norm_vectors]
  simp only [vmfKappa, EuclideanSpace.norm_eq, Real.norm_eq_abs, sq_abs]

theorem direction_args (hn : 2 ≤ n) (q : List ℕ → EuclideanSpace ℝ (Fin n)) :
    (Val.real (vectors rs fun i k => q i k)).toR /
      (Methods.vmfKappa (.real (vectors rs fun i k => q i k))).newaxis =
      ok (vectors rs fun i k => q i k / vmfKappa (q i)) := by
  rw [kappa_args, toR_real]
  calc_simp

theorem angle_args (q : List ℕ → EuclideanSpace ℝ (Fin 2)) :
    Methods.vmfToKappaAngle (.real (vectors rs fun i k => q i k)) =
      .ok (ok (scalars rs fun i => vmfKappa (q i)),
        ok (scalars rs fun i => if vmfKappa (q i) = 0 then 0 else Complex.arg ⟨q i 0, q i 1⟩)) := by
  have h : ¬ ((2 : ℕ) ≠ 2) := by simp
  have hr : (Val.real (vectors rs fun i (k : Fin 2) => q i k)).rshape = 2 :: rs := rfl
  simp only [Methods.vmfToKappaAngle, hr, if_neg h]
  have e0 : at_ 0 (Val.real (vectors rs fun i (k : Fin 2) => q i k)).toR = ok (scalars rs fun i => q i 0) :=
    at_vectors (by norm_num) rs _
  have e1 : at_ 1 (Val.real (vectors rs fun i (k : Fin 2) => q i k)).toR = ok (scalars rs fun i => q i 1) :=
    at_vectors (by norm_num) rs _
  rw [kappa_args, e0, e1, whereE]
  calc_simp

end

variable [MachEps] {solve : Solver} {search : Cls → List Val → Except Err (List Val)} {n : ℕ}

theorem agrees_vonMises (n : ℕ) :
    Agrees (library search) (.simple .vonMises n) ((Simple.vonMisesFisher 2).setting solve) := by
  refine agrees_oracle HoldsR (fun _ => True)
    (fun _ (q : EuclideanSpace ℝ (Fin 2)) =>
      Textbook.vonMises (vmfKappa q) (if vmfKappa q = 0 then 0 else Complex.arg ⟨q 0, q 1⟩))
    (fun y (x : Metric.sphere (0 : EuclideanSpace ℝ (Fin 2)) 1) => x.1 0 = Real.cos y ∧ x.1 1 = Real.sin y)
    (fun rs p (q : List ℕ → EuclideanSpace ℝ (Fin 2)) hq => ?_) ?_ ?_
  · obtain ⟨o, h1, h2, h3⟩ := vonMises_ok (rs := rs) (fun i => vmfKappa (q i))
      (fun i => if vmfKappa (q i) = 0 then 0 else Complex.arg ⟨q i 0, q i 1⟩) fun i _ => norm_nonneg _
    refine ⟨o, (natToScipy_natTo (s := .vonMises) (n := n) rfl _).trans ?_, fun v y hy _ => h2 v y hy,
      fun _ _ => ⟨_, h3, fun i hi => ?_⟩⟩
    · show (do
        let (kappa, angle) ← Methods.vmfToKappaAngle (.real (vectors rs fun i k => q i k))
        Tests.vonMises kappa angle) = _
      rw [angle_args]
      exact h1
    · exact (vonMisesEntropy_eq (norm_pos_iff.2 (hq i hi).2)).trans (vmf_entropy (n := 1) (hq i hi).2).symm
  · rintro rs v ⟨x, hx⟩
    have hc : ∀ i, ∑ k, (![Real.cos (x i), Real.sin (x i)] : Fin 2 → ℝ) k ^ 2 = 1 := fun i => by
      simp [Fin.sum_univ_two]
    refine ⟨x, .real (vectors rs fun i => ![Real.cos (x i), Real.sin (x i)]),
      fun i => onSphere ![Real.cos (x i), Real.sin (x i)], hx, ?_, ⟨_, rfl, ?_⟩, fun i hi => ⟨trivial, ?_, ?_⟩⟩
    · show Val.ofR (stack2 (v.toR.map Real.cos) (v.toR.map Real.sin)) = _
      rw [hx]
      calc_simp
      rfl
    · exact congrArg ok (vectors_congr fun i _ => (onSphere_apply (hc i)).symm)
    · exact congrFun (onSphere_apply (hc i)) 0
    · exact congrFun (onSphere_apply (hc i)) 1
  · rintro p q y x hp hq - ⟨h0, h1⟩
    exact (C57_von_mises hq (dif_pos rfl) x y h0 h1).symm

theorem agrees_vonMisesFisher (hn : 2 ≤ n) :
    Agrees (library search) (.simple .vonMisesFisher n) ((Simple.vonMisesFisher n).setting solve) := by
  obtain ⟨n, rfl⟩ : ∃ m, n = m + 1 := ⟨n - 1, by omega⟩
  refine agrees_oracle HoldsV (fun y : Fin (n + 1) → ℝ => ∑ k, y k ^ 2 = 1)
    (fun _ (q : EuclideanSpace ℝ (Fin (n + 1))) =>
      Textbook.vonMisesFisher (fun k => q k / vmfKappa q) (vmfKappa q))
    (fun y (x : Metric.sphere (0 : EuclideanSpace ℝ (Fin (n + 1))) 1) => (fun k => x.1 k) = y)
    (fun rs p (q : List ℕ → EuclideanSpace ℝ (Fin (n + 1))) hq => ?_) ?_ ?_
  · obtain ⟨o, h1, h2, h3⟩ := vonMisesFisher_ok (rs := rs) hn (fun i k => q i k / vmfKappa (q i))
      (fun i => vmfKappa (q i)) (fun i hi => by
        have h : ‖q i‖ ≠ 0 := norm_ne_zero_iff.2 (hq i hi).2
        simp only [div_pow, ← Finset.sum_div, ← EuclideanSpace.real_norm_sq_eq, vmfKappa]
        field_simp) fun i hi => norm_pos_iff.2 (hq i hi).2
    refine ⟨o, (natToScipy_natTo (s := .vonMisesFisher) (n := n + 1) rfl _).trans ?_, h2,
      fun _ _ => ⟨_, h3, fun i hi => ?_⟩⟩
    · show Tests.vonMisesFisher ((Val.real (vectors rs fun i k => q i k)).toR /
        (Methods.vmfKappa (.real (vectors rs fun i k => q i k))).newaxis)
        (Methods.vmfKappa (.real (vectors rs fun i k => q i k))) = _
      rw [direction_args hn, kappa_args]
      exact h1
    · exact (vonMisesFisherEntropy_eq hn (norm_pos_iff.2 (hq i hi).2)).trans (vmf_entropy (hq i hi).2).symm
  · rintro rs v ⟨x, hx, hp⟩
    refine ⟨x, v, fun i => onSphere (x i), hx, rfl, ⟨v, rfl, ?_⟩, fun i hi => ⟨hp i hi, onSphere_apply (hp i hi)⟩⟩
    exact hx.trans (congrArg ok (vectors_congr fun i hi => (onSphere_apply (hp i hi)).symm))
  · rintro p q y x hp hq hy rfl
    exact (C57_von_mises_fisher n hq x).symm

end Efax
