import Verif.Spec.Combine
import Verif.Props.Analysis
import Verif.Props.RoundTrip

/-!
# `parameter_map` of sums of natural parameters
-/

namespace Efax

open Spec Calc ClassTable

variable [MachEps] {solve : Solver}

/-- The values of a class, added entry by entry; fixed parameters are kept. -/
inductive Added (t : ℝ) : List Field → List Val → List Val → List Val → Prop
  | nil : Added t [] [] [] []
  | fixed {f fs v w vs ws rs} : f.fixed = true → Added t fs vs ws rs → Added t (f :: fs) (v :: vs) (w :: ws) (v :: rs)
  | var {f fs v w r vs ws rs} : f.fixed = false → addScaled t [v, w] = .ok r → Added t fs vs ws rs →
      Added t (f :: fs) (v :: vs) (w :: ws) (r :: rs)

omit [MachEps] in
theorem Added.get {t : ℝ} {fs : List Field} {vs ws rs : List Val} (h : Added t fs vs ws rs) {n : ℕ} {f : Field}
    {v : Val} (hf : fs[n]? = some f) (hv : vs[n]? = some v) :
    ∃ w r, ws[n]? = some w ∧ rs[n]? = some r ∧ (f.fixed = true → r = v) ∧
      (f.fixed = false → addScaled t [v, w] = .ok r) := by
  induction h generalizing n with
  | nil => simp at hf
  | @fixed g _ _ w _ _ _ hg _ ih =>
    cases n with
    | zero =>
      obtain rfl : g = f := by simpa using hf
      obtain rfl := Option.some.inj hv
      exact ⟨w, _, rfl, rfl, fun _ => rfl, fun h => by simp [hg] at h⟩
    | succ n => exact ih (by simpa using hf) (by simpa using hv)
  | @var g _ _ w r _ _ _ hg hr _ ih =>
    cases n with
    | zero =>
      obtain rfl : g = f := by simpa using hf
      obtain rfl := Option.some.inj hv
      exact ⟨w, r, rfl, rfl, fun h => by simp [hg] at h, fun _ => hr⟩
    | succ n => exact ih (by simpa using hf) (by simpa using hv)

omit [MachEps] in
theorem addScaled_scalars (t : ℝ) (rs : List ℕ) (a b : List ℕ → ℝ) :
    addScaled t [.real (scalars rs a), .real (scalars rs b)] = .ok (.real (scalars rs fun i => a i + t • b i)) := by
  have : (ok (scalars rs a) + const t * ok (scalars rs b) : Calc ℝ) = ok (scalars rs fun i => a i + t • b i) := by
    calc_simp
    simp only [smul_eq_mul]
  rw [addScaled, this]
  rfl

omit [MachEps] in
theorem addScaled_vectors (t : ℝ) {d : ℕ} (rs : List ℕ) (a b : List ℕ → Fin d → ℝ) :
    addScaled t [.real (vectors rs a), .real (vectors rs b)] = .ok (.real (vectors rs fun i => a i + t • b i)) := by
  have : (ok (vectors rs a) + const t * ok (vectors rs b) : Calc ℝ) = ok (vectors rs fun i => a i + t • b i) := by
    calc_simp
    rfl
  rw [addScaled, this]
  rfl

omit [MachEps] in
theorem addScaled_matrices (t : ℝ) {d : ℕ} (rs : List ℕ) (a b : List ℕ → Matrix (Fin d) (Fin d) ℝ) :
    addScaled t [.real (matrices rs a), .real (matrices rs b)] = .ok (.real (matrices rs fun i => a i + t • b i)) := by
  have : (ok (matrices rs a) + const t * ok (matrices rs b) : Calc ℝ) = ok (matrices rs fun i => a i + t • b i) := by
    calc_simp
    rfl
  rw [addScaled, this]
  rfl

omit [MachEps] in
theorem addScaled_complex (t : ℝ) (rs : List ℕ) (a b : List ℕ → ℂ) :
    addScaled t [.complex (scalars rs a), .complex (scalars rs b)] =
      .ok (.complex (scalars rs fun i => a i + t • b i)) := by
  have : (ok (scalars rs a) + const (t : ℂ) * ok (scalars rs b) : Calc ℂ) = ok (scalars rs fun i => a i + t • b i) := by
    calc_simp
    simp only [Complex.real_smul]
  rw [addScaled, this]
  rfl

omit [MachEps] in
theorem addScaled_complex_vectors (t : ℝ) {d : ℕ} (rs : List ℕ) (a b : List ℕ → Fin d → ℂ) :
    addScaled t [.complex (vectors rs a), .complex (vectors rs b)] =
      .ok (.complex (vectors rs fun i => a i + t • b i)) := by
  have : (ok (vectors rs a) + const (t : ℂ) * ok (vectors rs b) : Calc ℂ) = ok (vectors rs fun i => a i + t • b i) := by
    calc_simp
    simp only [Complex.real_smul, Pi.add_def, Pi.smul_apply]
  rw [addScaled, this]
  rfl

omit [MachEps] in
theorem addScaled_complex_matrices (t : ℝ) {d : ℕ} (rs : List ℕ) (a b : List ℕ → Matrix (Fin d) (Fin d) ℂ) :
    addScaled t [.complex (matrices rs a), .complex (matrices rs b)] =
      .ok (.complex (matrices rs fun i => a i + t • b i)) := by
  have : (ok (matrices rs a) + const (t : ℂ) * ok (matrices rs b) : Calc ℂ) = ok (matrices rs fun i => a i + t • b i) := by
    calc_simp
    congr 2
  rw [addScaled, this]
  rfl

theorem simple_added (s : Simple) (t : ℝ) (rs : List ℕ) (p p' : List ℕ → (s.kind solve).P)
    (a b : List ℕ → (s.kind solve).N) :
    ∃ c vs ws us, (s.kind solve).nat rs p a = .mk c vs .nil ∧ (s.kind solve).nat rs p' b = .mk c ws .nil ∧
      (s.kind solve).nat rs p (fun i => (s.setting solve).line (a i) (b i) t) = .mk c us .nil ∧
      Added t (fields c) vs ws us := by
  cases s
  all_goals refine ⟨_, _, _, _, rfl, rfl, rfl, ?_⟩
  all_goals first
    | exact .var rfl (addScaled_scalars t rs _ _) .nil
    | exact .var rfl (addScaled_scalars t rs _ _) (.var rfl (addScaled_scalars t rs _ _) .nil)
    | exact .var rfl (addScaled_vectors t rs _ _) .nil
    | exact .var rfl (addScaled_vectors t rs _ _) (.var rfl (addScaled_vectors t rs _ _) .nil)
    | exact .var rfl (addScaled_vectors t rs _ _) (.var rfl (addScaled_scalars t rs _ _) .nil)
    | exact .var rfl (addScaled_vectors t rs _ _) (.var rfl (addScaled_matrices t rs _ _) .nil)
    | exact .var rfl (addScaled_complex t rs _ _) .nil
    | exact .var rfl (addScaled_complex_vectors t rs _ _) .nil
    | exact .var rfl (addScaled_complex_matrices t rs _ _) .nil
    | exact .var rfl (addScaled_complex t rs _ _) (.var rfl (addScaled_scalars t rs _ _)
        (.var rfl (addScaled_complex t rs _ _) .nil))
    | exact .var rfl (addScaled_scalars t rs _ _) (.fixed rfl .nil)
    | exact .fixed rfl (.var rfl (addScaled_scalars t rs _ _) .nil)
    | exact .var rfl (addScaled_vectors t rs _ _) (.fixed rfl .nil)

/-- The free parameters of the last object are those of the first plus `t` times those of the second, its fixed
parameters are those of the first. -/
def TreeAdded (t : ℝ) (x y z : Dist Cls) : Prop :=
  ∀ k f v, ParamAt x k f v → ∃ w r, ParamAt y k f w ∧ ParamAt z k f r ∧ (f.fixed = true → r = v) ∧
    (f.fixed = false → addScaled t [v, w] = .ok r)

theorem library_added {K : Kind Cls} {S : Setting K} (hK : LibrarySetting solve K S) (t : ℝ) (rs : List ℕ)
    (p p' : List ℕ → K.P) (a b : List ℕ → K.N) :
    TreeAdded t (K.nat rs p a) (K.nat rs p' b) (K.nat rs p fun i => S.line (a i) (b i) t) := by
  induction hK with
  | simple s =>
    obtain ⟨c, vs, ws, us, h1, h2, h3, h4⟩ := simple_added s t rs p p' a b
    rw [h1, h2, h3]
    intro k f v h
    cases h with
    | here hf hv =>
      obtain ⟨w, r, e1, e2, e3, e4⟩ := h4.get hf hv
      exact ⟨w, r, .here hf e1, .here hf e2, e3, e4⟩
    | sub hm => cases hm
  | @joint l _ _ _ ih =>
    have key : ∀ n d k f v, (n, d) ∈ ((Parts.ofList (partsOf l)).nat rs p a).toList → ParamAt d k f v →
        ∃ d' d'' w r, (n, d') ∈ ((Parts.ofList (partsOf l)).nat rs p' b).toList ∧
          (n, d'') ∈ ((Parts.ofList (partsOf l)).nat rs p fun i =>
            (Setting.joint Cls.jointN Cls.jointE (.ofList l)).line (a i) (b i) t).toList ∧
          ParamAt d' k f w ∧ ParamAt d'' k f r ∧ (f.fixed = true → r = v) ∧
          (f.fixed = false → addScaled t [v, w] = .ok r) := by
      clear * - ih
      induction l with
      | nil => intro n d k f v h; cases h
      | cons nk l ih' =>
        intro n d k f v h hp
        rcases List.mem_cons.1 h with e | h
        · obtain ⟨rfl, rfl⟩ := Prod.mk.inj e
          obtain ⟨w, r, e1, e2, e3, e4⟩ := ih nk List.mem_cons_self (fun i => (p i).1) (fun i => (p' i).1)
            (fun i => (a i).1) (fun i => (b i).1) k f v hp
          exact ⟨_, _, w, r, List.mem_cons_self, List.mem_cons_self, e1, e2, e3, e4⟩
        · obtain ⟨d', d'', w, r, m1, m2, e⟩ := ih' (fun s hs => ih s (List.mem_cons_of_mem _ hs))
            (fun i => (p i).2) (fun i => (p' i).2) (fun i => (a i).2) (fun i => (b i).2) n d k f v h hp
          exact ⟨d', d'', w, r, List.mem_cons_of_mem _ m1, List.mem_cons_of_mem _ m2, e⟩
    intro k f v h
    cases h with
    | here hf => cases hf
    | sub hm hp =>
      obtain ⟨d', d'', w, r, m1, m2, e1, e2, e3⟩ := key _ _ _ _ _ hm hp
      exact ⟨w, r, .sub m1 e1, .sub m2 e2, e3⟩

end Efax
