import Verif.Lemmas.Setting

/-! # Every family of observations can be stored in an array -/

namespace Efax

open Spec Calc

variable [MachEps] {solve : Solver}

theorem Spec.LibrarySetting.kind {K : Kind Cls} {S : Setting K} (h : LibrarySetting solve K S) :
    LibraryKind solve K := by
  induction h with
  | simple s => exact .simple s
  | joint h0 hn hS ih =>
    refine .joint (by simpa [partsOf] using h0) (by simpa [partsOf, Function.comp_def] using hn) fun nk h => ?_
    obtain ⟨s, hs, rfl⟩ := List.mem_map.1 h
    exact ih s hs

theorem Parts.ofList_names {C : Type} (l : List (String × Kind C)) :
    (Parts.ofList l).names = l.map Prod.fst := by
  induction l with
  | nil => rfl
  | cons nk l ih => exact congrArg (nk.1 :: ·) ih

theorem Parts.obs_mono {C : Type} {rs : List ℕ} {f g : Forest Val}
    (h : ∀ x ∈ f.toList, x ∈ g.toList) : (l : List (String × Kind C)) →
    (x : List ℕ → (Parts.ofList l).X) → (Parts.ofList l).obs rs x f → (Parts.ofList l).obs rs x g
  | [], _, _ => trivial
  | _ :: l, _, ⟨⟨t, h1, h2⟩, h3⟩ => ⟨⟨t, h _ h1, h2⟩, obs_mono h l _ h3⟩

theorem Parts.obs_total {C : Type} {rs : List ℕ} : (l : List (String × Kind C)) →
    (∀ nk ∈ l, ∀ x, ∃ t, nk.2.obs rs x t) → (x : List ℕ → (Parts.ofList l).X) →
    ∃ f : Forest Val, f.keys = l.map Prod.fst ∧ (Parts.ofList l).obs rs x f
  | [], _, _ => ⟨.nil, rfl, trivial⟩
  | nk :: l, h, x => by
      obtain ⟨t, ht⟩ := h nk List.mem_cons_self fun i => (x i).1
      obtain ⟨f, h1, h2⟩ := obs_total l (fun k hk => h k (List.mem_cons_of_mem _ hk)) fun i => (x i).2
      exact ⟨.cons nk.1 t f, by simp [Forest.keys, Forest.toList] at h1 ⊢; exact h1,
        ⟨t, by simp [Forest.toList], ht⟩,
        Parts.obs_mono (fun y hy => by simp [Forest.toList, hy]) l _ h2⟩

theorem obs_total {K : Kind Cls} (hK : LibraryKind solve K) (rs : List ℕ) (x : List ℕ → K.X) :
    ∃ t, K.obs rs x t := by
  induction hK with
  | simple s =>
    cases s
    case cmvCircular | cmvUnit =>
      exact ⟨_, .complex (vectors rs x), rfl, rfl⟩
    case complexNormal | complexUnit =>
      exact ⟨_, .complex (scalars rs x), rfl, rfl⟩
    case vonMisesFisher =>
      exact ⟨_, .real (vectors rs fun i k => (x i).1 k), rfl, rfl⟩
    case dirichlet | genDirichlet | multinomial | mvNormal | mvDiagonal | mvFixed | mvIsotropic | mvUnit =>
      exact ⟨_, .real (vectors rs x), rfl, rfl⟩
    case bernoulli =>
      exact ⟨_, .real (scalars rs fun i => ofBool (x i)), rfl, rfl⟩
    case geometric | negativeBinomial | poisson =>
      exact ⟨_, .real (scalars rs fun i => ((show ℕ from x i : ℕ) : ℝ)), rfl, rfl⟩
    case logarithmic =>
      exact ⟨_, .real (scalars rs fun i => ((show ℕ from x i : ℕ) : ℝ) + 1), rfl, rfl⟩
    all_goals exact ⟨_, .real (scalars rs x), rfl, rfl⟩
  | joint h0 hn hl ih =>
    obtain ⟨f, h1, h2⟩ := Parts.obs_total _ ih x
    exact ⟨.node f, f, rfl, h1 ▸ hn, h2, fun n hn => by rw [Parts.ofList_names, ← h1]; exact hn⟩

/-- Families of numbers stored in equal arrays are equal. -/
theorem ok_scalars_inj {α : Type} [Inhabited α] {rs : List ℕ} {f g : List ℕ → α}
    (h : (Calc.ok (scalars rs f) : Calc α) = .ok (scalars rs g)) :
    ∀ i, inB rs i = true → f i = g i := by
  intro i hi
  have h1 : scalars rs f = scalars rs g := by
    injection h
  have := congrArg (fun a => a.get i) h1
  simpa only [scalars, Arr.ofFn_get hi] using this

end Efax
