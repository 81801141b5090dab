import Verif.Props.Narrow
import Verif.Lemmas.Tree2

/-!
# C82: what depends on a failing conversion fails, too
-/

namespace Efax

open Spec Calc ClassTable

section

variable {C : Type} [ClassTable C]

theorem wf_of_mem_subs {s : Subs C} {n : String} {d : Dist C} (hm : (n, d) ∈ s.toList) (hw : WFs s) : WF d := by
  induction s using Subs.rec (motive_1 := fun _ => True) with
  | mk => trivial
  | nil => cases hm
  | cons m e r _ ih =>
    rcases List.mem_cons.1 hm with h | h
    · obtain ⟨rfl, rfl⟩ := Prod.mk.inj h
      exact hw.1
    · exact ih h hw.2

theorem subs_toNat_fails {leaf : C → List Val → Except Err (List Val)} {s : Subs C} {n : String} {d : Dist C}
    (hm : (n, d) ∈ s.toList) {x : Err} (h : d.toNat leaf = .error x) : ∃ y, Subs.toNat leaf s = .error y := by
  induction s using Subs.rec (motive_1 := fun _ => True) with
  | mk => trivial
  | nil => cases hm
  | cons m e r _ ih =>
    rcases List.mem_cons.1 hm with h' | h'
    · obtain ⟨rfl, rfl⟩ := Prod.mk.inj h'
      exact ⟨x, by rw [Subs.toNat, h]; rfl⟩
    · obtain ⟨y, hy⟩ := ih h'
      rw [Subs.toNat]
      cases Dist.toNat leaf e with
      | error z => exact ⟨z, rfl⟩
      | ok e' => exact ⟨y, by rw [hy]; rfl⟩

/-- **C82.** If the conversion of one part of a joint distribution fails, however deeply nested, the conversion of the
joint distribution fails. -/
theorem C82_part_fails {leaf : C → List Val → Except Err (List Val)} {p q : Dist C} {k : Path} (h : SubAt p k q)
    (hw : WF p) {x : Err} (hq : q.toNat leaf = .error x) : ∃ y, p.toNat leaf = .error y := by
  induction h with
  | here => exact ⟨x, hq⟩
  | @sub c vals subs n d q k hm _ ih =>
    have hj : isJoint c = true := hw.2.1.2 (by rintro rfl; cases hm)
    obtain ⟨y, hy⟩ := ih (wf_of_mem_subs hm hw.2.2.2) hq
    obtain ⟨z, hz⟩ := subs_toNat_fails hm hy
    rw [Dist.toNat]
    cases natCls c with
    | none => exact ⟨_, rfl⟩
    | some c' => exact ⟨z, by simp only [hj, if_true, hz]; rfl⟩

/-- **C82.** If the conversion of expectation parameters fails, so do their `entropy()` and their `kl_divergence(q)`,
unless the natural parameters are passed. -/
theorem C82_methods_fail (L : Library C) {p : Dist C} {x : Err} (h : p.toNat L.toNat = .error x) :
    (p.entropyE L).run = .error x ∧ ∀ q, (p.klE L q).run = .error x := by
  constructor
  · rw [Dist.entropyE, h]; rfl
  · intro q
    simp only [Dist.klE, h]
    rfl

end

variable [MachEps]

/-- **C82.** Joint distributions with a gamma distribution whose mean is smaller than machine epsilon have no natural
parameters, entropy or divergence by way of their expectation parameters, whatever the minimizer. -/
theorem C82_joint_gamma_small (minimizer : Cls → List Val → Arr ℝ) {rs i : List ℕ} {χ : List ℕ → ℝ × ℝ}
    (hi : inB rs i = true) (h : (χ i).1 < MachEps.eps) {p : Dist Cls} (hw : WF p) {k : Path}
    (hp : SubAt p k (.mk Cls.gammaEP (laySS rs (fun _ => ()) χ) .nil)) :
    (∃ x, p.toNat (library (searchFor minimizer)).toNat = .error x) ∧
    (∃ x, (p.entropyE (library (searchFor minimizer))).run = .error x) ∧
    ∀ q, ∃ x, (p.klE (library (searchFor minimizer)) q).run = .error x := by
  obtain ⟨x, hx⟩ := C82_part_fails hp hw (C82_gamma_small minimizer hi h)
  obtain ⟨h1, h2⟩ := C82_methods_fail (library (searchFor minimizer)) hx
  exact ⟨⟨x, hx⟩, ⟨x, h1⟩, fun q => ⟨x, h2 q⟩⟩

/-- Non-vacuity: the joint distribution of a gamma distribution with the mean zero and a Poisson distribution. -/
example (minimizer : Cls → List Val → Arr ℝ) :
    let p : Dist Cls := .mk .jointE [] (.cons "x" (.mk .gammaEP (laySS [] (fun _ => ()) fun _ => (0, -7)) .nil)
      (.cons "y" (.mk .poissonEP (layS [] (fun _ => ()) fun _ => 1) .nil) .nil))
    ∃ x, (p.entropyE (library (searchFor minimizer))).run = .error x := by
  intro p
  refine (C82_joint_gamma_small minimizer (rs := []) (i := []) rfl (χ := fun _ => (0, -7)) MachEps.pos (p := p) (k := ["x"]) ?_
    ?_).2.1
  · refine ⟨rfl, by simp [isJoint, Cls.isJoint], by simp [Subs.names], ?_⟩
    refine ⟨⟨rfl, ?_, ?_, trivial⟩, ⟨rfl, ?_, ?_, trivial⟩, trivial⟩ <;> simp [isJoint, Cls.isJoint, Subs.names]
  · exact .sub (List.mem_cons_self) (.here _)

end Efax
