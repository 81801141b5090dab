import Verif.Spec.Domain
import Verif.Lemmas.Ring
import Verif.Lemmas.Arr

/-!
# `domain_support` describes the observations (C56)
-/

namespace Efax

open Spec

variable [MachEps]

/-- Every observation has the type and the shape that `domain_support()` of its class declares, and is
within its bounds (which are narrowed by the machine epsilon). -/
theorem C56_observations_declared (c : Cls) (d : ℕ) (rs : List ℕ) (v : Val)
    (h : Observation c d rs v) :
    ∃ s, c.domainSupport = some s ∧ Declared s MachEps.eps d rs v := by
  have h0 : Ring.openMin 0 = MachEps.eps := by simp [Ring.openMin, MachEps.pos.le]
  have h1 : Ring.openMax 1 = 1 - MachEps.eps := by
    have : ¬(0 : ℝ) ≤ -1 := by norm_num
    simp [Ring.openMax, copysign, this, sub_eq_add_neg]
  have hp : (0 : ℝ) < MachEps.eps := MachEps.pos
  cases c <;> cases v <;> first
    | exact h.elim
    | exact ⟨_, rfl, h, trivial⟩
    | exact ⟨_, rfl, h, fun _ _ => ⟨fun _ h => (Option.not_mem_none _ h).elim, fun _ h => (Option.not_mem_none _ h).elim⟩⟩
    | exact ⟨_, rfl, h.1, fun _ _ => ⟨fun _ h => (Option.not_mem_none _ h).elim, fun _ h => (Option.not_mem_none _ h).elim⟩⟩
    | exact ⟨_, rfl, h, fun _ _ => (sub_nonpos.2 hp.le).trans (norm_nonneg _)⟩
    | exact ⟨_, rfl, h.1, fun _ _ => ⟨fun _ h => (Option.not_mem_none _ h).elim,
        fun _ h => (Option.not_mem_none _ h).elim⟩, fun _ e => Val.real.inj e ▸ h.2⟩
    | (obtain ⟨rfl, h⟩ := h
       refine ⟨_, rfl, rfl, fun i hi => ?_⟩
       have := h i hi
       constructor
       · simp [h0, h1]; try linarith
       · simp [h0, h1]; try linarith)

-- A batch of two observations of a chi distribution.
example : Observation .chiNP 1 [2] (.real (Arr.full [2] 3)) :=
  ⟨rfl, fun i hi => by rw [Arr.full, Arr.ofFn_get hi]; norm_num⟩

/-- The part of the converse that holds: for the classes that are not `Loose`, everything that `domain_support()` declares is an observation. -/
theorem C56_declared_observations_partial (c : Cls) (hc : ¬Loose c) {s : Support} (hs : c.domainSupport = some s)
    (d : ℕ) (rs : List ℕ) (v : Val) (h : Declared s 0 d rs v) : Observation c d rs v := by
  have h0 : 0 < Ring.openMin 0 := by simp [Ring.openMin, MachEps.pos]
  have h1 : Ring.openMax 1 < 1 := by simp [Ring.openMax, MachEps.pos]
  cases c <;> first
    | (exfalso; apply hc; simp [Loose]; done)
    | (exfalso; cases hs; done)
    | (cases hs
       cases v <;> first
        | exact h.2.elim
        | exact h.1
        | exact h.2.1.elim
        | (exact And.intro h.1 (h.2.2 _ rfl))
        | (obtain ⟨rfl, h⟩ := h
           refine And.intro rfl fun i hi => ?_
           have h2 := (h i hi).1
           have h3 := (h i hi).2
           simp [Ring.mkReal] at h2 h3
           first | exact h2 | linarith | constructor <;> linarith))

-- The logarithmic distribution: the number 2 is declared.
example : ¬Loose .logarithmicNP ∧ ∃ s, Cls.domainSupport .logarithmicNP = some s ∧
    Declared s 0 1 [] (.int (Arr.full [] 2)) :=
  ⟨by simp [Loose], _, rfl, rfl, fun i hi => by
    have hi : inB [] i = true := hi
    rw [Arr.full, Arr.ofFn_get hi]
    exact ⟨fun m h => by cases h; exact (by decide : (1 : ℤ) ≤ 2), fun _ h => (Option.not_mem_none _ h).elim⟩⟩

/-- The property is violated by 23 classes: with at least one dimension, some value that
`domain_support()` declares is not an observation. -/
theorem C56_not_loose (c : Cls) (hc : Loose c) (d : ℕ) (hd : 0 < d) :
    ∃ s v, c.domainSupport = some s ∧ Declared s 0 d [] v ∧ ¬Observation c d [] v := by
  have hint : c.domainSupport = some (.scalar Ring.integralRing) →
      (∀ a, Observation c d [] (.int a) → 0 ≤ a.get []) →
      ∃ s v, c.domainSupport = some s ∧ Declared s 0 d [] v ∧ ¬Observation c d [] v := fun e h =>
    ⟨_, .int (Arr.full [] (-1)), e, ⟨rfl, fun _ _ => ⟨fun _ h => (Option.not_mem_none _ h).elim, fun _ h => (Option.not_mem_none _ h).elim⟩⟩,
      fun ho => absurd (h _ ho) (show ¬(0 : ℤ) ≤ -1 by decide)⟩
  have hreal : c.domainSupport = some (.scalar Ring.realField) →
      (∀ a, Observation c d [] (.real a) → 0 < a.get []) →
      ∃ s v, c.domainSupport = some s ∧ Declared s 0 d [] v ∧ ¬Observation c d [] v := fun e h =>
    ⟨_, .real (Arr.full [] (-1)), e, ⟨rfl, fun _ _ => ⟨fun _ h => (Option.not_mem_none _ h).elim, fun _ h => (Option.not_mem_none _ h).elim⟩⟩,
      fun ho => absurd (h _ ho) (show ¬(0 : ℝ) < -1 by norm_num)⟩
  have hvec : c.domainSupport = some (.vector Ring.realField) →
      (∀ a, Observation c d [] (.real a) → a.get [0] ≤ 1) →
      ∃ s v, c.domainSupport = some s ∧ Declared s 0 d [] v ∧ ¬Observation c d [] v := fun e h =>
    ⟨_, .real (Arr.full [d] 2), e, ⟨rfl, fun _ _ => ⟨fun _ h => (Option.not_mem_none _ h).elim, fun _ h => (Option.not_mem_none _ h).elim⟩⟩,
      fun ho => by
        have := h _ ho
        rw [Arr.full, Arr.ofFn_get (by simp [inB, hd])] at this
        norm_num at this⟩
  have h0 : 0 ∈ Finset.range d := Finset.mem_range.2 hd
  have hsimplex : ∀ a : Arr ℝ, (a.rshape = [d] ∧ ∀ i, inB [] i = true →
      (∀ k < d, 0 < a.get (k :: i)) ∧ ∑ k ∈ Finset.range d, a.get (k :: i) < 1) → a.get [0] ≤ 1 :=
    fun a h => (Finset.single_le_sum (fun k hk => ((h.2 [] rfl).1 k (Finset.mem_range.1 hk)).le) h0).trans
      (h.2 [] rfl).2.le
  have hsphere : ∀ a : Arr ℝ, (a.rshape = [d] ∧ ∀ i, inB [] i = true →
      ∑ k ∈ Finset.range d, a.get (k :: i) ^ 2 = 1) → a.get [0] ≤ 1 := fun a h => by
    have := (Finset.single_le_sum (f := fun k => a.get [k] ^ 2) (fun k _ => sq_nonneg _) h0).trans (h.2 [] rfl).le
    nlinarith
  have hcat : ∀ a : Arr ℝ, (a.rshape = [d] ∧ ∀ i, inB [] i = true →
      (∀ k < d, a.get (k :: i) = 0 ∨ a.get (k :: i) = 1) ∧
        ∑ k ∈ Finset.range d, a.get (k :: i) ≤ 1) → a.get [0] ≤ 1 := fun a h => by
    rcases (h.2 [] rfl).1 0 hd with h | h <;> simp [h]
  cases c <;> first
    | exact hint rfl fun a h => h.2 [] rfl
    | exact hreal rfl fun a h => h.2 [] rfl
    | exact hvec rfl hsimplex
    | exact hvec rfl hsphere
    | exact hvec rfl hcat
    | exact absurd hc (by simp [Loose])

example : Loose .poissonNP ∧ 0 < 1 := ⟨by simp [Loose], one_pos⟩

end Efax
