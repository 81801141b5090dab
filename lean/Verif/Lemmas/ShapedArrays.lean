import Verif.Lemmas.Shaped
import Verif.Model.Scipy.Arrays
import Verif.Spec.BatchEntry

/-!
# Lemmas about the constructors of arrays of distributions
-/

namespace Efax

open Scipy

variable {α G : Type} [Inhabited α]

theorem forM_ok {β : Type} {f : β → Except Err Unit} : ∀ {l : List β},
    l.forM f = .ok () ↔ ∀ i ∈ l, f i = .ok ()
  | [] => by simp [List.forM, pure, Except.pure]
  | i :: l => by
    rw [List.forM_eq_forM, List.forM_cons, List.forall_mem_cons]
    cases h : f i with
    | error e => simp [Bind.bind, Except.bind]
    | ok u =>
      have := forM_ok (f := f) (l := l)
      simp only [List.forM_eq_forM] at this
      simp [Bind.bind, Except.bind, this]

theorem forM_ok_of {β : Type} {f : β → Except Err Unit} {l : List β} (h : ∀ i ∈ l, f i = .ok ()) :
    l.forM f = .ok () := forM_ok.2 h

theorem squeeze_nil (f : List ℕ → α) : (Arr.ofFn [] f).squeeze = Arr.full [] (f []) := by
  refine Arr.ext rfl fun i hi => ?_
  have hi : inB [] i = true := hi
  obtain rfl : i = [] := by simpa using inB_length hi
  rfl

theorem densities_ok {rs : List ℕ} {f : List ℕ → Except Err ℝ} {p : List ℕ → ℝ}
    (h : ∀ j, inB rs j = true → f j = .ok (p j)) : densities rs f = .ok (Arr.ofFn rs p).squeeze := by
  rw [densities, if_pos fun j hj => ⟨_, h j hj⟩]
  have : (Arr.ofFn rs fun j => (f j).toOption.getD 0) = Arr.ofFn rs p := by
    refine Arr.ext rfl fun i hi => ?_
    have hi : inB rs i = true := hi
    rw [Arr.ofFn_get hi, Arr.ofFn_get hi, h i hi]
    rfl
  rw [this]

theorem densities_nil {f : List ℕ → Except Err ℝ} {p : ℝ} (h : f [] = .ok p) :
    densities [] f = .ok (Arr.full [] p) := by
  rw [densities_ok (p := fun _ => p) (fun j hj => ?_), squeeze_nil]
  obtain rfl : j = [] := by simpa using inB_length hj
  exact h

/-- An array is given by its parts. -/
theorem eq_of_index {r a : Arr α} {s t : List ℕ} (hr : r.rshape = (s ++ t).reverse)
    (ha : a.rshape = (s ++ t).reverse)
    (h : ∀ i, List.Forall₂ (· < ·) i s → r.index i = a.index i) : r = a := by
  refine Arr.ext (hr.trans ha.symm) fun i hi => ?_
  rw [hr, List.reverse_append] at hi
  have hl := inB_length hi
  have e : i = i.take t.length ++ i.drop t.length := (List.take_append_drop _ _).symm
  have hlt : (i.take t.length).length = t.reverse.length := by
    rw [List.length_take, hl]; simp
  rw [e, inB_append hlt] at hi
  have hk : List.Forall₂ (· < ·) (i.drop t.length).reverse s := by
    rw [← inB_iff_forall₂, ← inB_reverse, List.reverse_reverse]
    exact hi.2
  have h1 := h _ hk
  rw [index_of hr hk, index_of ha hk, Except.ok.injEq] at h1
  have h2 := congrArg (fun b : Arr α => b.get (i.take t.length)) h1
  simp only [Arr.ofFn_get hi.1, List.reverse_reverse, List.take_append_drop] at h2
  exact h2

theorem forall₂_of_inB {rs i : List ℕ} (h : inB rs i = true) :
    List.Forall₂ (· < ·) i.reverse rs.reverse := inB_iff_forall₂.1 (inB_reverse.2 h)

theorem inB_of_forall₂ {rs i : List ℕ} (h : List.Forall₂ (· < ·) i rs.reverse) :
    inB rs i.reverse = true := by
  rw [← inB_reverse, List.reverse_reverse]
  exact inB_iff_forall₂.2 h

theorem index_full {rs i : List ℕ} (p : List ℕ → α) (h : List.Forall₂ (· < ·) i rs.reverse) :
    (Arr.ofFn rs p).index i = .ok (Arr.full [] (p i.reverse)) := by
  rw [index_of (s := rs.reverse) (t := []) (by simp [Arr.ofFn]) h]
  refine congrArg Except.ok (Arr.ext rfl fun j hj => ?_)
  have hj : inB [] j = true := hj
  obtain rfl : j = [] := by simpa using inB_length hj
  exact Arr.ofFn_get (inB_of_forall₂ h)

/-- An array of numbers that is filled entry by entry. -/
theorem fill_scalars {rs : List ℕ} {f : List ℕ → Except Err (Arr α)} {p : List ℕ → α}
    (h : ∀ i, inB rs i = true → f i.reverse = .ok (Arr.full [] (p i))) :
    fill rs.reverse [] f = .ok (Arr.ofFn rs p) := by
  obtain ⟨b, h1, h2, h3⟩ := fill_spec (s := rs.reverse) (t := []) (f := f)
    (v := fun i => Arr.full [] (p i.reverse)) (fun i hi => ⟨by
      have := h i.reverse (inB_of_forall₂ hi)
      rwa [List.reverse_reverse] at this, rfl⟩)
  rw [h1, eq_of_index (a := Arr.ofFn rs p) h2 (by simp [Arr.ofFn]) fun i hi => ?_]
  rw [h3 i hi, index_full p hi]

theorem scalarOf_index {a : Arr α} {rs i : List ℕ} (ha : a.rshape = rs) (hi : List.Forall₂ (· < ·) i rs.reverse) :
    (a.index i).bind scalarOf = .ok (a.get i.reverse) := by
  rw [index_of (s := rs.reverse) (t := []) (by simp [ha]) hi]
  simp only [Except.bind]
  rfl

theorem vectorOf_index {a : Arr α} {n : ℕ} {rs i : List ℕ} (ha : a.rshape = n :: rs)
    (hi : List.Forall₂ (· < ·) i rs.reverse) :
    (a.index i).bind (vectorOf n) = .ok fun k => a.get (k.val :: i.reverse) := by
  rw [index_of (s := rs.reverse) (t := [n]) (by simp [ha]) hi]
  simp only [Except.bind]
  refine (if_pos rfl).trans (congrArg _ (funext fun k => ?_))
  exact Arr.ofFn_get (by simp [inB])

theorem matrixOf_index {a : Arr α} {n : ℕ} {rs i : List ℕ} (ha : a.rshape = n :: n :: rs)
    (hi : List.Forall₂ (· < ·) i rs.reverse) :
    (a.index i).bind (matrixOf n) = .ok fun r c => a.get (c.val :: r.val :: i.reverse) := by
  rw [index_of (s := rs.reverse) (t := [n, n]) (by simp [ha]) hi]
  simp only [Except.bind]
  refine (if_pos rfl).trans (congrArg _ (funext fun r => funext fun c => ?_))
  exact Arr.ofFn_get (by simp [inB])

end Efax
