import Verif.Lemmas.Arr
import Verif.Model.Tools
import Verif.Spec.Tree
import Mathlib.Tactic.Ring
import Mathlib.Tactic.Push

/-! # Indexing and means of arrays -/

namespace Efax

open Spec

namespace Arr

variable {α : Type} [Inhabited α]

theorem index_eq_ok {a a' : Arr α} {key : List ℕ} (h : a.index key = .ok a') :
    ∃ b, b.length = key.length ∧ inB b key.reverse = true ∧ a.rshape = a'.rshape ++ b ∧
      ∀ i, inB a'.rshape i = true → a'.get i = a.get (i ++ key.reverse) := by
  unfold index at h
  simp only at h
  split_ifs at h with hc
  cases h
  refine ⟨a.rshape.drop (a.rshape.length - key.length), ?_, hc.2, ?_, fun i hi => ofFn_get hi⟩
  · rw [List.length_drop]; omega
  · exact (List.take_append_drop ..).symm

theorem index_ok {a : Arr α} {key s b : List ℕ} (hs : a.rshape = s ++ b)
    (hb : inB b key.reverse = true) : ∃ a', a.index key = .ok a' := by
  have hl := inB_length hb
  rw [List.length_reverse] at hl
  unfold index
  simp only
  have : a.rshape.length - key.length = s.length := by rw [hs]; simp [hl]
  rw [this, hs, List.drop_left, List.take_left]
  rw [if_pos ⟨by simp [hl], hb⟩]
  exact ⟨_, rfl⟩

end Arr

theorem Val.index_eq_ok {v v' : Val} {key : List ℕ} (h : v.index key = .ok v') :
    IsIndexed key v v' := by
  cases v with
  | real a =>
    cases h' : a.index key with
    | error e => simp [Val.index, h'] at h
    | ok a' =>
      simp [Val.index, h'] at h; subst h
      obtain ⟨b, h1, h2, h3, h4⟩ := Arr.index_eq_ok h'
      exact ⟨b, h1, h2, h3, h4⟩
  | complex a =>
    cases h' : a.index key with
    | error e => simp [Val.index, h'] at h
    | ok a' =>
      simp [Val.index, h'] at h; subst h
      obtain ⟨b, h1, h2, h3, h4⟩ := Arr.index_eq_ok h'
      exact ⟨b, h1, h2, h3, h4⟩
  | bool a =>
    cases h' : a.index key with
    | error e => simp [Val.index, h'] at h
    | ok a' =>
      simp [Val.index, h'] at h; subst h
      obtain ⟨b, h1, h2, h3, h4⟩ := Arr.index_eq_ok h'
      exact ⟨b, h1, h2, h3, h4⟩
  | int a =>
    cases h' : a.index key with
    | error e => simp [Val.index, h'] at h
    | ok a' =>
      simp [Val.index, h'] at h; subst h
      obtain ⟨b, h1, h2, h3, h4⟩ := Arr.index_eq_ok h'
      exact ⟨b, h1, h2, h3, h4⟩

theorem Val.index_ok {v : Val} {key s b : List ℕ} (hs : v.rshape = s ++ b)
    (hb : inB b key.reverse = true) : ∃ v', v.index key = .ok v' := by
  cases v with
  | real a =>
    obtain ⟨a', h⟩ := Arr.index_ok (a := a) hs hb
    exact ⟨_, by rw [Val.index, h]; rfl⟩
  | complex a =>
    obtain ⟨a', h⟩ := Arr.index_ok (a := a) hs hb
    exact ⟨_, by rw [Val.index, h]; rfl⟩
  | bool a =>
    obtain ⟨a', h⟩ := Arr.index_ok (a := a) hs hb
    exact ⟨_, by rw [Val.index, h]; rfl⟩
  | int a =>
    obtain ⟨a', h⟩ := Arr.index_ok (a := a) hs hb
    exact ⟨_, by rw [Val.index, h]; rfl⟩

/-- Two arrays that are both `v[key]` are equal. -/
theorem Spec.IsIndexed.unique {key : List ℕ} {v v' v'' : Val} (h' : IsIndexed key v v')
    (h'' : IsIndexed key v v'') : v' = v'' := by
  obtain ⟨b, b1, b2, b3, b4⟩ := h'
  obtain ⟨c, c1, c2, c3, c4⟩ := h''
  have hs : v'.rshape = v''.rshape := by
    have h : v'.rshape ++ b = v''.rshape ++ c := b3.symm.trans c3
    have hl : b.length = c.length := by omega
    exact (List.append_inj' h hl).1
  cases v <;> cases v' <;> simp only at b4 <;> cases v'' <;> simp only at c4 <;>
    (congr 1; exact Arr.ext hs fun i hi => (b4 i hi).trans (c4 i (by have := hs; simp only [Val.rshape] at this; rw [← this]; exact hi)).symm)

end Efax
