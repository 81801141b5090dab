import Verif.Spec.Refines
import Verif.Lemmas.Calc

/-! # Lemmas about values and layouts -/

namespace Efax

open Calc Spec Val

theorem toR_real (a : Arr ℝ) : (Val.real a).toR = ok a := rfl

theorem toR_int_scalars (rs : List ℕ) (z : List ℕ → ℤ) :
    (Val.int (scalars rs z)).toR = ok (scalars rs fun i => (z i : ℝ)) :=
  Calc.map_scalars (fun z : ℤ => (z : ℝ)) rs z

theorem toCalcC_complex (a : Arr ℂ) : (Val.complex a).toCalcC = ok a := rfl

theorem ofR_ok (a : Arr ℝ) : ofR (ok a) = .ok (.real a) := rfl

theorem ofC_ok (a : Arr ℂ) : ofC (ok a) = .ok (.complex a) := rfl

theorem vals_one (a : Val) : vals [.ok a] = .ok [a] := rfl

theorem vals_two (a b : Val) : vals [.ok a, .ok b] = .ok [a, b] := rfl

theorem vals_three (a b c : Val) : vals [.ok a, .ok b, .ok c] = .ok [a, b, c] := rfl

/-- The complex values of an array with real values. -/
theorem toC_of_toR {v : Val} {a : Arr ℝ} (h : v.toR = ok a) : v.toC = (Val.real a).toC := by
  cases v with
  | real b => cases h; rfl
  | complex b => cases h
  | bool b =>
    cases h
    refine Arr.ext rfl fun i hi => ?_
    have hi : inB b.rshape i = true := hi
    have h1 : inB (b.map fun b => if b then (1 : ℝ) else 0).rshape i = true := hi
    simp only [toC]
    rw [Arr.map_get hi, Arr.map_get h1, Arr.map_get hi]
    split_ifs <;> simp
  | int b =>
    cases h
    refine Arr.ext rfl fun i hi => ?_
    have hi : inB b.rshape i = true := hi
    have h1 : inB (b.map fun z : ℤ => (z : ℝ)).rshape i = true := hi
    simp only [toC]
    rw [Arr.map_get hi, Arr.map_get h1, Arr.map_get hi]
    simp

theorem toC_complex_inj {a b : Arr ℂ} (h : (Val.complex a).toC = (Val.complex b).toC) : a = b := h

/-- Evaluate the list of results of a constructor call. -/
macro "vals_simp" : tactic => `(tactic| simp only [toR_real, toR_int_scalars, toCalcC_complex, ofR_ok,
  ofC_ok, vals_one, vals_two, vals_three])

end Efax
