import Mathlib.Data.List.Basic
import Mathlib.Tactic.Basic

/-!
# Exceptions and dictionaries

Python exceptions are values of `Err`; fallible functions return `Except Err _`.
Python dictionaries are association lists in insertion order.
-/

namespace Efax

/-- The ways a modelled function can fail.  `nonFinite` is not a Python exception: it stands for an
array containing NaN or infinity (0/0, the logarithm of a non-positive number, ...), which the
real-number model cannot hold. -/
inductive Err
  | valueError | keyError | typeError | assertionError | notImplemented | indexError
  | runtimeError | nonFinite
  deriving DecidableEq, Repr

/-- Tuples of strings: `Path` (efax/_src/types.py 8). -/
abbrev Path := List String

/-- A Python `dict` in insertion order.  The functions below never create duplicate keys. -/
abbrev Dict (κ ν : Type) := List (κ × ν)

namespace Dict

variable {κ ν : Type} [DecidableEq κ]

/-- `d[k] = v`: overwrite in place when the key is present, else append at the end. -/
def set : Dict κ ν → κ → ν → Dict κ ν
  | [], k, v => [(k, v)]
  | (k', v') :: d, k, v => if k' = k then (k', v) :: d else (k', v') :: set d k v

/-- `d.get(k)`. -/
def get? : Dict κ ν → κ → Option ν
  | [], _ => none
  | (k', v') :: d, k => if k' = k then some v' else get? d k

/-- `d[k]`, raising `KeyError`. -/
def get (d : Dict κ ν) (k : κ) : Except Err ν :=
  match get? d k with
  | some v => .ok v
  | none => .error .keyError

/-- `dict(pairs)` or a dict comprehension: later pairs overwrite earlier ones. -/
def ofList (l : List (κ × ν)) : Dict κ ν := l.foldl (fun d kv => set d kv.1 kv.2) []

/-- `{**a, **b}`. -/
def merge (a b : Dict κ ν) : Dict κ ν := b.foldl (fun d kv => set d kv.1 kv.2) a

/-- `d.keys()`. -/
def keys (d : Dict κ ν) : List κ := d.map Prod.fst

/-- `d.values()`. -/
def values (d : Dict κ ν) : List ν := d.map Prod.snd

end Dict

end Efax
