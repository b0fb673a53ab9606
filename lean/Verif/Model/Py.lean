import Mathlib.Data.List.Basic
import Mathlib.Data.Int.Basic
/-!
# Small fragment of Python / numpy semantics used by the models

These are semantics of the host language and of numpy, not of the repository.
-/
namespace PyBBN

/-- Exceptions the modelled code can raise (class only, messages dropped). -/
inductive Err
  | indexError
  | keyError
  | valueError
  | typeError
  | attributeError
  | assertionError
  | zeroDivision
  | runtimeError
  | generic
  | systemExit
  deriving DecidableEq, Repr

/-- Python index normalisation: `i` for `0 ≤ i < n`, `n + i` for `-n ≤ i < 0`, else `IndexError`. -/
def pyIndex (n : ℕ) (i : ℤ) : Except Err ℕ :=
  if 0 ≤ i ∧ i < n then .ok i.toNat
  else if -(n : ℤ) ≤ i ∧ i < 0 then .ok (n + i).toNat
  else .error .indexError

/-- `l[i]` for an integer `i`. -/
def pyGet {α : Type*} (l : List α) (i : ℤ) : Except Err α :=
  match pyIndex l.length i with
  | .error e => .error e
  | .ok k => match l[k]? with
    | some x => .ok x
    | none => .error .indexError

/-- `l[i] = x` for an integer `i`. -/
def pySet {α : Type*} (l : List α) (i : ℤ) (x : α) : Except Err (List α) :=
  match pyIndex l.length i with
  | .error e => .error e
  | .ok k => .ok (l.set k x)

/-- `l[:n]` for an integer `n` (negative `n` counts from the end). -/
def pySliceTo {α : Type*} (l : List α) (n : ℤ) : List α :=
  if 0 ≤ n then l.take n.toNat else l.take (l.length + n).toNat

/-- `l[-n:]` for a natural `n`: for `n = 0` this is the whole list (`-0 = 0`), otherwise the last
`n` elements (all of them if there are fewer). -/
def pyLast {α : Type*} (l : List α) (n : ℕ) : List α :=
  if n = 0 then l else l.drop (l.length - n)

/-- `numpy.resize(l, n)`: the flattened input is repeated cyclically; an empty input gives zeros. -/
def npResize {α : Type*} (zero : α) (l : List α) (n : ℕ) : List α :=
  (List.range n).map fun i => (l[i % l.length]?).getD zero

/-- `numpy.delete(l, i, axis=0)` for an integer `i`. -/
def npDelete {α : Type*} (l : List α) (i : ℤ) : Except Err (List α) :=
  match pyIndex l.length i with
  | .error e => .error e
  | .ok k => .ok (l.eraseIdx k)

end PyBBN
