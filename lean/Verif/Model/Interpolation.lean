import Verif.Model.Py
import Mathlib.Analysis.SpecialFunctions.Log.Basic
import Mathlib.Analysis.SpecialFunctions.Sqrt
/-!
# Grid search and interpolation

* C++ `binary_find`, `energy`, `distribution_interpolation`
  (interactions/four_particle/cpp/integral.cpp 4–108; the three-particle copy
  interactions/three_particle/cpp/integral.cpp 4–108 is textually the same),
* Python `binary_find`, `interp`, `linear_interpolation`, `cubic_interpolation`
  (common/__init__.py 307–440).

Doubles are reals.  An out-of-range read of a C++ vector (undefined behaviour) and a Python
`IndexError` are both the value `Err.indexError`.
-/
namespace PyBBN

section search
variable {α : Type*} [LinearOrder α]

/-- The bisection loop of `binary_find` (integral.cpp 20–27). `int` arithmetic, no overflow. -/
def bfLoop (grid : List α) (x : α) (head tail : ℕ) : Except Err (ℕ × ℕ) :=
  if h : tail - head > 1 then
    match grid[(tail + head) / 2]? with
    | none => .error .indexError
    | some g =>
      if g > x then bfLoop grid x head ((tail + head) / 2)
      else bfLoop grid x ((tail + head) / 2) tail
  else .ok (head, tail)
termination_by tail - head
decreasing_by all_goals omega

/-- C++ `binary_find` (integral.cpp 9–38).  On an empty vector `grid[tail]` is out of range. -/
def binaryFind (grid : List α) (x : α) : Except Err (ℤ × ℤ) :=
  match grid[grid.length - 1]?, grid[0]? with
  | some gt, some gh =>
    if gt < x then .ok ((grid.length : ℤ) - 1, -1)
    else if gh > x then .ok (-1, 0)
    else match bfLoop grid x 0 (grid.length - 1) with
      | .error e => .error e
      | .ok (head, tail) =>
        match grid[tail]?, grid[head]? with
        | some t, some h =>
          if t = x then .ok (tail, tail)
          else if h = x then .ok (head, head)
          else .ok (head, tail)
        | _, _ => .error .indexError
  | _, _ => .error .indexError

/-- `numpy.searchsorted(grid, x)` on a sorted array: number of leading entries below `x`. -/
def searchsortedLeft (grid : List α) (x : α) : ℕ := (grid.takeWhile (· < x)).length

/-- `numpy.searchsorted(grid, x, side='right')` on a sorted array. -/
def searchsortedRight (grid : List α) (x : α) : ℕ := (grid.takeWhile (· ≤ x)).length

/-- Python `binary_find` (common/__init__.py 376–391), with `MOMENTUM_SAMPLES = len(TEMPLATE)`.
`numpy.where(temp == x)` yields the positions of `x`; on a strictly increasing grid it is the one
position, returned here as a plain index. -/
def binaryFindPy (grid : List α) (x : α) : Except Err (ℤ × ℤ) :=
  match grid.getLast?, grid.head? with
  | some gt, some gh =>
    if gt < x then .ok ((grid.length : ℤ) - 1, -1)
    else if gh > x then .ok (-1, 0)
    else if x ∈ grid then .ok (grid.idxOf x, grid.idxOf x)
    else .ok ((searchsortedRight grid x : ℤ) - 1, searchsortedRight grid x)
  | _, _ => .error .indexError

end search

/-- `energy` (integral.cpp 4–6); also `Particle.conformal_energy` (particles/__init__.py 161–173). -/
noncomputable def energy (y mass : ℝ) : ℝ := Real.sqrt (y * y + mass * mass)

/-- The interior case of `distribution_interpolation` (integral.cpp 68–106) and of `interp`
(common/__init__.py 412–440).  A stored value `0` makes `1./g` infinite in IEEE arithmetic and the
result `1./(inf + eta) = 0`; this is spelled out because `1/0` is not infinite in `ℝ`.  The final
`isnan`/`isfinite` test cannot fire on the remaining inputs. -/
noncomputable def interpCell (pLo pHi fLo fHi p m : ℝ) (eta : ℤ) : ℝ :=
  let Ep := energy p m
  let ELo := energy pLo m
  let EHi := energy pHi m
  if fHi = 0 ∨ fLo = 0 then 0
  else if 1 / fHi - eta > 0 then
    if 1 / fLo - eta > 0 then
      let gHi := Real.log (1 / fHi - eta)
      let gLo := Real.log (1 / fLo - eta)
      let g := ((Ep - ELo) * gHi + (EHi - Ep) * gLo) / (EHi - ELo)
      1 / (Real.exp g + eta)
    else 0
  else 0

/-- The part of `distribution_interpolation` after the grid search (integral.cpp 55–106). -/
noncomputable def lookupAt (found : Except Err (ℤ × ℤ)) (grid dist : List ℝ) (p m : ℝ) (eta : ℤ)
    (T : ℝ) : Except Err ℝ :=
  match found with
  | .error e => .error e
  | .ok (lo, hi) =>
    if lo = -1 then .error .runtimeError
    else if hi = -1 then
      match dist[grid.length - 1]?, grid[grid.length - 1]? with
      | some d, some g => .ok (d * Real.exp ((energy g m - energy p m) / T))
      | _, _ => .error .indexError
    else if lo = hi then
      match dist[lo.toNat]? with
      | some d => .ok d
      | none => .error .indexError
    else
      match grid[lo.toNat]?, grid[hi.toNat]?, dist[lo.toNat]?, dist[hi.toNat]? with
      | some pLo, some pHi, some fLo, some fHi => .ok (interpCell pLo pHi fLo fHi p m eta)
      | _, _, _, _ => .error .indexError

/-- C++ `distribution_interpolation` (integral.cpp 41–108). -/
noncomputable def distributionInterpolation (grid dist : List ℝ) (p m : ℝ) (eta : ℤ) (T : ℝ)
    (inEq : Bool) : Except Err ℝ :=
  if inEq then .ok (1 / (Real.exp (energy p m / T) + eta))
  else lookupAt (binaryFind grid p) grid dist p m eta T

/-- Python `interp` (common/__init__.py 394–440).  `ValueError` below the grid; in the model both
exceptions are mapped to the same constructor because the tail code is shared. `MAX_MOMENTUM` is
the last grid point. -/
noncomputable def interpPy (grid dist : List ℝ) (p m : ℝ) (eta : ℤ) (aT : ℝ)
    (inEq : Bool) : Except Err ℝ :=
  if inEq then .ok (1 / (Real.exp (energy p m / aT) + eta))
  else lookupAt (binaryFindPy grid p) grid dist p m eta aT

/-- `linear_interpolation(function, grid)(x)` (common/__init__.py 307–330). -/
noncomputable def linearInterpolation (function grid : List ℝ) (x : ℝ) : Except Err ℝ :=
  let index := searchsortedLeft grid x
  if (index : ℤ) ≥ (grid.length : ℤ) - 1 then pyGet function ((grid.length : ℤ) - 1)
  else match grid[index]?, grid[index + 1]? with
    | some xl, some xh =>
      if x = xl then pyGet function index
      else match pyGet function index, pyGet function ((index : ℤ) + 1) with
        | .ok fl, .ok fh => .ok ((fl * (xh - x) + fh * (x - xl)) / (xh - xl))
        | .error e, _ => .error e
        | _, .error e => .error e
    | _, _ => .error .indexError

/-- The cubic formula (common/__init__.py 364–371). -/
noncomputable def cubicCell (y0 y1 y2 y3 mu : ℝ) : ℝ :=
  let a0 := -0.5 * y0 + 1.5 * y1 - 1.5 * y2 + 0.5 * y3
  let a1 := y0 - 2.5 * y1 + 2 * y2 - 0.5 * y3
  let a2 := -0.5 * y0 + 0.5 * y2
  let a3 := y1
  a0 * mu * mu * mu + a1 * mu * mu + a2 * mu + a3

/-- `cubic_interpolation(function, grid)(x)` (common/__init__.py 333–373). -/
noncomputable def cubicInterpolation (function grid : List ℝ) (x : ℝ) : Except Err ℝ :=
  let index := searchsortedLeft grid x
  if (index : ℤ) ≥ (grid.length : ℤ) - 1 then pyGet function ((grid.length : ℤ) - 1)
  else match grid[index]?, grid[index + 1]? with
    | some xl, some xh =>
      if x = xl then pyGet function index
      else if index = 0 ∨ (index : ℤ) = (grid.length : ℤ) - 2 then
        match pyGet function index, pyGet function ((index : ℤ) + 1) with
        | .ok fl, .ok fh => .ok ((fl * (xh - x) + fh * (x - xl)) / (xh - xl))
        | .error e, _ => .error e
        | _, .error e => .error e
      else
        match pyGet function ((index : ℤ) - 1), pyGet function index,
          pyGet function ((index : ℤ) + 1), pyGet function ((index : ℤ) + 2) with
        | .ok y0, .ok y1, .ok y2, .ok y3 => .ok (cubicCell y0 y1 y2 y3 ((x - xl) / (xh - xl)))
        | .error e, _, _, _ => .error e
        | _, .error e, _, _ => .error e
        | _, _, .error e, _ => .error e
        | _, _, _, .error e => .error e
    | _, _ => .error .indexError

end PyBBN
