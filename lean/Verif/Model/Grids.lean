import Verif.Model.Py
import Mathlib.Analysis.SpecialFunctions.Sqrt
/-!
# Momentum grids: common/__init__.py 220–295
-/
namespace PyBBN

/-- `if not v: v = default` for an optional number (222–226, 249–253): `None` and `0` are falsy. -/
noncomputable def orDefault {α : Type*} [Zero α] [DecidableEq α] (v : Option α) (default : α) : α :=
  match v with
  | none => default
  | some x => if x = 0 then default else x

/-- A grid object: `MIN_MOMENTUM`, `MAX_MOMENTUM`, `MOMENTUM_SAMPLES`, `TEMPLATE`. -/
structure Grid where
  minMomentum : ℝ
  maxMomentum : ℝ
  samples : ℕ
  template : List ℝ

/-- `numpy.linspace(start, stop, num, endpoint=True)`; for `num = 1` the single point is `start`. -/
noncomputable def linspace (start stop : ℝ) (num : ℕ) : List ℝ :=
  (List.range num).map fun i : ℕ => start + (i : ℝ) * ((stop - start) / ((num - 1 : ℕ) : ℝ))

open Classical in
/-- `LinearSpacedGrid` (220–244). `defMax`, `defSamples` are the environment defaults
(`MAX_MOMENTUM_MEV * MeV`, `MOMENTUM_SAMPLES`). -/
noncomputable def linearSpacedGrid (defMax : ℝ) (defSamples : ℕ)
    (momentumSamples : Option ℕ) (maxMomentum : Option ℝ) : Grid :=
  let mx := orDefault maxMomentum defMax
  let n := orDefault momentumSamples defSamples
  ⟨0, mx, n, linspace 0 mx n⟩

/-- `LogSpacedGrid.generate_template` (262–269), base 1.2.  With one sample the code divides zero by
zero (nan); the real model gives 0 there, and the theorems ask for two samples. -/
noncomputable def logTemplate (minM maxM : ℝ) (n : ℕ) : List ℝ :=
  (List.range n).map fun i : ℕ =>
    minM + (maxM - minM) * ((1.2 : ℝ) ^ i - 1) / ((1.2 : ℝ) ^ (n - 1) - 1)

open Classical in
/-- `LogSpacedGrid` (247–260). -/
noncomputable def logSpacedGrid (defMax : ℝ) (defSamples : ℕ)
    (momentumSamples : Option ℕ) (maxMomentum : Option ℝ) : Grid :=
  let mx := orDefault maxMomentum defMax
  let n := orDefault momentumSamples defSamples
  ⟨0, 0 + mx, n, logTemplate 0 (0 + mx) n⟩

/-- Temperature assigned to a grid point in `HeuristicGrid` (284). -/
noncomputable def heurT (M aT c g : ℝ) : ℝ :=
  aT * M * (aT + g * c ^ 2 - Real.sqrt (aT * (aT + 2 * g * c ^ 2))) / (2 * g ^ 2 * c ^ 2)

/-- Next (lower) grid point in `HeuristicGrid` (285). -/
noncomputable def heurNext (M aT c g : ℝ) : ℝ :=
  let T := heurT M aT c g
  max (g - Real.sqrt (M * T / c) * aT / T) 0

/-- First point of `HeuristicGrid` (275–280); `s` is the unit of time. -/
noncomputable def heurFirst (s M tau aT b : ℝ) : ℝ :=
  let H := 0.5 / s
  let aMax := Real.sqrt (2 * H * b * tau)
  let TMax := aT / aMax
  aMax * (M + Real.sqrt (M * TMax))

open Classical in
/-- The `while grid[-1] > 0` loop (282–285) with a step budget: `none` when the budget is exhausted.
The list is kept newest first, i.e. it is `grid[::-1]`. -/
noncomputable def heurLoop (M aT c : ℝ) : ℕ → List ℝ → Option (List ℝ)
  | _, [] => none
  | fuel, g :: rest =>
    if g > 0 then
      match fuel with
      | 0 => none
      | n + 1 => heurLoop M aT c n (heurNext M aT c g :: g :: rest)
    else some (g :: rest)

/-- `HeuristicGrid` (272–292) with a loop budget; the loop keeps the list reversed already (287).
`MAX_MOMENTUM = grid[0]` is the first generated point. -/
noncomputable def heuristicGrid (s M tau aT b c : ℝ) (fuel : ℕ) : Option Grid :=
  match heurLoop M aT c fuel [heurFirst s M tau aT b] with
  | none => none
  | some t => some ⟨0, heurFirst s M tau aT b, t.length, t⟩

end PyBBN
