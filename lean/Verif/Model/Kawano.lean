import Verif.Model.Py
import Verif.Model.Params
import Verif.Model.Statistics
import Mathlib.Analysis.SpecialFunctions.Sqrt
import Mathlib.Analysis.SpecialFunctions.Exp
/-!
# Weak rates for the nuclear network (kawano.py) and the semi-analytic monitor (semianalytic.py)

`fe`, `fnu` are `particles.electron.distribution` and `particles.neutrino.distribution`; `Q` is
`integrate_1D(...)[0]`.
-/
namespace PyBBN

/-- The module level quantities: `q`, `m_e` (kawano.py 18–20), the global `a` (22), the two distributions
(28–30). -/
structure KEnv where
  q : ℝ
  me : ℝ
  a : ℝ
  fe : ℝ → ℝ
  fnu : ℝ → ℝ

namespace KEnv

/-- Electron momentum `numpy.sqrt(E_e**2 - (m_e * a)**2)` (e.g. kawano.py 66). -/
noncomputable def ye (k : KEnv) (E : ℝ) : ℝ := √(E ^ 2 - (k.me * k.a) ^ 2)

open Classical in
/-- `_rate1` (kawano.py 60–68): n + ν_e → e + p. -/
noncomputable def rate1 (k : KEnv) (y : ℝ) : ℝ :=
  let E := k.q * k.a + y
  if E < k.me * k.a then 0
  else y ^ 2 * k.ye E * E * (1 - k.fe (k.ye E)) * k.fnu y

open Classical in
/-- `_rate2` (kawano.py 71–79): e + p → n + ν_e. -/
noncomputable def rate2 (k : KEnv) (y : ℝ) : ℝ :=
  let E := k.q * k.a + y
  if E < k.me * k.a then 0
  else y ^ 2 * k.ye E * E * k.fe (k.ye E) * (1 - k.fnu y)

open Classical in
/-- `_rate3` (kawano.py 82–91): n → e + ν_e' + p. -/
noncomputable def rate3 (k : KEnv) (y : ℝ) : ℝ :=
  let E := k.q * k.a - y
  if E < k.me * k.a then 0
  else y ^ 2 * k.ye E * E * (1 - k.fe (k.ye E)) * (1 - k.fnu y)

open Classical in
/-- `_rate4` (kawano.py 94–102): e + ν_e' + p → n. -/
noncomputable def rate4 (k : KEnv) (y : ℝ) : ℝ :=
  let E := k.q * k.a - y
  if E < k.me * k.a then 0
  else y ^ 2 * k.ye E * E * k.fe (k.ye E) * k.fnu y

open Classical in
/-- `_rate5` (kawano.py 105–113): n + e' → ν_e' + p. -/
noncomputable def rate5 (k : KEnv) (y : ℝ) : ℝ :=
  let E := -k.q * k.a + y
  if E < k.me * k.a then 0
  else y ^ 2 * k.ye E * E * k.fe (k.ye E) * (1 - k.fnu y)

open Classical in
/-- `_rate6` (kawano.py 116–125): ν_e' + p → n + e'. -/
noncomputable def rate6 (k : KEnv) (y : ℝ) : ℝ :=
  let E := -k.q * k.a + y
  if E < k.me * k.a then 0
  else y ^ 2 * k.ye E * E * (1 - k.fe (k.ye E)) * k.fnu y

/-- The list of integrands and bounds (kawano.py 135–142). -/
noncomputable def jobs (k : KEnv) (ymin ymax : ℝ) : List ((ℝ → ℝ) × (ℝ × ℝ)) :=
  [(k.rate1, (ymin, ymax)),
   (k.rate2, (ymin, ymax)),
   (k.rate3, (ymin, (k.q - k.me) * k.a)),
   (k.rate4, (ymin, (k.q - k.me) * k.a)),
   (k.rate5, ((k.q + k.me) * k.a, ymax)),
   (k.rate6, ((k.q + k.me) * k.a, ymax))]

open Classical in
/-- `baryonic_rates` (kawano.py 128–149); `norm` is `CONST.rate_normalization`, `pa` is
`particles.neutrino.params.a`. -/
noncomputable def baryonicRates (k : KEnv) (Q : (ℝ → ℝ) → ℝ → ℝ → ℝ) (norm pa ymin ymax : ℝ) : List ℝ :=
  (k.jobs ymin ymax).map fun j =>
    if j.2.1 < j.2.2 then norm / pa ^ 5 * Q j.1 j.2.1 j.2.2 else 0

end KEnv

/-- `dTdt` of `Universe.save` (evolution.py 329–332). -/
noncomputable def kawanoDTdt (p : Params) (fraction : ℝ) : ℝ :=
  if p.log then (fraction - p.aT) * p.H / p.a
  else (fraction - p.T / p.m) * p.H * p.m

/-- The row appended to `kawano_data` (evolution.py 334–346); columns in the order of `kawano.heading`
(kawano.py 156–169).  `rho` is `params.rho`. -/
noncomputable def kawanoRow (p : Params) (rho fraction : ℝ) (rates : List ℝ) : List ℝ :=
  [p.t, p.x, p.T, kawanoDTdt p fraction, rho, p.H] ++ rates

/-! ## semianalytic.py -/

/-- Attributes the monitor sets on the universe; `none`: not set (`hasattr` false). -/
structure Monitor where
  neutron : Option Params := none
  deuterium : Option Params := none
  estimates : Option (ℝ × ℝ × ℝ) := none

open Classical in
/-- `neutron_equilibration > 10 or < 0.1` (semianalytic.py 15–16) for numpy floats: a zero
denominator gives nan (both tests false) or an infinity (one test true). -/
noncomputable def equilibrationLost (rates : List ℝ) : Bool :=
  let fwd := ((rates.zipIdx.filter fun x => x.2 % 2 = 0).map Prod.fst).sum
  let bwd := ((rates.zipIdx.filter fun x => x.2 % 2 = 1).map Prod.fst).sum
  if bwd = 0 then decide (fwd ≠ 0)
  else decide (fwd / bwd > 10) || decide (fwd / bwd < 0.1)

/-- First block (semianalytic.py 10–18).  `getRates` is the evaluation of lines 11–14 on the last row of
`kawano_data` (`none`: the table is empty). -/
noncomputable def monitorNeutron {Row : Type*} (getRates : Row → Except Err (List ℝ))
    (last : Option Row) (p : Params) (m : Monitor) : Except Err Monitor :=
  match m.neutron, last with
  | none, some row => match getRates row with
    | .error e => .error e
    | .ok rates => .ok (if equilibrationLost rates then { m with neutron := some p } else m)
  | _, _ => .ok m

open Classical in
/-- Second block (semianalytic.py 20–22); `Tbbn` is `T_BBN`. -/
noncomputable def monitorDeuterium (Tbbn : ℝ) (p : Params) (m : Monitor) : Monitor :=
  match m.deuterium with
  | none => if p.T ≤ Tbbn then { m with deuterium := some p } else m
  | some _ => m

/-- Third block (semianalytic.py 24–49); `q` is `universe.kawano.q`, `tau` is the neutron lifetime
`885.7 * UNITS.s`. -/
noncomputable def monitorEstimate (q tau : ℝ) (m : Monitor) : Monitor :=
  match m.neutron, m.deuterium, m.estimates with
  | some np, some dp, none =>
    let decayTime := dp.t - np.t
    let ratio := Real.exp (-q / np.T) * Real.exp (-decayTime / tau)
    { m with estimates := some (decayTime, ratio, 2 * ratio / (1 + ratio)) }
  | _, _, _ => m

/-- `step_monitor` (semianalytic.py 7–60).  Printing is dropped. -/
noncomputable def stepMonitor {Row : Type*} (getRates : Row → Except Err (List ℝ)) (Tbbn q tau : ℝ)
    (last : Option Row) (p : Params) (m : Monitor) : Except Err Monitor :=
  match monitorNeutron getRates last p m with
  | .error e => .error e
  | .ok m => .ok (monitorEstimate q tau (monitorDeuterium Tbbn p m))

/-- Lines 11–14 as numpy executes them: a `dtype` cannot be sliced (`data.dtype[-6:]`), it accepts an
integer, a field name or a list of names and raises `TypeError` otherwise. -/
def ratesAsWritten {Row : Type*} (_ : Row) : Except Err (List ℝ) := .error .typeError

/-- Lines 11–14 as meant: the last six columns of the row. -/
def ratesIntended (row : List ℝ) : Except Err (List ℝ) := .ok (row.drop (row.length - 6))

/-- The monitor called once per step (evolution.py 184–185). -/
noncomputable def monitorRun {Row : Type*} (getRates : Row → Except Err (List ℝ)) (Tbbn q tau : ℝ) :
    List (Option Row × Params) → Monitor → Except Err Monitor
  | [], m => .ok m
  | s :: ss, m => match stepMonitor getRates Tbbn q tau s.1 s.2 m with
    | .error e => .error e
    | .ok m' => monitorRun getRates Tbbn q tau ss m'

end PyBBN
