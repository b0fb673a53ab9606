import Verif.Model.Kinematics
/-!
# Recommended grids

common/kinematics.py 180–279: `grid_resolution_*` and `grid_params_*`.  `numpy.sqrt` of a negative number is nan; nan
is `none` below.  The settings are read from the environment: `res` is `FOUR_PARTICLE_GRID_RESOLUTION`, `msf` is
`MAX_SCALE_FACTOR`, `maxMeV` is `MAX_MOMENTUM_MEV`; `MeV` is `UNITS.MeV`.
-/
namespace PyBBN

/-- `numpy.sqrt`. -/
noncomputable def npSqrt (x : ℝ) : Option ℝ :=
  open Classical in if x < 0 then none else some √x

/-- `int(x)`: towards zero; nan raises `ValueError`. -/
noncomputable def pyInt (x : Option ℝ) : Except Err ℤ :=
  open Classical in
  match x with
  | none => .error .valueError
  | some x => .ok (if 0 ≤ x then ⌊x⌋ else ⌈x⌉)

/-- `grid_resolution_HNL` (180–184). -/
noncomputable def gridResHNL (MeV : ℝ) : ℝ := √(3 - 8 / Real.pi) * (1 * MeV)

/-- `grid_resolution_neutrino` (186–199). -/
noncomputable def gridResNeutrino (MeV res mass : ℝ) : Except Err ℝ :=
  open Classical in
  if mass < 134.98 * MeV then
    if mass > 105.658 * MeV ∧ mass - 105.658 * MeV < 10 * MeV then .ok (res * MeV / 2)
    else .ok (res * MeV)
  else do
    let meson ← mesonBelow (mesonsNeutrino.map fun q : ℚ => (q : ℝ) * MeV) mass
    let dy := 2 * cmMomentum mass 0 meson * gridResHNL MeV / mass
    .ok (min (dy * 0.75) (res * MeV / 3))

/-- `delta_y_meson` (210–211) and `delta_y_lepton` (231–232): difference of the momenta at energies `e ± s`; nan if one
of them is below the mass. -/
noncomputable def momentumSpread (e s m : ℝ) : Option ℝ := do
  let a ← npSqrt ((e + s) ^ 2 - m ^ 2)
  let b ← npSqrt ((e - s) ^ 2 - m ^ 2)
  some (a - b)

/-- `grid_resolution_meson` (201–216); `not nan > 0` is true. -/
noncomputable def gridResMeson (MeV res mass : ℝ) : Except Err ℝ :=
  open Classical in
  if mass < 134.98 * MeV then .ok (res * MeV)
  else do
    let meson ← mesonBelow (mesonsMeson.map fun q : ℚ => (q : ℝ) * MeV) mass
    let mom := cmMomentum mass 0 meson
    let e := √(mom ^ 2 + meson ^ 2)
    let dy := match momentumSpread e (gridResHNL MeV * mom / mass) meson with
      | some d => if d > 0 then d else res * MeV / 3
      | none => res * MeV / 3
    .ok (min (dy / 3) (res * MeV))

/-- `grid_resolution_lepton` (218–234); `min(nan, x)` is nan. -/
noncomputable def gridResLepton (MeV res mass : ℝ) (std : Bool) : Option ℝ :=
  open Classical in
  if mass < 139.57 * MeV ∨ std = true then
    if mass > 105.658 * MeV ∧ mass - 105.658 * MeV < 10 * MeV then some (res * MeV / 2)
    else some (res * MeV)
  else do
    let mom := cmMomentum (139.57 * MeV) 0 (105.658 * MeV)
    let e := √(mom ^ 2 + (105.658 * MeV) ^ 2)
    let mres := 0.67 * √(139.57 * MeV * MeV * 0.5)
    let dy ← momentumSpread e (mres * mom / (139.57 * MeV)) (105.658 * MeV)
    some (min dy (res * MeV))

/-- `grid_params_HNL` (236–244) as a function of the decoupling temperature. -/
noncomputable def gridParamsHNL (MeV mass Tdec : ℝ) : Except Err (ℤ × ℝ) :=
  let aT := 1 * MeV
  let aIni := aT / Tdec
  match npSqrt ((aT * Real.log 1e100) ^ 2 - (mass * aIni) ^ 2) with
  | none => .error .valueError
  | some mx => do
    let n ← pyInt (some (mx / gridResHNL MeV))
    .ok (n, mx)

/-- `grid_params_neutrino` (246–250). -/
noncomputable def gridParamsNeutrino (MeV res msf mass : ℝ) : Except Err (ℤ × ℝ) := do
  let mx := mass * msf
  let d ← gridResNeutrino MeV res mass
  let n ← pyInt (some (mx / d))
  .ok (n, mx)

/-- `grid_params_meson` (252–264).  The argument of the root is positive where it is reached. -/
noncomputable def gridParamsMeson (MeV res msf maxMeV mass : ℝ) : Except Err (ℤ × ℝ) :=
  open Classical in do
  let mx := if mass < 134.98 * MeV then maxMeV * MeV
    else if mass - 134.98 * MeV < 0.35 * MeV then 10 * msf * MeV
    else √(mass ^ 2 - (134.98 * MeV) ^ 2) * msf
  let d ← gridResMeson MeV res mass
  let n ← pyInt (some (mx / d))
  .ok (n, mx)

/-- `grid_params_lepton` (266–278).  The argument of the root is positive where it is reached. -/
noncomputable def gridParamsLepton (MeV res msf mass : ℝ) (std : Bool) : Except Err (ℤ × ℝ) :=
  open Classical in do
  let mx := if mass < 105.658 * MeV ∨ std = true then mass * msf
    else if mass - 105.658 * MeV < 0.35 * MeV then 10 * msf * MeV
    else √(mass ^ 2 - (105.658 * MeV) ^ 2) * msf
  let n ← pyInt ((gridResLepton MeV res mass std).map (mx / ·))
  .ok (n, mx)

end PyBBN
