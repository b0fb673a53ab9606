import Verif.Model.Py
import Verif.Model.Interpolation
import Mathlib.Analysis.SpecialFunctions.Pow.Real
/-!
# Kinematics helpers (common/kinematics.py)

Doubles are reals (`np.sqrt` of a negative number, NaN in numpy, is 0 here; the theorems assume the
radicand is non-negative or say so).  Settings read from the environment are parameters.
-/
namespace PyBBN

/-- `cm_momentum` (kinematics.py 12–16). -/
noncomputable def cmMomentum (m1 m2 m3 : ℝ) : ℝ :=
  √((m1 ^ 2 - m2 ^ 2 - m3 ^ 2) ^ 2 - (2 * m2 * m3) ^ 2) / (2 * m1)

/-- The attributes of a species used by the bounds: `conformal_mass`, whether `mass == 0`, the grid
and its `MAX_MOMENTUM`. -/
structure KSpecie where
  confMass : ℝ
  massless : Bool
  maxMom : ℝ
  grid : List ℝ

/-- `three_particle_bounds_creation` (kinematics.py 23–44). -/
noncomputable def bounds3Creation (s1 s2 s3 : KSpecie) : ℝ × ℝ :=
  let beta := s3.maxMom / √(s3.confMass ^ 2 + s3.maxMom ^ 2)
  let gamma := 1 / √(1 - beta ^ 2)
  let pcm := cmMomentum s3.confMass s2.confMass s1.confMass
  let ecm := √(s1.confMass ^ 2 + pcm ^ 2)
  let emax := gamma * (ecm + beta * pcm)
  let emin := if s1.massless then gamma * (ecm - beta * pcm) else s1.confMass
  (√(emin ^ 2 - s1.confMass ^ 2), √(emax ^ 2 - s1.confMass ^ 2))

/-- Result of splitting a grid: leading zeros, evaluated points, trailing zeros. -/
structure Slices where
  zeros1 : List ℝ
  points : List ℝ
  zeros3 : List ℝ

/-- `[0] * n` for an integer `n`: empty for negative `n`. -/
def pyZeros (n : ℤ) : List ℝ := List.replicate n.toNat 0

/-- `l[k:]` for an integer `k` (negative: from the end). -/
def pySliceFrom {α : Type*} (l : List α) (k : ℤ) : List α :=
  if 0 ≤ k then l.drop k.toNat else l.drop (l.length + k).toNat

/-- `three_particle_grid_bounds_creation` (kinematics.py 46–61), with the bounds as arguments. -/
noncomputable def gridBounds3 (grid : List ℝ) (lb ub : ℝ) : Slices :=
  let lo : ℤ := max 0 ((searchsortedRight grid lb : ℤ) - 1)
  let up : ℤ := min ((grid.length : ℤ) - 1) (searchsortedLeft grid ub)
  let s1 := pyZeros (pySliceTo grid lo).length
  let s2 := pySliceFrom (pySliceTo grid (up + 1)) lo
  let s3 := pyZeros (((pySliceFrom grid up).length : ℤ) - 1)
  ⟨s1, if lo = up then [] else s2, s3⟩

/-- `grid_cutoff_3p` for a creation reaction (kinematics.py 146–155): `none` is the `return False`
taken when `slice_2` has no non-zero element.  Momenta are divided by `aT`. -/
noncomputable def gridCutoff3 (grid : List ℝ) (lb ub aT : ℝ) : Option Slices :=
  open Classical in
  let s := gridBounds3 grid lb ub
  if ∃ x ∈ s.points, x ≠ 0 then some ⟨s.zeros1, s.points.map (· / aT), s.zeros3⟩ else none

/-- How `ThreeParticleIntegral.integrate` uses the slices (three_particle/__init__.py 111–118) for
the `Full` kind: `C` is the array of the loop over the points; if `grid_cutoff_3p` returned `False`
the unpacking raises inside `try` and zeros of the length of `ps` are returned. -/
noncomputable def integrate3Array (loop : List ℝ → List ℝ) (ps grid : List ℝ) (lb ub aT : ℝ) : List ℝ :=
  match gridCutoff3 grid lb ub aT with
  | none => pyZeros ps.length
  | some s => s.zeros1 ++ loop s.points ++ s.zeros3

/-- `four_particle_bounds_creation` (kinematics.py 63–76); `dflt` is `MAX_MOMENTUM_MEV * MeV`. -/
noncomputable def bounds4Creation (s1 s2 s3 s4 : KSpecie) (dflt : ℝ) : ℝ :=
  max (√((√(s4.maxMom ^ 2 + s4.confMass ^ 2) - s2.confMass - s3.confMass) ^ 2 - s1.confMass ^ 2)) dflt

/-- The cut shared by `four_particle_grid_cutoff_creation`, `_scattering` and `_decay` (kinematics.py
82–88, 101–106, 120–126) for a given upper bound. -/
noncomputable def gridCut4 (grid : List ℝ) (ub : ℝ) : List ℝ × List ℝ :=
  let up : ℤ := min ((grid.length : ℤ) - 1) (searchsortedLeft grid ub)
  (pySliceTo grid (up + 1), pyZeros (((pySliceFrom grid up).length : ℤ) - 1))

/-- `max(numpy.sqrt(e**2 - m**2), dflt)` (kinematics.py 97, 116); the root of a negative number is nan (`none`), and
`max(nan, dflt)` is nan. -/
noncomputable def hnlMaxMom (e m dflt : ℝ) : Option ℝ :=
  open Classical in
  if e ^ 2 - m ^ 2 < 0 then none else some (max (√(e ^ 2 - m ^ 2)) dflt)

/-- Upper bound of the scattering cut (kinematics.py 93–99), `none` for nan. `isHNL`: the species is called
`'Sterile neutrino (Dirac)'`; `hnl`: value of the `HNL_ENERGY` variable if it is set (to a non-empty
string). -/
noncomputable def scatteringMaxMom (isHNL : Bool) (hnl : Option ℝ) (maxMom confMass dflt : ℝ) : Option ℝ :=
  if isHNL then some maxMom
  else match hnl with
    | some e => hnlMaxMom e confMass dflt
    | none => some dflt

/-- Upper bound of the decay cut (kinematics.py 112–118). -/
noncomputable def decayMaxMom (isHNL : Bool) (hnl : Option ℝ) (maxMom confMass dflt : ℝ) : Option ℝ :=
  if isHNL then some maxMom
  else match hnl with
    | some e => hnlMaxMom e confMass dflt
    | none => some maxMom

/-- The cut for a bound that may be nan: `searchsorted(grid, nan)` is the length of the grid, nothing is cut. -/
noncomputable def gridCut4Nan (grid : List ℝ) (ub : Option ℝ) : List ℝ × List ℝ :=
  match ub with
  | some u => gridCut4 grid u
  | none => (grid, [])

/-- `interpolation_4p` (kinematics.py 351–359) when it applies: the momenta kept out of `ps` are those at the
positions `searchsorted(ps, linspace(ps[0], ps[-1], steps))`. `linspace` with `steps ≥ 2` points
`ps[0] + k (ps[-1] - ps[0])/(steps-1)`; with one point `ps[0]`. -/
noncomputable def interpPositions (ps : List ℝ) (steps : ℕ) : Except Err (List ℕ) :=
  match ps.head?, ps.getLast? with
  | some a, some b =>
    .ok ((List.range steps).map fun k : ℕ =>
      searchsortedLeft ps (if steps = 1 then a else a + k * ((b - a) / ((steps : ℝ) - 1))))
  | _, _ => .error .indexError

/-- `g_star` of `decoupling_temperature_relativistic` (kinematics.py 158–165): the first `if` is not
connected to the second one. -/
noncomputable def gStar (mass muon lambdaQCD : ℝ) : ℝ :=
  open Classical in
  Id.run do
    let mut g : ℝ := 0
    if mass > lambdaQCD then g := 61.75
    if muon < mass ∧ mass < lambdaQCD then g := 14.25
    else g := 10.75
    return g

/-- `decoupling_temperature_relativistic` (kinematics.py 157–169). -/
noncomputable def decouplingRel (mass theta muon lambdaQCD Mp GF : ℝ) : ℝ :=
  (1.66 * √(gStar mass muon lambdaQCD) / (Mp * GF ^ 2 * theta ^ 2)) ^ (1 / 3 : ℝ)

/-- `decoupling_temperature` (kinematics.py 171–178) as a function of the relativistic estimate; the
flag says whether the environment variable `Relativistic_decoupling` is set. -/
noncomputable def decouplingOf (Trel mass : ℝ) : ℝ × Bool :=
  open Classical in
  if 1.5 * Trel > 1.5 * mass then (1.5 * Trel, true)
  else if mass ≤ 1.5 * Trel ∧ 1.5 * Trel ≤ 1.5 * mass then (1.5 * mass, false)
  else (mass, false)

/-- `decoupling_temperature` (kinematics.py 171–178). -/
noncomputable def decouplingTemperature (mass theta muon lambdaQCD Mp GF : ℝ) : ℝ × Bool :=
  decouplingOf (decouplingRel mass theta muon lambdaQCD Mp GF) mass

/-- The meson picked by `grid_resolution_neutrino` / `_meson` (kinematics.py 195–196, 205–206):
`meson_masses[searchsorted(meson_masses, mass) - 1]`. -/
noncomputable def mesonBelow (mesons : List ℝ) (mass : ℝ) : Except Err ℝ :=
  pyGet mesons ((searchsortedLeft mesons mass : ℤ) - 1)

/-- The meson masses of `grid_resolution_neutrino` (kinematics.py 195), in MeV. -/
def mesonsNeutrino : List ℚ := [134.98, 139.57, 547.86, 775.11, 782.65, 957.78, 1019.46]

/-- The meson masses of `grid_resolution_meson` (kinematics.py 205), in MeV. -/
def mesonsMeson : List ℚ :=
  [134.98, 139.57, 493.677, 497.611, 547.86, 775.11, 782.65, 957.78, 1019.46]

/-- `store_energy` (kinematics.py 347–349): new value of `HNL_ENERGY`, if it is written.  The decimal
round trip through the environment string is not modelled. -/
noncomputable def storeEnergy (isHNL : Bool) (maxMom confMass : ℝ) (old : Option ℝ) : Option ℝ :=
  if isHNL then some (√((maxMom / 10) ^ 2 + confMass ^ 2)) else old

end PyBBN
