import Verif.Model.Particle
import Mathlib.Analysis.Real.Pi.Bounds
import Mathlib.Analysis.SpecialFunctions.Pow.Real
import Mathlib.Algebra.BigOperators.Group.Finset.Basic
/-!
# Thermodynamic quantities and temperature equation terms

particles/RadiationParticle.py, particles/DustParticle.py, particles/IntermediateParticle.py,
particles/NonEqParticle.py and `Universe.calculate_temperature_terms`.

`T`, `aT` are the particle's own attributes, `p` the shared parameters.  `rule` is the Gauss–Legendre
rule behind `integrate_1D` (fixed order mode).  `scipy.integrate.simps(vals, grid)` is a linear functional
of `vals` with weights depending on the grid only; the weights are a parameter `w`.  Arrays over the grid
are functions of the index, `n` is `MOMENTUM_SAMPLES`.
-/
namespace PyBBN

open Finset

/-- `energy` (particles/__init__.py 148–159). -/
noncomputable def physEnergy (sp : Species) (p : ℝ) : ℝ :=
  open Classical in if sp.mass > 0 then √(p ^ 2 + sp.mass ^ 2) else |p|

/-! ## RadiationParticle.py -/

/-- `density` (13–24). -/
noncomputable def radDensity (sp : Species) (T : ℝ) : ℝ :=
  let density := T ^ 3 * sp.dof / Real.pi ^ 2 * 1.2
  if sp.fermion then density * (3 / 4) else density

/-- `energy_density` (27–39). -/
noncomputable def radEnergyDensity (sp : Species) (T : ℝ) : ℝ :=
  let density := sp.dof * Real.pi ^ 2 / 30 * T ^ 4
  if sp.fermion then density * (7 / 8) else density

/-- `pressure` (42–49). -/
noncomputable def radPressure (sp : Species) (T : ℝ) : ℝ := 1 * radEnergyDensity sp T / 3

/-- `entropy` (52–60). -/
noncomputable def radEntropy (sp : Species) (T : ℝ) (p : Params) : ℝ :=
  4 / 3 * radEnergyDensity sp T / p.T

/-- `denominator` (70–79); `numerator` (65–67) is 0. -/
noncomputable def radDenominator (sp : Species) (aT : ℝ) : ℝ :=
  let density := 2 * Real.pi ^ 2 / 15 * sp.dof * aT ^ 3
  if sp.fermion then density * (7 / 8) else density

/-! ## DustParticle.py -/

/-- `density` (11–21). -/
noncomputable def dustDensity (sp : Species) (T : ℝ) : ℝ :=
  sp.dof * √(sp.mass * T / 2 / Real.pi) ^ 3 * Real.exp (-sp.mass / T)

/-- `energy_density` (24–30). -/
noncomputable def dustEnergyDensity (sp : Species) (T : ℝ) : ℝ :=
  (sp.mass + 3 / 2 * T) * dustDensity sp T

/-- `pressure` (33–39). -/
noncomputable def dustPressure (sp : Species) (T : ℝ) : ℝ := dustDensity sp T * T

/-- `entropy` (42–50). -/
noncomputable def dustEntropy (sp : Species) (T : ℝ) (p : Params) : ℝ :=
  (5 / 2 + sp.mass / p.T) * dustDensity sp T

/-! ## IntermediateParticle.py -/

/-- `density` (16–29). -/
noncomputable def intDensity (rule : Rule) (sp : Species) (T : ℝ) : ℝ :=
  gaussian rule (fun p => sp.stat (physEnergy sp p / T) * p ^ 2 * sp.dof / 2 / Real.pi ^ 2) 0 (20 * T)

/-- `energy_density` (34–56). -/
noncomputable def intEnergyDensity (rule : Rule) (sp : Species) (T : ℝ) : ℝ :=
  gaussian rule (fun p => sp.stat (physEnergy sp p / T) * p ^ 2 * physEnergy sp p
    * sp.dof / 2 / Real.pi ^ 2) 0 (20 * T)

/-- `pressure` (61–83). -/
noncomputable def intPressure (rule : Rule) (sp : Species) (T : ℝ) : ℝ :=
  gaussian rule (fun p => sp.stat (physEnergy sp p / T) * p ^ 4 / physEnergy sp p
    * sp.dof / 6 / Real.pi ^ 2) 0 (20 * T)

/-- `entropy` (86–94). -/
noncomputable def intEntropy (rule : Rule) (sp : Species) (T : ℝ) (p : Params) : ℝ :=
  (intEnergyDensity rule sp T + intPressure rule sp T) / p.T

/-- The Gauss–Laguerre branch of `Int` (119–130); `lag` holds nodes and weights of
`gauss_laguerre.integrate_1D` (gauss_laguerre.py 15–23); `((eps)(eps+2 mat))**((k-1)/2)` is a real power. -/
noncomputable def intLaguerre (lag : Rule) (sp : Species) (p : Params) (k : ℕ) : ℝ :=
  let aT := p.aT
  let mat := sp.mass * p.a / aT
  sp.dof / 2 / Real.pi ^ 2 * aT ^ (k + 1) * Real.exp (-mat) *
    (lag.map fun ew => ((ew.1 + mat) * (ew.1 * (ew.1 + 2 * mat)) ^ (((k : ℝ) - 1) / 2)
      / (Real.exp (-ew.1 - mat) + sp.eta) ^ 2) * ew.2).sum

/-- The Gauss–Legendre branch of `Int` (131–140). -/
noncomputable def intLegendre (rule : Rule) (sp : Species) (ymin ymax : ℝ) (p : Params) (k : ℕ) : ℝ :=
  sp.dof / 2 / Real.pi ^ 2 * gaussian rule (fun y =>
    y ^ k * Real.exp (conformalEnergy sp y (sp.mass * p.a) / p.aT)
      / (Real.exp (conformalEnergy sp y (sp.mass * p.a) / p.aT) + sp.eta) ^ 2) ymin ymax

/-- `numerator` (99–106), given `Int`. -/
noncomputable def intNumerator (sp : Species) (p : Params) (Int : ℕ → ℝ) : ℝ :=
  sp.mass ^ 2 * p.x / p.m ^ 2 / p.aT * Int 2

/-- `denominator` (109–115), given `Int`; `conformal_mass` is `mass * params.a`. -/
noncomputable def intDenominator (sp : Species) (p : Params) (Int : ℕ → ℝ) : ℝ :=
  (Int 4 + (sp.mass * p.a) ^ 2 * Int 2) / p.aT ^ 2

/-! ## NonEqParticle.py, SIMPSONS_NONEQ_PARTICLES (lines 133–216, the default) -/

/-- `simps(vals, TEMPLATE)`. -/
noncomputable def simps (n : ℕ) (w vals : ℕ → ℝ) : ℝ := ∑ k ∈ range n, w k * vals k

/-- A non-equilibrium species on its grid: number of points, quadrature weights, momenta. -/
structure NGrid where
  n : ℕ
  w : ℕ → ℝ
  y : ℕ → ℝ

/-- `density` (137–142); `f` is `particle.distribution(temp)`. -/
noncomputable def neqDensity (g : NGrid) (sp : Species) (p : Params) (f : ℕ → ℝ) : ℝ :=
  simps g.n g.w fun k => f k * g.y k ^ 2 * sp.dof / 2 / Real.pi ^ 2 / p.a ^ 3

/-- `energy_density` (145–157). -/
noncomputable def neqEnergyDensity (g : NGrid) (sp : Species) (p : Params) (f : ℕ → ℝ) : ℝ :=
  simps g.n g.w fun k => f k * g.y k ^ 2 * conformalEnergy sp (g.y k) (sp.mass * p.a)
    * sp.dof / 2 / Real.pi ^ 2 / p.a ^ 4

/-- `pressure` (160–177). -/
noncomputable def neqPressure (g : NGrid) (sp : Species) (p : Params) (f : ℕ → ℝ) : ℝ :=
  open Classical in
  if sp.mass = 0 then
    simps g.n g.w fun k => f k * g.y k ^ 3 * sp.dof / 6 / Real.pi ^ 2 / p.a ^ 4
  else
    simps g.n g.w fun k => f k * g.y k ^ 4 / conformalEnergy sp (g.y k) (sp.mass * p.a)
      * sp.dof / 6 / Real.pi ^ 2 / p.a ^ 4

/-- `entropy` (180–196). -/
noncomputable def neqEntropy (g : NGrid) (sp : Species) (p : Params) (f : ℕ → ℝ) : ℝ :=
  open Classical in
  simps g.n g.w fun k =>
    if f k > 0 then
      -sp.dof / 2 / Real.pi ^ 2 / p.a ^ 3 * g.y k ^ 2 *
        (f k * Real.log (f k) + sp.eta * (1 - sp.eta * f k) * Real.log (1 - sp.eta * f k))
    else 0

/-- `numerator` (199–205); `coll` is `particle.collision_integral`.  `denominator` (208–216) is 0. -/
noncomputable def neqNumerator (g : NGrid) (sp : Species) (p : Params) (coll : ℕ → ℝ) : ℝ :=
  simps g.n g.w fun k => -1 * sp.dof / 2 / Real.pi ^ 2 * g.y k ^ 2
    * conformalEnergy sp (g.y k) (sp.mass * p.a) * coll k / p.x

/-! ## evolution.py -/

/-- What `calculate_temperature_terms` needs of a particle: species, own `aT`, momentum bounds, regime,
and for non-equilibrium species the grid and the collision integral. -/
structure TPart where
  sp : Species
  aT : ℝ
  ymin : ℝ
  ymax : ℝ
  regime : Regime
  grid : NGrid
  coll : ℕ → ℝ

/-- `particle.numerator()` (`populate_methods`, particles/__init__.py 106–113), dispatched on the
regime; `Int sp ymin ymax p k` is either branch of `Int`. -/
noncomputable def TPart.numerator (Int : Species → ℝ → ℝ → Params → ℕ → ℝ) (p : Params) (t : TPart) : ℝ :=
  match t.regime with
  | .radiation => 0
  | .intermediate => intNumerator t.sp p (Int t.sp t.ymin t.ymax p)
  | .dust => intNumerator t.sp p (Int t.sp t.ymin t.ymax p)
  | .noneq => neqNumerator t.grid t.sp p t.coll

/-- `particle.denominator()`. -/
noncomputable def TPart.denominator (Int : Species → ℝ → ℝ → Params → ℕ → ℝ) (p : Params) (t : TPart) : ℝ :=
  match t.regime with
  | .radiation => radDenominator t.sp t.aT
  | .intermediate => intDenominator t.sp p (Int t.sp t.ymin t.ymax p)
  | .dust => intDenominator t.sp p (Int t.sp t.ymin t.ymax p)
  | .noneq => 0

/-- One iteration of the loop of `calculate_temperature_terms` (262–264). -/
noncomputable def addTerms (Int : Species → ℝ → ℝ → Params → ℕ → ℝ) (p : Params) (acc : ℝ × ℝ) (t : TPart) :
    ℝ × ℝ := (acc.1 + t.numerator Int p, acc.2 + t.denominator Int p)

/-- `calculate_temperature_terms` (256–266). -/
noncomputable def temperatureTerms (Int : Species → ℝ → ℝ → Params → ℕ → ℝ) (p : Params) (l : List TPart) :
    ℝ × ℝ := l.foldl (addTerms Int p) (0, 0)

/-- `fraction` (evolution.py 298–301). -/
noncomputable def temperatureSlope (Int : Species → ℝ → ℝ → Params → ℕ → ℝ) (p : Params) (l : List TPart) :
    ℝ :=
  let t := temperatureTerms Int p l
  if p.log then p.x * t.1 / t.2 else t.1 / t.2

end PyBBN
