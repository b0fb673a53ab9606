import Verif.Model.Assembly
/-!
# Skipping a reaction, and the environment variable HNL_ENERGY

common/kinematics.py 280–323 applied to a reaction `lhs ⟷ rhs` (the particle whose integral it is comes first, see
interactions/__init__.py 180–200), and the order of `store_energy` and the grid cut in
four_particle/__init__.py 165–167.
-/
namespace PyBBN

/-- What the tests for negligible reactions read from a species: `decayed`; density over initial density below the
threshold (kinematics.py 302–307); `fast_decay` with `num_creation == 0`; has `fast_decay`; the name
`'Sterile neutrino (Dirac)'`; the mass. -/
structure SkipInfo where
  decayed : Bool
  diluted : Bool
  idle : Bool
  fast : Bool
  isHNL : Bool
  mass : ℝ

/-- Sum of the sides. -/
def sideSum {α : Type*} (lhs rhs : List α) : ℤ := (rhs.length : ℤ) - lhs.length

/-- `Neglect4pInteraction` (kinematics.py 296–323) for the integral of the first particle of `lhs`. -/
noncomputable def skip4 (lhs rhs : List SkipInfo) (relDec : Bool) (MeV : ℝ) (p : Params) : Except Err Bool :=
  match lhs ++ rhs with
  | [a, b, c, d] => .ok (neglect4 (sideSum lhs rhs) d.decayed ![a.diluted, b.diluted, c.diluted, d.diluted] d.idle a.idle
      (a.isHNL || b.isHNL || c.isHNL || d.isHNL) a.isHNL relDec a.mass MeV p)
  | _ => .error .indexError

/-- `Neglect3pInteraction` (kinematics.py 281–294). -/
noncomputable def skip3 (lhs rhs : List SkipInfo) (kind : CKind) : Except Err Bool :=
  open Classical in
  match lhs ++ rhs with
  | [a, _, c] => .ok (neglect3 (decide (a.mass = 0)) (if lhs.length ≤ 1 then 1 else -1) (sideSum lhs rhs) c.decayed c.idle
      a.idle kind a.fast)
  | _ => .error .indexError

/-- One call of `FourParticleIntegral.integrate` that is not skipped, as far as the cut of the grid is concerned. -/
structure CutCall where
  isHNL : Bool
  decay : Bool
  maxMom : ℝ
  confMass : ℝ

/-- `store_energy` followed by `grid_cutoff_4p` (four_particle/__init__.py 165–167, kinematics.py 89–143) for a scattering or a
decay: the new value of `HNL_ENERGY` and the upper bound. -/
noncomputable def cutCall (dflt : ℝ) (c : CutCall) (env : Option ℝ) : Option ℝ × Option ℝ :=
  let env' := storeEnergy c.isHNL c.maxMom c.confMass env
  (env', if c.decay then decayMaxMom c.isHNL env' c.maxMom c.confMass dflt
    else scatteringMaxMom c.isHNL env' c.maxMom c.confMass dflt)

/-- A sequence of such calls in one process: the final variable and the bounds. -/
noncomputable def cutRun (dflt : ℝ) : List CutCall → Option ℝ → Option ℝ × List (Option ℝ)
  | [], env => (env, [])
  | c :: cs, env =>
    let r := cutCall dflt c env
    let rest := cutRun dflt cs r.1
    (rest.1, r.2 :: rest.2)

end PyBBN
