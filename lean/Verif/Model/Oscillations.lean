import Verif.Model.Params
import Mathlib.Analysis.SpecialFunctions.Trigonometric.Arctan
/-!
# Neutrino flavour oscillations: library/SM.py 349–378, evolution.py 81–94 and 239–255
-/
namespace PyBBN

inductive Flavour
  | electron | muon | tau
  deriving DecidableEq

/-- The table `oscillations` (SM.py 361–377) for given mixing angles.  Entries are numbers; the code
uses arrays over the momentum grid when matter effects are on, which is this table at every grid
point. -/
noncomputable def oscillationTable (θ12 θ13 : ℝ) : Flavour → Flavour → ℝ
  | .electron, .electron =>
    1 - 0.5 * (Real.sin (2 * θ13) ^ 2 + Real.cos θ13 ^ 4 * Real.sin (2 * θ12) ^ 2)
  | .electron, .muon => 0.5 * Real.cos θ13 ^ 2 * Real.sin (2 * θ12) ^ 2
  | .electron, .tau =>
    Real.sin θ13 ^ 2 * Real.cos θ13 ^ 2 * (2 - 0.5 * Real.sin (2 * θ12) ^ 2)
  | .muon, .muon => 1 - 0.5 * Real.sin (2 * θ12) ^ 2
  | .muon, .tau => 0.5 * Real.sin θ13 ^ 2 * Real.sin (2 * θ12) ^ 2
  | .tau, .tau =>
    1 - Real.sin θ13 ^ 2 * (2 * Real.cos θ13 ^ 2 +
      0.5 * Real.sin θ13 ^ 2 * Real.sin (2 * θ12) ^ 2)
  | .muon, .electron => 0.5 * Real.cos θ13 ^ 2 * Real.sin (2 * θ12) ^ 2
  | .tau, .electron =>
    Real.sin θ13 ^ 2 * Real.cos θ13 ^ 2 * (2 - 0.5 * Real.sin (2 * θ12) ^ 2)
  | .tau, .muon => 0.5 * Real.sin θ13 ^ 2 * Real.sin (2 * θ12) ^ 2

/-- `oscillations_map(MSW_12, MSW_13, matter_effects)` (349–378) at one momentum.  A vanishing
denominator gives an infinity and the angle π/4 in numpy; here it gives the angle 0 (theorems below
hold for any angle). -/
noncomputable def oscillationsMap (msw12 msw13 : ℝ) (matter : Bool) : Flavour → Flavour → ℝ :=
  let θ12 : ℝ := 0.57636
  let θ13 : ℝ := 0.14715
  if matter then
    oscillationTable
      (0.5 * Real.arctan (Real.sin (2 * θ12) / (Real.cos (2 * θ12) + msw12)))
      (0.5 * Real.arctan (Real.sin (2 * θ13) / (Real.cos (2 * θ13) + msw13)))
  else oscillationTable θ12 θ13

/-- Constants entering `oscillation_parameters`: `CONST.MSW_constant`, `CONST.delta_m12_sq`,
`CONST.delta_m13_sq` (common/__init__.py 41–78). -/
structure OscConsts where
  msw : ℝ
  dm12 : ℝ
  dm13 : ℝ

/-- `oscillation_parameters` (evolution.py 81–94) at the momentum `y`: the table used in the step. -/
noncomputable def oscillationParameters (c : OscConsts) (matter normal : Bool) (p : Params) (y : ℝ) :
    Flavour → Flavour → ℝ :=
  if matter then
    let m12 := c.msw * y ^ 2 * p.T ^ 4 / c.dm12 / p.a ^ 2
    let m13 := c.msw * y ^ 2 * p.T ^ 4 / c.dm13 / p.a ^ 2
    let m13 := if normal then m13 else m13 * (-1)
    oscillationsMap m12 m13 true
  else oscillationsMap 0 0 false

/-- One oscillating species: flavour, decoupling temperature and collision integral as a function of
the grid index. -/
structure Osc where
  flavour : Flavour
  Tdec : ℝ
  coll : ℕ → ℝ

/-- The dictionary `{A.flavour: A.collision_integral for A in particles}` (evolution.py 248): for
repeated flavours the last entry wins. -/
def collOf (l : List Osc) (f : Flavour) : Option (ℕ → ℝ) :=
  ((l.filter fun o => o.flavour = f).getLast?).map (·.coll)

open Classical in
/-- Lines 242–252 of evolution.py: mixing of the collision integrals. `pattern k` is the table at
grid index `k`. The dictionary lookup cannot fail. -/
noncomputable def mixCollisions (pattern : ℕ → Flavour → Flavour → ℝ) (T : ℝ) (l : List Osc) :
    List Osc :=
  if ∃ o ∈ l, T < o.Tdec then
    l.map fun A =>
      { A with coll := fun k =>
          (l.map fun B => pattern k A.flavour B.flavour *
            ((collOf l B.flavour).getD fun _ => 0) k).sum }
  else l

end PyBBN
