import Verif.Model.Selection
import Verif.Model.Kinematics
import Verif.Model.Integration
import Verif.Model.Params
import Verif.Model.Particle
import Mathlib.Analysis.SpecialFunctions.Integrals.Basic
/-!
# From a collision integral to the arrays added up by a particle

interactions/three_particle/__init__.py 56–140, interactions/four_particle/__init__.py 105–205 (the
conversion of the species and the constants), common/kinematics.py 17–20 and 281–323 (which integrals
are skipped), particles/__init__.py 303–322 (what is done with the results).

The adaptive quadrature is a parameter of `integration3`/`integration4`; `exactQuad3` is the exact
integral, used in statements about converged quadratures.
-/
namespace PyBBN

variable {ι : Type*}

/-- `particle_t` / `particle_t3` built by `integrate` (three_particle/__init__.py 70–85,
four_particle/__init__.py 127–143): masses, grid and temperature in units of `params.aT`.
`particle.aT`, `_distribution` and `in_equilibrium` are those of the species itself. -/
noncomputable def toC (sp : Species) (s : PState ι) (p : Params) : CParticle where
  eta := sp.eta
  m := sp.mass * p.a / p.aT
  grid := sp.grid.map (· / p.aT)
  dist := s.dist
  inEq := inEq sp s
  T := s.aT / p.aT

/-- Degrees of freedom dividing the constants (three_particle/__init__.py 99–102,
four_particle/__init__.py 150–153). -/
noncomputable def dofFactor (majorana : Bool) (dof : ℝ) : ℝ := if majorana then dof else dof / 2

/-- The array `constant` of the three-particle integral (three_particle/__init__.py 88–107) for `n` momenta:
a special value for the first one.  (`numpy.repeat` with `n = 0` raises; not modelled, grids are not
empty.) -/
noncomputable def constants3 (K mass dof : ℝ) (majorana : Bool) (mult : ℝ) (p : Params) (n : ℕ) :
    List ℝ :=
  open Classical in
  let c0 := if mass = 0 then 0 else K * p.aT / p.a / 8 / Real.pi / p.H / mass ^ 2
  let c1 := K * p.a / p.aT / 32 / Real.pi / p.H
  (c0 :: List.replicate (n - 1) c1).map fun c =>
    let c := c / dofFactor majorana dof * mult
    if p.log then c else c / p.x

/-- The scalar `constant` of the four-particle integral (four_particle/__init__.py 147–158); `GF` is
`CONST.G_F`. -/
noncomputable def constant4 (GF dof : ℝ) (majorana : Bool) (mult : ℝ) (p : Params) : ℝ :=
  let c := 32 * GF ^ 2 * (p.aT / p.a) ^ 5 / 64 / Real.pi ^ 3 / p.H
  let c := c / dofFactor majorana dof * mult
  if p.log then c else c / p.x

/-- `M_t` built from a matrix element (four_particle/__init__.py 162–163). -/
noncomputable def toCM (GF : ℝ) (M : CM) : CM :=
  { order := M.order, K1 := M.K1 / (32 * GF ^ 2), K2 := M.K2 / (32 * GF ^ 2), K := M.K / (32 * GF ^ 2) }

/-- `Neglect3pInteraction` (kinematics.py 280–293). `massless0`: `reaction[0].specie.mass == 0`,
`side1 = reaction[1].side`, `sum`: sum of the sides, `lastDecayed`: `reaction[-1].specie.decayed`,
`lastIdle`/`firstIdle`: the last/first species has `fast_decay` and `num_creation == 0`, `fast`: the
particle itself has `fast_decay`. -/
def neglect3 (massless0 : Bool) (side1 sum : ℤ) (lastDecayed lastIdle firstIdle : Bool)
    (kind : CKind) (fast : Bool) : Bool :=
  if massless0 && decide (side1 = 1) then true
  else if pyCreation sum && lastDecayed &&
      (decide (kind = .full) || decide (kind = .fullVac) || fast) then true
  else if ((pyCreation sum && lastIdle) || (pyDecay sum && firstIdle)) &&
      (decide (kind = .full) || decide (kind = .fullVac) || fast) then true
  else false

/-- `Neglect4pInteraction` (kinematics.py 295–323).  `diluted i`: density of species `i` over its first
recorded density is below the threshold; `hnl`: some species is the heavy neutral lepton, `isHNL`: the
particle is; `relDec`: `environment.get('Relativistic_decoupling')`; `MeV` the unit. -/
noncomputable def neglect4 (sum : ℤ) (lastDecayed : Bool) (diluted : Fin 4 → Bool)
    (lastIdle firstIdle hnl isHNL relDec : Bool) (mass MeV : ℝ) (p : Params) : Bool :=
  open Classical in
  if pyCreation sum && lastDecayed then true
  else if pyScattering sum && (diluted 0 || diluted 1) && (diluted 2 || diluted 3) then true
  else if (pyCreation sum && lastIdle) || (pyDecay sum && firstIdle) then true
  else if pyScattering sum && hnl &&
      ((relDec && decide (p.T < p.m / p.aIni / 15)) || decide (p.T < 1 * MeV)) then true
  else if pyDecay sum && isHNL && decide (p.T > mass) then true
  else false

/-- The numbers of `CollisionIntegralKind` (four_particle/cpp/integral.h 28–37). -/
def CKind.toInt : CKind → ℤ
  | .full => 0 | .f1 => 1 | .ff => 2 | .fullVac => 3 | .f1Vac => 4 | .ffVac => 5
  | .fCreation => 6 | .fDecay => 7

/-- The exact integral of the integrand between the limits (the converged value of
`gsl_integration_qag`, three_particle/cpp/integral.cpp 525–548).  An exception inside the integrand
counts as 0 here; the theorems assume that there is none. -/
noncomputable def exactQuad3 (r : Fin 3 → Reactant) (kind : ℤ) (p0 lo hi : ℝ) : Except Err ℝ :=
  .ok (∫ p1 in lo..hi, match integrandFull3 p0 p1 kind r with | .ok v => v | .error _ => 0)

/-- `get_reaction_type` and the masses read by the limits, with `max_2`. -/
def loopCtx3 (r : Fin 3 → Reactant) (max2 : ℝ) : LoopCtx3 :=
  ⟨reactionTypeSum [r 0, r 1, r 2], (r 0).specie.m, (r 1).specie.m, (r 2).specie.m, max2⟩

/-- `integration_3` (three_particle/cpp/integral.cpp 477–555) with exact quadrature, the value at rest of
491–494, and an exception of any iteration passed on. -/
noncomputable def integration3Exact (r : Fin 3 → Reactant) (kind : ℤ) (ps : List ℝ)
    (min1 max1 max2 : ℝ) (sched : List (List ℕ)) : Except Err (List ℝ) :=
  (integration3 (loopCtx3 r max2) (exactQuad3 r kind)
    (integrandFull3 0 (p1Bounds1 (r 0).specie.m (r 1).specie.m (r 2).specie.m) kind r)
    ps min1 max1 sched).mapM id

/-- Everything `ThreeParticleIntegral.integrate` reads: the particles of the reaction with their states,
the sum of the matrix elements, attributes of the first particle, limits of the grids, and the
quantities of `kinematics` treated elsewhere. -/
structure Int3 (ι : Type*) where
  sp : Fin 3 → Species
  st : Fin 3 → PState ι
  side : Fin 3 → ℤ
  /-- `sum(M.K for M in self.Ms)` -/
  K : ℝ
  majorana : Bool
  /-- `CollisionMultiplier3p` -/
  mult : ℝ
  kind : CKind
  /-- `Neglect3pInteraction` -/
  neglect : Bool
  /-- limits `MIN/MAX_MOMENTUM` of `self.grids` and `MAX_MOMENTUM` of the third grid -/
  min1 : ℝ
  max1 : ℝ
  max2 : ℝ
  /-- lower and upper bound of `three_particle_bounds_creation` -/
  lb : ℝ
  ub : ℝ
  creationFast : Bool
  br : Option ℝ
  num : ℝ
  /-- `simps(· * dof * TEMPLATE**2, TEMPLATE)`, applied to `fullstack * constant` -/
  total : List ℝ → ℝ

/-- The `creaction` of an integral. -/
noncomputable def Int3.reaction (c : Int3 ι) (p : Params) (i : Fin 3) : Reactant :=
  ⟨toC (c.sp i) (c.st i) p, c.side i⟩

/-- `grid_cutoff_3p` (kinematics.py 146–155). -/
noncomputable def cutoff3 (sum : ℤ) (ps grid : List ℝ) (lb ub aT : ℝ) : Option Slices :=
  if pyCreation sum then gridCutoff3 grid lb ub aT else some ⟨[], ps, []⟩

/-- `ThreeParticleIntegral.integrate` (three_particle/__init__.py 56–140) with exact quadrature, on the
grid of the particle. -/
noncomputable def integrate3 (c : Int3 ι) (p : Params) (sched : List (List ℕ)) : Except Err IntOut :=
  let fast := (c.sp 0).fastDecay
  let ps := (c.sp 0).grid
  if c.neglect then .ok (returnFunction c.kind fast ps.length)
  else
    let r := c.reaction p
    let const := constants3 c.K (c.sp 0).mass (c.sp 0).dof c.majorana c.mult p ps.length
    let loop (k : CKind) (qs : List ℝ) :=
      integration3Exact r k.toInt qs (c.min1 / p.aT) (c.max1 / p.aT) (c.max2 / p.aT) sched
    match cutoff3 (c.side 0 + c.side 1 + c.side 2) (ps.map (· / p.aT)) ps c.lb c.ub p.aT with
    | none => .ok (returnFunction c.kind fast ps.length)
    | some s =>
      if (c.kind = .full ∨ c.kind = .fullVac) ∧ ¬ fast = true then
        match loop .full s.points, loop .ff s.points with
        | .ok C, .ok B => .ok (.two (mulArr (s.zeros1 ++ C ++ s.zeros3) const)
            (mulArr (s.zeros1 ++ B ++ s.zeros3) const))
        | .error e, _ => .error e
        | _, .error e => .error e
      else
        match loop c.kind s.points with
        | .error e => .error e
        | .ok full => integrateTail3 c.kind fast c.creationFast c.br c.num
            (fun l => c.total (mulArr l const)) const (c.st 0).dist
            (s.zeros1 ++ full ++ s.zeros3)

/-- `integrand_1st_integration` and the value of the outer quadrature of `integration`
(four_particle/cpp/integral.cpp 542–602, 657–690) with both adaptive quadratures replaced by exact
integrals.  An exception inside the integrand counts as 0 here. -/
noncomputable def exactQuad4 (r : Fin 4 → Reactant) (Ms : List CM) (kind : ℤ) (max3 : ℝ)
    (dflt : ℝ × ℝ) (p0 lo hi : ℝ) : Except Err ℝ :=
  .ok (∫ p1 in lo..hi,
    match innerLimits (reactionTypeSum [r 0, r 1, r 2, r 3]) (r 0).specie.m (r 1).specie.m
      (r 2).specie.m (r 3).specie.m max3 p0 p1 dflt with
    | none => 0
    | some (a, b) => ∫ p2 in a..b,
        match integrandFull4 p0 p1 p2 r Ms kind with | .ok v => v | .error _ => 0)

/-- `get_reaction_type` and the masses read by the limits, with `max_3`. -/
def loopCtx4 (r : Fin 4 → Reactant) (max3 : ℝ) : LoopCtx :=
  ⟨reactionTypeSum [r 0, r 1, r 2, r 3], (r 0).specie.m, (r 1).specie.m, (r 2).specie.m,
    (r 3).specie.m, max3⟩

/-- `integration` (four_particle/cpp/integral.cpp 604–698) with exact quadrature. -/
noncomputable def integration4Exact (r : Fin 4 → Reactant) (Ms : List CM) (kind : ℤ) (ps : List ℝ)
    (min1 max1 min2 max2 max3 : ℝ) (sched : List (List ℕ)) : Except Err (List ℝ) :=
  (integration4 (loopCtx4 r max3) (exactQuad4 r Ms kind max3 (min2, max2)) ps min1 max1 sched).mapM id

/-- Everything `FourParticleIntegral.integrate` reads. -/
structure Int4 (ι : Type*) where
  sp : Fin 4 → Species
  st : Fin 4 → PState ι
  side : Fin 4 → ℤ
  /-- `self.Ms` -/
  Ms : List CM
  /-- `CONST.G_F` -/
  GF : ℝ
  majorana : Bool
  /-- `CollisionMultiplier4p` -/
  mult : ℝ
  kind : CKind
  /-- `Neglect4pInteraction` -/
  neglect : Bool
  /-- limits `MIN/MAX_MOMENTUM` of `self.grids` and `MAX_MOMENTUM` of the fourth grid -/
  min1 : ℝ
  max1 : ℝ
  min2 : ℝ
  max2 : ℝ
  max3 : ℝ
  /-- upper bound of the grid cut (kinematics.py 78–126) -/
  ub : ℝ
  creationFast : Bool
  br : Option ℝ
  num : ℝ
  /-- `simps(· * dof * TEMPLATE**2, TEMPLATE)`, applied to `fullstack * constant` -/
  total : List ℝ → ℝ

/-- The `creaction` built by `integrate` when there is none (four_particle/__init__.py 127–143). -/
noncomputable def Int4.reaction (c : Int4 ι) (p : Params) (i : Fin 4) : Reactant :=
  ⟨toC (c.sp i) (c.st i) p, c.side i⟩

/-- `FourParticleIntegral.integrate` (four_particle/__init__.py 105–205) with exact quadrature, on the grid
of the particle, right after `initialize` (no cached `creaction`), for grids not finer than
`FOUR_PARTICLE_GRID_RESOLUTION` (`interpolation_4p` then leaves the momenta alone, kinematics.py
351–352).  The momenta of the returned arrays are those left by the grid cut, `/ params.aT`
(kinematics.py 88, 106, 126). -/
noncomputable def integrate4 (c : Int4 ι) (p : Params) (sched : List (List ℕ)) : Except Err IntOut :=
  let fast := (c.sp 0).fastDecay
  let n := (c.sp 0).grid.length
  if c.neglect then .ok (returnFunction c.kind fast n)
  else
    let r := c.reaction p
    let cMs := c.Ms.map (toCM c.GF)
    let const := constant4 c.GF (c.sp 0).dof c.majorana c.mult p
    let pts := (gridCut4 (c.sp 0).grid c.ub).1
    let zeros := (gridCut4 (c.sp 0).grid c.ub).2
    let ps := pts.map (· / p.aT)
    let loop (k : CKind) := integration4Exact r cMs k.toInt ps (c.min1 / p.aT) (c.max1 / p.aT)
      (c.min2 / p.aT) (c.max2 / p.aT) (c.max3 / p.aT) sched
    if (c.kind = .full ∨ c.kind = .fullVac) ∧ ¬ fast = true then do
      let A ← loop .f1
      let B ← loop .ff
      let f ← ps.mapM fun x => particleDistribution (c.sp 0) p (c.st 0) (x * p.aT)
      let C := List.zipWith (· + ·) A (List.zipWith (· * ·) f B)
      .ok (.two ((C ++ zeros).map (· * const)) ((B ++ zeros).map (· * const)))
    else do
      let full ← loop c.kind
      integrateTail4 c.kind fast c.creationFast c.br c.num (fun l => c.total (l.map (· * const)))
        (List.replicate (full ++ zeros).length const) (c.st 0).dist (full ++ zeros)

/-- Elementwise sum of arrays, `sum(list_of_arrays)`; the empty sum is the number 0, written as the zero
array. -/
noncomputable def sumArr (n : ℕ) (l : List (List ℝ)) : List ℝ :=
  l.foldl (fun acc x => List.zipWith (· + ·) acc x) (List.replicate n 0)

/-- The loop of `calculate_collision_integral` (particles/__init__.py 303–322) over pairs of kind and
result of `integrate`: the lists `ABs` and `Bs`.  Unpacking a single array of other than two rows, or
adding a pair to arrays, raises `ValueError`. -/
def collect : List (CKind × IntOut) → Except Err (List (List ℝ) × List (List ℝ))
  | [] => .ok ([], [])
  | (k, out) :: rest => match collect rest with
    | .error e => .error e
    | .ok (ab, b) => match k, out with
      | .full, .two C B => .ok (C :: ab, B :: b)
      | .fullVac, .two C B => .ok (C :: ab, B :: b)
      | .ffVac, .one G => .ok (G :: ab, G :: b)
      | .fDecay, .one G => .ok (G :: ab, G :: b)
      | .f1, .one G => .ok (G :: ab, b)
      | .ff, .one G => .ok (G :: ab, b)
      | .f1Vac, .one G => .ok (G :: ab, b)
      | .fCreation, .one G => .ok (G :: ab, b)
      | _, _ => .error .valueError

end PyBBN
