import Verif.Model.Interpolation
import Verif.Model.DFunctions
import Mathlib.Data.Fin.VecNotation
/-!
# Collision integrands

interactions/four_particle/cpp/integral.cpp 119–348 and interactions/three_particle/cpp/integral.cpp
119–374.  Doubles are reals.  The statistics functionals of the two files differ only in the number
of particles; they are written once for a list of reactants (length 4 or 3).
-/
namespace PyBBN

/-- `particle_t` / `particle_t3` (integral.h 48–56 / 37–45). -/
structure CParticle where
  eta : ℤ
  m : ℝ
  grid : List ℝ
  dist : List ℝ
  inEq : Bool
  T : ℝ

/-- `reaction_t` / `reaction_t3`. -/
structure Reactant where
  specie : CParticle
  side : ℤ

/-- `M_t` (integral.h 40–47). -/
structure CM where
  order : Fin 4 → Fin 4
  K1 : ℝ
  K2 : ℝ
  K : ℝ

open Classical in
/-- The loop shared by `F_A` and `F_B` (integral.cpp 141–152, 168–179; three-particle 145–156,
175–186): `side` is the side whose particles contribute `f`. -/
noncomputable def fLoop (side skip : ℤ) : ℕ → List (Reactant × ℝ) → ℝ → Except Err ℝ
  | _, [], temp => .ok temp
  | i, (r, f) :: rest, temp =>
    if (i : ℤ) ≠ skip then
      if f < 0 then .error .runtimeError
      else if r.side = side then fLoop side skip (i + 1) rest (temp * f)
      else fLoop side skip (i + 1) rest (temp * (1 - r.specie.eta * f))
    else fLoop side skip (i + 1) rest temp

/-- `F_A` (integral.cpp 130–155; three-particle 132–159). -/
noncomputable def F_A (r : List Reactant) (f : List ℝ) (skip : ℤ) : Except Err ℝ :=
  fLoop (-1) skip 0 (r.zip f) (-1)

/-- `F_B` (integral.cpp 157–182; three-particle 162–189). -/
noncomputable def F_B (r : List Reactant) (f : List ℝ) (skip : ℤ) : Except Err ℝ :=
  fLoop 1 skip 0 (r.zip f) 1

/-- `F_f` (199–202). -/
noncomputable def F_f (r : List Reactant) (f : List ℝ) : Except Err ℝ := do
  match r[0]? with
  | none => .error .indexError
  | some r0 => .ok ((← F_A r f 0) - r0.specie.eta * (← F_B r f 0))

/-- `F_1` (204–207). -/
noncomputable def F_1 (r : List Reactant) (f : List ℝ) : Except Err ℝ := F_B r f 0

/-- `F_decay` (209–212). -/
noncomputable def F_decay (r : List Reactant) (f : List ℝ) : Except Err ℝ := F_A r f 0

/-- `F_creation` (214–217). -/
noncomputable def F_creation (r : List Reactant) (f : List ℝ) : Except Err ℝ := F_B r f (-1)

/-- `CollisionIntegralKind` (integral.h 28–37). -/
inductive Kind
  | full | f1 | ff | fullVacuum | f1Vacuum | ffVacuum | creation | decay
  deriving DecidableEq

/-- `CollisionIntegralKind(kind)` followed by the `switch` (integral.cpp 326–347): unknown values
take the default branch. -/
def Kind.ofInt (k : ℤ) : Kind :=
  if k = 1 then .f1 else if k = 2 then .ff else if k = 3 then .fullVacuum
  else if k = 4 then .f1Vacuum else if k = 5 then .ffVacuum else if k = 6 then .creation
  else if k = 7 then .decay else .full

/-- The statistics factor selected by the `switch` (integral.cpp 328–347; three-particle 354–373).
`F_1_vacuum_decay` is the last occupation (`f[3]`, `f[2]`), `F_f_vacuum_decay` is `-1`. -/
noncomputable def kindFactor (k : Kind) (r : List Reactant) (f : List ℝ) : Except Err ℝ :=
  match f[0]?, f.getLast? with
  | some f0, some fl =>
    match k with
    | .creation => F_creation r f
    | .decay => F_decay r f
    | .f1Vacuum => .ok fl
    | .ffVacuum => .ok (-1)
    | .fullVacuum => .ok (fl + f0 * (-1))
    | .f1 => F_1 r f
    | .ff => F_f r f
    | .full => do .ok ((← F_1 r f) + f0 * (← F_f r f))
  | _, _ => .error .indexError

/-- `distribution_interpolation(specie, p)` (integral.cpp 110–117). -/
noncomputable def occAt (s : CParticle) (p : ℝ) : Except Err ℝ :=
  distributionInterpolation s.grid s.dist p s.m s.eta s.T s.inEq

/-- Four-particle `in_bounds` (230–246). -/
noncomputable def inBounds4 (p E m : Fin 4 → ℝ) : Prop :=
  E 3 ≥ m 3 ∧ ordMax (p 0) (p 1) ≤ ordMin (p 0) (p 1) + ordMax (p 2) (p 3) + ordMin (p 2) (p 3) ∧
    ordMax (p 2) (p 3) ≤ ordMax (p 0) (p 1) + ordMin (p 0) (p 1) + ordMin (p 2) (p 3)

/-- Fourth energy (integral.cpp 272–280): `E[3] = -side₃ Σ_{j<3} side_j E_j`. -/
noncomputable def lastEnergy4 (r : Fin 4 → Reactant) (p0 p1 p2 : ℝ) : ℝ :=
  (0 + (r 0).side * energy p0 (r 0).specie.m + (r 1).side * energy p1 (r 1).specie.m
    + (r 2).side * energy p2 (r 2).specie.m) * (-((r 3).side : ℝ))

/-- Momenta after 282 (`E[3] ≥ m[3]`). -/
noncomputable def momenta4 (r : Fin 4 → Reactant) (p0 p1 p2 : ℝ) : Fin 4 → ℝ :=
  ![p0, p1, p2, √(lastEnergy4 r p0 p1 p2 ^ 2 - (r 3).specie.m ^ 2)]

/-- Energies after 280. -/
noncomputable def energies4 (r : Fin 4 → Reactant) (p0 p1 p2 : ℝ) : Fin 4 → ℝ :=
  ![energy p0 (r 0).specie.m, energy p1 (r 1).specie.m, energy p2 (r 2).specie.m,
    lastEnergy4 r p0 p1 p2]

/-- The Jacobian factor of 286–293. -/
noncomputable def jacobian4 (r : Fin 4 → Reactant) (p E : Fin 4 → ℝ) : ℝ :=
  open Classical in
  1 * (if (r 1).specie.m ≠ 0 then p 1 / E 1 else 1) * (if (r 2).specie.m ≠ 0 then p 2 / E 2 else 1)

/-- The squared matrix element factor `ds` of 297–315. -/
noncomputable def kernel4 (r : Fin 4 → Reactant) (Ms : List CM) (p E : Fin 4 → ℝ) : Except Err ℝ :=
  open Classical in
  match Ms with
  | [] => .error .indexError
  | M0 :: _ =>
    let m : Fin 4 → ℝ := fun i => (r i).specie.m
    let sides : Fin 4 → ℤ := fun i => (r i).side
    if M0.K ≠ 0 then .ok M0.K
    else if p 0 ≠ 0 then
      .ok ((Ms.map fun M => D p E m M.K1 M.K2 M.order sides).sum / (p 0 * E 0))
    else .ok ((Ms.map fun M => Db p E m M.K1 M.K2 M.order sides).sum)

/-- Four-particle `integrand_full` (249–348). -/
noncomputable def integrandFull4 (p0 p1 p2 : ℝ) (r : Fin 4 → Reactant) (Ms : List CM) (kind : ℤ) :
    Except Err ℝ :=
  open Classical in
  if lastEnergy4 r p0 p1 p2 < (r 3).specie.m then .ok 0
  else
    let p := momenta4 r p0 p1 p2
    let E := energies4 r p0 p1 p2
    if ¬ inBounds4 p E (fun i => (r i).specie.m) then .ok 0
    else if jacobian4 r p E = 0 then .ok 0
    else do
      let ds ← kernel4 r Ms p E
      if jacobian4 r p E * ds = 0 then .ok 0
      else do
        let f0 ← occAt (r 0).specie (p 0)
        let f1 ← occAt (r 1).specie (p 1)
        let f2 ← occAt (r 2).specie (p 2)
        let f3 ← occAt (r 3).specie (p 3)
        let F ← kindFactor (Kind.ofInt kind) [r 0, r 1, r 2, r 3] [f0, f1, f2, f3]
        .ok (jacobian4 r p E * ds * F)

/-- Three-particle `in_bounds` (three_particle integral.cpp 248–265); `std::sort` of three numbers in
descending order is written with `max`/`min`. -/
noncomputable def inBounds3 (p : Fin 3 → ℝ) : ℝ :=
  let q1 := max (p 0) (max (p 1) (p 2))
  let q3 := min (p 0) (min (p 1) (p 2))
  let q2 := max (min (p 0) (p 1)) (min (max (p 0) (p 1)) (p 2))
  sgn (q1 + q2 - q3) + sgn (q1 - q2 + q3) - sgn (q1 - q2 - q3) - sgn (q1 + q2 + q3)

/-- Third energy (three_particle integral.cpp 295–304, 318–327). -/
noncomputable def lastEnergy3 (r : Fin 3 → Reactant) (p0 p1 : ℝ) : ℝ :=
  (0 + (r 0).side * energy p0 (r 0).specie.m + (r 1).side * energy p1 (r 1).specie.m)
    * (-((r 2).side : ℝ))

/-- Momenta after 307 / 330. -/
noncomputable def momenta3 (r : Fin 3 → Reactant) (p0 p1 : ℝ) : Fin 3 → ℝ :=
  ![p0, p1, √(lastEnergy3 r p0 p1 ^ 2 - (r 2).specie.m ^ 2)]

/-- The factor `temp` (291–345); `.ok 0` stands for each of the early returns. -/
noncomputable def factor3 (r : Fin 3 → Reactant) (p0 p1 : ℝ) : ℝ :=
  open Classical in
  if lastEnergy3 r p0 p1 < (r 2).specie.m then 0
  else if p0 = 0 then 1 * p1
  else
    1 * inBounds3 (momenta3 r p0 p1)
      * (if (r 1).specie.m ≠ 0 then p1 / energy p1 (r 1).specie.m else 1)
      / (p0 * energy p0 (r 0).specie.m)

/-- Three-particle `integrand_full` (268–374). -/
noncomputable def integrandFull3 (p0 p1 : ℝ) (kind : ℤ) (r : Fin 3 → Reactant) : Except Err ℝ :=
  open Classical in
  if factor3 r p0 p1 = 0 then .ok 0
  else do
    let p := momenta3 r p0 p1
    let f0 ← occAt (r 0).specie (p 0)
    let f1 ← occAt (r 1).specie (p 1)
    let f2 ← occAt (r 2).specie (p 2)
    let F ← kindFactor (Kind.ofInt kind) [r 0, r 1, r 2] [f0, f1, f2]
    .ok (factor3 r p0 p1 * F)

end PyBBN
