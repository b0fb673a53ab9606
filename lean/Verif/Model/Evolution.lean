import Verif.Model.Params
import Verif.Model.Integrators
/-!
# The evolution loop: evolution.py (class Universe)

The particle physics (states of the particles, collision integrals, densities) is an arbitrary
parameter `Physics W`: theorems about the loop hold whatever the particles do.  The history table is a
list of rows (the refinement from the growing numpy array to the list is C01).  Logging, file export and
the KAWANO output are not modelled here.
-/
namespace PyBBN

/-- Everything the loop obtains from the particles, for an arbitrary type `W` of particle states.
Particles hold a reference to the parameters, so all three may depend on the current parameters. -/
structure Physics (W : Type*) where
  /-- evolution.py 287–296: steps 1–5 of `integrand`: updated particles, numerator, denominator.
  A `step_monitor` (184–185) that only touches particles is part of it. -/
  terms : W → Params → W × ℝ × ℝ
  /-- `total_energy_density` (374–375). -/
  rho : W → Params → ℝ
  /-- `total_entropy` (371–372). -/
  S : W → Params → ℝ

/-- One record of `Universe.data` (36–46). -/
structure Row where
  aT : ℝ
  T : ℝ
  a : ℝ
  x : ℝ
  t : ℝ
  rho : ℝ
  Neff : ℝ
  fraction : ℝ
  S : ℝ

/-- A `Universe` object (48–71) without the class-level history table. -/
structure Uni (W : Type*) where
  w : W
  params : Params
  fraction : ℝ
  step : ℕ

/-- `Universe.__init__` (48–71). -/
noncomputable def Uni.new {W : Type*} (w : W) (p : Params) : Uni W := ⟨w, p, 0, 1⟩

variable {W : Type*}

open Classical in
/-- `integrand` (269–303).  A zero denominator is an error (Python floats raise, numpy floats give
inf/nan). -/
noncomputable def integrand (ph : Physics W) (u : Uni W) : Except Err (Uni W) :=
  let (w, num, den) := ph.terms u.w u.params
  if den = 0 then .error .zeroDivision
  else
    let fraction := if u.params.log then u.params.x * num / den else num / den
    .ok { u with w := w, fraction := fraction }

/-- `make_step` (181–197); `ab` = `ADAMS_BASHFORTH_TEMPERATURE_CORRECTION`. -/
noncomputable def makeStep (ph : Physics W) (c : Consts) (ab : Bool) (data : List Row) (u : Uni W) :
    Except Err (Uni W) :=
  match integrand ph u with
  | .error e => .error e
  | .ok u =>
    let daT := if ab then
        adamsBashforth (pyLast (data.map Row.fraction) maxAB ++ [u.fraction]) u.params.h none
      else .ok (u.fraction * u.params.h)
    match daT with
    | .error e => .error e
    | .ok d =>
      let p := { u.params with aT := u.params.aT + d, x := u.params.x + u.params.dx }
      .ok { u with params := p.update c (ph.rho u.w p) (ph.S u.w p) }

/-- `save_params` (305–316).  `params.S` does not exist before the first `update`; a `rho` of `None`
cannot be stored in the float column. -/
noncomputable def saveParams (data : List Row) (u : Uni W) : Except Err (List Row) :=
  match u.params.S, u.params.rho with
  | some S, some rho =>
    .ok (data ++ [⟨u.params.aT, u.params.T, u.params.a, u.params.x, u.params.t, rho, u.params.Neff,
      u.fraction, S⟩])
  | none, _ => .error .attributeError
  | some _, none => .error .typeError

/-- Body of the `while` loop (135–139): step, save, count. -/
noncomputable def loopBody (ph : Physics W) (c : Consts) (ab : Bool) (s : List Row × Uni W) :
    Except Err (List Row × Uni W) :=
  match makeStep ph c ab s.1 s.2 with
  | .error e => .error e
  | .ok u =>
    match saveParams s.1 u with
    | .error e => .error e
    | .ok data => .ok (data, { u with step := u.step + 1 })

open Classical in
/-- The `while self.params.T > T_final` loop (134) with an iteration budget; `none` = budget used up. -/
noncomputable def evolveLoop (ph : Physics W) (c : Consts) (ab : Bool) (Tfinal : ℝ) :
    ℕ → List Row × Uni W → Except Err (Option (List Row × Uni W))
  | fuel, s =>
    if s.2.params.T > Tfinal then
      match fuel with
      | 0 => .ok none
      | n + 1 =>
        match loopBody ph c ab s with
        | .error e => .error e
        | .ok s' => evolveLoop ph c ab Tfinal n s'
    else .ok (some s)

/-- Lines 126–132 of `evolve`: clock initialisation, first update if the density is unknown, first
saved row. -/
noncomputable def evolveStart (ph : Physics W) (c : Consts) (initTime : Bool)
    (s : List Row × Uni W) : Except Err (List Row × Uni W) :=
  let u := s.2
  let u := if initTime then { u with params := u.params.initTime c (ph.rho u.w u.params) } else u
  let u := match u.params.rho with
    | none => { u with params := u.params.update c (ph.rho u.w u.params) (ph.S u.w u.params) }
    | some _ => u
  match saveParams s.1 u with
  | .error e => .error e
  | .ok data => .ok (data, u)

open Classical in
/-- `evolve` (102–159) with an iteration budget; `sys.exit(1)` (151–153) is `systemExit`. -/
noncomputable def evolve (ph : Physics W) (c : Consts) (ab : Bool) (Tfinal : ℝ) (initTime : Bool)
    (fuel : ℕ) (s : List Row × Uni W) : Except Err (Option (List Row × Uni W)) :=
  match evolveStart ph c initTime s with
  | .error e => .error e
  | .ok s =>
    match evolveLoop ph c ab Tfinal fuel s with
    | .error e => .error e
    | .ok none => .ok none
    | .ok (some s) => if s.2.params.T > 0 then .ok (some s) else .error .systemExit

end PyBBN
