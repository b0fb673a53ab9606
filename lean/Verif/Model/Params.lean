import Verif.Model.Py
import Mathlib.Analysis.SpecialFunctions.Sqrt
import Mathlib.Analysis.SpecialFunctions.Log.Basic
import Mathlib.Analysis.Real.Pi.Bounds
/-!
# Cosmological parameters: common/__init__.py 81–203

Numbers are reals.  `environment.get('LOGARITHMIC_TIMESTEP')` is read at every call in the code; the
model stores the value once in the object (`log`), i.e. it assumes the setting is not changed during
the life of a `Params` object.
-/
namespace PyBBN

/-- The constants used by `Params`: `UNITS.MeV` (26) and `CONST.M_p` (46); `CONST.G = 1/M_p²` (49). -/
structure Consts where
  MeV : ℝ
  Mp : ℝ

/-- `CONST.G` (49). -/
noncomputable def Consts.G (c : Consts) : ℝ := 1 / c.Mp ^ 2

/-- Keyword arguments of `Params(**kwargs)` (98); `none` = argument absent. -/
structure ParamsKw where
  T : Option ℝ := none
  m : Option ℝ := none
  t : Option ℝ := none
  rho : Option ℝ := none
  dy : Option ℝ := none
  dx : Option ℝ := none

/-- A `Params` object (81–131). `S` is not set by the constructor (only by `update`), hence optional.
`dy` is meaningful in logarithmic mode only (147 sets it to `None` otherwise). -/
structure Params where
  log : Bool
  m : ℝ
  T : ℝ
  a : ℝ
  aIni : ℝ
  x : ℝ
  y : Option ℝ
  aT : ℝ
  t : ℝ
  H : ℝ
  rho : Option ℝ
  S : Option ℝ
  Neff : ℝ
  dy : ℝ
  dx : ℝ
  h : ℝ

/-- `kwargs.get(k)` is falsy (128, 130): absent or zero. -/
def falsy (v : Option ℝ) : Prop := v = none ∨ v = some 0

open Classical in
/-- `Params.__init__` (98–131) with `infer` (133–148). -/
noncomputable def Params.new (c : Consts) (log : Bool) (kw : ParamsKw) : Except Err Params :=
  match kw.T with
  | none => .error .typeError -- `m / None` (122)
  | some T =>
    if T = 0 then .error .zeroDivision
    else
      let m := kw.m.getD (1 * c.MeV)
      let a := 1 * m / T
      let dy := kw.dy.getD 0.05
      let dx := kw.dx.getD (0.005 * c.MeV)
      let x := a * m
      let p : Params :=
        { log := log, m := m, T := T, a := a, aIni := a, x := x
          y := if log then some (Real.log a) else none
          aT := a * T, t := kw.t.getD 0, H := 0, rho := kw.rho, S := none, Neff := 0
          dy := dy
          dx := if log then x * dy else dx
          h := if log then dy else dx }
      if log = true ∧ falsy kw.dy then .error .generic
      else if log = false ∧ falsy kw.dx then .error .generic
      else .ok p

/-- `Params.init_time` (150–152). -/
noncomputable def Params.initTime (c : Consts) (p : Params) (rho : ℝ) : Params :=
  { p with t := Real.sqrt (3 / (32 * Real.pi * c.G * rho)) }

/-- `Params.update` (165–203); quotients are real quotients (zero divisors are excluded in the
theorems). -/
noncomputable def Params.update (c : Consts) (p : Params) (rho S : ℝ) : Params :=
  let dx := if p.log then p.x * p.dy else p.dx
  let H := Real.sqrt (8 / 3 * Real.pi * rho) / c.Mp
  let Neff := (rho - Real.pi ^ 2 / 15 * p.T ^ 4) /
    (7 / 8 * Real.pi ^ 2 / 15 * (p.T / 1.401) ^ 4)
  let oldA := p.a
  let a := p.x / p.m
  let T := p.aT / a
  let dt := (1 - oldA / a) / H
  { p with dx := dx, rho := some rho, S := some S, H := H, Neff := Neff, a := a, T := T,
           t := p.t + dt }

end PyBBN
