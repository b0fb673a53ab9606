import Verif.Model.Py
/-!
# Settings: `environment.py` and `utils.getenv` / `getboolenv`

Values are the Python values that can occur: booleans, integers, floats (rationals here), strings.
`os.environ` is a map from names to strings.  The number parsers of the host language
(`int(str)`, `float(str)`) are parameters: `none` means `ValueError`.
-/
namespace PyBBN

/-- Python values occurring as settings. -/
inductive PyVal
  | bool (b : Bool)
  | int (i : ℤ)
  | float (num : ℤ) (den : ℕ)   -- the rational `num/den`, kept as written
  | str (s : String)
  deriving DecidableEq, Repr

namespace PyVal
/-- Python truth value. -/
def truthy : PyVal → Bool
  | bool b => b
  | int i => i != 0
  | float n _ => n != 0
  | str s => s != ""
end PyVal

/-- Number parsing of the host language. -/
structure Parsers where
  parseInt : String → Option ℤ
  parseFloat : String → Option (ℤ × ℕ)

namespace Environment

/-- `defaults` (environment.py 4–57). -/
def defaults : List (String × PyVal) :=
  [("SPLIT_COLLISION_INTEGRAL", .bool true),
   ("FIXED_ORDER_1D_QUADRATURE", .bool true),
   ("GAUSS_LEGENDRE_ORDER", .int 100),
   ("GAUSS_LAGUERRE_ORDER", .int 100),
   ("LOGARITHMIC_TIMESTEP", .bool true),
   ("ADAMS_BASHFORTH_TEMPERATURE_CORRECTION", .bool true),
   ("ADAMS_MOULTON_DISTRIBUTION_CORRECTION", .bool false),
   ("MOMENTUM_SAMPLES", .int 401),
   ("MAX_MOMENTUM_MEV", .int 100),
   ("MAX_SCALE_FACTOR", .int 10),
   ("FOUR_PARTICLE_GRID_RESOLUTION", .float 24999 100000),
   ("NORMAL_HIERARCHY_NEUTRINOS", .bool true),
   ("REGIME_SWITCHING_FACTOR", .float 1000 1),
   ("SIMPSONS_INTEGRATION", .bool false),
   ("SIMPSONS_NONEQ_PARTICLES", .bool true),
   ("LAGUERRE_GAUSS_FOR_MASSIVE_EQUILIBRIUM_PARTICLES", .bool true)]

/-- `typ(val)` where `typ` is the type of the first argument (environment.py 65–66).
`int(float)` and `float(int)` do not occur (an environment value is a string, and an unset variable
has the type of the default) and are given their Python meaning only where trivial. -/
def convert (P : Parsers) : PyVal → PyVal → Except Err PyVal
  | .bool _, v => .ok (.bool v.truthy)
  | .int _, .int i => .ok (.int i)
  | .int _, .bool b => .ok (.int (if b then 1 else 0))
  | .int _, .float n d => .ok (.int (n.tdiv d))
  | .int _, .str s => match P.parseInt s with
    | some i => .ok (.int i)
    | none => .error .valueError
  | .float _ _, .float n d => .ok (.float n d)
  | .float _ _, .int i => .ok (.float i 1)
  | .float _ _, .bool b => .ok (.float (if b then 1 else 0) 1)
  | .float _ _, .str s => match P.parseFloat s with
    | some (n, d) => .ok (.float n d)
    | none => .error .valueError
  | .str _, v => .ok v

/-- `environment.get` (environment.py 60–68); Python `None` is Lean `none`. -/
def envGet (P : Parsers) (environ : String → Option String) (name : String) :
    Except Err (Option PyVal) :=
  let default := defaults.lookup name
  let val : Option PyVal := match environ name with
    | some s => some (.str s)
    | none => default
  match default with
  | some d =>
    if d.truthy then
      match val with
      | some v => match convert P d v with
        | .ok w => .ok (some w)
        | .error e => .error e
      | none => .ok none
    else .ok val
  | none => .ok val

/-- `if environment.get(name):` — how the rest of the code reads a switch. -/
def switch (P : Parsers) (environ : String → Option String) (name : String) : Except Err Bool :=
  match envGet P environ name with
  | .ok (some v) => .ok v.truthy
  | .ok none => .ok false
  | .error e => .error e

/-- `utils.getenv` (common/utils.py 102–103). -/
def getenv (environ : String → Option String) (var : String) (default : Option PyVal) :
    Option PyVal :=
  match environ var with
  | some s => some (.str s)
  | none => default

/-- `utils.getboolenv` (common/utils.py 106–108).  `value not in [...]` compares with the four
strings; a non-string value equals none of them. -/
def getboolenv (environ : String → Option String) (var : String) (default : Option PyVal) : Bool :=
  let value := getenv environ var default
  (value != some (.bool false)) && (value != none) &&
    !([some (.str "false"), some (.str "f"), some (.str "0"), some (.str "-1")].contains value)

end Environment
end PyBBN
