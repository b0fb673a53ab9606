import Verif.Model.DynArray
import Verif.Model.Evolution
import Verif.Model.Units
/-!
# The history table of a run, in memory and on disk

`Universe.data` (evolution.py 36–46) is a `DynamicRecArray`, one for the class, so all universes of a
process append to the same table.  Here the loop of `evolve` works on this table, and writes
`evolution.txt` every `export_freq` steps and at the end.  A text file is its list of headings and of lines
of numbers: the decimal format of `numpy.savetxt` is not modelled, nor the KAWANO files and the log.
-/
namespace PyBBN

variable {W : Type*}

/-- `columns` of `Universe.data` (evolution.py 36–46; utils.py 223). -/
def tableColumns : List String := ["aT", "T", "a", "x", "t", "rho", "N_eff", "fraction", "S"]

/-- `unit_names` (evolution.py 36–46; utils.py 228). -/
def tableUnitNames : List (Option String) :=
  [some "MeV", some "MeV", none, some "MeV", some "s", some "MeV^4", none, none, some "MeV^3"]

/-- `units` (evolution.py 36–46; utils.py 229). -/
noncomputable def tableUnits (u : Units) : List ℝ :=
  [u.MeV, u.MeV, 1, u.MeV, u.s, u.MeV ^ 4, 1, 1, u.MeV ^ 3]

/-- A record from the tuple of its columns (utils.py 227, 262: the structured dtype). -/
noncomputable def Row.ofTuple : List ℝ → Row
  | [aT, T, a, x, t, rho, Neff, fraction, S] => ⟨aT, T, a, x, t, rho, Neff, fraction, S⟩
  | _ => ⟨0, 0, 0, 0, 0, 0, 0, 0, 0⟩

/-- The view of a record as a tuple of numbers (utils.py 300). -/
def Row.tuple (r : Row) : List ℝ := [r.aT, r.T, r.a, r.x, r.t, r.rho, r.Neff, r.fraction, r.S]

/-- A row of `numpy.zeros` (utils.py 233). -/
noncomputable def Row.zero : Row := ⟨0, 0, 0, 0, 0, 0, 0, 0, 0⟩

/-- The dictionary of `save_params` (evolution.py 305–316) for known `rho` and `S`. -/
noncomputable def Uni.record (u : Uni W) (rho S : ℝ) : String → Option ℝ
  | "aT" => some u.params.aT
  | "T" => some u.params.T
  | "a" => some u.params.a
  | "x" => some u.params.x
  | "rho" => some rho
  | "N_eff" => some u.params.Neff
  | "t" => some u.params.t
  | "fraction" => some u.fraction
  | "S" => some S
  | _ => none

/-- `save_params` (305–316) on the table. -/
noncomputable def saveTable (data : DynArr Row) (u : Uni W) : Except Err (DynArr Row) :=
  match u.params.S, u.params.rho with
  | some S, some rho => data.appendDict Row.zero tableColumns Row.ofTuple (u.record rho S)
  | none, _ => .error .attributeError
  | some _, none => .error .typeError

/-- `make_step` (181–197): `list(self.data['fraction'][-MAX_ADAMS_BASHFORTH_ORDER:])` reads the column
of the table. -/
noncomputable def makeStepTable (ph : Physics W) (c : Consts) (ab : Bool) (data : DynArr Row) (u : Uni W) :
    Except Err (Uni W) :=
  match integrand ph u with
  | .error e => .error e
  | .ok u =>
    let daT := if ab then
        adamsBashforth (pyLast (data.column Row.fraction) maxAB ++ [u.fraction]) u.params.h none
      else .ok (u.fraction * u.params.h)
    match daT with
    | .error e => .error e
    | .ok d =>
      let p := { u.params with aT := u.params.aT + d, x := u.params.x + u.params.dx }
      .ok { u with params := p.update c (ph.rho u.w p) (ph.S u.w p) }

/-- Contents of a text file written by `savetxt`. -/
structure TextTable where
  heading : List String
  lines : List (List ℝ)

/-- `savetxt` (utils.py 292–302). -/
noncomputable def saveText (un : Units) (data : DynArr Row) : TextTable :=
  { heading := List.zipWith (fun name unit => match unit with
      | some v => name ++ (", " ++ v)
      | none => name) tableColumns tableUnitNames
    lines := data.data.map fun r => List.zipWith (· / ·) r.tuple (tableUnits un) }

/-- A running universe: table, universe, and the file `evolution.txt` (`none` if not yet written). -/
structure Running (W : Type*) where
  table : DynArr Row
  uni : Uni W
  file : Option TextTable

/-- `folder` given or not, `export_freq` (22), and the units. -/
structure Output where
  folder : Bool
  freq : ℕ
  units : Units

/-- Body of the `while` loop (135–143): step, save, count, and the file every `export_freq` steps. -/
noncomputable def loopBodyTable (ph : Physics W) (c : Consts) (ab : Bool) (io : Output) (s : Running W) :
    Except Err (Running W) :=
  match makeStepTable ph c ab s.table s.uni with
  | .error e => .error e
  | .ok u =>
    match saveTable s.table u with
    | .error e => .error e
    | .ok data =>
      let s' : Running W := ⟨data, { u with step := u.step + 1 }, s.file⟩
      if io.folder then
        if io.freq = 0 then .error .zeroDivision
        else if s'.uni.step % io.freq = 0 then .ok { s' with file := some (saveText io.units s'.table) }
        else .ok s'
      else .ok s'

open Classical in
/-- The `while self.params.T > T_final` loop (134–143) with an iteration budget; `none` = budget used up. -/
noncomputable def evolveLoopTable (ph : Physics W) (c : Consts) (ab : Bool) (io : Output) (Tfinal : ℝ) :
    ℕ → Running W → Except Err (Option (Running W))
  | fuel, s =>
    if s.uni.params.T > Tfinal then
      match fuel with
      | 0 => .ok none
      | n + 1 =>
        match loopBodyTable ph c ab io s with
        | .error e => .error e
        | .ok s' => evolveLoopTable ph c ab io Tfinal n s'
    else .ok (some s)

/-- Lines 126–132 of `evolve`. -/
noncomputable def evolveStartTable (ph : Physics W) (c : Consts) (initTime : Bool) (s : Running W) :
    Except Err (Running W) :=
  let u := s.uni
  let u := if initTime then { u with params := u.params.initTime c (ph.rho u.w u.params) } else u
  let u := match u.params.rho with
    | none => { u with params := u.params.update c (ph.rho u.w u.params) (ph.S u.w u.params) }
    | some _ => u
  match saveTable s.table u with
  | .error e => .error e
  | .ok data => .ok ⟨data, u, s.file⟩

/-- `export` (161–179). -/
noncomputable def exportTable (io : Output) (s : Running W) : Running W :=
  if io.folder then { s with file := some (saveText io.units s.table) } else s

open Classical in
/-- `evolve` (102–159) with an iteration budget; `doExport` is its argument `export`. -/
noncomputable def evolveTable (ph : Physics W) (c : Consts) (ab : Bool) (io : Output) (Tfinal : ℝ)
    (doExport initTime : Bool) (fuel : ℕ) (s : Running W) : Except Err (Option (Running W)) :=
  match evolveStartTable ph c initTime s with
  | .error e => .error e
  | .ok s =>
    match evolveLoopTable ph c ab io Tfinal fuel s with
    | .error e => .error e
    | .ok none => .ok none
    | .ok (some s) =>
      if s.uni.params.T > 0 then .ok (some (if doExport then exportTable io s else s)) else .error .systemExit

end PyBBN
