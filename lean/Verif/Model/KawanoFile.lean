import Verif.Model.Kawano
import Verif.Model.Evolution
import Verif.Model.Units
/-!
# The table handed to the nuclear network during a run

`Universe.init_kawano` (evolution.py 73–79), the second half of `Universe.save` (322–351), the periodic
`kawano.txt` (143–145) and `export` (161–179); the species the rates are computed from are a global variable
of the module kawano.py (25, 28–30).  `kawano_data` is a list of rows (C01), a text file the list of its
lines of numbers below the headings, buffering and the decimal format are not modelled, nor the external
program started by `kawano.run`.  `evolution.txt` is treated in Table.lean.  During one call of `evolve`
nobody calls `init_kawano`, and other universes stand still.
-/
namespace PyBBN

variable {W : Type*}

/-- `kawano_log`: `None` (evolution.py 31), a file open for writing with its lines (76), or a closed file
(172). -/
inductive LogFile
  | absent
  | opened (lines : List (List ℝ))
  | closed (lines : List (List ℝ))

/-- What the table is computed with: `kawano.q`, `m_e` (kawano.py 18–20), `T_kawano` (16),
`CONST.rate_normalization`, `integrate_1D(..)[0]`, the bounds of the grid of the neutrino, the two
distributions as functions of the particles and parameters of the universe they belong to
(particles/__init__.py 341–374), and the units. -/
structure KSetup (W : Type*) where
  q : ℝ
  me : ℝ
  Tk : ℝ
  norm : ℝ
  Q : (ℝ → ℝ) → ℝ → ℝ → ℝ
  ymin : W → ℝ
  ymax : W → ℝ
  fe : W → Params → ℝ → ℝ
  fnu : W → Params → ℝ → ℝ
  units : Units

/-- `baryonic_rates(a)` (kawano.py 128–149) with the species of universe `v`. -/
noncomputable def KSetup.rates (k : KSetup W) (v : Uni W) (a : ℝ) : List ℝ :=
  KEnv.baryonicRates ⟨k.q, k.me, a, k.fe v.w v.params, k.fnu v.w v.params⟩ k.Q k.norm v.params.a
    (k.ymin v.w) (k.ymax v.w)

/-- Units of the twelve columns (kawano.py 156–169). -/
noncomputable def kawanoUnits (u : Units) : List ℝ :=
  [u.s, u.MeV, u.K9, u.K9 / u.s, u.g_cm3, 1 / u.s, 1, 1, 1, 1, 1, 1]

/-- `row_repr(-1)` (utils.py 270–284) and a line of `savetxt` (292–302). -/
noncomputable def kawanoLine (u : Units) (row : List ℝ) : List ℝ := List.zipWith (· / ·) row (kawanoUnits u)

/-- A universe and its output: was a folder given, is `self.kawano` set, `kawano_data`, `kawano_log`, the
file `kawano.txt`. -/
structure KUni (W : Type*) where
  uni : Uni W
  folder : Bool
  on : Bool
  rows : List (List ℝ)
  log : LogFile
  txt : Option (List (List ℝ))

/-- A universe as `Universe.__init__` (48–71) leaves it. -/
def KUni.new (u : Uni W) (folder : Bool) : KUni W := ⟨u, folder, false, [], .absent, none⟩

/-- The history shared by all universes (36–46), and one of them. -/
structure KRun (W : Type*) where
  hist : List Row
  own : KUni W

open Classical in
/-- `save` (318–351).  `src` are the species in the global variable: those of another universe, in its
present state, or (`none`) the universe's own. -/
noncomputable def saveKawano (k : KSetup W) (src : Option (Uni W)) (s : KRun W) (u : Uni W) :
    Except Err (KRun W) :=
  match saveParams s.hist u with
  | .error e => .error e
  | .ok data =>
    if s.own.on = true ∧ u.params.T ≤ k.Tk then
      match u.params.rho with
      | none => .error .typeError
      | some rho =>
        let row := kawanoRow u.params rho u.fraction (k.rates (src.getD u) u.params.a)
        match s.own.log with
        | .absent => .error .attributeError -- `None.write`
        | .closed _ => .error .valueError -- write to a closed file
        | .opened l =>
          .ok ⟨data, { s.own with uni := u, rows := s.own.rows ++ [row],
                                  log := .opened (l ++ [kawanoLine k.units row]) }⟩
    else .ok ⟨data, { s.own with uni := u }⟩

/-- `kawano_data.savetxt` (143–145, 175–176). -/
noncomputable def KUni.writeTxt (k : KSetup W) (o : KUni W) : KUni W :=
  if o.on then { o with txt := some (o.rows.map (kawanoLine k.units)) } else o

/-- Body of the `while` loop (135–145); `freq` is `export_freq`. -/
noncomputable def loopBodyK (ph : Physics W) (c : Consts) (ab : Bool) (k : KSetup W) (freq : ℕ)
    (src : Option (Uni W)) (s : KRun W) : Except Err (KRun W) :=
  match makeStep ph c ab s.hist s.own.uni with
  | .error e => .error e
  | .ok u =>
    match saveKawano k src s u with
    | .error e => .error e
    | .ok s' =>
      let o := { s'.own with uni := { u with step := u.step + 1 } }
      if o.folder then
        if freq = 0 then .error .zeroDivision
        else if o.uni.step % freq = 0 then .ok ⟨s'.hist, o.writeTxt k⟩
        else .ok ⟨s'.hist, o⟩
      else .ok ⟨s'.hist, o⟩

open Classical in
/-- The `while` loop (134–145) with an iteration budget; `none` = budget used up. -/
noncomputable def evolveLoopK (ph : Physics W) (c : Consts) (ab : Bool) (k : KSetup W) (freq : ℕ)
    (src : Option (Uni W)) (Tfinal : ℝ) : ℕ → KRun W → Except Err (Option (KRun W))
  | fuel, s =>
    if s.own.uni.params.T > Tfinal then
      match fuel with
      | 0 => .ok none
      | n + 1 =>
        match loopBodyK ph c ab k freq src s with
        | .error e => .error e
        | .ok s' => evolveLoopK ph c ab k freq src Tfinal n s'
    else .ok (some s)

/-- `export` (161–179): the log is closed, `kawano.txt` written. -/
noncomputable def KUni.exportK (k : KSetup W) (o : KUni W) : Except Err (KUni W) :=
  if o.folder then
    if o.on then
      match o.log with
      | .absent => .error .attributeError
      | .opened l => .ok (KUni.writeTxt k { o with log := .closed l })
      | .closed l => .ok (KUni.writeTxt k { o with log := .closed l })
    else .ok o
  else .ok o

open Classical in
/-- `evolve` (102–159) with an iteration budget. -/
noncomputable def evolveK (ph : Physics W) (c : Consts) (ab : Bool) (k : KSetup W) (freq : ℕ)
    (src : Option (Uni W)) (Tfinal : ℝ) (doExport initTime : Bool) (fuel : ℕ) (s : KRun W) :
    Except Err (Option (KRun W)) :=
  match evolveStart ph c initTime (s.hist, s.own.uni) with
  | .error e => .error e
  | .ok (data, u) =>
    match evolveLoopK ph c ab k freq src Tfinal fuel ⟨data, { s.own with uni := u }⟩ with
    | .error e => .error e
    | .ok none => .ok none
    | .ok (some s) =>
      if s.own.uni.params.T > 0 then
        if doExport then
          match s.own.exportK k with
          | .error e => .error e
          | .ok o => .ok (some ⟨s.hist, o⟩)
        else .ok (some s)
      else .error .systemExit

/-! ## Several universes in one process -/

/-- The history, the universes, and the global variable `particles` of kawano.py (25): the position of the
universe whose species were given last (`none`: not yet set). -/
structure KProc (W : Type*) where
  hist : List Row
  unis : List (KUni W)
  particles : Option ℕ

/-- `universe.init_kawano(electron=.., neutrino=..)` (evolution.py 73–79, kawano.py 28–30) on the universe at
position `i`, with its own species. -/
def KProc.initKawano (p : KProc W) (i : ℕ) : KProc W :=
  { p with
    unis := p.unis.modify i fun o =>
      { o with on := true, rows := [], log := if o.folder then .opened [] else o.log }
    particles := some i }

/-- Whose species the rates of the universe at position `i` are computed from (kawano.py 67–68, 132, 144). -/
def KProc.source (p : KProc W) (i : ℕ) : Option (Uni W) :=
  match p.particles with
  | none => none
  | some j => if j = i then none else (p.unis[j]?).map KUni.uni

/-- `evolve` on the universe at position `i`. -/
noncomputable def KProc.evolve (ph : Physics W) (c : Consts) (ab : Bool) (k : KSetup W) (freq : ℕ)
    (Tfinal : ℝ) (doExport initTime : Bool) (fuel : ℕ) (p : KProc W) (i : ℕ) : Except Err (Option (KProc W)) :=
  match p.unis[i]? with
  | none => .error .indexError
  | some o =>
    match evolveK ph c ab k freq (p.source i) Tfinal doExport initTime fuel ⟨p.hist, o⟩ with
    | .error e => .error e
    | .ok none => .ok none
    | .ok (some s) => .ok (some { p with hist := s.hist, unis := p.unis.set i s.own })

end PyBBN
