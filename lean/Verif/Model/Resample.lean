import Verif.Model.Assembly
/-!
# Four-particle integrals on fine grids

common/kinematics.py 351–359 (`interpolation_4p`) and interactions/four_particle/__init__.py 165–188: on grids finer than
`FOUR_PARTICLE_GRID_RESOLUTION` the loop runs over a selection of the momenta and the array is filled by
`scipy.interpolate.interp1d(kind='linear')`.
-/
namespace PyBBN

variable {ι : Type*}

/-- `interpolate` and `steps` (kinematics.py 353–355); `maxMom`, `samples` are those of the particle's grid, `last`
is `slice_1[-1]`, `res` is `FOUR_PARTICLE_GRID_RESOLUTION * MeV`.  `steps` is a float in the code; recent
versions of numpy reject it (not modelled). -/
noncomputable def interpSteps (maxMom : ℝ) (samples : ℕ) (last res : ℝ) : Option ℕ :=
  open Classical in
  if maxMom / ((samples : ℝ) - 1) < res then some ⌈last / res⌉₊ else none

/-- `interp1d(xs, ys, kind='linear')(x)` of scipy (`_call_linear`, `_check_bounds`; external code, taken from its
documentation and source): out of range raises `ValueError`; the cell is
`searchsorted(xs, x).clip(1, len(xs) - 1)`.  A division 0/0 (nan) is 0 here. -/
noncomputable def interp1d (xs ys : List ℝ) (x : ℝ) : Except Err ℝ :=
  open Classical in
  match xs.head?, xs.getLast? with
  | some a, some b =>
    if x < a ∨ b < x then .error .valueError
    else do
      let i : ℤ := min (max 1 (searchsortedLeft xs x : ℤ)) ((xs.length : ℤ) - 1)
      let x0 ← pyGet xs (i - 1)
      let x1 ← pyGet xs i
      let y0 ← pyGet ys (i - 1)
      let y1 ← pyGet ys i
      .ok ((y1 - y0) / (x1 - x0) * (x - x0) + y0)
  | _, _ => .error .valueError

/-- The loop over the selected momenta followed by the interpolation back to all momenta `ps`
(four_particle/__init__.py 169–179, 182–186); without interpolation the loop over `ps`. -/
noncomputable def resampled (steps : Option ℕ) (ps : List ℝ) (loop : List ℝ → Except Err (List ℝ)) :
    Except Err (List ℝ) :=
  match steps with
  | none => loop ps
  | some n => do
    let pos ← interpPositions ps n
    let xs ← pos.mapM fun i : ℕ => pyGet ps (i : ℤ)
    let ys ← loop xs
    ps.mapM (interp1d xs ys)

/-- `FourParticleIntegral.integrate` as in `integrate4`, with `interpolation_4p` included.  `B` of the first branch is
computed twice here (the same value). -/
noncomputable def integrate4Fine (c : Int4 ι) (p : Params) (sched : List (List ℕ)) (steps : Option ℕ) :
    Except Err IntOut :=
  let fast := (c.sp 0).fastDecay
  let n := (c.sp 0).grid.length
  if c.neglect then .ok (returnFunction c.kind fast n)
  else
    let r := c.reaction p
    let cMs := c.Ms.map (toCM c.GF)
    let const := constant4 c.GF (c.sp 0).dof c.majorana c.mult p
    let pts := (gridCut4 (c.sp 0).grid c.ub).1
    let zeros := (gridCut4 (c.sp 0).grid c.ub).2
    let ps := pts.map (· / p.aT)
    let loop (k : CKind) (xs : List ℝ) := integration4Exact r cMs k.toInt xs (c.min1 / p.aT) (c.max1 / p.aT)
      (c.min2 / p.aT) (c.max2 / p.aT) (c.max3 / p.aT) sched
    if (c.kind = .full ∨ c.kind = .fullVac) ∧ ¬ fast = true then do
      let C ← resampled steps ps fun xs => do
        let A ← loop .f1 xs
        let B ← loop .ff xs
        let f ← xs.mapM fun x => particleDistribution (c.sp 0) p (c.st 0) (x * p.aT)
        .ok (List.zipWith (· + ·) A (List.zipWith (· * ·) f B))
      let B ← resampled steps ps (loop .ff)
      .ok (.two ((C ++ zeros).map (· * const)) ((B ++ zeros).map (· * const)))
    else do
      let full ← resampled steps ps (loop c.kind)
      integrateTail4 c.kind fast c.creationFast c.br c.num (fun l => c.total (l.map (· * const)))
        (List.replicate (full ++ zeros).length const) (c.st 0).dist (full ++ zeros)

end PyBBN
