import Verif.Model.Collision
/-!
# Integration limits and the parallel momentum loops

interactions/four_particle/cpp/integral.cpp 351–698 and interactions/three_particle/cpp/integral.cpp
377–555.  `sqrt` of a negative number (NaN in C++) is 0 in `ℝ`; the theorems only use limits where the
radicand is non-negative or say so.  The adaptive quadrature (`gsl_integration_qag`) is not modelled:
it is a parameter `quad p0 min_1 max_1` of the loops (it also depends on arguments that are the
same in every iteration).  Its failure (`status != 0`, an exception) is an `Except` value.
-/
namespace PyBBN

/-- Sum of sides, `get_reaction_type` (351–357; three-particle 377–383). -/
def reactionTypeSum (r : List Reactant) : ℤ := (r.map fun x => x.side).sum

/-- `p2_max_dec` (389–398). -/
noncomputable def p2MaxDec (m0 m1 m2 m3 p0 p1 : ℝ) : ℝ :=
  √((energy p0 m0 - energy p1 m1 - m3) ^ 2 - m2 ^ 2)

/-- Radicand used by `p2_min_scat` / `p2_max_scat` for `m0 ≠ 0` (436–440, 501–505). -/
noncomputable def scatRad (t1 t2 m2 p1 : ℝ) : ℝ :=
  t1 ^ 2 * (t1 ^ 4 + t2 ^ 2 + (4 * p1 ^ 2 - 2 * t2 + m2 ^ 2) * m2 ^ 2 - 2 * t1 ^ 2 * (t2 + m2 ^ 2))

/-- Radicand used for `m0 = 0`, `m1 ≠ 0` (453–461, 523–531), with the `temp < 0` guard. -/
noncomputable def scatRad1 (m1 m2 m3 p1 : ℝ) : ℝ :=
  open Classical in
  let temp := (p1 ^ 2 + m1 ^ 2) *
    (m1 ^ 4 + (m2 ^ 2 - m3 ^ 2) ^ 2 - 2 * m1 ^ 2 * (m2 ^ 2 + m3 ^ 2))
  if temp < 0 then 0 else temp

/-- `p2_min_scat` (421–474). -/
noncomputable def p2MinScat (m0 m1 m2 m3 p0 p1 : ℝ) : ℝ :=
  open Classical in
  if p0 ≠ 0 then 0
  else if m0 ≠ 0 then
    if m1 = 0 ∧ m2 = 0 ∧ m3 = 0 then m0 / 2
    else if m0 + m1 > m2 + m3 then
      let t1 := m0 + √(m1 ^ 2 + p1 ^ 2)
      let t2 := m3 ^ 2 + p1 ^ 2
      max (((t2 - t1 ^ 2 - m2 ^ 2) * p1 + √(scatRad t1 t2 m2 p1)) / (2 * (t1 ^ 2 - p1 ^ 2))) 0
    else 0
  else if m1 ≠ 0 then
    let t1 := (-p1 * (m1 ^ 2 + m2 ^ 2 - m3 ^ 2) + √(scatRad1 m1 m2 m3 p1)) / (2 * m1 ^ 2)
    max t1 (-t1)
  else 0

/-- `p2_max_scat` (476–539). -/
noncomputable def p2MaxScat (m0 m1 m2 m3 p0 p1 : ℝ) : ℝ :=
  open Classical in
  if p0 ≠ 0 then √((energy p0 m0 + energy p1 m1 - m3) ^ 2 - m2 ^ 2)
  else if m0 ≠ 0 then
    if m1 = 0 ∧ m2 = 0 ∧ m3 = 0 then (m0 + 2 * p1) / 2
    else if m0 + m1 > m2 + m3 then
      let t1 := m0 + √(m1 ^ 2 + p1 ^ 2)
      let t2 := m3 ^ 2 + p1 ^ 2
      max (((-t2 + t1 ^ 2 + m2 ^ 2) * p1 + √(scatRad t1 t2 m2 p1)) / (2 * (t1 ^ 2 - p1 ^ 2))) 0
    else √((m0 - m3 + energy p1 m1) ^ 2 - m2 ^ 2)
  else if m1 ≠ 0 then
    (p1 * (m1 ^ 2 + m2 ^ 2 - m3 ^ 2) + √(scatRad1 m1 m2 m3 p1)) / (2 * m1 ^ 2)
  else p1

/-- The limits of the inner integral, `integrand_2nd_integration` (542–583): `none` is the early
`return 0.`; `dflt` are the limits passed in, used for other reaction types. -/
noncomputable def innerLimits (type : ℤ) (m0 m1 m2 m3 max3 p0 p1 : ℝ) (dflt : ℝ × ℝ) :
    Option (ℝ × ℝ) :=
  open Classical in
  if type = 2 then some (0, p2MaxDec m0 m1 m2 m3 p0 p1)
  else if type = 0 then some (p2MinScat m0 m1 m2 m3 p0 p1, p2MaxScat m0 m1 m2 m3 p0 p1)
  else if type = -2 then
    let mx := energy max3 m3 - energy p0 m0 - energy p1 m1
    let mx2 := mx ^ 2 - m2 ^ 2
    let mn := m3 - energy p0 m0 - energy p1 m1
    let mn2 := mn ^ 2 - m2 ^ 2
    if mx ≤ 0 ∨ mx2 ≤ 0 then none
    else some (if mn ≤ 0 ∨ mn2 ≤ 0 then 0 else √mn2, √mx2)
  else some dflt

/-- Masses and type of a reaction, constant during the loop, and `max_3`. -/
structure LoopCtx where
  type : ℤ
  m0 : ℝ
  m1 : ℝ
  m2 : ℝ
  m3 : ℝ
  max3 : ℝ

/-- Lower limit in the scattering branch (628–635). -/
noncomputable def scatMin1 (c : LoopCtx) (p0 : ℝ) : ℝ :=
  open Classical in
  let mn := c.m2 + c.m3 - energy p0 c.m0
  let mn2 := mn ^ 2 - c.m1 ^ 2
  if mn ≤ 0 ∨ mn2 ≤ 0 then 0 else √mn2

/-- One iteration's update of the thread-private `(min_1, max_1)` (621–655); the flag says whether the
iteration goes on to integrate (`false` = `continue`). -/
noncomputable def outerLimits (c : LoopCtx) (p0 : ℝ) (st : ℝ × ℝ) : (ℝ × ℝ) × Bool :=
  open Classical in
  if c.type = 2 then ((st.1, √((energy p0 c.m0 - c.m2 - c.m3) ^ 2 - c.m1 ^ 2)), true)
  else if c.type = 0 then
    let mn := scatMin1 c p0
    ((mn, if st.2 > 3 * mn then st.2 else 3 * mn), true)
  else if c.type = -2 then
    if c.m3 = 0 then (st, false)
    else
      let mx := energy c.max3 c.m3 - c.m2 - energy p0 c.m0
      let mx2 := mx ^ 2 - c.m1 ^ 2
      if mx ≤ 0 ∨ mx2 ≤ 0 then (st, false) else ((0, √mx2), true)
  else (st, true)

/-- `p1_bounds_1` (three-particle 408–422). -/
noncomputable def p1Bounds1 (m0 m1 m2 : ℝ) : ℝ :=
  open Classical in
  if m0 = 0 then 0
  else √((m0 ^ 2 - m1 ^ 2 - m2 ^ 2) ^ 2 - 4 * m1 ^ 2 * m2 ^ 2) / (2 * m0)

/-- `p1_bounds_2` (425–437). -/
noncomputable def p1Bounds2 (m0 m1 m2 p0 : ℝ) : ℝ :=
  open Classical in
  if m0 = 0 ∧ p0 = 0 then 0
  else (m1 ^ 4 + m2 ^ 4 - 2 * m1 ^ 2 * (m2 ^ 2 + 2 * p0 ^ 2)) / (4 * p0 * (m1 ^ 2 - m2 ^ 2))

/-- `p1_bounds_3` (440–461). -/
noncomputable def p1Bounds3 (m0 m1 m2 p0 : ℝ) (sign1 sign2 : ℝ) : ℝ :=
  open Classical in
  let temp1 := (p0 ^ 2 + m0 ^ 2) *
    (m1 ^ 4 + (m2 ^ 2 - m0 ^ 2) ^ 2 - 2 * m1 ^ 2 * (m2 ^ 2 + m0 ^ 2))
  let temp1 := if temp1 < 0 then 0 else temp1
  let temp2 := p0 * (m2 ^ 2 - m1 ^ 2 - m0 ^ 2)
  (sign1 * temp2 + sign2 * √temp1) / (2 * m0 ^ 2)

/-- `p1_bounds_4` (464–474). -/
noncomputable def p1Bounds4 (m0 m1 m2 p0 max2 : ℝ) : ℝ :=
  open Classical in
  let mx := energy max2 m2 - energy p0 m0
  let mx2 := mx ^ 2 - m1 ^ 2
  if mx ≤ 0 ∨ mx2 ≤ 0 then -1 else √mx2

/-- Masses and type of a three-particle reaction, and `max_2`. -/
structure LoopCtx3 where
  type : ℤ
  m0 : ℝ
  m1 : ℝ
  m2 : ℝ
  max2 : ℝ

/-- One iteration's update of `(min_1, max_1)` for `p0 ≠ 0` (three-particle 499–523). -/
noncomputable def outerLimits3 (c : LoopCtx3) (p0 : ℝ) (st : ℝ × ℝ) : (ℝ × ℝ) × Bool :=
  open Classical in
  if c.type = -1 then
    if c.m0 = 0 then
      let mn := p1Bounds2 c.m0 c.m1 c.m2 p0
      let min1 := max mn (-mn)
      let temp := p1Bounds4 c.m0 c.m1 c.m2 p0 c.max2
      if temp = -1 then ((min1, st.2), false)
      else if min1 ≥ temp then ((min1, temp), false) else ((min1, temp), true)
    else
      let mn := p1Bounds3 c.m0 c.m1 c.m2 p0 (-1) 1
      let min1 := max mn (-mn)
      let temp := p1Bounds4 c.m0 c.m1 c.m2 p0 c.max2
      if temp = -1 then ((min1, st.2), false)
      else
        let max1 := min (p1Bounds3 c.m0 c.m1 c.m2 p0 1 1) temp
        if min1 ≥ max1 then ((min1, max1), false) else ((min1, max1), true)
  else
    let mn := p1Bounds3 c.m0 c.m1 c.m2 p0 1 1
    ((max mn (-mn), p1Bounds3 c.m0 c.m1 c.m2 p0 (-1) 1), true)

section loops
variable (limits : ℝ → ℝ × ℝ → (ℝ × ℝ) × Bool) (quad : ℝ → ℝ → ℝ → Except Err ℝ)

/-- The iterations executed by one thread, in its order, from its private copy (`firstprivate`) of
`(min_1, max_1)`: list of (index, value stored in `integral[i]`).  Entries are 0 initially. -/
def runThread (ps : List ℝ) : ℝ × ℝ → List ℕ → List (ℕ × Except Err ℝ)
  | _, [] => []
  | st, i :: rest =>
    match ps[i]? with
    | none => (i, .error .indexError) :: runThread ps st rest
    | some p0 =>
      let r := limits p0 st
      (i, if r.2 then quad p0 r.1.1 r.1.2 else .ok 0) :: runThread ps r.1 rest

/-- The `omp parallel for` (618–695; three-particle 488–552): every iteration is executed by one thread;
the threads write to different entries, so their interleaving is immaterial. `sched` lists, for each
thread, its iterations in execution order. -/
def parallelLoop (ps : List ℝ) (init : ℝ × ℝ) (sched : List (List ℕ)) : List (Except Err ℝ) :=
  let outs := (sched.map fun t => runThread limits quad ps init t).flatten
  (List.range ps.length).map fun i : ℕ => (outs.lookup i).getD (.ok 0)

end loops

/-- A schedule assigns every iteration to exactly one thread. -/
def ValidSchedule (n : ℕ) (sched : List (List ℕ)) : Prop := sched.flatten.Perm (List.range n)

/-- `integration` (604–698). -/
noncomputable def integration4 (c : LoopCtx) (quad : ℝ → ℝ → ℝ → Except Err ℝ) (ps : List ℝ)
    (min1 max1 : ℝ) (sched : List (List ℕ)) : List (Except Err ℝ) :=
  parallelLoop (outerLimits c) quad ps (min1, max1) sched

/-- `integration_3` (three-particle 477–555).  At `p0 = 0` the integrand itself is stored
(`atRest`), the limits are not touched. -/
noncomputable def integration3 (c : LoopCtx3) (quad : ℝ → ℝ → ℝ → Except Err ℝ)
    (atRest : Except Err ℝ) (ps : List ℝ) (min1 max1 : ℝ) (sched : List (List ℕ)) :
    List (Except Err ℝ) :=
  open Classical in
  parallelLoop (fun p0 st => if p0 = 0 then (st, true) else outerLimits3 c p0 st)
    (fun p0 a b => if p0 = 0 then atRest else quad p0 a b) ps (min1, max1) sched

end PyBBN
