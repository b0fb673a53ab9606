import Mathlib.Data.Real.Basic
import Mathlib.Tactic.NormNum
/-!
# Angular kernels: interactions/four_particle/cpp/Ds.cpp

`std::array<dbl, 4>` is `Fin 4 → ℝ`.  Entries of `order` are used as array indices in the code; they
are `Fin 4` here (an index outside 0..3 is undefined behaviour in C++).
-/
namespace PyBBN

open Classical in
/-- `Sgn` (4–6). -/
noncomputable def sgn (x : ℝ) : ℝ := (if x > 0 then 1 else 0) - (if x < 0 then 1 else 0)

/-- The `std::swap` prologue (`if (q1 < q2) swap`), used in 115–116, 145–146, 235. -/
noncomputable def ordMax (a b : ℝ) : ℝ := open Classical in if a < b then b else a
/-- Second component of the swapped pair. -/
noncomputable def ordMin (a b : ℝ) : ℝ := open Classical in if a < b then a else b

/-- `D1` (40–62). -/
noncomputable def D1 (q1 q2 q3 q4 : ℝ) : ℝ :=
  0.25 * (-|q1 + q2 - q3 - q4| - |q1 - q2 + q3 - q4|
    + |q1 + q2 + q3 - q4| - |q1 - q2 - q3 + q4|
    + |q1 + q2 - q3 + q4| + |q1 - q2 + q3 + q4|
    + |-q1 + q2 + q3 + q4| - |q1 + q2 + q3 + q4|)

/-- The expression of `D2` after the swaps (119–125). -/
noncomputable def D2core (q1 q2 q3 q4 : ℝ) : ℝ :=
  (24 * q1 * q2 * q4 + 24 * q2 * q3 * q4 + |q1 + q2 - q3 - q4| ^ 3 + |q1 - q2 - q3 + q4| ^ 3
    - |q1 + q2 - q3 + q4| ^ 3
    + 6 * q3 * q4 * (4 * q2 + |q1 + q2 - q3 - q4| - |q1 - q2 - q3 + q4| + |q1 + q2 - q3 + q4|
      - |-q1 + q2 + q3 + q4|)
    - |-q1 + q2 + q3 + q4| ^ 3
    - 3 * q4 * ((-q1 + q2 + q3 + q4) ^ 2 * sgn (q1 - q2 - q3 - q4)
      - (q1 + q2 - q3 - q4) ^ 2 * sgn (q1 + q2 - q3 - q4)
      - (q1 - q2 + q3 - q4) ^ 2 * sgn (q1 - q2 + q3 - q4)
      + (q1 + q2 + q3 - q4) ^ 2 * sgn (q1 + q2 + q3 - q4)
      + (q1 - q2 - q3 + q4) ^ 2 * sgn (q1 - q2 - q3 + q4)
      - (q1 + q2 - q3 + q4) ^ 2 * sgn (q1 + q2 - q3 + q4)
      - (q1 - q2 + q3 + q4) ^ 2 * sgn (q1 - q2 + q3 + q4)
      + (q1 + q2 + q3 + q4) ^ 2 * sgn (q1 + q2 + q3 + q4))
    - 3 * q3 * ((-q1 + q2 + q3 + q4) ^ 2 * sgn (q1 - q2 - q3 - q4)
      - (q1 + q2 - q3 - q4) ^ 2 * sgn (q1 + q2 - q3 - q4)
      + (q1 - q2 + q3 - q4) ^ 2 * sgn (q1 - q2 + q3 - q4)
      - (q1 + q2 + q3 - q4) ^ 2 * sgn (q1 + q2 + q3 - q4)
      - (q1 - q2 - q3 + q4) ^ 2 * sgn (q1 - q2 - q3 + q4)
      + (q1 + q2 - q3 + q4) ^ 2 * sgn (q1 + q2 - q3 + q4)
      - (q1 - q2 + q3 + q4) ^ 2 * sgn (q1 - q2 + q3 + q4)
      + (q1 + q2 + q3 + q4) ^ 2 * sgn (q1 + q2 + q3 + q4))) / 24

/-- `D2` (111–128). -/
noncomputable def D2 (q1 q2 q3 q4 : ℝ) : ℝ :=
  D2core (ordMax q1 q2) (ordMin q1 q2) (ordMax q3 q4) (ordMin q3 q4)

open Classical in
/-- `D3` after the swaps (148–180). -/
noncomputable def D3core (q1 q2 q3 q4 : ℝ) : ℝ :=
  if q1 > q2 + q3 + q4 ∨ q3 > q2 + q1 + q4 then 0
  else if q1 + q2 ≥ q3 + q4 then
    if q1 + q4 ≥ q2 + q3 then
      (q1 ^ 5 - q2 ^ 5 - q3 ^ 5 - q4 ^ 5
        + 5 * (q1 ^ 2 * q2 ^ 2 * (q2 - q1)
          + q3 ^ 2 * (q2 ^ 3 - q1 ^ 3 + (q2 ^ 2 + q1 ^ 2) * q3)
          + q4 ^ 2 * (q2 ^ 3 - q1 ^ 3 + q3 ^ 3 + (q1 ^ 2 + q2 ^ 2 + q3 ^ 2) * q4))) / 60
    else q4 ^ 3 * (5 * (q1 ^ 2 + q2 ^ 2 + q3 ^ 2) - q4 ^ 2) / 30
  else
    if q1 + q4 ≥ q2 + q3 then q2 ^ 3 * (5 * (q1 ^ 2 + q3 ^ 2 + q4 ^ 2) - q2 ^ 2) / 30
    else
      (q3 ^ 5 - q4 ^ 5 - q1 ^ 5 - q2 ^ 5
        + 5 * (q3 ^ 2 * q4 ^ 2 * (q4 - q3)
          + q1 ^ 2 * (q4 ^ 3 - q3 ^ 3 + (q4 ^ 2 + q3 ^ 2) * q1)
          + q2 ^ 2 * (q4 ^ 3 - q3 ^ 3 + q1 ^ 3 + (q1 ^ 2 + q3 ^ 2 + q4 ^ 2) * q2))) / 60

/-- `D3` (132–181). -/
noncomputable def D3 (q1 q2 q3 q4 : ℝ) : ℝ :=
  D3core (ordMax q1 q2) (ordMin q1 q2) (ordMax q3 q4) (ordMin q3 q4)

open Classical in
/-- `D` (184–212). -/
noncomputable def D (p E m : Fin 4 → ℝ) (K1 K2 : ℝ) (order : Fin 4 → Fin 4) (sides : Fin 4 → ℤ) : ℝ :=
  let i := order 0
  let j := order 1
  let k := order 2
  let l := order 3
  let sisj : ℝ := sides i * sides j
  let sksl : ℝ := sides k * sides l
  let s4 : ℝ := sides i * sides j * sides k * sides l
  let r1 := if K1 ≠ 0 then
      K1 * (E 0 * E 1 * E 2 * E 3 * D1 (p 0) (p 1) (p 2) (p 3) + s4 * D3 (p 0) (p 1) (p 2) (p 3))
      + K1 * (E i * E j * sksl * D2 (p i) (p j) (p k) (p l)
        + E k * E l * sisj * D2 (p k) (p l) (p i) (p j))
    else 0
  let r2 := if K2 ≠ 0 then
      K2 * m i * m j * (E k * E l * D1 (p 0) (p 1) (p 2) (p 3) + sksl * D2 (p i) (p j) (p k) (p l))
    else 0
  r1 + r2

/-- `Db1` (215–229): `std::sort` in descending order of three numbers is written with `max`/`min`. -/
noncomputable def Db1 (q2 q3 q4 : ℝ) : ℝ :=
  let y1 := max q2 (max q3 q4)
  let y3 := min q2 (min q3 q4)
  let y2 := max (min q2 q3) (min (max q2 q3) q4)
  0.5 * (sgn (y1 + y2 - y3) + sgn (y1 - y2 + y3) - sgn (y1 - y2 - y3) - sgn (y1 + y2 + y3))

/-- `Db2` after the swap (237–242). -/
noncomputable def Db2core (q2 q3 q4 : ℝ) : ℝ :=
  0.25 * (-2 * q4 * (2 * (q2 + q3) - |q2 - q3 + q4| - |-q2 + q3 + q4|)
    - 2 * q3 * (2 * q4 + |q2 - q3 + q4| - |-q2 + q3 + q4|)
    + (-q2 + q3 + q4) ^ 2 * sgn (q2 - q3 - q4) - (q2 + q3 - q4) ^ 2 * sgn (q2 + q3 - q4)
    - (q2 - q3 + q4) ^ 2 * sgn (q2 - q3 + q4) + (q2 + q3 + q4) ^ 2 * 1
    + 2 * q3 * q4 * (sgn (q2 - q3 - q4) + sgn (q2 + q3 - q4) + sgn (q2 - q3 + q4) + 1))

/-- `Db2` (232–245). -/
noncomputable def Db2 (q2 q3 q4 : ℝ) : ℝ := Db2core q2 (ordMax q3 q4) (ordMin q3 q4)

open Classical in
/-- `Db` (248–291).  `i * j == 0` tests whether one of the two indices is 0; `i + j` is then the
other one. -/
noncomputable def Db (p E m : Fin 4 → ℝ) (K1 K2 : ℝ) (order : Fin 4 → Fin 4) (sides : Fin 4 → ℤ) :
    ℝ :=
  let i := order 0
  let j := order 1
  let k := order 2
  let l := order 3
  let sisj : ℝ := sides i * sides j
  let sksl : ℝ := sides k * sides l
  let r1 := if K1 ≠ 0 then
      let sub := E 1 * E 2 * E 3 * Db1 (p 1) (p 2) (p 3)
      let sub := if i.val * j.val = 0 then sub + sksl * E (i + j) * Db2 (p (i + j)) (p k) (p l)
        else if k.val * l.val = 0 then sub + sisj * E (k + l) * Db2 (p (k + l)) (p i) (p j)
        else sub
      K1 * sub
    else 0
  let r2 := if K2 ≠ 0 then
      let sub := if i.val * j.val = 0 then
          m (i + j) * (E k * E l * Db1 (p 1) (p 2) (p 3) + sksl * Db2 (p (i + j)) (p k) (p l))
        else if k.val * l.val = 0 then m i * m j * E (k + l) * Db1 (p 1) (p 2) (p 3)
        else 0
      K2 * sub
    else 0
  r1 + r2

end PyBBN
