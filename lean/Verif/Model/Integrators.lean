import Verif.Model.Py
import Mathlib.Data.Real.Basic
/-!
# ODE steps and quadrature: common/integrators/__init__.py

Arrays act component-wise, so one component (a real) is modelled; Python lists of past slopes are
lists.  `numpy.dot(values, weights)` is the sum of products.
-/
namespace PyBBN

/-- `euler_correction` (11–31). -/
noncomputable def eulerCorrection (y t : ℝ) (f : ℝ → ℝ → ℝ) (h : ℝ) : ℝ := h * f t y

/-- `heun_correction` (34–48). -/
noncomputable def heunCorrection (y t : ℝ) (f : ℝ → ℝ → ℝ) (h : ℝ) : ℝ :=
  let eulerY := eulerCorrection y t f h
  let heunY := eulerCorrection (y + eulerY) (t + h) f h
  (eulerY + heunY) / 2

/-- `implicit_euler` (51–68). The quotient is the real one; `1 - B h = 0` is excluded in the
theorems. -/
noncomputable def implicitEuler (y A B h : ℝ) : ℝ := (y + A * h) / (1 - B * h)

/-- `ADAMS_BASHFORTH_COEFFICIENTS` (71–77). -/
noncomputable def abCoefficients : ℕ → Option (List ℝ × ℝ)
  | 1 => some ([1], 1)
  | 2 => some ([-1, 3], 2)
  | 3 => some ([5, -16, 23], 12)
  | 4 => some ([-9, 37, -59, 55], 24)
  | 5 => some ([251, -1274, 2616, -2774, 1901], 720)
  | _ => none

/-- `MAX_ADAMS_BASHFORTH_ORDER` (78). -/
def maxAB : ℕ := 5

/-- `sum(b * f for b, f in zip(bs, fs))` (89, 111). -/
noncomputable def dotZip (bs fs : List ℝ) : ℝ := (List.zipWith (· * ·) bs fs).sum

/-- `adams_bashforth_correction` (81–89). -/
noncomputable def adamsBashforth (fs : List ℝ) (h : ℝ) (order : Option ℕ) : Except Err ℝ :=
  let order := match order with
    | none => min maxAB fs.length
    | some k => k
  match abCoefficients order with
  | none => .error .keyError
  | some (bs, divider) =>
    let fs := pyLast fs order
    if fs.length = order then .ok (h * dotZip bs fs / divider)
    else .error .assertionError

/-- `ADAMS_MOULTON_COEFFICIENTS` (92–98). -/
noncomputable def amCoefficients : ℕ → Option (List ℝ × ℝ)
  | 1 => some ([1], 1)
  | 2 => some ([1, 1], 2)
  | 3 => some ([-1, 8, 5], 12)
  | 4 => some ([1, -5, 19, 9], 24)
  | 5 => some ([-19, 106, -264, 646, 251], 720)
  | _ => none

/-- `MAX_ADAMS_MOULTON_ORDER` (99). -/
def maxAM : ℕ := 5

/-- `adams_moulton_solver` (102–112). `fs[-(order-1):]` is `pyLast`, which for `order = 1` is the
whole list.  `bs[-1]` is the last coefficient.  A vanishing denominator (Python: division by zero)
is excluded in the theorems. -/
noncomputable def adamsMoulton (y : ℝ) (fs : List ℝ) (A B h : ℝ) (order : Option ℕ) :
    Except Err ℝ :=
  let order := match order with
    | none => min maxAM (fs.length + 1)
    | some k => k
  match amCoefficients order with
  | none => .error .keyError
  | some (bs, divider) =>
    let fs := pyLast fs (order - 1) ++ [A]
    if fs.length = order then
      .ok ((y + h * dotZip bs fs / divider) / (1 - h * B * bs.getLastD 0 / divider))
    else .error .assertionError

/-- A quadrature rule on `[-1, 1]`: the pairs (node, weight) of `gauss_legendre.points`,
`gauss_legendre.weights` (gauss_legendre.py 6–9).  `leggauss` itself is not modelled. -/
abbrev Rule := List (ℝ × ℝ)

/-- `gaussian` (142–150). -/
noncomputable def gaussian (rule : Rule) (f : ℝ → ℝ) (a b : ℝ) : ℝ :=
  let sub := (b - a) / 2
  let add := (b + a) / 2
  if sub = 0 then 0
  else sub * (rule.map fun xw => f (sub * xw.1 + add) * xw.2).sum

/-- `remap_interval` (153–166). -/
noncomputable def remapInterval (f : ℝ → ℝ → ℝ) (x y a b : ℝ) (g h : ℝ → ℝ) : ℝ :=
  let subX := (b - a) / 2
  let addX := (b + a) / 2
  let normX := subX * x + addX
  let hX := h normX
  let gX := g normX
  let subY := (hX - gX) / 2
  let addY := (hX + gX) / 2
  let normY := subY * y + addY
  subX * subY * f normX normY

/-- `double_gaussian` (169–176).  `numpy.meshgrid` (gauss_legendre.py 9) has `x[i][j] = points[j]`,
`y[i][j] = points[i]`, so row `i` of the mesh is dotted with the weights over `j`, then over `i`. -/
noncomputable def doubleGaussian (rule : Rule) (f : ℝ → ℝ → ℝ) (a b : ℝ) (g h : ℝ → ℝ) : ℝ :=
  (rule.map fun yw => yw.2 *
    (rule.map fun xw => remapInterval f xw.1 yw.1 a b g h * xw.2).sum).sum

/-- `integrate_1D` (115–128), value only; `quad` is the external adaptive integrator, used when
FIXED_ORDER_1D_QUADRATURE is off. -/
noncomputable def integrate1D (rule : Rule) (quad : (ℝ → ℝ) → ℝ → ℝ → ℝ) (fixedOrder : Bool)
    (f : ℝ → ℝ) (bounds : ℝ × ℝ) : ℝ :=
  if !fixedOrder then quad f bounds.1 bounds.2 else gaussian rule f bounds.1 bounds.2

end PyBBN
