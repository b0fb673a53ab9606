import Verif.Model.Py
import Verif.Model.Integrators
import Mathlib.Data.Matrix.Mul
import Mathlib.Analysis.SpecialFunctions.Gamma.Basic
import Mathlib.Analysis.SpecialFunctions.Pow.Real
/-!
# Quadrature rules from recursion coefficients (common/orthopoly.py)

`gauss`, `radau`, `lobatto`, `rec_jacobi`, `rec_jacobi01`.  One-dimensional numpy arrays are lists, a rule
is the list of pairs of nodes and weights.  `mod_chebyshev` is in Model/Chebyshev.lean.  Not modelled: `polyval`, `jacobi`
(for orders above 1), `jacobiD`, `mm_log` and `rec_jaclog`, the first two of which use `xrange` and `mm_log` `reduce`, which do not exist in the
version of Python named in the Makefile (2).
-/
namespace PyBBN

/-- The symmetric tridiagonal matrix handed to `eig_banded` (`lower=False`) as the rows `sqrt(beta)` and
`alpha` (orthopoly.py 56–57): entry `(j - 1, j)` is `sqrt(beta[j])`, `beta[0]` is not used. -/
noncomputable def jacobiMatrix (n : ℕ) (alpha beta : ℕ → ℝ) : Matrix (Fin n) (Fin n) ℝ := fun i j =>
  if i.val = j.val then alpha i.val
  else if i.val + 1 = j.val then √(beta j.val)
  else if j.val + 1 = i.val then √(beta i.val)
  else 0

/-- `scipy.linalg.eig_banded`: eigenvalues and the matrix of eigenvectors. -/
abbrev EigBanded := (n : ℕ) → Matrix (Fin n) (Fin n) ℝ → (Fin n → ℝ) × Matrix (Fin n) (Fin n) ℝ

/-- `scipy.linalg.solve_banded` and `solve`: `none` for a singular matrix (`LinAlgError`). -/
abbrev LinSolve := (n : ℕ) → Matrix (Fin n) (Fin n) ℝ → (Fin n → ℝ) → Option (Fin n → ℝ)

/-- Entry of an array, for use at positions below its length. -/
def arrayAt (l : List ℝ) (k : ℕ) : ℝ := l.getD k 0

/-- `gauss(alpha, beta)` (orthopoly.py 37–59).  `vstack` raises `ValueError` for arrays of different
lengths; for empty ones `beta[0]` fails. -/
noncomputable def gauss (eig : EigBanded) (alpha : List ℝ) : List ℝ → Except Err Rule
  | [] => if alpha = [] then .error .indexError else .error .valueError
  | b0 :: bs =>
    if alpha.length = bs.length + 1 then
      let r := eig (bs.length + 1) (jacobiMatrix (bs.length + 1) (arrayAt alpha) (arrayAt (b0 :: bs)))
      .ok (List.ofFn fun i => (r.1 i, b0 * r.2 0 i ^ 2))
    else .error .valueError

/-- `l[-1] = v` in place. -/
def setLast (l : List ℝ) (v : ℝ) : List ℝ := l.set (l.length - 1) v

/-- The unit vector `(0, .., 0, 1)` times `c` (`f[-1] = c` on `zeros(n)`; 81–82, 113–114). -/
def lastVector (n : ℕ) (c : ℝ) : Fin n → ℝ := fun i => if i.val + 1 = n then c else 0

/-- `radau(alpha, beta, xr)` (62–89): the arrays as the call leaves them (`alphar = alpha` is the same
array, 86–87), and the rule.  Arrays of different lengths raise in `vstack` (83), `zeros(-1)` raises
`ValueError`, `f[-1]` on `zeros(0)` `IndexError`; `LinAlgError` is `generic`. -/
noncomputable def radau (eig : EigBanded) (solve : LinSolve) (alpha beta : List ℝ) (xr : ℝ) :
    Except Err ((List ℝ × List ℝ) × Rule) :=
  match alpha.length with
  | 0 => .error .valueError
  | 1 => .error .indexError
  | n + 2 =>
    if beta.length = n + 2 then
      match solve (n + 1) (jacobiMatrix (n + 1) (fun k => arrayAt alpha k - xr) (arrayAt beta))
          (lastVector (n + 1) (arrayAt beta (n + 1))) with
      | none => .error .generic
      | some delta =>
        let alphar := setLast alpha (xr + delta (Fin.last n))
        match gauss eig alphar beta with
        | .error e => .error e
        | .ok rule => .ok ((alphar, beta), rule)
    else .error .valueError

/-- `lobatto(alpha, beta, xl1, xl2)` (92–130), as `radau`; the 2×2 system is solved by `solve` (121–123). -/
noncomputable def lobatto (eig : EigBanded) (solve : LinSolve) (alpha beta : List ℝ) (xl1 xl2 : ℝ) :
    Except Err ((List ℝ × List ℝ) × Rule) :=
  match alpha.length with
  | 0 => .error .valueError
  | 1 => .error .indexError
  | n + 2 =>
    if beta.length = n + 2 then
      match solve (n + 1) (jacobiMatrix (n + 1) (fun k => arrayAt alpha k - xl1) (arrayAt beta)) (lastVector (n + 1) 1),
          solve (n + 1) (jacobiMatrix (n + 1) (fun k => arrayAt alpha k - xl2) (arrayAt beta)) (lastVector (n + 1) 1) with
      | some g1, some g2 =>
        match solve 2 !![1, -g1 (Fin.last n); 1, -g2 (Fin.last n)] ![xl1, xl2] with
        | none => .error .generic
        | some ab =>
          let alphal := setLast alpha (ab 0)
          let betal := setLast beta (ab 1)
          match gauss eig alphal betal with
          | .error e => .error e
          | .ok rule => .ok ((alphal, betal), rule)
      | _, _ => .error .generic
    else .error .valueError

/-- What `rec_jacobi` returns: two numbers for `N == 1` (160–162), else two arrays. -/
inductive RecCoeffs
  | numbers (alpha beta : ℝ)
  | arrays (alpha beta : List ℝ)

/-- First coefficients (157–158). -/
noncomputable def jacobiNu (a b : ℝ) : ℝ := (b - a) / (a + b + 2)
noncomputable def jacobiMu (a b : ℝ) : ℝ :=
  (2 : ℝ) ^ (a + b + 1) * Real.Gamma (a + 1) * Real.Gamma (b + 1) / Real.Gamma (a + b + 2)

/-- `alpha[n]` for `n ≥ 1` (164–166), `beta[1]` (169), `beta[n]` for `n ≥ 2` (167–171). -/
noncomputable def jacobiAlpha (a b n : ℝ) : ℝ := (b ^ 2 - a ^ 2) / ((2 * n + a + b) * (2 * n + a + b + 2))
noncomputable def jacobiB1 (a b : ℝ) : ℝ := 4 * (a + 1) * (b + 1) / ((a + b + 2) ^ 2 * (a + b + 3))
noncomputable def jacobiB (a b n : ℝ) : ℝ :=
  4 * (n + a) * (n + b) * n * (n + a + b) / ((2 * n + a + b) ^ 2 * (2 * n + a + b + 1) * (2 * n + a + b - 1))

/-- `rec_jacobi(N, a, b)` (133–173); `arange(1.0, N)` is empty for `N ≤ 1`. -/
noncomputable def recJacobi (N : ℤ) (a b : ℝ) : RecCoeffs :=
  if N = 1 then .numbers (jacobiNu a b) (jacobiMu a b)
  else
    let n := (List.range (N.toNat - 1)).map fun k => ((k + 1 : ℕ) : ℝ)
    .arrays (jacobiNu a b :: n.map (jacobiAlpha a b)) (jacobiMu a b :: jacobiB1 a b :: n.tail.map (jacobiB a b))

open Classical in
/-- `rec_jacobi01(N, a, b)` (177–214); for `N == 1`, `d[0]` on a number raises `IndexError`. -/
noncomputable def recJacobi01 (N : ℤ) (a b : ℝ) : Except Err (List ℝ × List ℝ) :=
  if a ≤ -1 ∨ b ≤ -1 then .error .valueError
  else if N < 1 then .error .valueError
  else
    match recJacobi N a b with
    | .numbers _ _ => .error .indexError
    | .arrays c d =>
      .ok (c.map fun v => (1 + v) / 2,
        match d.map fun v => v / 4 with
        | [] => []
        | _ :: t => d.headD 0 / (2 : ℝ) ^ (a + b + 1) :: t)

end PyBBN
