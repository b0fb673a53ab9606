import Verif.Model.Orthopoly
/-!
# Recursion coefficients from modified moments (common/orthopoly.py 340–388)
-/
namespace PyBBN

/-- State of the loop of `mod_chebyshev` (377–384) before the pass `n`: the arrays `alpha`, `beta`, the entries
`sig[k + 1, k]` which `np.diagonal(sig, -1)` collects (386), and the rows `sig[n - 2]` and `sig[n - 1]`, the only ones which the
pass reads.  Arrays are functions which are zero where nothing has been written. -/
structure ChebState where
  alpha : ℕ → ℝ
  beta : ℕ → ℝ
  normsq : ℕ → ℝ
  prev : ℕ → ℝ
  cur : ℕ → ℝ

/-- Lines 372–375. -/
noncomputable def chebInit (mom am : ℕ → ℝ) : ChebState where
  alpha := Function.update 0 0 (am 0 + mom 1 / mom 0)
  beta := Function.update 0 0 (mom 0)
  normsq := Function.update 0 0 (mom 0)
  prev := 0
  cur := mom

/-- The row `sig[n]` (378–380): columns `n - 1` to `2N - n`, the rest zero. -/
noncomputable def chebRow (N : ℕ) (am bm : ℕ → ℝ) (n : ℕ) (s : ChebState) (m : ℕ) : ℝ :=
  if n - 1 ≤ m ∧ m < 2 * N - n + 1 then
    s.cur (m + 1) - (s.alpha (n - 2) - am m) * s.cur m - s.beta (n - 2) * s.prev m + bm m * s.cur (m - 1)
  else 0

/-- One pass (378–384). -/
noncomputable def chebStep (N : ℕ) (am bm : ℕ → ℝ) (s : ChebState) (n : ℕ) : ChebState where
  alpha := Function.update s.alpha (n - 1)
    (am (n - 1) + chebRow N am bm n s n / chebRow N am bm n s (n - 1) - s.cur (n - 1) / s.cur (n - 2))
  beta := Function.update s.beta (n - 1) (chebRow N am bm n s (n - 1) / s.cur (n - 2))
  normsq := Function.update s.normsq (n - 1) (chebRow N am bm n s (n - 1))
  prev := s.cur
  cur := chebRow N am bm n s

/-- `mod_chebyshev(N, mom, alpham, betam)` (340–388) for an integer `N`.  With fewer than two moments `mom[1]` raises
`IndexError`, as does `alpham[0]` for an empty array (372); `sig[1, :] = mom` raises `ValueError` unless there are exactly
`2 * min(N, len(mom) // 2)` moments (365, 370, 375); the passes read `alpham` and `betam` up to `2N - 2` (379–380). Division by zero,
which gives `inf` or `nan`, is that of the real numbers of Lean. -/
noncomputable def modChebyshev (N : ℤ) (mom alpham betam : List ℝ) : Except Err (List ℝ × List ℝ × List ℝ) :=
  if N < 1 then .error .valueError
  else
    let n := min N.toNat (mom.length / 2)
    if n = 0 ∨ alpham = [] then .error .indexError
    else if mom.length ≠ 2 * n then .error .valueError
    else if 2 ≤ n ∧ (alpham.length < 2 * n - 1 ∨ betam.length < 2 * n - 1) then .error .indexError
    else
      let s := (List.range' 2 (n - 1)).foldl (chebStep n (arrayAt alpham) (arrayAt betam))
        (chebInit (arrayAt mom) (arrayAt alpham))
      .ok ((List.range n).map s.alpha, (List.range n).map s.beta, (List.range n).map s.normsq)

end PyBBN
