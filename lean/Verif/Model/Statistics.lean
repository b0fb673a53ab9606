import Mathlib.Analysis.SpecialFunctions.Exp
/-!
# Occupation functions: common/statistics.py
-/
namespace PyBBN

/-- `Fermi` (4–10). -/
noncomputable def Fermi (e : ℝ) (mu : ℝ := 0) : ℝ := 1 / (Real.exp (e - mu) + 1)

/-- `Bose` (13–19); at `e = mu` the code divides by zero (inf), excluded in the theorems. -/
noncomputable def Bose (e : ℝ) (mu : ℝ := 0) : ℝ := 1 / (Real.exp (e - mu) - 1)

end PyBBN
