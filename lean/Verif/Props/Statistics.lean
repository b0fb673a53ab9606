import Verif.Model.Statistics
import Mathlib.Analysis.SpecialFunctions.Log.Basic
import Mathlib.Tactic.FieldSimp
import Mathlib.Tactic.Ring
import Mathlib.Tactic.Linarith
import Mathlib.Tactic.Positivity
/-!
# C56: equilibrium occupation functions
-/
namespace PyBBN

/-- **C56.** Fermi occupation lies strictly between 0 and 1. -/
theorem C56_fermi_bounds (e mu : ℝ) : 0 < Fermi e mu ∧ Fermi e mu < 1 := by
  have := Real.exp_pos (e - mu)
  unfold Fermi
  constructor
  · positivity
  · rw [div_lt_one (by positivity)]; linarith

/-- **C56.** Fermi occupation is strictly decreasing in energy and strictly increasing in the chemical
potential. -/
theorem C56_fermi_monotone (e e' mu mu' : ℝ) :
    (e < e' → Fermi e' mu < Fermi e mu) ∧ (mu < mu' → Fermi e mu < Fermi e mu') := by
  have key : ∀ a b : ℝ, a < b → 1 / (Real.exp b + 1) < 1 / (Real.exp a + 1) := by
    intro a b h
    have h1 := Real.exp_lt_exp.mpr h
    have h2 := Real.exp_pos a
    apply one_div_lt_one_div_of_lt <;> linarith
  exact ⟨fun h => key _ _ (by linarith), fun h => key _ _ (by linarith)⟩

/-- **C56.** Particle–hole symmetry about the chemical potential, and half filling there. -/
theorem C56_fermi_symmetric (d mu : ℝ) :
    Fermi (mu - d) mu = 1 - Fermi (mu + d) mu ∧ Fermi mu mu = 1 / 2 := by
  have h := Real.exp_pos d
  unfold Fermi
  constructor
  · rw [show mu - d - mu = -d by ring, show mu + d - mu = d by ring, Real.exp_neg]
    field_simp; ring
  · rw [sub_self, Real.exp_zero]; norm_num

/-- **C56.** Above the chemical potential the Bose occupation is positive, strictly decreasing and
larger than the Fermi one; below it, it is negative (no occupation number). -/
theorem C56_bose (e e' mu : ℝ) :
    (mu < e → 0 < Bose e mu) ∧ (mu < e → e < e' → Bose e' mu < Bose e mu) ∧
    (mu < e → Fermi e mu < Bose e mu) ∧ (e < mu → Bose e mu < 0) := by
  have hpos : ∀ x, mu < x → 0 < Real.exp (x - mu) - 1 := by
    intro x hx
    have := Real.add_one_lt_exp (x := x - mu) (by linarith)
    linarith
  refine ⟨fun h => ?_, fun h h' => ?_, fun h => ?_, fun h => ?_⟩
  · have := hpos e h; unfold Bose; positivity
  · have h1 := hpos e h
    have h2 := Real.exp_lt_exp.mpr (by linarith : e - mu < e' - mu)
    unfold Bose
    apply one_div_lt_one_div_of_lt <;> linarith
  · have h1 := hpos e h
    unfold Bose Fermi
    apply one_div_lt_one_div_of_lt <;> linarith
  · unfold Bose
    apply one_div_neg.mpr
    have := Real.exp_lt_one_iff.mpr (by linarith : e - mu < 0)
    linarith

/-- **C56.** Detailed-balance ratios: `(1 - f)/f = (1 + b)/b = exp(e - mu)`. -/
theorem C56_ratios (e mu : ℝ) (h : mu < e) :
    (1 - Fermi e mu) / Fermi e mu = Real.exp (e - mu) ∧
    (1 + Bose e mu) / Bose e mu = Real.exp (e - mu) := by
  have h0 := Real.exp_pos (e - mu)
  have h1 : Real.exp (e - mu) - 1 ≠ 0 := by
    have := Real.add_one_lt_exp (x := e - mu) (by linarith)
    linarith
  unfold Fermi Bose
  constructor
  · field_simp; ring
  · field_simp; ring

/-- The classical (Boltzmann) limit: both occupations lie within the factor `1 ± exp(-(e-mu))` of
`exp(-(e-mu))`. -/
theorem C56_boltzmann_limit (e mu : ℝ) (h : mu < e) :
    Fermi e mu ≤ Real.exp (-(e - mu)) ∧ Real.exp (-(e - mu)) ≤ Bose e mu ∧
    Real.exp (-(e - mu)) * (1 - Real.exp (-(e - mu))) ≤ Fermi e mu := by
  have h0 := Real.exp_pos (e - mu)
  have h1 : 0 < Real.exp (e - mu) - 1 := by
    have := Real.add_one_lt_exp (x := e - mu) (by linarith)
    linarith
  unfold Fermi Bose
  rw [Real.exp_neg]
  refine ⟨?_, ?_, ?_⟩
  · rw [← one_div]; apply one_div_le_one_div_of_le <;> linarith
  · rw [← one_div]; apply one_div_le_one_div_of_le <;> linarith
  · rw [le_div_iff₀ (by positivity)]
    field_simp
    nlinarith [sq_nonneg (Real.exp (e - mu))]

example : Fermi 3 1 < Bose 3 1 := (C56_bose 3 4 1).2.2.1 (by norm_num)

end PyBBN
