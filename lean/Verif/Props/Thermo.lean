import Verif.Model.Thermo
import Verif.Lemmas.Quad
import Mathlib.Analysis.SpecialFunctions.ExpDeriv
import Mathlib.Analysis.SpecialFunctions.Pow.Deriv
import Mathlib.Analysis.Calculus.Deriv.Inv
import Mathlib.Analysis.SpecialFunctions.Sqrt
import Mathlib.Tactic.FieldSimp
import Mathlib.Tactic.Positivity
import Mathlib.Tactic.Linarith
/-!
# Thermodynamic relations (C52)
-/
namespace PyBBN

theorem physEnergy_pos (sp : Species) (p : ℝ) (hm : 0 < sp.mass) : 0 < physEnergy sp p := by
  unfold physEnergy
  rw [if_pos hm]
  exact Real.sqrt_pos.mpr (by positivity)

theorem physEnergy_nonneg (sp : Species) (p : ℝ) : 0 ≤ physEnergy sp p := by
  unfold physEnergy
  split_ifs
  · exact Real.sqrt_nonneg _
  · exact abs_nonneg _

theorem physEnergy_sq (sp : Species) (p : ℝ) (hm : 0 ≤ sp.mass) :
    physEnergy sp p ^ 2 = p ^ 2 + sp.mass ^ 2 := by
  unfold physEnergy
  split_ifs with h
  · exact Real.sq_sqrt (by positivity)
  · have : sp.mass = 0 := le_antisymm (not_lt.mp h) hm
    rw [sq_abs, this]; ring

/-- Occupation numbers are non-negative for positive energies. -/
theorem stat_nonneg (sp : Species) (e : ℝ) (he : 0 ≤ e) : 0 ≤ sp.stat e := by
  unfold Species.stat Fermi Bose
  have := Real.one_le_exp he
  split_ifs
  · simp only [sub_zero]
    have := Real.exp_pos e
    positivity
  · simp only [sub_zero]
    exact div_nonneg zero_le_one (by linarith)

/-- **C52 (radiation).** `p = ρ/3`, `s T = ρ + p`, and everything is non-negative. -/
theorem C52_radiation (sp : Species) (T : ℝ) (p : Params) (hT : 0 < T) (hpT : p.T = T)
    (hg : 0 ≤ sp.dof) :
    radPressure sp T = radEnergyDensity sp T / 3 ∧
    radEntropy sp T p * T = radEnergyDensity sp T + radPressure sp T ∧
    0 ≤ radDensity sp T ∧ 0 ≤ radEnergyDensity sp T ∧ 0 ≤ radPressure sp T ∧ 0 ≤ radEntropy sp T p := by
  have hpi := Real.pi_pos
  have h0 : 0 ≤ radEnergyDensity sp T := by
    unfold radEnergyDensity; dsimp only; split_ifs <;> positivity
  refine ⟨by unfold radPressure; ring, ?_, ?_, h0, ?_, ?_⟩
  · unfold radEntropy radPressure; rw [hpT]; field_simp; ring
  · unfold radDensity; dsimp only; split_ifs <;> positivity
  · unfold radPressure; positivity
  · unfold radEntropy; rw [hpT]; positivity

example (p : Params) (h : p.T = 2) : radPressure ⟨"nu", 0, 2, true, true, 0, [], false, 0⟩ 2 =
    radEnergyDensity ⟨"nu", 0, 2, true, true, 0, [], false, 0⟩ 2 / 3 :=
  (C52_radiation ⟨"nu", 0, 2, true, true, 0, [], false, 0⟩ 2 p (by norm_num) h (by norm_num)).1

/-- **C52 (statistics).** At the same temperature and degrees of freedom a fermion has 3/4 of the number
density and 7/8 of the energy density, pressure, entropy and temperature-equation denominator of a boson. -/
theorem C52_fermion_boson (sf sb : Species) (T aT : ℝ) (p : Params) (hf : sf.fermion = true)
    (hb : sb.fermion = false) (hg : sf.dof = sb.dof) :
    radDensity sf T = 3 / 4 * radDensity sb T ∧
    radEnergyDensity sf T = 7 / 8 * radEnergyDensity sb T ∧
    radPressure sf T = 7 / 8 * radPressure sb T ∧
    radEntropy sf T p = 7 / 8 * radEntropy sb T p ∧
    radDenominator sf aT = 7 / 8 * radDenominator sb aT := by
  refine ⟨?_, ?_, ?_, ?_, ?_⟩ <;>
    simp only [radDensity, radEnergyDensity, radPressure, radEntropy, radDenominator, hf, hb, hg,
      if_true, Bool.false_eq_true, if_false] <;> ring

/-- Neutrinos against photons. -/
example (T : ℝ) (p : Params) : radEnergyDensity ⟨"nu", 0, 2, true, true, 0, [], false, 0⟩ T =
    7 / 8 * radEnergyDensity ⟨"photon", 0, 2, false, true, 0, [], false, 0⟩ T :=
  (C52_fermion_boson ⟨"nu", 0, 2, true, true, 0, [], false, 0⟩ ⟨"photon", 0, 2, false, true, 0, [], false, 0⟩ T 1
    p rfl rfl rfl).2.1

/-- **C52 (dust).** `s T = ρ + p` and everything is non-negative; below two thirds of the mass the pressure
does not exceed `ρ/3`. -/
theorem C52_dust (sp : Species) (T : ℝ) (p : Params) (hT : 0 < T) (hpT : p.T = T)
    (hg : 0 ≤ sp.dof) (hm : 0 ≤ sp.mass) :
    dustEntropy sp T p * T = dustEnergyDensity sp T + dustPressure sp T ∧
    0 ≤ dustDensity sp T ∧ 0 ≤ dustEnergyDensity sp T ∧ 0 ≤ dustPressure sp T ∧ 0 ≤ dustEntropy sp T p ∧
    (T ≤ 2 / 3 * sp.mass → dustPressure sp T ≤ dustEnergyDensity sp T / 3) := by
  have h0 : 0 ≤ dustDensity sp T := by
    unfold dustDensity
    have := Real.sqrt_nonneg (sp.mass * T / 2 / Real.pi)
    have := Real.exp_pos (-sp.mass / T)
    positivity
  refine ⟨?_, h0, ?_, ?_, ?_, fun h => ?_⟩
  · unfold dustEntropy dustEnergyDensity dustPressure; rw [hpT]; field_simp; ring
  · unfold dustEnergyDensity; positivity
  · unfold dustPressure; positivity
  · unfold dustEntropy; rw [hpT]; positivity
  · unfold dustPressure dustEnergyDensity
    have : 0 ≤ dustDensity sp T * (2 / 3 * sp.mass - T) := mul_nonneg h0 (by linarith)
    linarith

example (p : Params) (h : p.T = 3) : dustPressure ⟨"mu", 105, 4, true, true, -1, [], false, 0⟩ 3 ≤
    dustEnergyDensity ⟨"mu", 105, 4, true, true, -1, [], false, 0⟩ 3 / 3 :=
  (C52_dust ⟨"mu", 105, 4, true, true, -1, [], false, 0⟩ 3 p (by norm_num) h (by norm_num) (by norm_num)).2.2.2.2.2 (by norm_num)

/-- **C52 (intermediate).** For every quadrature with non-negative weights: everything is non-negative,
`s T = ρ + p` and `p ≤ ρ/3`. -/
theorem C52_intermediate (rule : Rule) (hw : ∀ xw ∈ rule, 0 ≤ xw.2 ∧ -1 ≤ xw.1 ∧ xw.1 ≤ 1)
    (sp : Species) (T : ℝ) (p : Params) (hT : 0 < T) (hpT : p.T = T)
    (hg : 0 ≤ sp.dof) (hm : 0 < sp.mass) :
    intEntropy rule sp T p * T = intEnergyDensity rule sp T + intPressure rule sp T ∧
    0 ≤ intDensity rule sp T ∧ 0 ≤ intPressure rule sp T ∧
    intPressure rule sp T ≤ intEnergyDensity rule sp T / 3 ∧ 0 ≤ intEntropy rule sp T p := by
  have Q := gaussian_posQuad rule hw
  have hpi := Real.pi_pos
  have hE := fun q => physEnergy_pos sp q hm
  have hf : ∀ q, 0 ≤ sp.stat (physEnergy sp q / T) := fun q =>
    stat_nonneg sp _ (div_nonneg (hE q).le hT.le)
  have hb : (0 : ℝ) ≤ 20 * T := by positivity
  have h1 : 0 ≤ intDensity rule sp T := Q.nonneg _ _ _ hb fun q _ _ => by
    have := hf q; positivity
  have h2 : 0 ≤ intPressure rule sp T := Q.nonneg _ _ _ hb fun q _ _ => by
    have := hf q; have := hE q; positivity
  have h3 : intPressure rule sp T ≤ intEnergyDensity rule sp T / 3 := by
    have : intEnergyDensity rule sp T / 3 = gaussian rule (fun q => 1 / 3 *
        (sp.stat (physEnergy sp q / T) * q ^ 2 * physEnergy sp q * sp.dof / 2 / Real.pi ^ 2))
        0 (20 * T) := by
      rw [Q.smul]; unfold intEnergyDensity; ring
    rw [this]
    refine Q.mono _ _ _ _ hb fun q _ _ => ?_
    have e2 := physEnergy_sq sp q hm.le
    have hEq := hE q
    have := hf q
    have key : q ^ 4 / physEnergy sp q ≤ q ^ 2 * physEnergy sp q := by
      rw [div_le_iff₀ hEq, mul_assoc, ← sq, e2]
      have : 0 ≤ q ^ 2 * sp.mass ^ 2 := by positivity
      nlinarith
    have c0 : 0 ≤ sp.stat (physEnergy sp q / T) * sp.dof / 6 / Real.pi ^ 2 := by positivity
    have := mul_le_mul_of_nonneg_left key c0
    calc _ = sp.stat (physEnergy sp q / T) * sp.dof / 6 / Real.pi ^ 2 *
          (q ^ 4 / physEnergy sp q) := by ring
      _ ≤ _ := this
      _ = _ := by ring
  refine ⟨?_, h1, h2, h3, ?_⟩
  · unfold intEntropy; rw [hpT]; field_simp
  · unfold intEntropy
    rw [hpT]
    have : 0 ≤ intEnergyDensity rule sp T := by linarith
    positivity

example (p : Params) (h : p.T = 1) : intPressure [(-1 / 2, 1), (1 / 2, 1)] ⟨"e", 0.511, 4, true, true, -1, [], false, 0⟩ 1 ≤
    intEnergyDensity [(-1 / 2, 1), (1 / 2, 1)] ⟨"e", 0.511, 4, true, true, -1, [], false, 0⟩ 1 / 3 :=
  (C52_intermediate [(-1 / 2, 1), (1 / 2, 1)] (by norm_num) ⟨"e", 0.511, 4, true, true, -1, [], false, 0⟩ 1 p (by norm_num) h
    (by norm_num) (by norm_num)).2.2.2.1

/-- **C52 (massless limit).** For a massless species the integrals give `p = ρ/3` exactly (for any rule
on the interval). -/
theorem C52_intermediate_massless (rule : Rule) (hw : ∀ xw ∈ rule, 0 ≤ xw.2 ∧ -1 ≤ xw.1 ∧ xw.1 ≤ 1)
    (sp : Species) (T : ℝ) (hT : 0 < T) (hm : sp.mass = 0) :
    intPressure rule sp T = intEnergyDensity rule sp T / 3 := by
  have Q := gaussian_posQuad rule hw
  have : intEnergyDensity rule sp T / 3 = gaussian rule (fun q => 1 / 3 *
      (sp.stat (physEnergy sp q / T) * q ^ 2 * physEnergy sp q * sp.dof / 2 / Real.pi ^ 2))
      0 (20 * T) := by
    rw [Q.smul]; unfold intEnergyDensity; ring
  rw [this]
  refine Q.congr _ _ _ _ (by positivity) fun q h0 _ => ?_
  have e : physEnergy sp q = q := by
    unfold physEnergy; rw [if_neg (by rw [hm]; exact lt_irrefl _), abs_of_nonneg h0]
  rw [e]
  rcases eq_or_lt_of_le h0 with h | h
  · rw [← h]; simp
  · field_simp; ring

/-- **C52 (Gibbs relation, radiation).** The entropy density is the temperature derivative of the
pressure. -/
theorem C52_gibbs_radiation (sp : Species) (T : ℝ) (p : Params) (hT : 0 < T) (hpT : p.T = T) :
    HasDerivAt (radPressure sp) (radEntropy sp T p) T := by
  have h4 : HasDerivAt (fun T : ℝ => T ^ 4) (4 * T ^ 3) T := by
    simpa using hasDerivAt_pow 4 T
  have hf : radPressure sp = fun T =>
      (sp.dof * Real.pi ^ 2 / 30 * (if sp.fermion then 7 / 8 else 1) / 3) * T ^ 4 := by
    funext T
    unfold radPressure radEnergyDensity
    dsimp only
    split_ifs <;> ring
  rw [hf]
  refine (h4.const_mul _).congr_deriv ?_
  unfold radEntropy radEnergyDensity
  rw [hpT]
  dsimp only
  split_ifs <;> field_simp <;> ring

/-- **C52 (Gibbs relation, dust).** -/
theorem C52_gibbs_dust (sp : Species) (T : ℝ) (p : Params) (hT : 0 < T) (hpT : p.T = T)
    (hm : 0 < sp.mass) : HasDerivAt (dustPressure sp) (dustEntropy sp T p) T := by
  have hpi := Real.pi_pos
  have hc : 0 < sp.mass * T / 2 / Real.pi := by positivity
  have d1 : HasDerivAt (fun T : ℝ => sp.mass * T / 2 / Real.pi) (sp.mass / 2 / Real.pi) T := by
    have := (((hasDerivAt_id T).const_mul sp.mass).div_const 2).div_const Real.pi
    simpa using this
  have d2 := (d1.sqrt hc.ne').pow 3
  have d3 : HasDerivAt (fun T : ℝ => -sp.mass / T) (sp.mass / T ^ 2) T := by
    have := (hasDerivAt_const T (-sp.mass)).fun_div (hasDerivAt_id T) hT.ne'
    refine this.congr_deriv ?_
    simp
  have d4 := ((d2.const_mul sp.dof).mul d3.exp).mul (hasDerivAt_id T)
  have hf : dustPressure sp = fun T => sp.dof * √(sp.mass * T / 2 / Real.pi) ^ 3 *
      Real.exp (-sp.mass / T) * T := by
    funext T; unfold dustPressure dustDensity; rfl
  rw [hf]
  refine HasDerivAt.congr_deriv d4 ?_
  unfold dustEntropy dustDensity
  rw [hpT]
  have hs := Real.sq_sqrt hc.le
  have hs0 : √(sp.mass * T / 2 / Real.pi) ≠ 0 := (Real.sqrt_pos.mpr hc).ne'
  simp only [Pi.mul_apply, Pi.pow_apply, id]
  set s := √(sp.mass * T / 2 / Real.pi) with hsdef
  have hm' : sp.mass = s ^ 2 * 2 * Real.pi / T := by rw [hs]; field_simp
  have e : sp.mass / 2 / Real.pi / (2 * s) = s / (2 * T) := by
    rw [hm']; field_simp
  rw [e]
  generalize Real.exp (-sp.mass / T) = E
  field_simp
  ring

/-- Non-trivial instances: a photon-like boson, an electron-like fermion. -/
example : ∃ sp : Species, 0 < sp.dof ∧ 0 < sp.mass ∧ sp.fermion = true :=
  ⟨⟨"e", 0.511, 4, true, true, -1, [], false, 1⟩, by norm_num, by norm_num, rfl⟩

example : ∃ rule : Rule, rule ≠ [] ∧ ∀ xw ∈ rule, 0 ≤ xw.2 ∧ -1 ≤ xw.1 ∧ xw.1 ≤ 1 :=
  ⟨[(-1 / 2, 1), (1 / 2, 1)], by simp, by
    intro xw h
    simp only [List.mem_cons, List.not_mem_nil, or_false] at h
    rcases h with rfl | rfl <;> norm_num⟩

end PyBBN
