import Verif.Props.Thermo
import Verif.Lemmas.Planck
import Mathlib.MeasureTheory.Function.JacobianOneDim
/-!
# Closed formulas and quadrature branches against the momentum integrals (C72, C75)

The specification is the integral over all momenta of the occupation number.
-/
namespace PyBBN

open MeasureTheory Set

theorem planck_scaled (sp : Species) (T : ℝ) (k : ℕ) (hk : 1 ≤ k) (hT : 0 < T) :
    ∫ p in Ioi (0 : ℝ), sp.stat (p / T) * p ^ k =
      T ^ (k + 1) * ((if sp.fermion then 1 - 1 / 2 ^ k else 1) * (k.factorial * zetaSum k)) := by
  have h := integral_comp_mul_left_Ioi (fun p : ℝ => sp.stat (p / T) * p ^ k) 0 (b := T) hT
  rw [mul_zero] at h
  have h' : ∫ p in Ioi (0 : ℝ), sp.stat (p / T) * p ^ k =
      T * ∫ u in Ioi (0 : ℝ), sp.stat (T * u / T) * (T * u) ^ k := by
    rw [h, smul_eq_mul, ← mul_assoc, mul_inv_cancel₀ hT.ne', one_mul]
  rw [h']
  have e : ∫ u in Ioi (0 : ℝ), sp.stat (T * u / T) * (T * u) ^ k =
      T ^ k * ∫ u in Ioi (0 : ℝ), u ^ k * sp.stat u := by
    rw [← integral_const_mul]
    refine setIntegral_congr_fun measurableSet_Ioi fun u _ => ?_
    rw [mul_div_cancel_left₀ _ hT.ne', mul_pow]; ring
  rw [e]
  have f : ∫ u in Ioi (0 : ℝ), u ^ k * sp.stat u =
      (if sp.fermion then 1 - 1 / 2 ^ k else 1) * (k.factorial * zetaSum k) := by
    unfold Species.stat Fermi Bose
    cases sp.fermion
    · simp only [Bool.false_eq_true, if_false, sub_zero, one_mul]
      exact bose_integral k hk
    · simp only [if_true, sub_zero]
      exact fermi_integral k hk
  rw [f]; ring

theorem physEnergy_massless (sp : Species) (p : ℝ) (hm : sp.mass = 0) (hp : 0 ≤ p) :
    physEnergy sp p = p := by
  unfold physEnergy
  rw [if_neg (by rw [hm]; exact lt_irrefl _), abs_of_nonneg hp]

/-- **C75 (energy).** For massless species the radiation formulas are exactly the integrals over all
momenta of the integrands used in the intermediate regime. -/
theorem C75_energy (sp : Species) (T : ℝ) (hT : 0 < T) (hm : sp.mass = 0) :
    (∫ p in Ioi (0 : ℝ), sp.stat (physEnergy sp p / T) * p ^ 2 * physEnergy sp p
      * sp.dof / 2 / Real.pi ^ 2) = radEnergyDensity sp T ∧
    (∫ p in Ioi (0 : ℝ), sp.stat (physEnergy sp p / T) * p ^ 4 / physEnergy sp p
      * sp.dof / 6 / Real.pi ^ 2) = radPressure sp T := by
  have hpi := Real.pi_pos
  have h := planck_scaled sp T 3 (by norm_num) hT
  have h1 : (∫ p in Ioi (0 : ℝ), sp.stat (physEnergy sp p / T) * p ^ 2 * physEnergy sp p
      * sp.dof / 2 / Real.pi ^ 2) = sp.dof / 2 / Real.pi ^ 2 * ∫ p in Ioi (0 : ℝ), sp.stat (p / T) * p ^ 3 := by
    rw [← integral_const_mul]
    refine setIntegral_congr_fun measurableSet_Ioi fun p hp => ?_
    rw [mem_Ioi] at hp
    simp only [physEnergy_massless sp p hm hp.le]
    ring
  have h2 : (∫ p in Ioi (0 : ℝ), sp.stat (physEnergy sp p / T) * p ^ 4 / physEnergy sp p
      * sp.dof / 6 / Real.pi ^ 2) = sp.dof / 6 / Real.pi ^ 2 * ∫ p in Ioi (0 : ℝ), sp.stat (p / T) * p ^ 3 := by
    rw [← integral_const_mul]
    refine setIntegral_congr_fun measurableSet_Ioi fun p hp => ?_
    rw [mem_Ioi] at hp
    simp only [physEnergy_massless sp p hm hp.le]
    field_simp
  rw [h1, h2, h, zetaSum_three]
  unfold radPressure radEnergyDensity
  simp only [show Nat.factorial 3 = 6 from rfl]
  constructor <;> split_ifs <;> push_cast <;> field_simp <;> norm_num <;> ring

/-- **C75 (number).** The radiation number density uses 1.2 for `ζ(3)`: it is always too small, by less
than 0.25 %. -/
theorem C75_number (sp : Species) (T : ℝ) (hT : 0 < T) (hm : sp.mass = 0) (hg : 0 < sp.dof) :
    radDensity sp T < (∫ p in Ioi (0 : ℝ), sp.stat (physEnergy sp p / T) * p ^ 2
      * sp.dof / 2 / Real.pi ^ 2) ∧
    (∫ p in Ioi (0 : ℝ), sp.stat (physEnergy sp p / T) * p ^ 2
      * sp.dof / 2 / Real.pi ^ 2) < 1.0025 * radDensity sp T := by
  have hpi := Real.pi_pos
  have h := planck_scaled sp T 2 (by norm_num) hT
  have h1 : (∫ p in Ioi (0 : ℝ), sp.stat (physEnergy sp p / T) * p ^ 2
      * sp.dof / 2 / Real.pi ^ 2) = sp.dof / 2 / Real.pi ^ 2 * ∫ p in Ioi (0 : ℝ), sp.stat (p / T) * p ^ 2 := by
    rw [← integral_const_mul]
    refine setIntegral_congr_fun measurableSet_Ioi fun p hp => ?_
    rw [mem_Ioi] at hp
    simp only [physEnergy_massless sp p hm hp.le]
    ring
  obtain ⟨z1, z2⟩ := zetaSum_two_bounds
  have e : sp.dof / 2 / Real.pi ^ 2 * (T ^ (2 + 1) *
      ((if sp.fermion then 1 - 1 / 2 ^ 2 else 1) * ((Nat.factorial 2 : ℕ) * zetaSum 2))) =
      zetaSum 2 * (sp.dof / Real.pi ^ 2 * T ^ 3 * (if sp.fermion then 3 / 4 else 1)) := by
    simp only [show Nat.factorial 2 = 2 from rfl]
    push_cast
    split_ifs <;> field_simp <;> norm_num
  have e2 : radDensity sp T = 1.2 * (sp.dof / Real.pi ^ 2 * T ^ 3 * (if sp.fermion then 3 / 4 else 1)) := by
    unfold radDensity
    dsimp only
    split_ifs <;> ring
  have hc : 0 < sp.dof / Real.pi ^ 2 * T ^ 3 * (if sp.fermion then 3 / 4 else 1) := by
    split_ifs <;> positivity
  rw [h1, h, e, e2]
  generalize sp.dof / Real.pi ^ 2 * T ^ 3 * (if sp.fermion then 3 / 4 else 1) = c at hc
  constructor
  · exact mul_lt_mul_of_pos_right z1 hc
  · rw [← mul_assoc]
    exact mul_lt_mul_of_pos_right (by linarith) hc

example : ∃ sp : Species, sp.mass = 0 ∧ 0 < sp.dof :=
  ⟨⟨"photon", 0, 2, false, true, 0, [], false, 1⟩, rfl, by norm_num⟩

/-! ## C72 -/

/-- Momentum (in units of `aT`) as a function of the kinetic energy over temperature `ε`. -/
noncomputable def momentumOf (aT mat e : ℝ) : ℝ := aT * √(e * (e + 2 * mat))

theorem momentumOf_deriv (aT mat e : ℝ) (he : 0 < e) (hmat : 0 ≤ mat) :
    HasDerivAt (momentumOf aT mat) (aT * ((e + mat) / √(e * (e + 2 * mat)))) e := by
  have hpos : 0 < e * (e + 2 * mat) := by positivity
  have d := ((hasDerivAt_id e).mul ((hasDerivAt_id e).add_const (2 * mat)))
  have d2 := (HasDerivAt.sqrt d hpos.ne').const_mul aT
  refine HasDerivAt.congr_deriv d2 ?_
  simp only [id, Pi.mul_apply, one_mul, mul_one]
  have : √(e * (e + 2 * mat)) ≠ 0 := (Real.sqrt_pos.mpr hpos).ne'
  field_simp
  ring

theorem momentumOf_image (aT mat : ℝ) (haT : 0 < aT) (hmat : 0 ≤ mat) :
    momentumOf aT mat '' Ioi 0 = Ioi 0 := by
  ext y
  constructor
  · rintro ⟨e, he, rfl⟩
    rw [mem_Ioi] at he ⊢
    unfold momentumOf
    exact mul_pos haT (Real.sqrt_pos.mpr (by positivity))
  · intro hy
    rw [mem_Ioi] at hy
    have hs : mat < √(mat ^ 2 + (y / aT) ^ 2) := by
      refine Real.lt_sqrt_of_sq_lt ?_
      have : 0 < (y / aT) ^ 2 := by positivity
      linarith
    refine ⟨√(mat ^ 2 + (y / aT) ^ 2) - mat, by rw [mem_Ioi]; linarith, ?_⟩
    unfold momentumOf
    have hsq := Real.sq_sqrt (show 0 ≤ mat ^ 2 + (y / aT) ^ 2 by positivity)
    have : (√(mat ^ 2 + (y / aT) ^ 2) - mat) * (√(mat ^ 2 + (y / aT) ^ 2) - mat + 2 * mat) =
        (y / aT) ^ 2 := by
      have : (√(mat ^ 2 + (y / aT) ^ 2) - mat) * (√(mat ^ 2 + (y / aT) ^ 2) - mat + 2 * mat) =
        √(mat ^ 2 + (y / aT) ^ 2) ^ 2 - mat ^ 2 := by ring
      rw [this, hsq]; ring
    rw [this, Real.sqrt_sq (by positivity)]
    field_simp

theorem momentumOf_inj (aT mat : ℝ) (haT : 0 < aT) (hmat : 0 ≤ mat) :
    InjOn (momentumOf aT mat) (Ioi 0) := by
  intro a ha b hb h
  rw [mem_Ioi] at ha hb
  unfold momentumOf at h
  have h1 := mul_left_cancel₀ haT.ne' h
  have h2 := (Real.sqrt_inj (by positivity) (by positivity)).mp h1
  have : (a - b) * (a + b + 2 * mat) = 0 := by linarith
  rcases mul_eq_zero.mp this with h | h
  · linarith
  · have : 0 < a + b + 2 * mat := by positivity
    linarith

/-- **C72.** For a massive equilibrium species the Gauss–Laguerre branch and the Gauss–Legendre branch of
the temperature terms approximate the same integral: substituting `y = aT √(ε(ε+2μ))` in the Legendre
integrand over all momenta gives exactly the Laguerre integrand with weight `e^{-ε}`, for every power,
fermions and bosons, all masses and temperatures. -/
theorem C72_branches (sp : Species) (p : Params) (k : ℕ) (haT : 0 < p.aT) (hM : 0 < sp.mass * p.a)
    (hm : 0 < sp.mass) :
    (sp.dof / 2 / Real.pi ^ 2 * ∫ y in Ioi (0 : ℝ),
      y ^ k * Real.exp (conformalEnergy sp y (sp.mass * p.a) / p.aT)
        / (Real.exp (conformalEnergy sp y (sp.mass * p.a) / p.aT) + sp.eta) ^ 2) =
    sp.dof / 2 / Real.pi ^ 2 * p.aT ^ (k + 1) * Real.exp (-(sp.mass * p.a / p.aT)) *
      ∫ e in Ioi (0 : ℝ), Real.exp (-e) * ((e + sp.mass * p.a / p.aT) *
        (e * (e + 2 * (sp.mass * p.a / p.aT))) ^ (((k : ℝ) - 1) / 2)
        / (Real.exp (-e - sp.mass * p.a / p.aT) + sp.eta) ^ 2) := by
  set mat := sp.mass * p.a / p.aT with hmat
  have hmat0 : 0 < mat := div_pos hM haT
  have hMa : sp.mass * p.a = mat * p.aT := by rw [hmat]; field_simp
  have cv := integral_image_eq_integral_abs_deriv_smul (s := Ioi (0 : ℝ)) measurableSet_Ioi
    (fun e he => (momentumOf_deriv p.aT mat e he hmat0.le).hasDerivWithinAt)
    (momentumOf_inj p.aT mat haT hmat0.le)
    (fun y => y ^ k * Real.exp (conformalEnergy sp y (sp.mass * p.a) / p.aT)
        / (Real.exp (conformalEnergy sp y (sp.mass * p.a) / p.aT) + sp.eta) ^ 2)
  rw [momentumOf_image p.aT mat haT hmat0.le] at cv
  rw [cv, mul_assoc (sp.dof / 2 / Real.pi ^ 2), mul_assoc (sp.dof / 2 / Real.pi ^ 2)]
  congr 1
  rw [← integral_const_mul]
  refine setIntegral_congr_fun measurableSet_Ioi fun e he => ?_
  rw [mem_Ioi] at he
  have hE : conformalEnergy sp (momentumOf p.aT mat e) (sp.mass * p.a) / p.aT = e + mat := by
    unfold conformalEnergy
    rw [if_pos hm, hMa]
    unfold momentumOf
    have : (p.aT * √(e * (e + 2 * mat))) ^ 2 + (mat * p.aT) ^ 2 = (p.aT * (e + mat)) ^ 2 := by
      rw [mul_pow, Real.sq_sqrt (by positivity)]; ring
    rw [this, Real.sqrt_sq (by positivity)]
    field_simp
  simp only [hE, smul_eq_mul]
  have hr : 0 < e * (e + 2 * mat) := by positivity
  rw [abs_of_nonneg (by positivity)]
  unfold momentumOf
  have hpow : √(e * (e + 2 * mat)) ^ k / √(e * (e + 2 * mat)) =
      (e * (e + 2 * mat)) ^ (((k : ℝ) - 1) / 2) := by
    rw [Real.sqrt_eq_rpow, ← Real.rpow_natCast, ← Real.rpow_mul hr.le, ← Real.rpow_sub hr]
    congr 1; ring
  rw [← hpow]
  have heta : (sp.eta : ℝ) ^ 2 = 1 := by unfold Species.eta; split_ifs <;> norm_num
  have hexp : Real.exp (e + mat) / (Real.exp (e + mat) + sp.eta) ^ 2 =
      Real.exp (-mat) * Real.exp (-e) / (Real.exp (-e - mat) + sp.eta) ^ 2 := by
    rw [← Real.exp_add, show -mat + -e = -(e + mat) by ring, show -e - mat = -(e + mat) by ring,
      Real.exp_neg]
    have h0 := Real.exp_pos (e + mat)
    have h1 := Real.one_lt_exp_iff.mpr (show 0 < e + mat by positivity)
    set X := Real.exp (e + mat)
    have hX : X + sp.eta ≠ 0 := by
      unfold Species.eta; split_ifs <;> push_cast <;> intro h <;> linarith
    have hid : (X⁻¹ + sp.eta) = sp.eta * (X + sp.eta) / X := by
      rw [mul_add, ← sq, heta]; field_simp; ring
    rw [hid, div_pow, mul_pow, heta]
    field_simp
  have hs : √(e * (e + 2 * mat)) ≠ 0 := (Real.sqrt_pos.mpr hr).ne'
  calc p.aT * ((e + mat) / √(e * (e + 2 * mat))) *
        ((p.aT * √(e * (e + 2 * mat))) ^ k * Real.exp (e + mat) / (Real.exp (e + mat) + sp.eta) ^ 2)
      = p.aT ^ (k + 1) * (e + mat) * (√(e * (e + 2 * mat)) ^ k / √(e * (e + 2 * mat))) *
        (Real.exp (e + mat) / (Real.exp (e + mat) + sp.eta) ^ 2) := by
        rw [mul_pow]; ring
    _ = _ := by rw [hexp]; ring

/-- **C72 (branch value).** The error of the Laguerre branch of `Int` is the prefactor times the error of
the Laguerre rule on its integrand, so an exact rule gives the integral over all momenta. -/
theorem C72_laguerre (lag : Rule) (sp : Species) (p : Params) (k : ℕ) (haT : 0 < p.aT)
    (hM : 0 < sp.mass * p.a) (hm : 0 < sp.mass) :
    intLaguerre lag sp p k - sp.dof / 2 / Real.pi ^ 2 * (∫ y in Ioi (0 : ℝ),
      y ^ k * Real.exp (conformalEnergy sp y (sp.mass * p.a) / p.aT)
        / (Real.exp (conformalEnergy sp y (sp.mass * p.a) / p.aT) + sp.eta) ^ 2) =
    sp.dof / 2 / Real.pi ^ 2 * p.aT ^ (k + 1) * Real.exp (-(sp.mass * p.a / p.aT)) *
    ((lag.map fun ew => ((ew.1 + sp.mass * p.a / p.aT) *
        (ew.1 * (ew.1 + 2 * (sp.mass * p.a / p.aT))) ^ (((k : ℝ) - 1) / 2)
        / (Real.exp (-ew.1 - sp.mass * p.a / p.aT) + sp.eta) ^ 2) * ew.2).sum -
      ∫ e in Ioi (0 : ℝ), Real.exp (-e) * ((e + sp.mass * p.a / p.aT) *
        (e * (e + 2 * (sp.mass * p.a / p.aT))) ^ (((k : ℝ) - 1) / 2)
        / (Real.exp (-e - sp.mass * p.a / p.aT) + sp.eta) ^ 2)) := by
  rw [C72_branches sp p k haT hM hm]
  unfold intLaguerre
  dsimp only
  rw [mul_sub]

/-- Non-vacuity: an electron in the demonstration state. -/
example : ∃ (sp : Species) (aT a : ℝ), 0 < aT ∧ 0 < sp.mass * a ∧ 0 < sp.mass :=
  ⟨⟨"electron", 0.511, 4, true, true, -1, [], false, 1⟩, 3, 2, by norm_num, by norm_num, by norm_num⟩

end PyBBN
