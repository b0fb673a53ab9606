import Verif.Lemmas.HalfGamma
import Verif.Props.Annihilation
/-!
# C125: the regimes agree

Densities, energy densities and pressures of a thermal species as computed in the three regimes, against the integrals
over all momenta.
-/
namespace PyBBN

open MeasureTheory Set

/-- Number density of a thermal species. -/
noncomputable def fullDensity (sp : Species) (T : ℝ) : ℝ :=
  ∫ p in Ioi (0 : ℝ), sp.stat (physEnergy sp p / T) * p ^ 2 * sp.dof / 2 / Real.pi ^ 2

/-- The three integrals, over the momentum in units of the temperature. -/
theorem fullDensity_scaled (sp : Species) (T : ℝ) (hT : 0 < T) (hM : 0 < sp.mass) :
    fullDensity sp T = sp.dof / (2 * Real.pi ^ 2) * T ^ 3 * (∫ v in Ioi (0 : ℝ),
      v ^ 2 * occ sp.eta (√(v ^ 2 + (sp.mass / T) ^ 2))) := by
  have hpi := Real.pi_pos
  have hE : ∀ v, physEnergy sp (T * v) = T * √(v ^ 2 + (sp.mass / T) ^ 2) := by
    intro v
    unfold physEnergy
    rw [if_pos hM, show (T * v) ^ 2 + sp.mass ^ 2 = T ^ 2 * (v ^ 2 + (sp.mass / T) ^ 2) by field_simp,
      Real.sqrt_mul (by positivity), Real.sqrt_sq hT.le]
  have scale : ∀ g : ℝ → ℝ, ∫ y in Ioi (0 : ℝ), g y = T * ∫ v in Ioi (0 : ℝ), g (T * v) := by
    intro g
    have h := integral_comp_mul_left_Ioi g 0 (b := T) hT
    rw [mul_zero, smul_eq_mul] at h
    rw [h]; field_simp
  unfold fullDensity
  rw [scale, ← integral_const_mul, ← integral_const_mul]
  refine setIntegral_congr_fun measurableSet_Ioi fun v _ => ?_
  simp only [hE, mul_div_cancel_left₀ _ hT.ne', stat_eq_occ]
  field_simp

/-- Over the total energy. -/
theorem full_energy_form (sp : Species) (T : ℝ) (hT : 0 < T) (hM : 0 < sp.mass) :
    fullDensity sp T = sp.dof / (2 * Real.pi ^ 2) * T ^ 3 * (∫ e in Ioi (0 : ℝ),
      √(e ^ 2 - (sp.mass / T) ^ 2) ^ 1 * (e * occ sp.eta e)) ∧
    fullEnergy sp T = sp.dof / (2 * Real.pi ^ 2) * T ^ 4 * (∫ e in Ioi (0 : ℝ),
      √(e ^ 2 - (sp.mass / T) ^ 2) ^ 1 * (e * (e * occ sp.eta e))) ∧
    fullPressure sp T = sp.dof / (6 * Real.pi ^ 2) * T ^ 4 * (∫ e in Ioi (0 : ℝ),
      √(e ^ 2 - (sp.mass / T) ^ 2) ^ 3 * (e * (occ sp.eta e / e))) := by
  have hu : 0 ≤ sp.mass / T := by positivity
  refine ⟨?_, ?_, ?_⟩
  · rw [fullDensity_scaled sp T hT hM, ← energy_substitution (occ sp.eta) 1 le_rfl _ hu]
  · rw [(full_scaled sp T hT hM).1, ← energy_substitution (fun e => e * occ sp.eta e) 1 le_rfl _ hu]
    congr 1
    refine setIntegral_congr_fun measurableSet_Ioi fun v _ => ?_
    ring
  · rw [(full_scaled sp T hT hM).2, ← energy_substitution (fun e => occ sp.eta e / e) 3 (by norm_num) _ hu]
    congr 1
    refine setIntegral_congr_fun measurableSet_Ioi fun v _ => ?_
    ring

/-- Over the kinetic energy. -/
theorem full_kinetic_form (sp : Species) (T : ℝ) (hT : 0 < T) (hM : 0 < sp.mass) :
    fullDensity sp T = sp.dof / (2 * Real.pi ^ 2) * T ^ 3 * (∫ e in Ioi (0 : ℝ),
      (√(e * (e + 2 * (sp.mass / T))) * (e + sp.mass / T)) * occ sp.eta (e + sp.mass / T)) ∧
    fullEnergy sp T = sp.dof / (2 * Real.pi ^ 2) * T ^ 4 * (∫ e in Ioi (0 : ℝ),
      (√(e * (e + 2 * (sp.mass / T))) * (e + sp.mass / T) ^ 2) * occ sp.eta (e + sp.mass / T)) ∧
    fullPressure sp T = sp.dof / (6 * Real.pi ^ 2) * T ^ 4 * (∫ e in Ioi (0 : ℝ),
      √(e * (e + 2 * (sp.mass / T))) ^ 3 * occ sp.eta (e + sp.mass / T)) := by
  have hu : 0 < sp.mass / T := by positivity
  refine ⟨?_, ?_, ?_⟩
  · rw [fullDensity_scaled sp T hT hM, show (fun v : ℝ => v ^ 2 * occ sp.eta (√(v ^ 2 + (sp.mass / T) ^ 2))) =
      fun v => v ^ (1 + 1) * occ sp.eta (√(v ^ 2 + (sp.mass / T) ^ 2)) from rfl,
      kinetic_substitution (occ sp.eta) 1 le_rfl _ hu.le]
    congr 1
    refine setIntegral_congr_fun measurableSet_Ioi fun v _ => ?_
    ring
  · have := kinetic_substitution (fun e => e * occ sp.eta e) 1 le_rfl _ hu.le
    rw [(full_scaled sp T hT hM).1]
    congr 1
    calc _ = ∫ v in Ioi (0 : ℝ), v ^ (1 + 1) * (√(v ^ 2 + (sp.mass / T) ^ 2) * occ sp.eta (√(v ^ 2 + (sp.mass / T) ^ 2))) := by
          refine setIntegral_congr_fun measurableSet_Ioi fun v _ => ?_
          ring
      _ = _ := this
      _ = _ := by
          refine setIntegral_congr_fun measurableSet_Ioi fun v _ => ?_
          ring
  · have := kinetic_substitution (fun e => occ sp.eta e / e) 3 (by norm_num) _ hu.le
    rw [(full_scaled sp T hT hM).2]
    congr 1
    calc _ = ∫ v in Ioi (0 : ℝ), v ^ (3 + 1) * (occ sp.eta (√(v ^ 2 + (sp.mass / T) ^ 2)) / √(v ^ 2 + (sp.mass / T) ^ 2)) := by
          refine setIntegral_congr_fun measurableSet_Ioi fun v _ => ?_
          ring
      _ = _ := this
      _ = _ := by
          refine setIntegral_congr_fun measurableSet_Ioi fun v hv => ?_
          rw [mem_Ioi] at hv
          have : v + sp.mass / T ≠ 0 := by positivity
          field_simp

/-- Bounds on the momentum at a given kinetic energy. -/
theorem kinetic_sqrt {u e : ℝ} (hu : 0 < u) (he : 0 < e) :
    √(2 * u) * √e ≤ √(e * (e + 2 * u)) ∧ √(e * (e + 2 * u)) ≤ √(2 * u) * (√e * (1 + e / (4 * u))) := by
  constructor
  · rw [← Real.sqrt_mul (by positivity)]
    exact Real.sqrt_le_sqrt (by nlinarith [sq_nonneg e])
  · refine Real.sqrt_le_iff.mpr ⟨by positivity, ?_⟩
    rw [mul_pow, mul_pow, Real.sq_sqrt (by positivity), Real.sq_sqrt he.le]
    have : 2 * u * (e * (1 + e / (4 * u)) ^ 2) = e * (e + 2 * u) + e ^ 3 / (8 * u) := by field_simp; ring
    rw [this]
    have : 0 < e ^ 3 / (8 * u) := by positivity
    linarith

set_option maxHeartbeats 1000000 in
/-- **C125, dust.** For a species at least 25 times heavier than the temperature the closed formulas are below the
integrals over all momenta by a relative `2 T/M`, up to corrections `e^{-M/T}` of the statistics. -/
theorem C125_dust (sp : Species) (T : ℝ) (hT : 0 < T) (hd : 0 ≤ sp.dof) (h : 25 * T ≤ sp.mass) :
    ((1 - Real.exp (-sp.mass / T)) * dustDensity sp T ≤ fullDensity sp T ∧
      fullDensity sp T ≤ dustDensity sp T * (1 + 2 * T / sp.mass) / (1 - Real.exp (-sp.mass / T))) ∧
    ((1 - Real.exp (-sp.mass / T)) * dustEnergyDensity sp T ≤ fullEnergy sp T ∧
      fullEnergy sp T ≤ dustEnergyDensity sp T * (1 + 2 * T / sp.mass) / (1 - Real.exp (-sp.mass / T))) ∧
    ((1 - Real.exp (-sp.mass / T)) * dustPressure sp T ≤ fullPressure sp T ∧
      fullPressure sp T ≤ dustPressure sp T * (1 + 2 * T / sp.mass) / (1 - Real.exp (-sp.mass / T))) := by
  have hM : 0 < sp.mass := by linarith
  have hpi := Real.pi_pos
  have he := eta_cases sp
  obtain ⟨fn, fe, fp⟩ := full_kinetic_form sp T hT hM
  set u := sp.mass / T with hud
  have hu : 0 < u := by positivity
  have hu25 : 25 ≤ u := by rw [hud, le_div_iff₀ hT]; exact h
  have hMu : sp.mass = u * T := by rw [hud]; field_simp
  have hneg : -sp.mass / T = -u := by rw [hud]; ring
  have htm : 2 * T / sp.mass = 2 / u := by rw [hMu]; field_simp
  have hδ : 0 < 1 - Real.exp (-u) := by have := Real.exp_lt_one_iff.mpr (show -u < 0 by linarith); linarith
  set s := √(2 * u) with hs
  have hs0 : 0 < s := Real.sqrt_pos.mpr (by positivity)
  have hs2 : s ^ 2 = 2 * u := Real.sq_sqrt (by positivity)
  -- the dust formulas in the same units
  have dn : dustDensity sp T = sp.dof / (2 * Real.pi ^ 2) * T ^ 3 * (Real.exp (-u) * (√Real.pi / 2 * (s * u))) := by
    unfold dustDensity
    rw [hneg]
    have e1 : √(sp.mass * T / 2 / Real.pi) = T * s / (2 * √Real.pi) := by
      rw [hMu]
      refine (Real.sqrt_eq_iff_mul_self_eq (by positivity) (by positivity)).mpr ?_
      have := Real.sq_sqrt hpi.le
      have e2 : T * s / (2 * √Real.pi) * (T * s / (2 * √Real.pi)) = T ^ 2 * s ^ 2 / (4 * √Real.pi ^ 2) := by ring
      rw [e2, this, hs2]
      field_simp
      ring
    rw [e1]
    have p2 : Real.pi ^ 2 = √Real.pi ^ 4 := by
      rw [show √Real.pi ^ 4 = (√Real.pi ^ 2) ^ 2 by ring, Real.sq_sqrt hpi.le]
    have s3 : (T * s / (2 * √Real.pi)) ^ 3 = T ^ 3 * (s * (2 * u)) / (8 * √Real.pi ^ 3) := by
      rw [← hs2]; ring
    rw [s3, p2]
    have : 0 < √Real.pi := Real.sqrt_pos.mpr hpi
    field_simp
    ring
  have cs : ContinuousOn (fun e : ℝ => √(e * (e + 2 * u))) (Ioi 0) := by fun_prop
  -- the three brackets
  have hinv : 1 / u ≤ 1 / 25 := one_div_le_one_div_of_le (by norm_num) hu25
  have bn := dust_bracket he hu (fun e => √(e * (e + 2 * u)) * (e + u))
    (fun e => √e * (s * u + 0 * e + 0 * e ^ 2 + 0 * e ^ 3))
    (fun e => √e * (s * u + s * (5 / 4) * e + s * (1 / (4 * u)) * e ^ 2 + 0 * e ^ 3))
    (cs.mul (by fun_prop)) (fun e h => by positivity)
    (fun e h => by
      have := (kinetic_sqrt hu h).1
      have h1 : (s * √e) * u ≤ √(e * (e + 2 * u)) * (e + u) :=
        mul_le_mul this (by linarith) hu.le (Real.sqrt_nonneg _)
      linarith [h1, show √e * (s * u + 0 * e + 0 * e ^ 2 + 0 * e ^ 3) = (s * √e) * u by ring])
    (fun e h => by
      have h1 := mul_le_mul_of_nonneg_right (kinetic_sqrt hu h).2 (show 0 ≤ e + u by linarith)
      refine h1.trans (le_of_eq ?_)
      rw [← hs]
      field_simp
      ring)
    (half_poly _ _ _ _).1 (half_poly _ _ _ _).1
  have be := dust_bracket he hu (fun e => √(e * (e + 2 * u)) * (e + u) ^ 2)
    (fun e => √e * (s * u ^ 2 + s * (2 * u) * e + 0 * e ^ 2 + 0 * e ^ 3))
    (fun e => √e * (s * u ^ 2 + s * (9 / 4 * u) * e + s * (3 / 2) * e ^ 2 + s * (1 / (4 * u)) * e ^ 3))
    (cs.mul (by fun_prop)) (fun e h => by positivity)
    (fun e h => by
      have := (kinetic_sqrt hu h).1
      have h1 : (s * √e) * (u ^ 2 + 2 * u * e) ≤ √(e * (e + 2 * u)) * (e + u) ^ 2 :=
        mul_le_mul this (by nlinarith [sq_nonneg e]) (by positivity) (Real.sqrt_nonneg _)
      linarith [h1, show √e * (s * u ^ 2 + s * (2 * u) * e + 0 * e ^ 2 + 0 * e ^ 3) = (s * √e) * (u ^ 2 + 2 * u * e) by ring])
    (fun e h => by
      have h1 := mul_le_mul_of_nonneg_right (kinetic_sqrt hu h).2 (sq_nonneg (e + u))
      refine h1.trans (le_of_eq ?_)
      rw [← hs]
      field_simp
      ring)
    (half_poly _ _ _ _).1 (half_poly _ _ _ _).1
  have bp := dust_bracket he hu (fun e => √(e * (e + 2 * u)) ^ 3)
    (fun e => √e * (0 + s * (2 * u) * e + 0 * e ^ 2 + 0 * e ^ 3))
    (fun e => √e * (0 + s * (2 * u) * e + s * (3 / 2) * e ^ 2 + s * (1 / (4 * u)) * e ^ 3))
    (cs.pow 3) (fun e h => by positivity)
    (fun e h => by
      have := (kinetic_sqrt hu h).1
      have h2 : √(e * (e + 2 * u)) ^ 2 = e * (e + 2 * u) := Real.sq_sqrt (by positivity)
      have h1 : (s * √e) * (2 * u * e) ≤ √(e * (e + 2 * u)) * (e * (e + 2 * u)) :=
        mul_le_mul this (by nlinarith [sq_nonneg e]) (by positivity) (Real.sqrt_nonneg _)
      have h3 : √(e * (e + 2 * u)) ^ 3 = √(e * (e + 2 * u)) * (e * (e + 2 * u)) := by
        rw [show √(e * (e + 2 * u)) ^ 3 = √(e * (e + 2 * u)) * √(e * (e + 2 * u)) ^ 2 by ring, h2]
      rw [h3]
      linarith [h1, show √e * (0 + s * (2 * u) * e + 0 * e ^ 2 + 0 * e ^ 3) = (s * √e) * (2 * u * e) by ring])
    (fun e h => by
      have h2 : √(e * (e + 2 * u)) ^ 2 = e * (e + 2 * u) := Real.sq_sqrt (by positivity)
      have h3 : √(e * (e + 2 * u)) ^ 3 = √(e * (e + 2 * u)) * (e * (e + 2 * u)) := by
        rw [show √(e * (e + 2 * u)) ^ 3 = √(e * (e + 2 * u)) * √(e * (e + 2 * u)) ^ 2 by ring, h2]
      have h1 := mul_le_mul_of_nonneg_right (kinetic_sqrt hu h).2 (show 0 ≤ e * (e + 2 * u) by positivity)
      rw [h3]
      refine h1.trans (le_of_eq ?_)
      rw [← hs]
      field_simp
      ring)
    (half_poly _ _ _ _).1 (half_poly _ _ _ _).1
  rw [(half_poly _ _ _ _).2, (half_poly _ _ _ _).2] at bn be bp
  have hC : 0 ≤ sp.dof / (2 * Real.pi ^ 2) * T ^ 3 := by positivity
  have hE : 0 < Real.exp (-u) := Real.exp_pos _
  have hP : 0 < √Real.pi / 2 := by positivity
  rw [hneg, htm]
  have de : dustEnergyDensity sp T = sp.dof / (2 * Real.pi ^ 2) * T ^ 4 *
      (Real.exp (-u) * (√Real.pi / 2 * (s * u * (u + 3 / 2)))) := by
    unfold dustEnergyDensity; rw [dn, hMu]; ring
  have dp : dustPressure sp T = sp.dof / (6 * Real.pi ^ 2) * T ^ 4 * (Real.exp (-u) * (√Real.pi / 2 * (3 * (s * u)))) := by
    unfold dustPressure; rw [dn]; field_simp; ring
  have lower : ∀ {C I D L : ℝ}, 0 ≤ C → D ≤ L → (1 - Real.exp (-u)) * (Real.exp (-u) * (√Real.pi / 2 * L)) ≤ I →
      (1 - Real.exp (-u)) * (C * (Real.exp (-u) * (√Real.pi / 2 * D))) ≤ C * I := fun {C I D L} hC hDL hI => by
    have h1 : (1 - Real.exp (-u)) * (Real.exp (-u) * (√Real.pi / 2 * D)) ≤ (1 - Real.exp (-u)) * (Real.exp (-u) * (√Real.pi / 2 * L)) := by
      gcongr
    have := mul_le_mul_of_nonneg_left (h1.trans hI) hC
    linarith
  have upper : ∀ {C I D U : ℝ}, 0 ≤ C → U ≤ D * (1 + 2 / u) →
      I ≤ Real.exp (-u) * (√Real.pi / 2 * U) / (1 - Real.exp (-u)) →
      C * I ≤ (C * (Real.exp (-u) * (√Real.pi / 2 * D))) * (1 + 2 / u) / (1 - Real.exp (-u)) := fun {C I D U} hC hDU hI => by
    have h1 : Real.exp (-u) * (√Real.pi / 2 * U) / (1 - Real.exp (-u)) ≤
        Real.exp (-u) * (√Real.pi / 2 * (D * (1 + 2 / u))) / (1 - Real.exp (-u)) := by gcongr
    refine (mul_le_mul_of_nonneg_left (hI.trans h1) hC).trans (le_of_eq ?_)
    ring
  have hC4 : 0 ≤ sp.dof / (2 * Real.pi ^ 2) * T ^ 4 := by positivity
  have hC6 : 0 ≤ sp.dof / (6 * Real.pi ^ 2) * T ^ 4 := by positivity
  have hus : 0 < s * u := by positivity
  refine ⟨⟨?_, ?_⟩, ⟨?_, ?_⟩, ⟨?_, ?_⟩⟩
  · rw [fn, dn]
    exact lower hC (by linarith) bn.1
  · rw [fn, dn]
    refine upper hC ?_ bn.2
    have : s * u + 3 / 2 * (s * (5 / 4)) + 15 / 4 * (s * (1 / (4 * u))) + 105 / 8 * 0 =
        s * u * (1 + (15 / 8 + 15 / 16 * (1 / u)) * (1 / u)) := by field_simp; ring
    rw [this, show (2 : ℝ) / u = 2 * (1 / u) by ring]
    gcongr
    linarith
  · rw [fe, de]
    refine lower hC4 ?_ be.1
    nlinarith [hus]
  · rw [fe, de]
    refine upper hC4 ?_ be.2
    have : s * u ^ 2 + 3 / 2 * (s * (9 / 4 * u)) + 15 / 4 * (s * (3 / 2)) + 105 / 8 * (s * (1 / (4 * u))) =
        s * u * (u + 27 / 8 + (45 / 8 + 105 / 32 * (1 / u)) * (1 / u)) := by field_simp; ring
    rw [this, show s * u * (u + 3 / 2) * (1 + 2 / u) = s * u * (u + 7 / 2 + 3 * (1 / u)) by field_simp; ring]
    refine mul_le_mul_of_nonneg_left ?_ hus.le
    have : 0 < 1 / u := by positivity
    nlinarith
  · rw [fp, dp]
    exact lower hC6 (by linarith) bp.1
  · rw [fp, dp]
    refine upper hC6 ?_ bp.2
    have : 0 + 3 / 2 * (s * (2 * u)) + 15 / 4 * (s * (3 / 2)) + 105 / 8 * (s * (1 / (4 * u))) =
        3 * (s * u) * (1 + (15 / 8 + 35 / 32 * (1 / u)) * (1 / u)) := by field_simp; ring
    rw [this, show (2 : ℝ) / u = 2 * (1 / u) by ring]
    gcongr
    linarith

/-! ## Radiation -/

theorem zetaSum_one : zetaSum 1 = Real.pi ^ 2 / 6 := by
  have h := hasSum_zeta_two
  rw [← hasSum_nat_add_iff' 1] at h
  have := h.tsum_eq
  unfold zetaSum
  simpa using this

theorem occ_moment (sp : Species) (k : ℕ) (hk : 1 ≤ k) :
    IntegrableOn (fun e : ℝ => e ^ k * occ sp.eta e) (Ioi 0) ∧
      ∫ e in Ioi (0 : ℝ), e ^ k * occ sp.eta e = (if sp.fermion then 1 - 1 / 2 ^ k else 1) * (k.factorial * zetaSum k) := by
  have v : ∫ e in Ioi (0 : ℝ), e ^ k * occ sp.eta e = (if sp.fermion then 1 - 1 / 2 ^ k else 1) * (k.factorial * zetaSum k) := by
    unfold Species.eta occ
    cases sp.fermion
    · simp only [Bool.false_eq_true, if_false, one_mul]
      push_cast
      simp only [← sub_eq_add_neg]
      exact bose_integral k hk
    · simp only [if_true]
      push_cast
      exact fermi_integral k hk
  refine ⟨.of_integral_ne_zero ?_, v⟩
  rw [v]
  have hz := zetaSum_pos k hk
  have hf : (0 : ℝ) < k.factorial := by exact_mod_cast k.factorial_pos
  have h2 : (0 : ℝ) < 1 - 1 / 2 ^ k := by
    have : (2 : ℝ) ≤ 2 ^ k := by
      calc (2 : ℝ) = 2 ^ 1 := by norm_num
        _ ≤ 2 ^ k := pow_le_pow_right₀ (by norm_num) hk
    have : 1 / (2 : ℝ) ^ k ≤ 1 / 2 := one_div_le_one_div_of_le (by norm_num) this
    linarith
  split_ifs <;> positivity

/-- Integrals of functions close to `e^k` times the occupation. -/
theorem occ_close (sp : Species) (k : ℕ) (hk : 1 ≤ k) (W : ℝ → ℝ) (c : ℝ) (hW : ContinuousOn W (Ioi 0))
    (h : ∀ e, 0 < e → 0 ≤ W e ∧ W e ≤ e ^ k ∧ e ^ k - c * e ≤ W e) :
    (∫ e in Ioi (0 : ℝ), W e * occ sp.eta e) ≤ (∫ e in Ioi (0 : ℝ), e ^ k * occ sp.eta e) ∧
      (∫ e in Ioi (0 : ℝ), e ^ k * occ sp.eta e) - c * (∫ e in Ioi (0 : ℝ), e ^ 1 * occ sp.eta e) ≤
        ∫ e in Ioi (0 : ℝ), W e * occ sp.eta e := by
  have he := eta_cases sp
  have ho : ∀ e : ℝ, 0 < e → 0 ≤ occ sp.eta e := fun e h => (occ_bound he h).1.le
  have ik := (occ_moment sp k hk).1
  have i1 := (occ_moment sp 1 le_rfl).1
  have co : ContinuousOn (fun e : ℝ => occ sp.eta e) (Ioi 0) := by
    unfold occ
    exact ContinuousOn.div (by fun_prop) (by fun_prop) fun e h => (eta_den he (mem_Ioi.mp h)).2.2.ne'
  have ii : IntegrableOn (fun e => W e * occ sp.eta e) (Ioi 0) := by
    refine Integrable.mono' ik ((hW.mul co).aestronglyMeasurable measurableSet_Ioi)
      ((ae_restrict_iff' measurableSet_Ioi).mpr (Filter.Eventually.of_forall fun e he => ?_))
    rw [mem_Ioi] at he
    rw [Real.norm_of_nonneg (mul_nonneg (h e he).1 (ho e he))]
    exact mul_le_mul_of_nonneg_right (h e he).2.1 (ho e he)
  constructor
  · exact setIntegral_mono_on ii ik measurableSet_Ioi fun e he => mul_le_mul_of_nonneg_right (h e he).2.1 (ho e he)
  · have := setIntegral_mono_on (ik.sub (i1.const_mul c)) ii measurableSet_Ioi fun e he => by
      have := mul_le_mul_of_nonneg_right (h e he).2.2 (ho e he)
      simp only [Pi.sub_apply]
      linarith
    rw [← integral_const_mul, ← integral_sub ik (i1.const_mul c)]
    exact this

/-- Arithmetic of the corrections: `c1`, `c2`, `c3` the factors of the statistics, `P = π²`, `Z = ζ(3)`. -/
theorem radiation_arith (b : Bool) (P Z u : ℝ) (hP : 9.85 < P) (hP' : P < 9.9) (hZ : 1.2 < Z) (hZ' : Z < 1.203) (hu : 0 < u) :
    ((if b then (1 : ℝ) - 1 / 2 ^ 3 else 1) * ((Nat.factorial 3 : ℕ) * (P * P / 90)) * (1 - 0.26 * u ^ 2) ≤
      (if b then (1 : ℝ) - 1 / 2 ^ 3 else 1) * ((Nat.factorial 3 : ℕ) * (P * P / 90)) -
        u ^ 2 * ((if b then (1 : ℝ) - 1 / 2 ^ 1 else 1) * ((Nat.factorial 1 : ℕ) * (P / 6)))) ∧
    ((if b then (1 : ℝ) - 1 / 2 ^ 3 else 1) * ((Nat.factorial 3 : ℕ) * (P * P / 90)) * (1 - 0.4 * u ^ 2) ≤
      (if b then (1 : ℝ) - 1 / 2 ^ 3 else 1) * ((Nat.factorial 3 : ℕ) * (P * P / 90)) -
        3 / 2 * u ^ 2 * ((if b then (1 : ℝ) - 1 / 2 ^ 1 else 1) * ((Nat.factorial 1 : ℕ) * (P / 6)))) ∧
    ((if b then (1 : ℝ) - 1 / 2 ^ 2 else 1) * 2.4 * (1 - 0.7 * u) ≤
      (if b then (1 : ℝ) - 1 / 2 ^ 2 else 1) * ((Nat.factorial 2 : ℕ) * Z) -
        u * ((if b then (1 : ℝ) - 1 / 2 ^ 1 else 1) * ((Nat.factorial 1 : ℕ) * (P / 6)))) ∧
    ((if b then (1 : ℝ) - 1 / 2 ^ 2 else 1) * ((Nat.factorial 2 : ℕ) * Z) ≤
      1.0025 * ((if b then (1 : ℝ) - 1 / 2 ^ 2 else 1) * 2.4)) := by
  simp only [show Nat.factorial 3 = 6 from rfl, show Nat.factorial 2 = 2 from rfl, show Nat.factorial 1 = 1 from rfl]
  have h2 : 0 ≤ u ^ 2 * (P * (P - 9.85)) := mul_nonneg (sq_nonneg u) (mul_nonneg (by linarith) (by linarith))
  have h3 : 0 ≤ u ^ 2 * P := mul_nonneg (sq_nonneg u) (by linarith)
  have h4 : 0 ≤ u * (9.9 - P) := mul_nonneg hu.le (by linarith)
  cases b
  · simp only [Bool.false_eq_true, if_false]
    push_cast
    refine ⟨?_, ?_, ?_, ?_⟩ <;> nlinarith
  · simp only [if_true]
    push_cast
    refine ⟨?_, ?_, ?_, ?_⟩ <;> nlinarith

/-- The formulas of the radiation regime with the moments of the occupation. -/
theorem radiation_forms (sp : Species) (T : ℝ) :
    radEnergyDensity sp T = sp.dof / (2 * Real.pi ^ 2) * T ^ 4 *
      ((if sp.fermion then 1 - 1 / 2 ^ 3 else 1) * ((Nat.factorial 3 : ℕ) * (Real.pi ^ 4 / 90))) ∧
    radPressure sp T = sp.dof / (6 * Real.pi ^ 2) * T ^ 4 *
      ((if sp.fermion then 1 - 1 / 2 ^ 3 else 1) * ((Nat.factorial 3 : ℕ) * (Real.pi ^ 4 / 90))) ∧
    radDensity sp T = sp.dof / (2 * Real.pi ^ 2) * T ^ 3 * ((if sp.fermion then 1 - 1 / 2 ^ 2 else 1) * 2.4) := by
  have hpi := Real.pi_pos.ne'
  unfold radPressure radEnergyDensity radDensity
  simp only [show Nat.factorial 3 = 6 from rfl]
  cases sp.fermion
  · simp only [Bool.false_eq_true, if_false]
    refine ⟨?_, ?_, ?_⟩ <;> push_cast <;> field_simp <;> norm_num1 <;> try ring
  · simp only [if_true]
    refine ⟨?_, ?_, ?_⟩ <;> push_cast <;> field_simp <;> norm_num1 <;> try ring

set_option maxHeartbeats 1000000 in
/-- **C125, radiation.** For a light species the formulas for massless particles are above the integrals by a relative
`(M/T)²` (energy, pressure), and the number density is right to `M/T` and the 0.25 % of `C75_number`. -/
theorem C125_radiation (sp : Species) (T : ℝ) (hT : 0 < T) (hM : 0 < sp.mass) (hd : 0 ≤ sp.dof) :
    (radEnergyDensity sp T * (1 - 0.26 * (sp.mass / T) ^ 2) ≤ fullEnergy sp T ∧ fullEnergy sp T ≤ radEnergyDensity sp T) ∧
    (radPressure sp T * (1 - 0.4 * (sp.mass / T) ^ 2) ≤ fullPressure sp T ∧ fullPressure sp T ≤ radPressure sp T) ∧
    (radDensity sp T * (1 - 0.7 * (sp.mass / T)) ≤ fullDensity sp T ∧ fullDensity sp T ≤ 1.0025 * radDensity sp T) := by
  have hpi := Real.pi_pos
  obtain ⟨fn, fe, fp⟩ := full_energy_form sp T hT hM
  set u := sp.mass / T with hud
  have hu : 0 < u := by positivity
  have s0 : ∀ e : ℝ, 0 ≤ √(e ^ 2 - u ^ 2) := fun e => Real.sqrt_nonneg _
  have s1 : ∀ e : ℝ, 0 < e → √(e ^ 2 - u ^ 2) ≤ e := fun e h => sqrt_sub_le e u h.le
  have s2 : ∀ e : ℝ, e ^ 2 - u ^ 2 ≤ √(e ^ 2 - u ^ 2) ^ 2 := fun e => by
    rcases le_total 0 (e ^ 2 - u ^ 2) with h | h
    · rw [Real.sq_sqrt h]
    · exact h.trans (sq_nonneg _)
  have cs : ContinuousOn (fun e : ℝ => √(e ^ 2 - u ^ 2)) (Ioi 0) := by fun_prop
  have be := occ_close sp 3 (by norm_num) (fun e => √(e ^ 2 - u ^ 2) * e ^ 2) (u ^ 2) (cs.mul (by fun_prop)) fun e h => by
    have a0 := s0 e
    have a1 := s1 e h
    have a2 := s2 e
    refine ⟨by positivity, ?_, ?_⟩
    · nlinarith [mul_le_mul_of_nonneg_right a1 (sq_nonneg e)]
    · have : e ^ 2 - u ^ 2 ≤ √(e ^ 2 - u ^ 2) * e := by nlinarith
      nlinarith [mul_le_mul_of_nonneg_right this h.le]
  have bp := occ_close sp 3 (by norm_num) (fun e => √(e ^ 2 - u ^ 2) ^ 3) (3 / 2 * u ^ 2) (cs.pow 3) fun e h => by
    have a0 := s0 e
    have a1 := s1 e h
    have a2 := s2 e
    refine ⟨by positivity, pow_le_pow_left₀ a0 a1 3, ?_⟩
    set s := √(e ^ 2 - u ^ 2)
    have := mul_nonneg (sq_nonneg (e - s)) (show 0 ≤ 2 * s + e by linarith)
    nlinarith [mul_le_mul_of_nonneg_right a2 h.le]
  have bn := occ_close sp 2 (by norm_num) (fun e => √(e ^ 2 - u ^ 2) * e) u (cs.mul (by fun_prop)) fun e h => by
    have a0 := s0 e
    have a1 := s1 e h
    have a2 := s2 e
    refine ⟨by positivity, ?_, ?_⟩
    · nlinarith [mul_le_mul_of_nonneg_right a1 h.le]
    · have : e - u ≤ √(e ^ 2 - u ^ 2) := by
        rcases le_total e u with h1 | h1
        · linarith
        · exact Real.le_sqrt_of_sq_le (by nlinarith)
      nlinarith [mul_le_mul_of_nonneg_right this h.le]
  have k1 := (occ_moment sp 1 le_rfl).2
  have k2 := (occ_moment sp 2 (by norm_num)).2
  have k3 := (occ_moment sp 3 (by norm_num)).2
  rw [zetaSum_one] at k1
  rw [zetaSum_three] at k3
  rw [k3, k1] at be bp
  rw [k2, k1] at bn
  have ee : (∫ e in Ioi (0 : ℝ), √(e ^ 2 - u ^ 2) ^ 1 * (e * (e * occ sp.eta e))) =
      ∫ e in Ioi (0 : ℝ), √(e ^ 2 - u ^ 2) * e ^ 2 * occ sp.eta e :=
    setIntegral_congr_fun measurableSet_Ioi fun e _ => by ring
  have ep : (∫ e in Ioi (0 : ℝ), √(e ^ 2 - u ^ 2) ^ 3 * (e * (occ sp.eta e / e))) =
      ∫ e in Ioi (0 : ℝ), √(e ^ 2 - u ^ 2) ^ 3 * occ sp.eta e :=
    setIntegral_congr_fun measurableSet_Ioi fun e h => by
      have : e ≠ 0 := (mem_Ioi.mp h).ne'
      simp only [mul_div_cancel₀ _ this]
  have en : (∫ e in Ioi (0 : ℝ), √(e ^ 2 - u ^ 2) ^ 1 * (e * occ sp.eta e)) =
      ∫ e in Ioi (0 : ℝ), √(e ^ 2 - u ^ 2) * e * occ sp.eta e :=
    setIntegral_congr_fun measurableSet_Ioi fun e _ => by ring
  rw [ee] at fe
  rw [ep] at fp
  rw [en] at fn
  have hC3 : 0 ≤ sp.dof / (2 * Real.pi ^ 2) * T ^ 3 := by positivity
  have hC4 : 0 ≤ sp.dof / (2 * Real.pi ^ 2) * T ^ 4 := by positivity
  have hC6 : 0 ≤ sp.dof / (6 * Real.pi ^ 2) * T ^ 4 := by positivity
  obtain ⟨z1, z2⟩ := zetaSum_two_bounds
  have hpp : 9.85 < Real.pi ^ 2 := by
    have : 3.1415 < Real.pi := Real.pi_gt_d4
    nlinarith
  have hpq : Real.pi ^ 2 < 9.9 := by
    have : Real.pi < 3.1416 := Real.pi_lt_d4
    nlinarith
  have hp4 : Real.pi ^ 4 = Real.pi ^ 2 * Real.pi ^ 2 := by ring
  obtain ⟨re, rp, rn⟩ := radiation_forms sp T
  obtain ⟨a1, a2, a3, a4⟩ := radiation_arith sp.fermion (Real.pi ^ 2) (zetaSum 2) u hpp hpq z1 z2 hu
  rw [← hp4] at a1 a2
  refine ⟨⟨?_, ?_⟩, ⟨?_, ?_⟩, ⟨?_, ?_⟩⟩
  · rw [fe, re, mul_assoc]
    exact mul_le_mul_of_nonneg_left (a1.trans be.2) hC4
  · rw [fe, re]
    exact mul_le_mul_of_nonneg_left be.1 hC4
  · rw [fp, rp, mul_assoc]
    exact mul_le_mul_of_nonneg_left (a2.trans bp.2) hC6
  · rw [fp, rp]
    exact mul_le_mul_of_nonneg_left bp.1 hC6
  · rw [fn, rn, mul_assoc]
    exact mul_le_mul_of_nonneg_left (a3.trans bn.2) hC3
  · rw [fn, rn, mul_left_comm]
    exact mul_le_mul_of_nonneg_left (bn.1.trans a4) hC3

end PyBBN
