import Verif.Props.RegimesCut
import Verif.Props.Entropy
import Verif.Props.Particle
/-!
# C126: densities do not jump when a species leaves equilibrium

Up to the step at which a species decouples its densities come from closed formulas or integrals at its temperature;
from then on they are sums over the grid of the stored occupations (particles/NonEqParticle.py 133–216).
-/
namespace PyBBN

open MeasureTheory Set

/-- `∫_Y^∞ v² e^{-v} dv` and `∫_Y^∞ v³ e^{-v} dv`, with the factor `1/(1 - e^{-Y})` for bosons. -/
noncomputable def numberTail (Y : ℝ) : ℝ := Real.exp (-Y) / (1 - Real.exp (-Y)) * (Y ^ 2 + 2 * Y + 2)

noncomputable def energyTail (Y : ℝ) : ℝ := Real.exp (-Y) / (1 - Real.exp (-Y)) * (Y ^ 3 + 3 * Y ^ 2 + 6 * Y + 6)

/-- What a cut at `Y` temperatures removes of a thermal integral. -/
theorem thermal_tail {eta : ℤ} (he : eta = 1 ∨ eta = -1) {u Y : ℝ} (hY : 0 < Y) (W : ℝ → ℝ) (m2 m3 : ℝ)
    (hm2 : 0 ≤ m2) (hm3 : 0 ≤ m3) (hW : ContinuousOn W (Ioi 0)) (h0 : ∀ v, 0 < v → 0 ≤ W v)
    (hup : ∀ v, 0 < v → W v ≤ m2 * v ^ 2 + m3 * v ^ 3) :
    IntegrableOn (fun v => W v * occ eta (√(v ^ 2 + u ^ 2))) (Ioi 0) ∧
    (0 ≤ ∫ v in Ioi Y, W v * occ eta (√(v ^ 2 + u ^ 2))) ∧
    (∫ v in Ioi Y, W v * occ eta (√(v ^ 2 + u ^ 2))) ≤ m2 * numberTail Y + m3 * energyTail Y := by
  have hE : ∀ v : ℝ, 0 < v → 0 < √(v ^ 2 + u ^ 2) := fun v hv => energy_pos hv
  have hEv : ∀ v : ℝ, 0 < v → v ≤ √(v ^ 2 + u ^ 2) := fun v hv => energy_ge hv.le
  have ho : ∀ v, 0 < v → 0 ≤ occ eta (√(v ^ 2 + u ^ 2)) := fun v h => (occ_bound he (hE v h)).1.le
  have ob : ∀ v, 0 < v → occ eta (√(v ^ 2 + u ^ 2)) ≤ 1 / (Real.exp v - 1) := fun v h => by
    refine (occ_bound he (hE v h)).2.trans ?_
    have := Real.one_lt_exp_iff.mpr h
    exact one_div_le_one_div_of_le (by linarith) (by linarith [Real.exp_le_exp.mpr (hEv v h)])
  have co : ContinuousOn (fun v : ℝ => occ eta (√(v ^ 2 + u ^ 2))) (Ioi 0) := by
    unfold occ
    exact ContinuousOn.div (by fun_prop) (by fun_prop) fun v h => (eta_den he (hE v (mem_Ioi.mp h))).2.2.ne'
  have dom : IntegrableOn (fun v : ℝ => m2 * (v ^ 2 * (1 / (Real.exp v - 1))) + m3 * (v ^ 3 * (1 / (Real.exp v - 1)))) (Ioi 0) :=
    ((bose_integrable 2 (by norm_num)).const_mul _).add ((bose_integrable 3 (by norm_num)).const_mul _)
  have ii : IntegrableOn (fun v => W v * occ eta (√(v ^ 2 + u ^ 2))) (Ioi 0) := by
    refine Integrable.mono' dom ((hW.mul co).aestronglyMeasurable measurableSet_Ioi)
      ((ae_restrict_iff' measurableSet_Ioi).mpr (Filter.Eventually.of_forall fun v h => ?_))
    rw [mem_Ioi] at h
    rw [Real.norm_of_nonneg (mul_nonneg (h0 v h) (ho v h))]
    calc _ ≤ (m2 * v ^ 2 + m3 * v ^ 3) * (1 / (Real.exp v - 1)) :=
          mul_le_mul (hup v h) (ob v h) (ho v h) ((h0 v h).trans (hup v h))
      _ = _ := by ring
  have it := ii.mono_set (Ioi_subset_Ioi hY.le)
  have hd : 0 < 1 - Real.exp (-Y) := by
    have := Real.exp_lt_one_iff.mpr (show -Y < 0 by linarith)
    linarith
  refine ⟨ii, setIntegral_nonneg measurableSet_Ioi fun v h => ?_, ?_⟩
  · rw [mem_Ioi] at h
    exact mul_nonneg (h0 v (by linarith)) (ho v (by linarith))
  obtain ⟨ti, tv⟩ := exp_tail Y (m2 * Y ^ 2 + m3 * Y ^ 3) (2 * m2 * Y + 3 * m3 * Y ^ 2) (m2 + 3 * m3 * Y) m3
  have := setIntegral_mono_on it (ti.const_mul (1 / (1 - Real.exp (-Y)))) measurableSet_Ioi fun v h => by
    rw [mem_Ioi] at h
    have hv : 0 < v := by linarith
    have e1 : 1 / (Real.exp v - 1) ≤ 1 / (1 - Real.exp (-Y)) * Real.exp (-v) := by
      have hx : 1 < Real.exp v := Real.one_lt_exp_iff.mpr hv
      have hy : Real.exp (-v) ≤ Real.exp (-Y) := Real.exp_le_exp.mpr (by linarith)
      have hxy : Real.exp v * Real.exp (-v) = 1 := by rw [← Real.exp_add]; simp
      rw [div_mul_eq_mul_div, one_mul, div_le_div_iff₀ (by linarith) hd]
      nlinarith
    calc _ ≤ (m2 * v ^ 2 + m3 * v ^ 3) * (1 / (1 - Real.exp (-Y)) * Real.exp (-v)) :=
          mul_le_mul (hup v hv) ((ob v hv).trans e1) (ho v hv) ((h0 v hv).trans (hup v hv))
      _ = _ := by ring
  rw [integral_const_mul, tv] at this
  refine this.trans (le_of_eq ?_)
  unfold numberTail energyTail
  ring

/-- The integrals over all momenta and those up to the end of the grid, in units of the temperature (massless species
included). -/
theorem decouple_scaled (sp : Species) (a aT R : ℝ) (ha : 0 < a) (haT : 0 < aT) (hm : 0 ≤ sp.mass) (hR : 0 < R) :
    let u := sp.mass * a / aT
    (fullDensity sp (aT / a) = sp.dof / (2 * Real.pi ^ 2) * (aT / a) ^ 3 *
        ∫ v in Ioi (0 : ℝ), v ^ 2 * occ sp.eta (√(v ^ 2 + u ^ 2))) ∧
    (fullEnergy sp (aT / a) = sp.dof / (2 * Real.pi ^ 2) * (aT / a) ^ 4 *
        ∫ v in Ioi (0 : ℝ), v ^ 2 * √(v ^ 2 + u ^ 2) * occ sp.eta (√(v ^ 2 + u ^ 2))) ∧
    (fullPressure sp (aT / a) = sp.dof / (6 * Real.pi ^ 2) * (aT / a) ^ 4 *
        ∫ v in Ioi (0 : ℝ), v ^ 4 / √(v ^ 2 + u ^ 2) * occ sp.eta (√(v ^ 2 + u ^ 2))) ∧
    ((∫ y in (0 : ℝ)..R, sp.stat (conformalEnergy sp y (sp.mass * a) / aT) * y ^ 2 * sp.dof / 2 / Real.pi ^ 2 / a ^ 3) =
      sp.dof / (2 * Real.pi ^ 2) * (aT / a) ^ 3 * ∫ v in (0 : ℝ)..R / aT, v ^ 2 * occ sp.eta (√(v ^ 2 + u ^ 2))) ∧
    ((∫ y in (0 : ℝ)..R, sp.stat (conformalEnergy sp y (sp.mass * a) / aT) * y ^ 2 *
        conformalEnergy sp y (sp.mass * a) * sp.dof / 2 / Real.pi ^ 2 / a ^ 4) =
      sp.dof / (2 * Real.pi ^ 2) * (aT / a) ^ 4 *
        ∫ v in (0 : ℝ)..R / aT, v ^ 2 * √(v ^ 2 + u ^ 2) * occ sp.eta (√(v ^ 2 + u ^ 2))) ∧
    ((∫ y in (0 : ℝ)..R, sp.stat (conformalEnergy sp y (sp.mass * a) / aT) * y ^ 4 /
        conformalEnergy sp y (sp.mass * a) * sp.dof / 6 / Real.pi ^ 2 / a ^ 4) =
      sp.dof / (6 * Real.pi ^ 2) * (aT / a) ^ 4 *
        ∫ v in (0 : ℝ)..R / aT, v ^ 4 / √(v ^ 2 + u ^ 2) * occ sp.eta (√(v ^ 2 + u ^ 2))) := by
  intro u
  have hpi := Real.pi_pos
  have hT : 0 < aT / a := by positivity
  have hE : ∀ v : ℝ, 0 < v → physEnergy sp (aT / a * v) = aT / a * √(v ^ 2 + u ^ 2) := by
    intro v hv
    unfold physEnergy
    by_cases h : sp.mass > 0
    · rw [if_pos h, show (aT / a * v) ^ 2 + sp.mass ^ 2 = (aT / a) ^ 2 * (v ^ 2 + u ^ 2) by
        simp only [u]; field_simp, Real.sqrt_mul (by positivity), Real.sqrt_sq hT.le]
    · have h0 : sp.mass = 0 := by linarith
      rw [if_neg h, abs_of_pos (by positivity)]
      simp only [u, h0, zero_mul, zero_div]
      rw [show v ^ 2 + (0 : ℝ) ^ 2 = v ^ 2 by ring, Real.sqrt_sq hv.le]
  have hC : ∀ v : ℝ, 0 < v → conformalEnergy sp (aT * v) (sp.mass * a) = aT * √(v ^ 2 + u ^ 2) := by
    intro v hv
    unfold conformalEnergy
    by_cases h : sp.mass > 0
    · rw [if_pos h, show (aT * v) ^ 2 + (sp.mass * a) ^ 2 = aT ^ 2 * (v ^ 2 + u ^ 2) by
        simp only [u]; field_simp, Real.sqrt_mul (by positivity), Real.sqrt_sq haT.le]
    · have h0 : sp.mass = 0 := by linarith
      rw [if_neg h, abs_of_pos (by positivity)]
      simp only [u, h0, zero_mul, zero_div]
      rw [show v ^ 2 + (0 : ℝ) ^ 2 = v ^ 2 by ring, Real.sqrt_sq hv.le]
  have hs : ∀ v : ℝ, 0 < v → 0 < √(v ^ 2 + u ^ 2) := fun v hv => energy_pos hv
  have scale : ∀ g : ℝ → ℝ, ∫ y in Ioi (0 : ℝ), g y = aT / a * ∫ v in Ioi (0 : ℝ), g (aT / a * v) := by
    intro g
    have := integral_comp_mul_left_Ioi g 0 hT
    rw [mul_zero, smul_eq_mul] at this
    rw [this, ← mul_assoc, mul_inv_cancel₀ hT.ne', one_mul]
  have scale' : ∀ g : ℝ → ℝ, ∫ y in (0 : ℝ)..R, g y = aT * ∫ v in (0 : ℝ)..R / aT, g (aT * v) := by
    intro g
    have h := intervalIntegral.smul_integral_comp_mul_left (a := 0) (b := R / aT) g aT
    rw [mul_zero, smul_eq_mul, mul_div_cancel₀ _ haT.ne'] at h
    exact h.symm
  have hI : ∀ v, v ∈ uIoc (0 : ℝ) (R / aT) → 0 < v := fun v hv => by
    rw [uIoc_of_le (by positivity)] at hv
    exact hv.1
  refine ⟨?_, ?_, ?_, ?_, ?_, ?_⟩
  · unfold fullDensity
    rw [scale, ← integral_const_mul, ← integral_const_mul]
    refine setIntegral_congr_fun measurableSet_Ioi fun v hv => ?_
    rw [mem_Ioi] at hv
    simp only [hE v hv, mul_div_cancel_left₀ _ hT.ne', stat_eq_occ]
    field_simp
  · unfold fullEnergy
    rw [scale, ← integral_const_mul, ← integral_const_mul]
    refine setIntegral_congr_fun measurableSet_Ioi fun v hv => ?_
    rw [mem_Ioi] at hv
    simp only [hE v hv, mul_div_cancel_left₀ _ hT.ne', stat_eq_occ]
    field_simp
  · unfold fullPressure
    rw [scale, ← integral_const_mul, ← integral_const_mul]
    refine setIntegral_congr_fun measurableSet_Ioi fun v hv => ?_
    rw [mem_Ioi] at hv
    have := hs v hv
    simp only [hE v hv, mul_div_cancel_left₀ _ hT.ne', stat_eq_occ]
    field_simp
  all_goals
    rw [scale', ← intervalIntegral.integral_const_mul, ← intervalIntegral.integral_const_mul]
    refine intervalIntegral.integral_congr_ae (Filter.Eventually.of_forall fun v hv => ?_)
    have hv' := hI v hv
    have := hs v hv'
    simp only [hC v hv', mul_div_cancel_left₀ _ haT.ne', stat_eq_occ]
    field_simp

/-- **C126.** At the step at which a species leaves equilibrium its density, energy density and pressure, from now
on sums over the stored occupations, are those of equilibrium at its temperature up to the error of the quadrature on the
grid and an exponentially small share of momenta above the end `R` of the grid. -/
theorem C126_decoupling {ι : Type*} (sp : Species) (dens : PState ι → Params → ℝ) (p : Params) (s : PState ι)
    (h : inEq sp s = true) (h' : inEq sp (particleUpdate sp dens p s) = false) (ha : 0 < p.a) (haT : 0 < p.aT)
    (hm : 0 ≤ sp.mass) (hd : 0 ≤ sp.dof) (g : NGrid) (hn : g.n = sp.grid.length)
    (hy : ∀ k < g.n, g.y k = sp.grid.getD k 0 ∧ 0 ≤ g.y k) (R ε : ℝ) (hR : 0 < R)
    (q : ∀ F ∈ [fun y => sp.stat (conformalEnergy sp y (sp.mass * p.a) / p.aT) * y ^ 2 * sp.dof / 2 / Real.pi ^ 2 / p.a ^ 3,
        fun y => sp.stat (conformalEnergy sp y (sp.mass * p.a) / p.aT) * y ^ 2 * conformalEnergy sp y (sp.mass * p.a)
          * sp.dof / 2 / Real.pi ^ 2 / p.a ^ 4,
        fun y => sp.stat (conformalEnergy sp y (sp.mass * p.a) / p.aT) * y ^ 4 / conformalEnergy sp y (sp.mass * p.a)
          * sp.dof / 6 / Real.pi ^ 2 / p.a ^ 4],
      |simps g.n g.w (fun k => F (g.y k)) - ∫ y in (0 : ℝ)..R, F y| ≤ ε) :
    let s' := particleUpdate sp dens p s
    let f := fun k => s'.dist.getD k 0
    let C := sp.dof / (2 * Real.pi ^ 2)
    (-ε ≤ fullDensity sp s'.T - neqDensity g sp p f ∧
      fullDensity sp s'.T - neqDensity g sp p f ≤ ε + C * s'.T ^ 3 * numberTail (R / p.aT)) ∧
    (-ε ≤ fullEnergy sp s'.T - neqEnergyDensity g sp p f ∧
      fullEnergy sp s'.T - neqEnergyDensity g sp p f ≤
        ε + C * s'.T ^ 3 * (s'.T * energyTail (R / p.aT) + sp.mass * numberTail (R / p.aT))) ∧
    (-ε ≤ fullPressure sp s'.T - neqPressure g sp p f ∧
      fullPressure sp s'.T - neqPressure g sp p f ≤ ε + C * s'.T ^ 4 * energyTail (R / p.aT) / 3) := by
  intro s' f C
  have hpi := Real.pi_pos
  have he := eta_cases sp
  have hT : s'.T = p.aT / p.a := (C27_equilibrium_follows sp dens p s h).2
  have hf : ∀ k < g.n, f k = sp.stat (conformalEnergy sp (g.y k) (sp.mass * p.a) / p.aT) := by
    intro k hk
    have hl : k < sp.grid.length := hn ▸ hk
    simp only [f, s']
    rw [(C27_decoupling_step sp dens p s h h').2, (hy k hk).1]
    simp [List.getD_eq_getElem?_getD, List.getElem?_map, List.getElem?_eq_getElem hl]
  have q1 := q _ (List.mem_cons_self)
  have q2 := q _ (List.mem_cons_of_mem _ List.mem_cons_self)
  have q3 := q _ (List.mem_cons_of_mem _ (List.mem_cons_of_mem _ List.mem_cons_self))
  have n1 : simps g.n g.w (fun k => sp.stat (conformalEnergy sp (g.y k) (sp.mass * p.a) / p.aT) * g.y k ^ 2 * sp.dof / 2
      / Real.pi ^ 2 / p.a ^ 3) = neqDensity g sp p f := by
    unfold neqDensity simps
    refine Finset.sum_congr rfl fun k hk => ?_
    beta_reduce
    rw [hf k (Finset.mem_range.mp hk)]
  have n2 : simps g.n g.w (fun k => sp.stat (conformalEnergy sp (g.y k) (sp.mass * p.a) / p.aT) * g.y k ^ 2 *
      conformalEnergy sp (g.y k) (sp.mass * p.a) * sp.dof / 2 / Real.pi ^ 2 / p.a ^ 4) = neqEnergyDensity g sp p f := by
    unfold neqEnergyDensity simps
    refine Finset.sum_congr rfl fun k hk => ?_
    beta_reduce
    rw [hf k (Finset.mem_range.mp hk)]
  have n3 : simps g.n g.w (fun k => sp.stat (conformalEnergy sp (g.y k) (sp.mass * p.a) / p.aT) * g.y k ^ 4 /
      conformalEnergy sp (g.y k) (sp.mass * p.a) * sp.dof / 6 / Real.pi ^ 2 / p.a ^ 4) = neqPressure g sp p f := by
    unfold neqPressure simps
    split_ifs with h0
    · refine Finset.sum_congr rfl fun k hk => ?_
      have hk' := Finset.mem_range.mp hk
      beta_reduce
      rw [hf k hk']
      have hc : conformalEnergy sp (g.y k) (sp.mass * p.a) = g.y k := by
        unfold conformalEnergy
        rw [if_neg (by rw [h0]; exact lt_irrefl _), abs_of_nonneg (hy k hk').2]
      rw [hc]
      rcases eq_or_lt_of_le (hy k hk').2 with e | e
      · rw [← e]; simp
      · field_simp
    · refine Finset.sum_congr rfl fun k hk => ?_
      beta_reduce
      rw [hf k (Finset.mem_range.mp hk)]
  rw [n1] at q1
  rw [n2] at q2
  rw [n3] at q3
  obtain ⟨f1, f2, f3, c1, c2, c3⟩ := decouple_scaled sp p.a p.aT R ha haT hm hR
  rw [c1] at q1
  rw [c2] at q2
  rw [c3] at q3
  set u := sp.mass * p.a / p.aT with hu
  have hu0 : 0 ≤ u := by positivity
  have hY : 0 < R / p.aT := by positivity
  have hs0 : ∀ v : ℝ, 0 < v → 0 < √(v ^ 2 + u ^ 2) := fun v hv => energy_pos hv
  have t1 := thermal_tail (u := u) he hY (fun v => v ^ 2) 1 0 zero_le_one le_rfl (by fun_prop) (fun v _ => sq_nonneg v)
    (fun v _ => by linarith)
  have t2 := thermal_tail (u := u) he hY (fun v => v ^ 2 * √(v ^ 2 + u ^ 2)) u 1 hu0 zero_le_one (by fun_prop)
    (fun v h => mul_nonneg (sq_nonneg v) (hs0 v h).le)
    (fun v h => by nlinarith [mul_le_mul_of_nonneg_left (energy_le h.le hu0) (sq_nonneg v)])
  have t3 := thermal_tail (u := u) he hY (fun v => v ^ 4 / √(v ^ 2 + u ^ 2)) 0 1 le_rfl zero_le_one
    (ContinuousOn.div (by fun_prop) (by fun_prop) fun v h => (hs0 v h).ne')
    (fun v h => div_nonneg (by positivity) (hs0 v h).le)
    (fun v h => by
      rw [div_le_iff₀ (hs0 v h)]
      nlinarith [mul_le_mul_of_nonneg_left (energy_ge (u := u) h.le) (pow_pos h 3).le])
  have split : ∀ G : ℝ → ℝ, IntegrableOn G (Ioi 0) →
      ∫ v in Ioi (0 : ℝ), G v = (∫ v in (0 : ℝ)..R / p.aT, G v) + ∫ v in Ioi (R / p.aT), G v :=
    fun G hG => (intervalIntegral.integral_interval_add_Ioi hG (hG.mono_set (Ioi_subset_Ioi hY.le))).symm
  obtain ⟨a1, b1, d1⟩ := t1
  obtain ⟨a2, b2, d2⟩ := t2
  obtain ⟨a3, b3, d3⟩ := t3
  rw [hT, f1, f2, f3, split _ a1, split _ a2, split _ a3]
  have hC3 : 0 ≤ C * (p.aT / p.a) ^ 3 := by positivity
  have hC4 : 0 ≤ C * (p.aT / p.a) ^ 4 := by positivity
  have hC6 : sp.dof / (6 * Real.pi ^ 2) * (p.aT / p.a) ^ 4 = C * (p.aT / p.a) ^ 4 / 3 := by simp only [C]; ring
  rw [hC6] at q3 ⊢
  have hCd : sp.dof / (2 * Real.pi ^ 2) = C := rfl
  rw [hCd] at q1 q2 ⊢
  have hmu : C * (p.aT / p.a) ^ 3 * (p.aT / p.a * energyTail (R / p.aT) + sp.mass * numberTail (R / p.aT)) =
      C * (p.aT / p.a) ^ 4 * (u * numberTail (R / p.aT) + 1 * energyTail (R / p.aT)) := by
    rw [hu]; field_simp; ring
  rw [hmu]
  obtain ⟨q11, q12⟩ := abs_le.mp q1
  obtain ⟨q21, q22⟩ := abs_le.mp q2
  obtain ⟨q31, q32⟩ := abs_le.mp q3
  have m1 := mul_nonneg hC3 b1
  have m1' := mul_le_mul_of_nonneg_left d1 hC3
  have m2 := mul_nonneg hC4 b2
  have m2' := mul_le_mul_of_nonneg_left d2 hC4
  have m3 := mul_nonneg hC4 b3
  have m3' := mul_le_mul_of_nonneg_left d3 hC4
  refine ⟨⟨?_, ?_⟩, ⟨?_, ?_⟩, ⟨?_, ?_⟩⟩ <;> linarith

/-- The hypotheses of `C126_decoupling` on the quadrature: `simps` on the grid integrates the three thermal integrands
at the moment of decoupling up to an error `ε`. -/
def GridError (sp : Species) (p : Params) (g : NGrid) (R ε : ℝ) : Prop :=
  ∀ F ∈ [fun y => sp.stat (conformalEnergy sp y (sp.mass * p.a) / p.aT) * y ^ 2 * sp.dof / 2 / Real.pi ^ 2 / p.a ^ 3,
        fun y => sp.stat (conformalEnergy sp y (sp.mass * p.a) / p.aT) * y ^ 2 * conformalEnergy sp y (sp.mass * p.a)
          * sp.dof / 2 / Real.pi ^ 2 / p.a ^ 4,
        fun y => sp.stat (conformalEnergy sp y (sp.mass * p.a) / p.aT) * y ^ 4 / conformalEnergy sp y (sp.mass * p.a)
          * sp.dof / 6 / Real.pi ^ 2 / p.a ^ 4],
      |simps g.n g.w (fun k => F (g.y k)) - ∫ y in (0 : ℝ)..R, F y| ≤ ε

/-- **C126, neutrinos.** A massless species leaves the radiation regime: energy density and pressure are continuous up
to the two errors; the number density may rise by a quarter of a percent, as radiation uses 1.2 for ζ(3). -/
theorem C126_massless {ι : Type*} (sp : Species) (dens : PState ι → Params → ℝ) (p : Params) (s : PState ι)
    (h : inEq sp s = true) (h' : inEq sp (particleUpdate sp dens p s) = false) (ha : 0 < p.a) (haT : 0 < p.aT)
    (hm : sp.mass = 0) (hd : 0 < sp.dof) (g : NGrid) (hn : g.n = sp.grid.length)
    (hy : ∀ k < g.n, g.y k = sp.grid.getD k 0 ∧ 0 ≤ g.y k) (R ε : ℝ) (hR : 0 < R) (q : GridError sp p g R ε) :
    let s' := particleUpdate sp dens p s
    let f := fun k => s'.dist.getD k 0
    let C := sp.dof / (2 * Real.pi ^ 2)
    |radEnergyDensity sp s'.T - neqEnergyDensity g sp p f| ≤ ε + C * s'.T ^ 4 * energyTail (R / p.aT) ∧
    |radPressure sp s'.T - neqPressure g sp p f| ≤ ε + C * s'.T ^ 4 * energyTail (R / p.aT) / 3 ∧
    radDensity sp s'.T - (ε + C * s'.T ^ 3 * numberTail (R / p.aT)) ≤ neqDensity g sp p f ∧
    neqDensity g sp p f ≤ 1.0025 * radDensity sp s'.T + ε := by
  intro s' f C
  obtain ⟨⟨n1, n2⟩, ⟨e1, e2⟩, ⟨p1, p2⟩⟩ := C126_decoupling sp dens p s h h' ha haT hm.ge hd.le g hn hy R ε hR q
  have hT : s'.T = p.aT / p.a := (C27_equilibrium_follows sp dens p s h).2
  have hT0 : 0 < s'.T := by rw [hT]; positivity
  obtain ⟨r1, r2⟩ := C75_energy sp s'.T hT0 hm
  obtain ⟨r3, r4⟩ := C75_number sp s'.T hT0 hm hd
  change fullEnergy sp s'.T = _ at r1
  change fullPressure sp s'.T = _ at r2
  change _ < fullDensity sp s'.T at r3
  change fullDensity sp s'.T < _ at r4
  have hY : 0 < R / p.aT := by positivity
  have hd1 : 0 < 1 - Real.exp (-(R / p.aT)) := by
    have := Real.exp_lt_one_iff.mpr (show -(R / p.aT) < 0 by linarith)
    linarith
  have ht : 0 ≤ energyTail (R / p.aT) := by unfold energyTail; positivity
  have hC : 0 ≤ C * s'.T ^ 4 * energyTail (R / p.aT) := by positivity
  have e2' : fullEnergy sp s'.T - neqEnergyDensity g sp p f ≤ ε + C * s'.T ^ 4 * energyTail (R / p.aT) := by
    refine e2.trans (le_of_eq ?_)
    rw [hm]
    ring
  rw [← r1, ← r2, abs_le, abs_le]
  refine ⟨⟨?_, ?_⟩, ⟨?_, ?_⟩, ?_, ?_⟩ <;> linarith

/-- **C126, massive species.** The same out of the intermediate regime, whose quadrature and cut at 20 T add to the
errors. -/
theorem C126_massive {ι : Type*} (rule : Rule) (sp : Species) (dens : PState ι → Params → ℝ) (p : Params) (s : PState ι)
    (h : inEq sp s = true) (h' : inEq sp (particleUpdate sp dens p s) = false) (ha : 0 < p.a) (haT : 0 < p.aT)
    (hm : 0 < sp.mass) (hd : 0 ≤ sp.dof) (g : NGrid) (hn : g.n = sp.grid.length)
    (hy : ∀ k < g.n, g.y k = sp.grid.getD k 0 ∧ 0 ≤ g.y k) (R ε ε' : ℝ) (hR : 0 < R) (q : GridError sp p g R ε) :
    let s' := particleUpdate sp dens p s
    let f := fun k => s'.dist.getD k 0
    let C := sp.dof / (2 * Real.pi ^ 2)
    |intDensity rule sp s'.T -
      ∫ p in (0 : ℝ)..20 * s'.T, sp.stat (physEnergy sp p / s'.T) * p ^ 2 * sp.dof / 2 / Real.pi ^ 2| ≤ ε' →
    |intEnergyDensity rule sp s'.T -
      ∫ p in (0 : ℝ)..20 * s'.T, sp.stat (physEnergy sp p / s'.T) * p ^ 2 * physEnergy sp p * sp.dof / 2 / Real.pi ^ 2| ≤ ε' →
    |intPressure rule sp s'.T -
      ∫ p in (0 : ℝ)..20 * s'.T, sp.stat (physEnergy sp p / s'.T) * p ^ 4 / physEnergy sp p * sp.dof / 6 / Real.pi ^ 2| ≤ ε' →
    (intDensity rule sp s'.T - neqDensity g sp p f ≤ ε + ε' + C * s'.T ^ 3 * numberTail (R / p.aT) ∧
      neqDensity g sp p f - intDensity rule sp s'.T ≤ ε + ε' + 1e-6 * Real.exp (sp.mass / s'.T) * fullDensity sp s'.T) ∧
    (intEnergyDensity rule sp s'.T - neqEnergyDensity g sp p f ≤
        ε + ε' + C * s'.T ^ 3 * (s'.T * energyTail (R / p.aT) + sp.mass * numberTail (R / p.aT)) ∧
      neqEnergyDensity g sp p f - intEnergyDensity rule sp s'.T ≤
        ε + ε' + 1e-5 * (1 + sp.mass / s'.T) * Real.exp (sp.mass / s'.T) * fullEnergy sp s'.T) ∧
    (intPressure rule sp s'.T - neqPressure g sp p f ≤ ε + ε' + C * s'.T ^ 4 * energyTail (R / p.aT) / 3 ∧
      neqPressure g sp p f - intPressure rule sp s'.T ≤
        ε + ε' + 1e-5 * Real.exp (sp.mass / s'.T) * (fullEnergy sp s'.T / 3)) := by
  intro s' f C q1 q2 q3
  obtain ⟨⟨n1, n2⟩, ⟨e1, e2⟩, ⟨p1, p2⟩⟩ := C126_decoupling sp dens p s h h' ha haT hm.le hd g hn hy R ε hR q
  have hT : s'.T = p.aT / p.a := (C27_equilibrium_follows sp dens p s h).2
  have hT0 : 0 < s'.T := by rw [hT]; positivity
  obtain ⟨⟨a1, a2⟩, ⟨b1, b2⟩, ⟨c1, c2⟩⟩ := C125_intermediate rule sp s'.T ε' hT0 hm hd q1 q2 q3
  refine ⟨⟨?_, ?_⟩, ⟨?_, ?_⟩, ⟨?_, ?_⟩⟩ <;> linarith

/-- **C126, afterwards.** While the stored occupations do not change, the energy in a comoving volume is lost to the
expansion only: `dρ/da = -3 (ρ + P)/a`. -/
theorem C126_free_streaming (g : NGrid) (sp : Species) (p : Params) (f : ℕ → ℝ) (a : ℝ) (ha : 0 < a)
    (hm : 0 ≤ sp.mass) (hy : ∀ k < g.n, 0 ≤ g.y k) :
    HasDerivAt (fun a => neqEnergyDensity g sp { p with a := a } f)
      (-3 * (neqEnergyDensity g sp { p with a := a } f + neqPressure g sp { p with a := a } f) / a) a := by
  have hpi := Real.pi_pos
  have key : ∀ k < g.n, HasDerivAt (fun a => g.w k * (f k * g.y k ^ 2 * conformalEnergy sp (g.y k) (sp.mass * a)
      * sp.dof / 2 / Real.pi ^ 2 / a ^ 4))
      (-3 * (g.w k * (f k * g.y k ^ 2 * conformalEnergy sp (g.y k) (sp.mass * a) * sp.dof / 2 / Real.pi ^ 2 / a ^ 4) +
        g.w k * (if sp.mass = 0 then f k * g.y k ^ 3 * sp.dof / 6 / Real.pi ^ 2 / a ^ 4 else
          f k * g.y k ^ 4 / conformalEnergy sp (g.y k) (sp.mass * a) * sp.dof / 6 / Real.pi ^ 2 / a ^ 4)) / a) a := by
    intro k hk
    have d4 : HasDerivAt (fun a : ℝ => a ^ 4) (4 * a ^ 3) a := by simpa using hasDerivAt_pow 4 a
    by_cases h0 : sp.mass = 0
    · have hc : ∀ x, conformalEnergy sp (g.y k) x = g.y k := fun x => by
        unfold conformalEnergy
        rw [if_neg (by rw [h0]; exact lt_irrefl _), abs_of_nonneg (hy k hk)]
      simp only [hc, if_pos h0]
      have := ((hasDerivAt_const a (f k * g.y k ^ 2 * g.y k * sp.dof / 2 / Real.pi ^ 2)).div d4 (by positivity)).const_mul (g.w k)
      refine this.congr_deriv ?_
      field_simp
      ring
    · have hm' : 0 < sp.mass := lt_of_le_of_ne hm (Ne.symm h0)
      have hc : ∀ x, conformalEnergy sp (g.y k) x = √(g.y k ^ 2 + x ^ 2) := fun x => by
        unfold conformalEnergy
        rw [if_pos hm']
      simp only [hc, if_neg h0]
      have hin : 0 < g.y k ^ 2 + (sp.mass * a) ^ 2 := by positivity
      have hs := Real.sqrt_pos.mpr hin
      have hss := Real.sq_sqrt hin.le
      have d1 : HasDerivAt (fun a : ℝ => g.y k ^ 2 + (sp.mass * a) ^ 2) (2 * (sp.mass * a) * sp.mass) a := by
        have := (((hasDerivAt_id a).const_mul sp.mass).pow 2).const_add (g.y k ^ 2)
        refine this.congr_deriv ?_
        simp
      have d2 := (((((d1.sqrt hin.ne').const_mul (f k * g.y k ^ 2)).mul_const sp.dof).div_const 2).div_const
        (Real.pi ^ 2)).div d4 (by positivity)
      have := d2.const_mul (g.w k)
      refine this.congr_deriv ?_
      generalize √(g.y k ^ 2 + (sp.mass * a) ^ 2) = E at *
      have hM : (sp.mass * a) ^ 2 = E ^ 2 - g.y k ^ 2 := by linarith
      have hM' : sp.mass ^ 2 = (E ^ 2 - g.y k ^ 2) / a ^ 2 := by
        rw [eq_div_iff (by positivity)]; linarith
      field_simp
      rw [hM']
      field_simp
      ring
  have := HasDerivAt.fun_sum (u := Finset.range g.n) fun k hk => key k (Finset.mem_range.mp hk)
  unfold neqEnergyDensity neqPressure simps
  refine this.congr_deriv ?_
  rw [← Finset.sum_div, ← Finset.mul_sum, Finset.sum_add_distrib]
  split_ifs with h0 <;> rfl

/-- A neutrino about to decouple, on a grid with two points. -/
example : ∃ (sp : Species) (p : Params) (s : PState ℕ) (g : NGrid), sp.mass = 0 ∧ 0 < sp.dof ∧ 0 < p.a ∧ 0 < p.aT ∧
    inEq sp s = true ∧ inEq sp (particleUpdate sp (fun _ _ => 0) p s) = false ∧ g.n = sp.grid.length ∧
    ∀ k < g.n, g.y k = sp.grid.getD k 0 ∧ 0 ≤ g.y k := by
  refine ⟨⟨"nu", 0, 2, true, true, 0, [0, 20], false, 1⟩, { demoP with a := 2, aT := 1 },
    { T := 1, aT := 1, Tdec := 0.7, dist := [0, 0], coll := [0, 0], integrals := [], tDec := 0, decayed := false,
      density := 0, histDist := [], histColl := [], histT := [], histDensity := [] },
    ⟨2, fun _ => 10, fun k => if k = 0 then 0 else 20⟩, rfl, by norm_num, by norm_num, by norm_num, ?_, ?_, rfl, ?_⟩
  · simp [inEq]; norm_num
  · simp [inEq, particleUpdate, initDistribution]; norm_num
  · intro k hk
    have hk' : k < 2 := hk
    have : k = 0 ∨ k = 1 := by omega
    rcases this with rfl | rfl <;> simp

end PyBBN
