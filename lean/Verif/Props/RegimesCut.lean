import Verif.Props.Regimes
import Verif.Lemmas.Quad
import Mathlib.Analysis.Complex.ExponentialBounds
/-!
# C125, continued: the cut of the integrals at 20 temperatures

`IntermediateParticle` integrates momenta up to 20 T.
-/
namespace PyBBN

open MeasureTheory Set

/-- Moments of the exponential beyond `Y`. -/
theorem exp_tail (Y c0 c1 c2 c3 : ℝ) :
    IntegrableOn (fun v : ℝ => (c0 + c1 * (v - Y) + c2 * (v - Y) ^ 2 + c3 * (v - Y) ^ 3) * Real.exp (-v)) (Ioi Y) ∧
      ∫ v in Ioi Y, (c0 + c1 * (v - Y) + c2 * (v - Y) ^ 2 + c3 * (v - Y) ^ 3) * Real.exp (-v) =
        Real.exp (-Y) * (c0 + c1 + 2 * c2 + 6 * c3) := by
  have i := fun k : ℕ => integrable_pow_exp k 1 one_pos
  have v := fun k : ℕ => integral_pow_exp k 1 one_pos
  simp only [one_mul] at i v
  have e : (fun x : ℝ => (c0 + c1 * x + c2 * x ^ 2 + c3 * x ^ 3) * (Real.exp (-Y) * Real.exp (-x))) = fun x : ℝ =>
      (Real.exp (-Y) * c0 * (x ^ 0 * Real.exp (-x)) + Real.exp (-Y) * c1 * (x ^ 1 * Real.exp (-x)) +
        Real.exp (-Y) * c2 * (x ^ 2 * Real.exp (-x))) + Real.exp (-Y) * c3 * (x ^ 3 * Real.exp (-x)) := by
    funext x; ring
  have i0 := (i 0).const_mul (Real.exp (-Y) * c0)
  have i1 := (i 1).const_mul (Real.exp (-Y) * c1)
  have i2 := (i 2).const_mul (Real.exp (-Y) * c2)
  have i3 := (i 3).const_mul (Real.exp (-Y) * c3)
  have i01 : IntegrableOn (fun x : ℝ => Real.exp (-Y) * c0 * (x ^ 0 * Real.exp (-x)) +
    Real.exp (-Y) * c1 * (x ^ 1 * Real.exp (-x))) (Ioi 0) := i0.add i1
  have i02 : IntegrableOn (fun x : ℝ => Real.exp (-Y) * c0 * (x ^ 0 * Real.exp (-x)) +
    Real.exp (-Y) * c1 * (x ^ 1 * Real.exp (-x)) + Real.exp (-Y) * c2 * (x ^ 2 * Real.exp (-x))) (Ioi 0) := i01.add i2
  have hi : IntegrableOn (fun x : ℝ => (c0 + c1 * x + c2 * x ^ 2 + c3 * x ^ 3) * (Real.exp (-Y) * Real.exp (-x))) (Ioi 0) := by
    rw [e]; exact i02.add i3
  have hv : ∫ x in Ioi (0 : ℝ), (c0 + c1 * x + c2 * x ^ 2 + c3 * x ^ 3) * (Real.exp (-Y) * Real.exp (-x)) =
      Real.exp (-Y) * (c0 + c1 + 2 * c2 + 6 * c3) := by
    rw [e, integral_add i02 i3, integral_add i01 i2, integral_add i0 i1, integral_const_mul, integral_const_mul,
      integral_const_mul, integral_const_mul, v 0, v 1, v 2, v 3]
    norm_num [Nat.factorial]
    ring
  have pre : (fun x : ℝ => x + Y) ⁻¹' Ioi Y = Ioi 0 := by rw [Set.preimage_add_const_Ioi, sub_self]
  have shift : ∀ x : ℝ, (c0 + c1 * (x + Y - Y) + c2 * (x + Y - Y) ^ 2 + c3 * (x + Y - Y) ^ 3) * Real.exp (-(x + Y)) =
      (c0 + c1 * x + c2 * x ^ 2 + c3 * x ^ 3) * (Real.exp (-Y) * Real.exp (-x)) := fun x => by
    rw [← Real.exp_add, add_sub_cancel_right, show -(x + Y) = -Y + -x by ring]
  have mp := measurePreserving_add_right (volume : Measure ℝ) Y
  have me := measurableEmbedding_addRight Y
  constructor
  · have := (mp.integrableOn_comp_preimage me (f := fun v : ℝ =>
      (c0 + c1 * (v - Y) + c2 * (v - Y) ^ 2 + c3 * (v - Y) ^ 3) * Real.exp (-v)) (s := Ioi Y)).mp
    refine this ?_
    rw [pre]
    refine hi.congr_fun (fun x _ => ?_) measurableSet_Ioi
    exact (shift x).symm
  · have := mp.setIntegral_preimage_emb me (fun v : ℝ =>
      (c0 + c1 * (v - Y) + c2 * (v - Y) ^ 2 + c3 * (v - Y) ^ 3) * Real.exp (-v)) (Ioi Y)
    rw [← this, pre, ← hv]
    exact setIntegral_congr_fun measurableSet_Ioi fun x _ => shift x

theorem exp_twenty : Real.exp (-20) < 2.07e-9 := by
  have h := Real.exp_one_gt_d9
  have e : Real.exp 20 = Real.exp 1 ^ 20 := by rw [← Real.exp_nat_mul]; norm_num
  have : (2.718 : ℝ) ^ 20 < Real.exp 20 := by
    rw [e]
    exact pow_lt_pow_left₀ (by linarith) (by norm_num) (by norm_num)
  rw [Real.exp_neg]
  refine (inv_strictAnti₀ (by norm_num) this).trans ?_
  norm_num

/-- What the cut at 20 removes of a thermal integral. -/
theorem cut_bracket {eta : ℤ} (he : eta = 1 ∨ eta = -1) {u : ℝ} (hu : 0 < u) (W : ℝ → ℝ) (c0 c1 c2 c3 l2 l3 m2 m3 : ℝ)
    (hW : ContinuousOn W (Ioi 0)) (h0 : ∀ v, 0 < v → 0 ≤ W v)
    (hlo : ∀ v, 0 < v → l2 * v ^ 2 + l3 * v ^ 3 ≤ W v) (hl2 : 0 ≤ l2) (hl3 : 0 ≤ l3)
    (hup : ∀ v, 0 < v → W v ≤ m2 * v ^ 2 + m3 * v ^ 3)
    (ht : ∀ v, 20 < v → W v ≤ c0 + c1 * (v - 20) + c2 * (v - 20) ^ 2 + c3 * (v - 20) ^ 3) :
    IntegrableOn (fun v => W v * occ eta (√(v ^ 2 + u ^ 2))) (Ioi 0) ∧
    (0 ≤ ∫ v in Ioi (20 : ℝ), W v * occ eta (√(v ^ 2 + u ^ 2))) ∧
    (∫ v in Ioi (20 : ℝ), W v * occ eta (√(v ^ 2 + u ^ 2))) ≤ 2.08e-9 * (c0 + c1 + 2 * c2 + 6 * c3) ∧
    Real.exp (-u) * (l2 + 3 * l3) ≤ ∫ v in Ioi (0 : ℝ), W v * occ eta (√(v ^ 2 + u ^ 2)) := by
  have hE : ∀ v : ℝ, 0 < v → 0 < √(v ^ 2 + u ^ 2) := fun v hv => energy_pos hv
  have hEv : ∀ v : ℝ, 0 < v → v ≤ √(v ^ 2 + u ^ 2) := fun v hv => energy_ge hv.le
  have hEu : ∀ v : ℝ, 0 < v → √(v ^ 2 + u ^ 2) ≤ v + u := fun v hv => energy_le hv.le hu.le
  have ho : ∀ v, 0 < v → 0 ≤ occ eta (√(v ^ 2 + u ^ 2)) := fun v h => (occ_bound he (hE v h)).1.le
  have ob : ∀ v, 0 < v → occ eta (√(v ^ 2 + u ^ 2)) ≤ 1 / (Real.exp v - 1) := fun v h => by
    refine (occ_bound he (hE v h)).2.trans ?_
    have := Real.one_lt_exp_iff.mpr h
    exact one_div_le_one_div_of_le (by linarith) (by linarith [Real.exp_le_exp.mpr (hEv v h)])
  have co : ContinuousOn (fun v : ℝ => occ eta (√(v ^ 2 + u ^ 2))) (Ioi 0) := by
    unfold occ
    exact ContinuousOn.div (by fun_prop) (by fun_prop) fun v h => (eta_den he (hE v (mem_Ioi.mp h))).2.2.ne'
  have dom : IntegrableOn (fun v : ℝ => m2 * (v ^ 2 * (1 / (Real.exp v - 1))) + m3 * (v ^ 3 * (1 / (Real.exp v - 1)))) (Ioi 0) :=
    ((bose_integrable 2 (by norm_num)).const_mul _).add ((bose_integrable 3 (by norm_num)).const_mul _)
  have ii : IntegrableOn (fun v => W v * occ eta (√(v ^ 2 + u ^ 2))) (Ioi 0) := by
    refine Integrable.mono' dom ((hW.mul co).aestronglyMeasurable measurableSet_Ioi)
      ((ae_restrict_iff' measurableSet_Ioi).mpr (Filter.Eventually.of_forall fun v h => ?_))
    rw [mem_Ioi] at h
    rw [Real.norm_of_nonneg (mul_nonneg (h0 v h) (ho v h))]
    calc _ ≤ (m2 * v ^ 2 + m3 * v ^ 3) * (1 / (Real.exp v - 1)) :=
          mul_le_mul (hup v h) (ob v h) (ho v h) ((h0 v h).trans (hup v h))
      _ = _ := by ring
  have it := ii.mono_set (Ioi_subset_Ioi (by norm_num : (0 : ℝ) ≤ 20))
  refine ⟨ii, ?_, ?_, ?_⟩
  · refine setIntegral_nonneg measurableSet_Ioi fun v h => ?_
    rw [mem_Ioi] at h
    exact mul_nonneg (h0 v (by linarith)) (ho v (by linarith))
  · obtain ⟨ti, tv⟩ := exp_tail 20 c0 c1 c2 c3
    have hnn : 0 ≤ c0 + c1 + 2 * c2 + 6 * c3 := by
      have h1 : 0 ≤ ∫ v in Ioi (20 : ℝ), (c0 + c1 * (v - 20) + c2 * (v - 20) ^ 2 + c3 * (v - 20) ^ 3) * Real.exp (-v) := by
        refine setIntegral_nonneg measurableSet_Ioi fun v h => ?_
        rw [mem_Ioi] at h
        exact mul_nonneg ((h0 v (by linarith)).trans (ht v h)) (Real.exp_pos _).le
      rw [tv] at h1
      exact (mul_nonneg_iff_of_pos_left (Real.exp_pos _)).mp h1
    have := setIntegral_mono_on it (ti.const_mul 1.001) measurableSet_Ioi fun v h => by
      rw [mem_Ioi] at h
      have hv : 0 < v := by linarith
      have e1 : 1 / (Real.exp v - 1) ≤ 1.001 * Real.exp (-v) := by
        have hx : (1001 : ℝ) ≤ Real.exp v := by
          have := Real.quadratic_le_exp_of_nonneg hv.le
          have h3 := Real.exp_one_gt_d9
          have h4 : Real.exp 20 = Real.exp 1 ^ 20 := by rw [← Real.exp_nat_mul]; norm_num
          have h5 : (2.718 : ℝ) ^ 20 ≤ Real.exp 20 := by
            rw [h4]; exact pow_le_pow_left₀ (by norm_num) (by linarith) 20
          have h6 := Real.exp_le_exp.mpr h.le
          norm_num at h5
          linarith
        rw [Real.exp_neg, div_le_iff₀ (by linarith)]
        have : (0 : ℝ) < Real.exp v := Real.exp_pos v
        field_simp
        norm_num
        linarith
      calc _ ≤ (c0 + c1 * (v - 20) + c2 * (v - 20) ^ 2 + c3 * (v - 20) ^ 3) * (1.001 * Real.exp (-v)) :=
            mul_le_mul (ht v h) ((ob v hv).trans e1) (ho v hv) ((h0 v hv).trans (ht v h))
        _ = _ := by ring
    rw [integral_const_mul, tv] at this
    refine this.trans ?_
    rw [← mul_assoc]
    refine mul_le_mul_of_nonneg_right ?_ hnn
    have := exp_twenty
    norm_num at this ⊢
    linarith
  · have i := fun k : ℕ => integrable_pow_exp k 1 one_pos
    have v := fun k : ℕ => integral_pow_exp k 1 one_pos
    simp only [one_mul] at i v
    have low := setIntegral_mono_on (((i 2).const_mul (Real.exp (-u) / 2 * l2)).add ((i 3).const_mul (Real.exp (-u) / 2 * l3)))
      ii measurableSet_Ioi fun v h => by
        rw [mem_Ioi] at h
        have e1 : Real.exp (-u) / 2 * Real.exp (-v) ≤ occ eta (√(v ^ 2 + u ^ 2)) := by
          unfold occ
          have hd := (eta_den he (hE v h)).2.2
          rw [le_div_iff₀ hd]
          have hx : Real.exp (√(v ^ 2 + u ^ 2)) ≤ Real.exp (v + u) := Real.exp_le_exp.mpr (hEu v h)
          have hx1 : (1 : ℝ) ≤ Real.exp (v + u) := Real.one_le_exp (by linarith)
          have hη : (eta : ℝ) ≤ 1 := by rcases he with rfl | rfl <;> norm_num
          have hp : Real.exp (-u) / 2 * Real.exp (-v) = 1 / (2 * Real.exp (v + u)) := by
            rw [div_mul_eq_mul_div, ← Real.exp_add, show -u + -v = -(v + u) by ring, Real.exp_neg]
            field_simp
          rw [hp, div_mul_eq_mul_div, div_le_one (by positivity)]
          linarith
        simp only [Pi.add_apply]
        calc _ = (l2 * v ^ 2 + l3 * v ^ 3) * (Real.exp (-u) / 2 * Real.exp (-v)) := by ring
          _ ≤ _ := mul_le_mul (hlo v h) e1 (by positivity) (h0 v h)
    refine le_trans (le_of_eq ?_) low
    rw [integral_add' ((i 2).const_mul _) ((i 3).const_mul _), integral_const_mul, integral_const_mul, v 2, v 3]
    norm_num [Nat.factorial]
    ring

/-- The integrals of the intermediate regime in units of the temperature. -/
theorem cut_scaled (sp : Species) (T : ℝ) (hT : 0 < T) (hM : 0 < sp.mass) :
    (∫ p in (0 : ℝ)..20 * T, sp.stat (physEnergy sp p / T) * p ^ 2 * sp.dof / 2 / Real.pi ^ 2) =
      sp.dof / (2 * Real.pi ^ 2) * T ^ 3 * (∫ v in (0 : ℝ)..20, v ^ 2 * occ sp.eta (√(v ^ 2 + (sp.mass / T) ^ 2))) ∧
    (∫ p in (0 : ℝ)..20 * T, sp.stat (physEnergy sp p / T) * p ^ 2 * physEnergy sp p * sp.dof / 2 / Real.pi ^ 2) =
      sp.dof / (2 * Real.pi ^ 2) * T ^ 4 * (∫ v in (0 : ℝ)..20,
        v ^ 2 * √(v ^ 2 + (sp.mass / T) ^ 2) * occ sp.eta (√(v ^ 2 + (sp.mass / T) ^ 2))) ∧
    (∫ p in (0 : ℝ)..20 * T, sp.stat (physEnergy sp p / T) * p ^ 4 / physEnergy sp p * sp.dof / 6 / Real.pi ^ 2) =
      sp.dof / (6 * Real.pi ^ 2) * T ^ 4 * (∫ v in (0 : ℝ)..20,
        v ^ 4 / √(v ^ 2 + (sp.mass / T) ^ 2) * occ sp.eta (√(v ^ 2 + (sp.mass / T) ^ 2))) := by
  have hpi := Real.pi_pos
  have hE : ∀ v, physEnergy sp (T * v) = T * √(v ^ 2 + (sp.mass / T) ^ 2) := by
    intro v
    unfold physEnergy
    rw [if_pos hM, show (T * v) ^ 2 + sp.mass ^ 2 = T ^ 2 * (v ^ 2 + (sp.mass / T) ^ 2) by field_simp,
      Real.sqrt_mul (by positivity), Real.sqrt_sq hT.le]
  have h0 : ∀ v : ℝ, 0 < √(v ^ 2 + (sp.mass / T) ^ 2) := fun v => Real.sqrt_pos.mpr (by positivity)
  have scale : ∀ g : ℝ → ℝ, ∫ y in (0 : ℝ)..20 * T, g y = T * ∫ v in (0 : ℝ)..20, g (T * v) := by
    intro g
    have h := intervalIntegral.smul_integral_comp_mul_left (a := 0) (b := 20) g T
    rw [mul_zero, smul_eq_mul, mul_comm T 20] at h
    exact h.symm
  refine ⟨?_, ?_, ?_⟩ <;>
  · rw [scale, ← intervalIntegral.integral_const_mul, ← intervalIntegral.integral_const_mul]
    refine intervalIntegral.integral_congr fun v _ => ?_
    have := h0 v
    simp only [hE, mul_div_cancel_left₀ _ hT.ne', stat_eq_occ]
    field_simp

/-- **C125, intermediate.** Up to the error of the quadrature and what momenta above 20 T contribute, a millionth for
light species and growing like `e^{M/T}`, the intermediate regime gives the integrals over all momenta. -/
theorem C125_intermediate (rule : Rule) (sp : Species) (T ε : ℝ) (hT : 0 < T) (hM : 0 < sp.mass) (hd : 0 ≤ sp.dof)
    (qn : |intDensity rule sp T -
      ∫ p in (0 : ℝ)..20 * T, sp.stat (physEnergy sp p / T) * p ^ 2 * sp.dof / 2 / Real.pi ^ 2| ≤ ε)
    (qe : |intEnergyDensity rule sp T -
      ∫ p in (0 : ℝ)..20 * T, sp.stat (physEnergy sp p / T) * p ^ 2 * physEnergy sp p * sp.dof / 2 / Real.pi ^ 2| ≤ ε)
    (qp : |intPressure rule sp T -
      ∫ p in (0 : ℝ)..20 * T, sp.stat (physEnergy sp p / T) * p ^ 4 / physEnergy sp p * sp.dof / 6 / Real.pi ^ 2| ≤ ε) :
    (-ε ≤ fullDensity sp T - intDensity rule sp T ∧
      fullDensity sp T - intDensity rule sp T ≤ ε + 1e-6 * Real.exp (sp.mass / T) * fullDensity sp T) ∧
    (-ε ≤ fullEnergy sp T - intEnergyDensity rule sp T ∧
      fullEnergy sp T - intEnergyDensity rule sp T ≤
        ε + 1e-5 * (1 + sp.mass / T) * Real.exp (sp.mass / T) * fullEnergy sp T) ∧
    (-ε ≤ fullPressure sp T - intPressure rule sp T ∧
      fullPressure sp T - intPressure rule sp T ≤ ε + 1e-5 * Real.exp (sp.mass / T) * (fullEnergy sp T / 3)) := by
  have hpi := Real.pi_pos
  have he := eta_cases sp
  obtain ⟨sn, se, sP⟩ := cut_scaled sp T hT hM
  have fn := fullDensity_scaled sp T hT hM
  obtain ⟨fe, fp⟩ := full_scaled sp T hT hM
  set u := sp.mass / T with hud
  have hu : 0 < u := by positivity
  have hE0 : ∀ v : ℝ, 0 < √(v ^ 2 + u ^ 2) := fun v => Real.sqrt_pos.mpr (by positivity)
  have hEv : ∀ v : ℝ, 0 < v → v ≤ √(v ^ 2 + u ^ 2) := fun v hv => energy_ge hv.le
  have hEu : ∀ v : ℝ, 0 < v → √(v ^ 2 + u ^ 2) ≤ v + u := fun v hv => energy_le hv.le hu.le
  have bn := cut_bracket he hu (fun v => v ^ 2) 400 40 1 0 1 0 1 0 (by fun_prop) (fun v _ => sq_nonneg v)
    (fun v _ => by linarith) zero_le_one le_rfl (fun v _ => by linarith) (fun v _ => le_of_eq (by ring))
  have be := cut_bracket he hu (fun v => v ^ 2 * √(v ^ 2 + u ^ 2)) (8000 + 400 * u) (1200 + 40 * u) (60 + u) 1 0 1 u 1
    (by fun_prop) (fun v _ => mul_nonneg (sq_nonneg v) (hE0 v).le)
    (fun v h => by nlinarith [mul_le_mul_of_nonneg_left (hEv v h) (sq_nonneg v)]) le_rfl zero_le_one
    (fun v h => by nlinarith [mul_le_mul_of_nonneg_left (hEu v h) (sq_nonneg v)])
    (fun v h => by nlinarith [mul_le_mul_of_nonneg_left (hEu v (by linarith)) (sq_nonneg v)])
  have p3 : ∀ v : ℝ, 0 < v → v ^ 4 / √(v ^ 2 + u ^ 2) ≤ v ^ 3 := fun v h => by
    rw [div_le_iff₀ (hE0 v)]
    nlinarith [mul_le_mul_of_nonneg_left (hEv v h) (pow_pos h 3).le]
  have bp := cut_bracket he hu (fun v => v ^ 4 / √(v ^ 2 + u ^ 2)) 8000 1200 60 1 0 0 0 1
    (ContinuousOn.div (by fun_prop) (by fun_prop) fun v _ => (hE0 v).ne')
    (fun v h => div_nonneg (by positivity) (hE0 v).le) (fun v h => by
      have : 0 ≤ v ^ 4 / √(v ^ 2 + u ^ 2) := div_nonneg (by positivity) (hE0 v).le
      linarith) le_rfl le_rfl (fun v h => by linarith [p3 v h])
    (fun v h => by
      refine (p3 v (by linarith)).trans (le_of_eq ?_)
      ring)
  have split : ∀ g : ℝ → ℝ, IntegrableOn g (Ioi 0) → ∫ v in Ioi (0 : ℝ), g v = (∫ v in (0 : ℝ)..20, g v) + ∫ v in Ioi (20 : ℝ), g v :=
    fun g hg => (intervalIntegral.integral_interval_add_Ioi hg (hg.mono_set (Ioi_subset_Ioi (by norm_num)))).symm
  have hex : Real.exp u * Real.exp (-u) = 1 := by rw [← Real.exp_add]; simp
  have hxp := Real.exp_pos u
  rw [sn] at qn
  rw [se] at qe
  rw [sP] at qp
  obtain ⟨in1, in2, in3, in4⟩ := bn
  obtain ⟨ie1, ie2, ie3, ie4⟩ := be
  obtain ⟨ip1, ip2, ip3, -⟩ := bp
  rw [split _ in1] at fn
  rw [split _ ie1] at fe
  rw [split _ ip1] at fp
  rw [split _ in1] at in4
  rw [split _ ie1] at ie4
  have hC3 : 0 ≤ sp.dof / (2 * Real.pi ^ 2) * T ^ 3 := by positivity
  have hC4 : 0 ≤ sp.dof / (2 * Real.pi ^ 2) * T ^ 4 := by positivity
  have hC6 : sp.dof / (6 * Real.pi ^ 2) * T ^ 4 = sp.dof / (2 * Real.pi ^ 2) * T ^ 4 / 3 := by ring
  rw [hC6] at fp qp
  generalize sp.dof / (2 * Real.pi ^ 2) * T ^ 3 = C at *
  generalize sp.dof / (2 * Real.pi ^ 2) * T ^ 4 = D at *
  generalize (∫ v in Ioi (20 : ℝ), v ^ 2 * occ sp.eta √(v ^ 2 + u ^ 2)) = tn at *
  generalize (∫ v in Ioi (20 : ℝ), v ^ 2 * √(v ^ 2 + u ^ 2) * occ sp.eta √(v ^ 2 + u ^ 2)) = te at *
  generalize (∫ v in Ioi (20 : ℝ), v ^ 4 / √(v ^ 2 + u ^ 2) * occ sp.eta √(v ^ 2 + u ^ 2)) = tp at *
  generalize (∫ v in (0 : ℝ)..20, v ^ 2 * occ sp.eta √(v ^ 2 + u ^ 2)) = an at *
  generalize (∫ v in (0 : ℝ)..20, v ^ 2 * √(v ^ 2 + u ^ 2) * occ sp.eta √(v ^ 2 + u ^ 2)) = ae at *
  generalize (∫ v in (0 : ℝ)..20, v ^ 4 / √(v ^ 2 + u ^ 2) * occ sp.eta √(v ^ 2 + u ^ 2)) = ap at *
  have n1 : 1 ≤ Real.exp u * (an + tn) := by
    have := mul_le_mul_of_nonneg_left in4 hxp.le
    nlinarith
  have n2 : 3 ≤ Real.exp u * (ae + te) := by
    have := mul_le_mul_of_nonneg_left ie4 hxp.le
    nlinarith
  obtain ⟨qn1, qn2⟩ := abs_le.mp qn
  obtain ⟨qe1, qe2⟩ := abs_le.mp qe
  obtain ⟨qp1, qp2⟩ := abs_le.mp qp
  rw [fn, fe, fp]
  refine ⟨⟨?_, ?_⟩, ⟨?_, ?_⟩, ⟨?_, ?_⟩⟩
  · have := mul_nonneg hC3 in2
    linarith
  · have h1 : C * tn ≤ C * (1e-6 * (Real.exp u * (an + tn))) := by
      refine mul_le_mul_of_nonneg_left ?_ hC3
      norm_num at in3 ⊢
      linarith
    linarith
  · have := mul_nonneg hC4 ie2
    linarith
  · have h1 : D * te ≤ D * (1e-5 * (1 + u) * (Real.exp u * (ae + te))) := by
      refine mul_le_mul_of_nonneg_left ?_ hC4
      have h2 := mul_le_mul_of_nonneg_left n2 (show (0 : ℝ) ≤ 1e-5 * (1 + u) by positivity)
      norm_num at ie3 h2 ⊢
      linarith
    linarith
  · have := mul_nonneg hC4 ip2
    linarith
  · have h1 : D * tp ≤ D * (1e-5 * (Real.exp u * (ae + te))) := by
      refine mul_le_mul_of_nonneg_left ?_ hC4
      norm_num at ip3 ⊢
      linarith
    linarith

/-- **C125, the switch to dust.** As the integrals of the intermediate regime stop at 20 T, for heavy species
the density is too small by a factor growing like `(M / T)^{3/2}`; at the switch (`M = 1000 T` by default) it is below
7% of the density which the dust regime gives at all lower temperatures: the density jumps up by a factor of 14. -/
theorem C125_jump (rule : Rule) (hr : ∀ xw ∈ rule, 0 ≤ xw.2 ∧ -1 ≤ xw.1 ∧ xw.1 ≤ 1)
    (he : ∀ q : Polynomial ℝ, q.natDegree ≤ 2 →
      (rule.map fun xw => q.eval xw.1 * xw.2).sum = ∫ x in (-1 : ℝ)..1, q.eval x)
    (sp : Species) (hM : 0 < sp.mass) (hd : 0 ≤ sp.dof) :
    (∀ T, 0 < T → 25 * T ≤ sp.mass → intDensity rule sp T ≤ 2200 * √(T / sp.mass) ^ 3 * dustDensity sp T) ∧
    (∀ s : PState ι, inEq sp s = true → s.T = sp.mass / 1000 → regime 1000 sp s = .intermediate ∧
      intDensity rule sp s.T ≤ 0.07 * dustDensity sp s.T) ∧
    (∀ s : PState ι, inEq sp s = true → 0 < s.T → s.T < sp.mass / 1000 → regime 1000 sp s = .dust) := by
  have hpi := Real.pi_pos
  have key : ∀ T, 0 < T → 25 * T ≤ sp.mass → intDensity rule sp T ≤ 2200 * √(T / sp.mass) ^ 3 * dustDensity sp T := by
    intro T hT hMT
    have h25 : 25 ≤ sp.mass / T := by rw [le_div_iff₀ hT]; linarith
    set K := 1.001 * Real.exp (-(sp.mass / T)) * sp.dof / 2 / Real.pi ^ 2 with hK
    have h1 : intDensity rule sp T ≤ gaussian rule (fun x => (Polynomial.C K * Polynomial.X ^ 2).eval x) 0 (20 * T) := by
      refine (gaussian_posQuad rule hr).mono _ _ 0 (20 * T) (by positivity) fun p _ _ => ?_
      have hE : sp.mass / T ≤ physEnergy sp p / T := by
        refine div_le_div_of_nonneg_right ?_ hT.le
        unfold physEnergy
        rw [if_pos hM]
        exact Real.le_sqrt_of_sq_le (by nlinarith [sq_nonneg p])
      have ho : sp.stat (physEnergy sp p / T) ≤ 1.001 * Real.exp (-(sp.mass / T)) := by
        rw [stat_eq_occ]
        refine (occ_bound (eta_cases sp) (by linarith)).2.trans ?_
        have hx : (1001 : ℝ) ≤ Real.exp (sp.mass / T) := by
          have h3 := Real.exp_one_gt_d9
          have h4 : Real.exp 25 = Real.exp 1 ^ 25 := by rw [← Real.exp_nat_mul]; norm_num
          have h5 : (2.718 : ℝ) ^ 25 ≤ Real.exp 25 := by
            rw [h4]; exact pow_le_pow_left₀ (by norm_num) (by linarith) 25
          have h6 := Real.exp_le_exp.mpr h25
          norm_num at h5
          linarith
        have h7 := Real.exp_le_exp.mpr hE
        rw [Real.exp_neg]
        refine (one_div_le_one_div_of_le (by linarith) (sub_le_sub_right h7 1)).trans ?_
        rw [div_le_iff₀ (by linarith)]
        have : (0 : ℝ) < Real.exp (sp.mass / T) := Real.exp_pos _
        field_simp
        norm_num
        linarith
      simp only [Polynomial.eval_mul, Polynomial.eval_C, Polynomial.eval_pow, Polynomial.eval_X]
      rw [show K * p ^ 2 = 1.001 * Real.exp (-(sp.mass / T)) * (p ^ 2 * sp.dof / 2 / Real.pi ^ 2) by rw [hK]; ring,
        show sp.stat (physEnergy sp p / T) * p ^ 2 * sp.dof / 2 / Real.pi ^ 2 =
          sp.stat (physEnergy sp p / T) * (p ^ 2 * sp.dof / 2 / Real.pi ^ 2) by ring]
      exact mul_le_mul_of_nonneg_right ho (by positivity)
    rw [C19_exact_degree rule 2 he _ ((Polynomial.natDegree_C_mul_le _ _).trans (by simp))] at h1
    have h2 : (∫ x in (0 : ℝ)..20 * T, (Polynomial.C K * Polynomial.X ^ 2).eval x) = K * ((20 * T) ^ 3 / 3) := by
      simp only [Polynomial.eval_mul, Polynomial.eval_C, Polynomial.eval_pow, Polynomial.eval_X]
      rw [intervalIntegral.integral_const_mul, integral_pow]
      norm_num
    rw [h2] at h1
    refine h1.trans ?_
    have h3 : √(T / sp.mass) ^ 3 * √(sp.mass * T / 2 / Real.pi) ^ 3 = T ^ 3 * √(1 / (2 * Real.pi)) ^ 3 := by
      rw [← mul_pow, ← Real.sqrt_mul (by positivity), show T / sp.mass * (sp.mass * T / 2 / Real.pi) =
        T ^ 2 * (1 / (2 * Real.pi)) by field_simp, Real.sqrt_mul (by positivity), Real.sqrt_sq hT.le, mul_pow]
    have h4 : (0.3989 : ℝ) ≤ √(1 / (2 * Real.pi)) := by
      refine Real.le_sqrt_of_sq_le ?_
      rw [le_div_iff₀ (by positivity)]
      nlinarith [Real.pi_lt_d4]
    have h5 : (0.0634 : ℝ) ≤ √(1 / (2 * Real.pi)) ^ 3 :=
      le_trans (by norm_num) (pow_le_pow_left₀ (by norm_num) h4 3)
    have h6 : 1.001 * 8000 / 6 / Real.pi ^ 2 ≤ 2200 * √(1 / (2 * Real.pi)) ^ 3 := by
      rw [div_le_iff₀ (by positivity)]
      have : (9.86 : ℝ) ≤ Real.pi ^ 2 := by nlinarith [Real.pi_gt_d4]
      nlinarith
    unfold dustDensity
    rw [show -sp.mass / T = -(sp.mass / T) by ring]
    calc K * ((20 * T) ^ 3 / 3) = 1.001 * 8000 / 6 / Real.pi ^ 2 * (sp.dof * T ^ 3 * Real.exp (-(sp.mass / T))) := by
          rw [hK]; ring
      _ ≤ 2200 * √(1 / (2 * Real.pi)) ^ 3 * (sp.dof * T ^ 3 * Real.exp (-(sp.mass / T))) :=
          mul_le_mul_of_nonneg_right h6 (by positivity)
      _ = 2200 * (T ^ 3 * √(1 / (2 * Real.pi)) ^ 3) * sp.dof * Real.exp (-(sp.mass / T)) := by ring
      _ = _ := by rw [← h3]; ring
  refine ⟨key, fun s hs hsT => ⟨?_, ?_⟩, fun s hs h0 hsT => ?_⟩
  · unfold regime
    rw [if_neg (by rw [hs]; simp), if_neg (by rw [hsT]; push Not; linarith), if_neg (by rw [hsT]; push Not; linarith)]
  · have h0 : 0 < s.T := by rw [hsT]; positivity
    refine (key s.T h0 (by rw [hsT]; linarith)).trans ?_
    have hdd : 0 ≤ dustDensity sp s.T := by unfold dustDensity; positivity
    refine mul_le_mul_of_nonneg_right ?_ hdd
    rw [hsT, show sp.mass / 1000 / sp.mass = 1 / 1000 by field_simp]
    have h1 : √(1 / 1000 : ℝ) ≤ 0.03163 := by
      rw [Real.sqrt_le_left (by norm_num)]; norm_num
    have := pow_le_pow_left₀ (Real.sqrt_nonneg _) h1 3
    norm_num at this ⊢
    linarith
  · unfold regime
    rw [if_neg (by rw [hs]; simp), if_neg (by push Not; linarith), if_pos (by linarith)]

/-- A rule with three nodes which meets the hypotheses of `C125_jump`. -/
example : ∃ rule : Rule, (∀ xw ∈ rule, 0 ≤ xw.2 ∧ -1 ≤ xw.1 ∧ xw.1 ≤ 1) ∧
    ∀ q : Polynomial ℝ, q.natDegree ≤ 2 →
      (rule.map fun xw => q.eval xw.1 * xw.2).sum = ∫ x in (-1 : ℝ)..1, q.eval x := by
  refine ⟨[(-1, 1 / 3), (0, 4 / 3), (1, 1 / 3)], ?_, fun q hq => ?_⟩
  · intro xw h
    simp only [List.mem_cons, List.not_mem_nil, or_false] at h
    rcases h with rfl | rfl | rfl <;> norm_num
  · have e : ∀ x, q.eval x = q.coeff 0 + q.coeff 1 * x + q.coeff 2 * x ^ 2 := by
      intro x
      rw [Polynomial.eval_eq_sum_range' (n := 3) (by omega)]
      simp [Finset.sum_range_succ]
    simp only [e]
    rw [intervalIntegral.integral_add (Continuous.intervalIntegrable (by fun_prop) _ _)
      (Continuous.intervalIntegrable (by fun_prop) _ _), intervalIntegral.integral_add
      (Continuous.intervalIntegrable (by fun_prop) _ _) (Continuous.intervalIntegrable (by fun_prop) _ _),
      intervalIntegral.integral_const_mul, intervalIntegral.integral_const_mul, integral_pow, integral_id,
      intervalIntegral.integral_const]
    norm_num
    ring

/-- An electron at the switch, still coupled, and its densities at a temperature in each of the regimes. -/
example : ∃ (sp : Species) (s : PState ℕ), 0 < sp.mass ∧ 0 < sp.dof ∧ inEq sp s = true ∧ s.T = sp.mass / 1000 :=
  ⟨⟨"e", 0.511, 4, true, true, -1, [], false, 1⟩,
    { T := 0.511 / 1000, aT := 1, Tdec := 0, dist := [], coll := [], integrals := [], tDec := 0, decayed := false,
      density := 0, histDist := [], histColl := [], histT := [], histDensity := [] },
    by norm_num, by norm_num, by simp [inEq]; norm_num, rfl⟩

example : dustDensity ⟨"e", 0.511, 4, true, true, -1, [], false, 1⟩ 0.01 * (1 - Real.exp (-0.511 / 0.01)) ≤
    fullDensity ⟨"e", 0.511, 4, true, true, -1, [], false, 1⟩ 0.01 := by
  have h := (C125_dust ⟨"e", 0.511, 4, true, true, -1, [], false, 1⟩ 0.01 (by norm_num) (by norm_num) (by norm_num)).1.1
  rw [mul_comm]
  exact h

example : fullEnergy ⟨"e", 0.511, 4, true, true, -1, [], false, 1⟩ 511 ≤
    radEnergyDensity ⟨"e", 0.511, 4, true, true, -1, [], false, 1⟩ 511 :=
  (C125_radiation _ 511 (by norm_num) (by norm_num) (by norm_num)).1.2

end PyBBN
