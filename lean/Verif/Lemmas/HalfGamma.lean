import Verif.Lemmas.Annihilation
import Mathlib.MeasureTheory.Integral.Gamma
import Mathlib.Analysis.SpecialFunctions.Gaussian.GaussianIntegral
/-!
# Integrals over the kinetic energy

Thermal integrals over momenta written as integrals over the energy, and bounds for heavy particles.
-/
namespace PyBBN

open MeasureTheory Set

/-- Substitution `e = √(v² + u²)`. -/
theorem energy_substitution (h : ℝ → ℝ) (k : ℕ) (hk : 1 ≤ k) (u : ℝ) (hu : 0 ≤ u) :
    ∫ v in Ioi (0 : ℝ), v ^ (k + 1) * h (√(v ^ 2 + u ^ 2)) = ∫ e in Ioi (0 : ℝ), √(e ^ 2 - u ^ 2) ^ k * (e * h e) := by
  have him : (fun v : ℝ => √(v ^ 2 + u ^ 2)) '' Ioi 0 = Ioi u := by
    ext e
    constructor
    · rintro ⟨v, hv, rfl⟩
      rw [mem_Ioi] at hv ⊢
      exact Real.lt_sqrt_of_sq_lt (by nlinarith)
    · intro h
      rw [mem_Ioi] at h
      have h1 : 0 < e ^ 2 - u ^ 2 := by nlinarith
      refine ⟨√(e ^ 2 - u ^ 2), mem_Ioi.mpr (Real.sqrt_pos.mpr h1), ?_⟩
      simp only
      rw [Real.sq_sqrt h1.le, sub_add_cancel, Real.sqrt_sq (by linarith)]
  have hinj : InjOn (fun v : ℝ => √(v ^ 2 + u ^ 2)) (Ioi 0) := by
    intro a ha b hb h
    rw [mem_Ioi] at ha hb
    have := (Real.sqrt_inj (by positivity) (by positivity)).mp h
    have h2 : (a - b) * (a + b) = 0 := by linarith
    rcases mul_eq_zero.mp h2 with h | h <;> linarith
  have cv := integral_image_eq_integral_abs_deriv_smul (s := Ioi (0 : ℝ)) measurableSet_Ioi
    (fun v hv => (energy_hasDerivAt (u := u) (mem_Ioi.mp hv)).hasDerivWithinAt) hinj
    (fun e => √(e ^ 2 - u ^ 2) ^ k * (e * h e))
  rw [him] at cv
  have hsub : (∫ e in Ioi (0 : ℝ), √(e ^ 2 - u ^ 2) ^ k * (e * h e)) = ∫ e in Ioi u, √(e ^ 2 - u ^ 2) ^ k * (e * h e) := by
    refine setIntegral_eq_of_subset_of_forall_sdiff_eq_zero measurableSet_Ioi (Ioi_subset_Ioi hu) ?_
    rintro e ⟨h1, h2⟩
    rw [mem_Ioi] at h1
    rw [mem_Ioi, not_lt] at h2
    rw [Real.sqrt_eq_zero_of_nonpos (by nlinarith), zero_pow (by omega), zero_mul]
  rw [hsub, cv]
  refine setIntegral_congr_fun measurableSet_Ioi fun v hv => ?_
  rw [mem_Ioi] at hv
  have h0 := energy_pos (u := u) hv
  have hs : √(v ^ 2 + u ^ 2) ^ 2 = v ^ 2 + u ^ 2 := Real.sq_sqrt (by positivity)
  simp only [smul_eq_mul, hs, add_sub_cancel_right]
  rw [Real.sqrt_sq hv.le, abs_of_pos (by positivity)]
  field_simp
  ring

/-- The same with the kinetic energy. -/
theorem kinetic_substitution (h : ℝ → ℝ) (k : ℕ) (hk : 1 ≤ k) (u : ℝ) (hu : 0 ≤ u) :
    ∫ v in Ioi (0 : ℝ), v ^ (k + 1) * h (√(v ^ 2 + u ^ 2)) =
      ∫ e in Ioi (0 : ℝ), √(e * (e + 2 * u)) ^ k * ((e + u) * h (e + u)) := by
  rw [energy_substitution h k hk u hu]
  have hsub : (∫ e in Ioi (0 : ℝ), √(e ^ 2 - u ^ 2) ^ k * (e * h e)) = ∫ e in Ioi u, √(e ^ 2 - u ^ 2) ^ k * (e * h e) := by
    refine setIntegral_eq_of_subset_of_forall_sdiff_eq_zero measurableSet_Ioi (Ioi_subset_Ioi hu) ?_
    rintro e ⟨h1, h2⟩
    rw [mem_Ioi] at h1
    rw [mem_Ioi, not_lt] at h2
    rw [Real.sqrt_eq_zero_of_nonpos (by nlinarith), zero_pow (by omega), zero_mul]
  rw [hsub]
  have := (measurePreserving_add_right volume u).setIntegral_preimage_emb (measurableEmbedding_addRight u)
    (fun e => √(e ^ 2 - u ^ 2) ^ k * (e * h e)) (Ioi u)
  rw [Set.preimage_add_const_Ioi, sub_self] at this
  rw [← this]
  refine setIntegral_congr_fun measurableSet_Ioi fun e _ => ?_
  rw [show (e + u) ^ 2 - u ^ 2 = e * (e + 2 * u) by ring]

theorem half_integral (j : ℕ) :
    IntegrableOn (fun e : ℝ => √e * e ^ j * Real.exp (-e)) (Ioi 0) ∧
      ∫ e in Ioi (0 : ℝ), √e * e ^ j * Real.exp (-e) = Real.Gamma (j + 3 / 2) := by
  have hs : (0 : ℝ) < j + 3 / 2 := by positivity
  have h := Real.GammaIntegral_convergent hs
  have e : EqOn (fun x : ℝ => Real.exp (-x) * x ^ ((j : ℝ) + 3 / 2 - 1)) (fun e : ℝ => √e * e ^ j * Real.exp (-e)) (Ioi 0) := by
    intro x hx
    rw [mem_Ioi] at hx
    dsimp only
    rw [show (j : ℝ) + 3 / 2 - 1 = 1 / 2 + j by ring, Real.rpow_add hx, Real.rpow_natCast, ← Real.sqrt_eq_rpow]
    ring
  refine ⟨h.congr_fun e measurableSet_Ioi, ?_⟩
  rw [Real.Gamma_eq_integral hs]
  exact (setIntegral_congr_fun measurableSet_Ioi e).symm

theorem half_poly (c0 c1 c2 c3 : ℝ) :
    IntegrableOn (fun e : ℝ => √e * (c0 + c1 * e + c2 * e ^ 2 + c3 * e ^ 3) * Real.exp (-e)) (Ioi 0) ∧
      ∫ e in Ioi (0 : ℝ), √e * (c0 + c1 * e + c2 * e ^ 2 + c3 * e ^ 3) * Real.exp (-e) =
        √Real.pi / 2 * (c0 + 3 / 2 * c1 + 15 / 4 * c2 + 105 / 8 * c3) := by
  have g0 : Real.Gamma ((0 : ℕ) + 3 / 2) = √Real.pi / 2 := by
    rw [show ((0 : ℕ) : ℝ) + 3 / 2 = 1 / 2 + 1 by norm_num, Real.Gamma_add_one (by norm_num), Real.Gamma_one_half_eq]
    ring
  have g : ∀ j : ℕ, Real.Gamma ((j + 1 : ℕ) + 3 / 2) = (j + 3 / 2) * Real.Gamma (j + 3 / 2) := fun j => by
    rw [show ((j + 1 : ℕ) : ℝ) + 3 / 2 = (j + 3 / 2) + 1 by push_cast; ring, Real.Gamma_add_one (by positivity)]
  have g1 := g 0
  have g2 := g 1
  have g3 := g 2
  rw [g0] at g1
  rw [g1] at g2
  rw [g2] at g3
  have i := fun j => (half_integral j).1
  have v := fun j => (half_integral j).2
  have e : (fun e : ℝ => √e * (c0 + c1 * e + c2 * e ^ 2 + c3 * e ^ 3) * Real.exp (-e)) = fun e : ℝ =>
      ((c0 * (√e * e ^ 0 * Real.exp (-e)) + c1 * (√e * e ^ 1 * Real.exp (-e))) + c2 * (√e * e ^ 2 * Real.exp (-e))) +
        c3 * (√e * e ^ 3 * Real.exp (-e)) := by
    funext e; ring
  have i0 := (i 0).const_mul c0
  have i1 := (i 1).const_mul c1
  have i2 := (i 2).const_mul c2
  have i3 := (i 3).const_mul c3
  have i01 : IntegrableOn (fun e : ℝ => c0 * (√e * e ^ 0 * Real.exp (-e)) + c1 * (√e * e ^ 1 * Real.exp (-e))) (Ioi 0) :=
    i0.add i1
  have i02 : IntegrableOn (fun e : ℝ => c0 * (√e * e ^ 0 * Real.exp (-e)) + c1 * (√e * e ^ 1 * Real.exp (-e)) +
      c2 * (√e * e ^ 2 * Real.exp (-e))) (Ioi 0) := i01.add i2
  constructor
  · rw [e]
    exact i02.add i3
  · rw [e, integral_add i02 i3, integral_add i01 i2, integral_add i0 i1, integral_const_mul,
      integral_const_mul, integral_const_mul, integral_const_mul, v 0, v 1, v 2, v 3, g0, g1, g2, g3]
    push_cast
    ring

/-- Far above the temperature both statistics are Boltzmann's. -/
theorem occ_boltzmann {eta : ℤ} (he : eta = 1 ∨ eta = -1) {u e : ℝ} (hu : 0 < u) (h : 0 ≤ e) :
    (1 - Real.exp (-u)) * (Real.exp (-u) * Real.exp (-e)) ≤ occ eta (e + u) ∧
      occ eta (e + u) ≤ (Real.exp (-u) * Real.exp (-e)) / (1 - Real.exp (-u)) := by
  have hd : Real.exp (-u) < 1 := Real.exp_lt_one_iff.mpr (by linarith)
  have hd0 := Real.exp_pos (-u)
  have hx : Real.exp (-u) * Real.exp (-e) = (Real.exp (e + u))⁻¹ := by
    rw [← Real.exp_add, ← Real.exp_neg]; congr 1; ring
  have hX : (1 : ℝ) ≤ Real.exp (-u) * Real.exp (e + u) := by
    rw [← Real.exp_add]
    exact Real.one_le_exp (by linarith)
  rw [hx]
  unfold occ
  set X := Real.exp (e + u) with hXd
  set d := Real.exp (-u)
  have hX0 : 0 < X := Real.exp_pos _
  have hX1 : 1 < X := by nlinarith
  have hη : 0 < X + eta := by rcases he with rfl | rfl <;> push_cast <;> linarith
  constructor
  · rw [le_div_iff₀ hη]
    rcases he with rfl | rfl
    · push_cast
      field_simp
      nlinarith
    · push_cast
      field_simp
      nlinarith
  · rw [div_le_div_iff₀ hη (by linarith)]
    rcases he with rfl | rfl
    · push_cast
      field_simp
      nlinarith
    · push_cast
      field_simp
      nlinarith

/-- Bounds on a thermal integral from bounds on its weight. -/
theorem dust_bracket {eta : ℤ} (he : eta = 1 ∨ eta = -1) {u : ℝ} (hu : 0 < u) (W lo up : ℝ → ℝ)
    (hW : ContinuousOn W (Ioi 0)) (h0 : ∀ e, 0 < e → 0 ≤ lo e) (h1 : ∀ e, 0 < e → lo e ≤ W e) (h2 : ∀ e, 0 < e → W e ≤ up e)
    (ilo : IntegrableOn (fun e => lo e * Real.exp (-e)) (Ioi 0)) (iup : IntegrableOn (fun e => up e * Real.exp (-e)) (Ioi 0)) :
    (1 - Real.exp (-u)) * (Real.exp (-u) * ∫ e in Ioi (0 : ℝ), lo e * Real.exp (-e)) ≤
        (∫ e in Ioi (0 : ℝ), W e * occ eta (e + u)) ∧
      (∫ e in Ioi (0 : ℝ), W e * occ eta (e + u)) ≤
        Real.exp (-u) * (∫ e in Ioi (0 : ℝ), up e * Real.exp (-e)) / (1 - Real.exp (-u)) := by
  have hd : 0 < 1 - Real.exp (-u) := by have := Real.exp_lt_one_iff.mpr (show -u < 0 by linarith); linarith
  have ho : ∀ e, 0 < e → 0 ≤ occ eta (e + u) := fun e h => (occ_bound he (by linarith : 0 < e + u)).1.le
  have pu : ∀ e, 0 < e → W e * occ eta (e + u) ≤ Real.exp (-u) / (1 - Real.exp (-u)) * (up e * Real.exp (-e)) := fun e h => by
    calc _ ≤ up e * ((Real.exp (-u) * Real.exp (-e)) / (1 - Real.exp (-u))) :=
          mul_le_mul (h2 e h) (occ_boltzmann he hu h.le).2 (ho e h) ((h0 e h).trans ((h1 e h).trans (h2 e h)))
      _ = _ := by ring
  have pl : ∀ e, 0 < e → (1 - Real.exp (-u)) * Real.exp (-u) * (lo e * Real.exp (-e)) ≤ W e * occ eta (e + u) := fun e h => by
    calc _ = lo e * ((1 - Real.exp (-u)) * (Real.exp (-u) * Real.exp (-e))) := by ring
      _ ≤ _ := mul_le_mul (h1 e h) (occ_boltzmann he hu h.le).1 (by positivity) ((h0 e h).trans (h1 e h))
  have co : ContinuousOn (fun e : ℝ => occ eta (e + u)) (Ioi 0) := by
    unfold occ
    refine ContinuousOn.div (by fun_prop) (by fun_prop) fun e h => ?_
    rw [mem_Ioi] at h
    exact (eta_den he (by linarith : 0 < e + u)).2.2.ne'
  have ii : IntegrableOn (fun e => W e * occ eta (e + u)) (Ioi 0) := by
    refine Integrable.mono' (iup.const_mul (Real.exp (-u) / (1 - Real.exp (-u))))
      ((hW.mul co).aestronglyMeasurable measurableSet_Ioi)
      ((ae_restrict_iff' measurableSet_Ioi).mpr (Filter.Eventually.of_forall fun e h => ?_))
    rw [mem_Ioi] at h
    rw [Real.norm_of_nonneg (mul_nonneg ((h0 e h).trans (h1 e h)) (ho e h))]
    exact pu e h
  constructor
  · have := setIntegral_mono_on (ilo.const_mul ((1 - Real.exp (-u)) * Real.exp (-u))) ii measurableSet_Ioi fun e h => pl e h
    rw [integral_const_mul] at this
    linarith
  · have := setIntegral_mono_on ii (iup.const_mul (Real.exp (-u) / (1 - Real.exp (-u)))) measurableSet_Ioi fun e h => pu e h
    rw [integral_const_mul] at this
    refine this.trans (le_of_eq ?_)
    ring

end PyBBN
