import Verif.Model.NeutronConst
import Verif.Props.Kawano
import Mathlib.Analysis.SpecialFunctions.Log.Deriv
import Mathlib.Analysis.SpecialFunctions.Sqrt
import Mathlib.MeasureTheory.Integral.IntervalIntegral.FundThmCalculus
import Mathlib.Analysis.SpecialFunctions.Integrals.Basic
import Mathlib.Analysis.Complex.ExponentialBounds
/-!
# C124: the free neutron

The rates handed to the nuclear network are in units of the inverse neutron lifetime.
-/
open MeasureTheory

namespace PyBBN

/-- Phase space of the decay of a neutron at rest into a proton at rest, an electron and a neutrino of momentum `y`, for
a mass difference `q` and electron mass `m`. -/
noncomputable def freeDecay (q m : ℝ) : ℝ := ∫ y in (0 : ℝ)..(q - m), y ^ 2 * (√((q - y) ^ 2 - m ^ 2) * (q - y))

/-- The electron spectrum integrated. -/
noncomputable def betaPrimitive (q m E : ℝ) : ℝ :=
  let s := √(E ^ 2 - m ^ 2)
  q ^ 2 * s ^ 3 / 3 - 2 * q * (E * s ^ 3 / 4 + m ^ 2 * (E * s) / 8 - m ^ 4 / 8 * Real.log (E + s)) + s ^ 5 / 5 + m ^ 2 * s ^ 3 / 3

theorem betaPrimitive_deriv {q m E : ℝ} (hm : 0 < m) (hE : m < E) :
    HasDerivAt (betaPrimitive q m) ((q - E) ^ 2 * (√(E ^ 2 - m ^ 2) * E)) E := by
  have hpos : 0 < E ^ 2 - m ^ 2 := by nlinarith
  have hs := Real.sqrt_pos.mpr hpos
  have hsq := Real.sq_sqrt hpos.le
  have d0 : HasDerivAt (fun x : ℝ => x ^ 2 - m ^ 2) (2 * E) E := by
    simpa using ((hasDerivAt_id E).pow 2).sub_const (m ^ 2)
  have ds : HasDerivAt (fun x : ℝ => √(x ^ 2 - m ^ 2)) (E / √(E ^ 2 - m ^ 2)) E := by
    have := d0.sqrt hpos.ne'
    convert this using 1
    field_simp
  set s := √(E ^ 2 - m ^ 2) with hsd
  have hE0 : 0 < E := hm.trans hE
  have di := hasDerivAt_id E
  have dl : HasDerivAt (fun x : ℝ => Real.log (x + √(x ^ 2 - m ^ 2))) ((1 + E / s) / (E + s)) E := by
    have := (di.add ds).log (by simp only [Pi.add_apply, id]; positivity)
    simpa using this
  have h := (((((ds.pow 3).const_mul (q ^ 2)).div_const 3).sub
    ((((((di.mul (ds.pow 3)).div_const 4).add (((di.mul ds).const_mul (m ^ 2)).div_const 8)).sub
      (dl.const_mul (m ^ 4 / 8))).const_mul (2 * q)))).add ((ds.pow 5).div_const 5)).add
        (((ds.pow 3).const_mul (m ^ 2)).div_const 3)
  refine (h.congr_deriv ?_).congr_of_eventuallyEq (Filter.Eventually.of_forall fun x => ?_)
  · simp only [id, ← hsd, Pi.pow_apply]
    have hm2 : m ^ 2 = E ^ 2 - s ^ 2 := by rw [hsq]; ring
    have hm4 : m ^ 4 = (E ^ 2 - s ^ 2) ^ 2 := by rw [← hm2]; ring
    rw [hm4, hm2]
    have : E + s ≠ 0 := by positivity
    field_simp
    ring
  · simp [betaPrimitive]

/-- **C124, phase space.** The integral in closed form. -/
theorem C124_closed_form {q m : ℝ} (hm : 0 < m) (hq : m < q) :
    freeDecay q m = √(q ^ 2 - m ^ 2) * (2 * q ^ 4 - 9 * q ^ 2 * m ^ 2 - 8 * m ^ 4) / 60 +
      q * m ^ 4 / 4 * Real.log ((q + √(q ^ 2 - m ^ 2)) / m) := by
  have hcont : ContinuousOn (fun y => -betaPrimitive q m (q - y)) (Set.Icc 0 (q - m)) := by
    unfold betaPrimitive
    have hlog : ContinuousOn (fun y : ℝ => Real.log (q - y + √((q - y) ^ 2 - m ^ 2))) (Set.Icc 0 (q - m)) := by
      apply ContinuousOn.log
      · fun_prop
      · intro y hy
        have := Real.sqrt_nonneg ((q - y) ^ 2 - m ^ 2)
        have := hy.2
        nlinarith
    dsimp only
    fun_prop (disch := norm_num)
  have hint : IntervalIntegrable (fun y : ℝ => y ^ 2 * (√((q - y) ^ 2 - m ^ 2) * (q - y))) volume 0 (q - m) :=
    Continuous.intervalIntegrable (by fun_prop) _ _
  have h := intervalIntegral.integral_eq_sub_of_hasDerivAt_of_le (sub_nonneg.mpr hq.le) hcont (fun y hy => by
    have hy2 : m < q - y := by linarith [hy.2]
    have := (betaPrimitive_deriv (q := q) hm hy2).comp y ((hasDerivAt_id y).const_sub q)
    refine (this.neg).congr_deriv ?_
    ring) hint
  rw [freeDecay, h]
  have e0 : q - (q - m) = m := by ring
  simp only [e0, sub_zero]
  have hqm : 0 ≤ q ^ 2 - m ^ 2 := by nlinarith
  have hs := Real.sqrt_nonneg (q ^ 2 - m ^ 2)
  have hsq := Real.sq_sqrt hqm
  unfold betaPrimitive
  simp only [sub_self, Real.sqrt_zero, add_zero]
  rw [Real.log_div (by have := hm.trans hq; positivity) hm.ne']
  set s := √(q ^ 2 - m ^ 2)
  have h3 : s ^ 3 = s * (q ^ 2 - m ^ 2) := by rw [← hsq]; ring
  have h5 : s ^ 5 = s * (q ^ 2 - m ^ 2) ^ 2 := by rw [← hsq]; ring
  rw [h3, h5]
  ring

/-- Phase space in units of a scale. -/
theorem freeDecay_scale (q m : ℝ) {a : ℝ} (ha : 0 < a) : freeDecay (q * a) (m * a) = a ^ 5 * freeDecay q m := by
  unfold freeDecay
  have h := intervalIntegral.integral_comp_mul_left (a := 0) (b := q - m)
    (fun y : ℝ => y ^ 2 * (√((q * a - y) ^ 2 - (m * a) ^ 2) * (q * a - y))) ha.ne'
  rw [mul_zero, show a * (q - m) = q * a - m * a by ring, smul_eq_mul, eq_inv_mul_iff_mul_eq₀ ha.ne'] at h
  rw [← h, show a ^ 5 = a * a ^ 4 by ring, mul_assoc]
  congr 1
  rw [← intervalIntegral.integral_const_mul]
  apply intervalIntegral.integral_congr
  intro y _
  dsimp only
  rw [show (q * a - a * y) ^ 2 - (m * a) ^ 2 = a ^ 2 * ((q - y) ^ 2 - m ^ 2) by ring, Real.sqrt_mul (by positivity),
    Real.sqrt_sq ha.le]
  ring

/-- `ln 4.856` as precisely as needed below. -/
theorem log_neutron {x : ℝ} (h1 : 4.856035 ≤ x) (h2 : x ≤ 4.856036) : 1.580219 ≤ Real.log x ∧ Real.log x ≤ 1.580226 := by
  have key : ∀ z : ℝ, 0 < z → Real.log z = 2 * Real.log 2 - Real.log (1 - (1 - 4 / z)) := by
    intro z hz
    rw [show 1 - (1 - 4 / z) = 4 / z by ring, Real.log_div (by norm_num) hz.ne',
      show (4 : ℝ) = 2 ^ 2 by norm_num, Real.log_pow]
    push_cast
    ring
  have a1 := Real.log_two_gt_d9
  have a2 := Real.log_two_lt_d9
  constructor
  · refine le_trans ?_ (Real.log_le_log (by norm_num) h1)
    rw [key _ (by norm_num)]
    have := Real.abs_log_sub_add_sum_range_le (x := 1 - 4 / 4.856035) (by rw [abs_of_pos] <;> norm_num) 7
    rw [abs_of_pos (by norm_num : (0 : ℝ) < 1 - 4 / 4.856035)] at this
    have h := (abs_le.mp this).2
    norm_num [Finset.sum_range_succ] at h a1 ⊢
    linarith
  · refine le_trans (Real.log_le_log (by linarith) h2) ?_
    rw [key _ (by norm_num)]
    have := Real.abs_log_sub_add_sum_range_le (x := 1 - 4 / 4.856036) (by rw [abs_of_pos] <;> norm_num) 7
    rw [abs_of_pos (by norm_num : (0 : ℝ) < 1 - 4 / 4.856036)] at this
    have h := (abs_le.mp this).1
    norm_num [Finset.sum_range_succ] at h a2 ⊢
    linarith

/-- **C124, normalisation.** With the masses and the constant which the code ships, whatever the unit of energy, the
rate of decay of a free neutron is one to within a hundred thousandth: the rates are per neutron lifetime. -/
theorem C124_normalised {MeV : ℝ} (h : 0 < MeV) :
    |rateNormalization MeV * freeDecay (kawanoQ MeV) (kawanoMe MeV) - 1| < 1e-5 := by
  have e1 : kawanoQ MeV = 1.293332 * MeV := by
    unfold kawanoQ Tmpl.mass; push_cast; ring
  have e2 : kawanoMe MeV = 0.511 * MeV := by
    unfold kawanoMe Tmpl.mass; push_cast; ring
  rw [e1, e2, freeDecay_scale _ _ h, rateNormalization, C124_closed_form (by norm_num) (by norm_num)]
  have s1 : 1.1881021 ≤ √((1.293332 : ℝ) ^ 2 - 0.511 ^ 2) := Real.le_sqrt_of_sq_le (by norm_num)
  have s2 : √((1.293332 : ℝ) ^ 2 - 0.511 ^ 2) ≤ 1.1881022 := Real.sqrt_le_iff.mpr ⟨by norm_num, by norm_num⟩
  set s := √((1.293332 : ℝ) ^ 2 - 0.511 ^ 2)
  obtain ⟨l1, l2⟩ := log_neutron (x := (1.293332 + s) / 0.511) (by rw [le_div_iff₀ (by norm_num)]; linarith)
    (by rw [div_le_iff₀ (by norm_num)]; linarith)
  set l := Real.log ((1.293332 + s) / 0.511)
  have hM : MeV ^ 5 ≠ 0 := by positivity
  rw [show ∀ X : ℝ, 17.5426 / MeV ^ 5 * (MeV ^ 5 * X) = 17.5426 * X by intro X; field_simp, abs_lt]
  constructor <;> norm_num at s1 s2 l1 l2 ⊢ <;> linarith

/-- `integrate_1D` with an exact quadrature. -/
noncomputable def exactQ (f : ℝ → ℝ) (a b : ℝ) : ℝ := ∫ y in a..b, f y

namespace KEnv

/-- **C124, blocking.** For any linear and monotone quadrature: more electrons or neutrinos around never speed up a
process which produces them and never slow down one which needs them. -/
theorem C124_blocking (k k' : KEnv) (Q : (ℝ → ℝ) → ℝ → ℝ → ℝ) (hQ : PosQuad Q) (norm pa ymin ymax : ℝ)
    (hn : 0 ≤ norm) (hpa : 0 ≤ pa) (hq : k'.q = k.q) (hme : k'.me = k.me) (ha : k'.a = k.a) (hm : 0 ≤ k.me * k.a)
    (ho : k.Occ) (ho' : k'.Occ) (he : ∀ y, k.fe y ≤ k'.fe y) :
    ∃ r r' : Fin 6 → ℝ, k.baryonicRates Q norm pa ymin ymax = List.ofFn r ∧
      k'.baryonicRates Q norm pa ymin ymax = List.ofFn r' ∧
      ((∀ y, k'.fnu y ≤ k.fnu y) → r' 0 ≤ r 0 ∧ r 1 ≤ r' 1 ∧ r 4 ≤ r' 4 ∧ r' 5 ≤ r 5) ∧
      ((∀ y, k.fnu y ≤ k'.fnu y) → r' 2 ≤ r 2 ∧ r 3 ≤ r' 3) := by
  classical
  have hsq : 0 ≤ norm / pa ^ 5 := by positivity
  have mono : ∀ (f g : ℝ → ℝ) (a b : ℝ), (∀ y, f y ≤ g y) →
      (if a < b then norm / pa ^ 5 * Q f a b else 0) ≤ (if a < b then norm / pa ^ 5 * Q g a b else 0) := by
    intro f g a b h
    split_ifs with hab
    · exact mul_le_mul_of_nonneg_left (hQ.mono f g a b hab.le fun x _ _ => h x) hsq
    · exact le_rfl
  have yy : ∀ E, k'.ye E = k.ye E := fun E => by unfold ye; rw [hme, ha]
  have pt : ∀ (E y u v u' v' : ℝ), 0 ≤ u' → 0 ≤ v → u ≤ u' → v ≤ v' →
      (if E < k.me * k.a then 0 else y ^ 2 * k.ye E * E * u * v) ≤
        (if E < k.me * k.a then 0 else y ^ 2 * k.ye E * E * u' * v') := by
    intro E y u v u' v' hu hv huu hvv
    split_ifs with h
    · exact le_rfl
    · have hE : 0 ≤ E := hm.trans (not_lt.mp h)
      have := k.ye_nonneg E
      rw [mul_assoc (y ^ 2 * k.ye E * E), mul_assoc (y ^ 2 * k.ye E * E)]
      exact mul_le_mul_of_nonneg_left (mul_le_mul huu hvv hv hu) (by positivity)
  have e0 := fun y => (ho.1 y).1
  have e1 := fun y => (ho.1 y).2
  have e0' := fun y => (ho'.1 y).1
  have e1' := fun y => (ho'.1 y).2
  have n0 := fun y => (ho.2 y).1
  have n1 := fun y => (ho.2 y).2
  have n0' := fun y => (ho'.2 y).1
  have n1' := fun y => (ho'.2 y).2
  let R : KEnv → Fin 6 → ℝ := fun k => ![
    if ymin < ymax then norm / pa ^ 5 * Q k.rate1 ymin ymax else 0,
    if ymin < ymax then norm / pa ^ 5 * Q k.rate2 ymin ymax else 0,
    if ymin < (k.q - k.me) * k.a then norm / pa ^ 5 * Q k.rate3 ymin ((k.q - k.me) * k.a) else 0,
    if ymin < (k.q - k.me) * k.a then norm / pa ^ 5 * Q k.rate4 ymin ((k.q - k.me) * k.a) else 0,
    if (k.q + k.me) * k.a < ymax then norm / pa ^ 5 * Q k.rate5 ((k.q + k.me) * k.a) ymax else 0,
    if (k.q + k.me) * k.a < ymax then norm / pa ^ 5 * Q k.rate6 ((k.q + k.me) * k.a) ymax else 0]
  refine ⟨R k, R k', rfl, rfl, fun hn => ⟨?_, ?_, ?_, ?_⟩, fun hn => ⟨?_, ?_⟩⟩
  · refine mono _ _ _ _ fun y => ?_
    unfold rate1
    simp only [hq, hme, ha, yy]
    exact pt _ _ _ _ _ _ (sub_nonneg.mpr (e1 _)) (n0' _) (sub_le_sub_left (he _) _) (hn _)
  · refine mono _ _ _ _ fun y => ?_
    unfold rate2
    simp only [hq, hme, ha, yy]
    exact pt _ _ _ _ _ _ (e0' _) (sub_nonneg.mpr (n1 _)) (he _) (sub_le_sub_left (hn _) _)
  · change (if (k.q + k.me) * k.a < ymax then _ else _) ≤ (if (k'.q + k'.me) * k'.a < ymax then _ else _)
    rw [hq, hme, ha]
    refine mono _ _ _ _ fun y => ?_
    unfold rate5
    simp only [hq, hme, ha, yy]
    exact pt _ _ _ _ _ _ (e0' _) (sub_nonneg.mpr (n1 _)) (he _) (sub_le_sub_left (hn _) _)
  · change (if (k'.q + k'.me) * k'.a < ymax then _ else _) ≤ (if (k.q + k.me) * k.a < ymax then _ else _)
    rw [hq, hme, ha]
    refine mono _ _ _ _ fun y => ?_
    unfold rate6
    simp only [hq, hme, ha, yy]
    exact pt _ _ _ _ _ _ (sub_nonneg.mpr (e1 _)) (n0' _) (sub_le_sub_left (he _) _) (hn _)
  · change (if ymin < (k'.q - k'.me) * k'.a then _ else _) ≤ (if ymin < (k.q - k.me) * k.a then _ else _)
    rw [hq, hme, ha]
    refine mono _ _ _ _ fun y => ?_
    unfold rate3
    simp only [hq, hme, ha, yy]
    exact pt _ _ _ _ _ _ (sub_nonneg.mpr (e1 _)) (sub_nonneg.mpr (n1' _)) (sub_le_sub_left (he _) _) (sub_le_sub_left (hn _) _)
  · change (if ymin < (k.q - k.me) * k.a then _ else _) ≤ (if ymin < (k'.q - k'.me) * k'.a then _ else _)
    rw [hq, hme, ha]
    refine mono _ _ _ _ fun y => ?_
    unfold rate4
    simp only [hq, hme, ha, yy]
    exact pt _ _ _ _ _ _ (e0' _) (n0 _) (he _) (hn _)

/-- Weighted with a measurable fraction, a continuous function stays integrable. -/
theorem weighted_integrable {v g : ℝ → ℝ} (hv : Continuous v) (hg : Measurable g) (h : ∀ y, |g y| ≤ 1) (a b : ℝ) :
    IntervalIntegrable (fun y => v y * g y) volume a b := by
  refine (hv.intervalIntegrable a b).mono_fun (hv.measurable.mul hg).aestronglyMeasurable
    (Filter.Eventually.of_forall fun y => ?_)
  dsimp only
  rw [norm_mul, Real.norm_eq_abs (g y)]
  exact mul_le_of_le_one_right (norm_nonneg _) (h y)

/-- Decay and inverse decay within the range of integration. -/
theorem rate34_in (k : KEnv) {y : ℝ} (h : y ≤ (k.q - k.me) * k.a) :
    k.rate3 y = y ^ 2 * (√((k.q * k.a - y) ^ 2 - (k.me * k.a) ^ 2) * (k.q * k.a - y)) *
      ((1 - k.fe (k.ye (k.q * k.a - y))) * (1 - k.fnu y)) ∧
    k.rate4 y = y ^ 2 * (√((k.q * k.a - y) ^ 2 - (k.me * k.a) ^ 2) * (k.q * k.a - y)) *
      (k.fe (k.ye (k.q * k.a - y)) * k.fnu y) := by
  have hn : ¬ k.q * k.a - y < k.me * k.a := by rw [sub_mul] at h; linarith
  constructor
  · unfold rate3
    dsimp only
    rw [if_neg hn]
    unfold ye
    ring
  · unfold rate4
    dsimp only
    rw [if_neg hn]
    unfold ye
    ring

/-- Capture within the range of integration. -/
theorem rate12_in (k : KEnv) {y : ℝ} (h : k.me * k.a ≤ k.q * k.a + y) :
    k.rate1 y = y ^ 2 * (√((k.q * k.a + y) ^ 2 - (k.me * k.a) ^ 2) * (k.q * k.a + y)) *
      ((1 - k.fe (k.ye (k.q * k.a + y))) * k.fnu y) ∧
    k.rate2 y = y ^ 2 * (√((k.q * k.a + y) ^ 2 - (k.me * k.a) ^ 2) * (k.q * k.a + y)) *
      (k.fe (k.ye (k.q * k.a + y)) * (1 - k.fnu y)) := by
  constructor
  · unfold rate1
    dsimp only
    rw [if_neg (not_lt.mpr h)]
    unfold ye
    ring
  · unfold rate2
    dsimp only
    rw [if_neg (not_lt.mpr h)]
    unfold ye
    ring

/-- **C124, vacuum.** With nothing else around only the decay is left, at a rate which does not depend on the scale
factor. -/
theorem C124_vacuum (k : KEnv) (norm ymax : ℝ) (ha : 0 < k.a) (hm : 0 < k.me) (hq : k.me < k.q)
    (hfe : ∀ y, k.fe y = 0) (hfnu : ∀ y, k.fnu y = 0) :
    k.baryonicRates exactQ norm k.a 0 ymax = [0, 0, norm * freeDecay k.q k.me, 0, 0, 0] := by
  have r1 : k.rate1 = fun _ => 0 := by funext y; unfold rate1; simp [hfnu]
  have r2 : k.rate2 = fun _ => 0 := by funext y; unfold rate2; simp [hfe]
  have r4 : k.rate4 = fun _ => 0 := by funext y; unfold rate4; simp [hfe]
  have r5 : k.rate5 = fun _ => 0 := by funext y; unfold rate5; simp [hfe]
  have r6 : k.rate6 = fun _ => 0 := by funext y; unfold rate6; simp [hfnu]
  have hb : 0 < (k.q - k.me) * k.a := mul_pos (sub_pos.mpr hq) ha
  have r3 : exactQ k.rate3 0 ((k.q - k.me) * k.a) = k.a ^ 5 * freeDecay k.q k.me := by
    rw [← freeDecay_scale _ _ ha]
    unfold exactQ freeDecay
    rw [sub_mul]
    apply intervalIntegral.integral_congr
    intro y hy
    rw [Set.uIcc_of_le (by rw [← sub_mul]; exact hb.le)] at hy
    rw [(k.rate34_in (by rw [sub_mul]; exact hy.2)).1, hfe, hfnu]
    ring
  have z : ∀ a b, exactQ (fun _ => 0) a b = 0 := fun a b => by simp [exactQ]
  unfold baryonicRates jobs
  simp only [List.map_cons, List.map_nil, r1, r2, r4, r5, r6, z, mul_zero, ite_self, r3, if_pos hb]
  have := pow_pos ha 5
  have e : norm / k.a ^ 5 * (k.a ^ 5 * freeDecay k.q k.me) = norm * freeDecay k.q k.me := by field_simp
  rw [e]

/-- **C124, late times.** Any occupations: with at most `N` neutrinos per comoving volume (`∫ y² f`) and electron
occupations below `ε`, the decay is the free decay and the other processes are absent, up to explicit errors. -/
theorem C124_late (k : KEnv) (norm ymax N ε : ℝ) (hn : 0 ≤ norm) (ha : 0 < k.a) (hm : 0 < k.me) (hq : k.me < k.q)
    (ho : k.Occ) (mfe : Measurable k.fe) (mfnu : Measurable k.fnu) (hε : ∀ y, 0 ≤ y → k.fe y ≤ ε)
    (hN : ∀ R, 0 ≤ R → ∫ y in (0 : ℝ)..R, y ^ 2 * k.fnu y ≤ N) (h0 : 0 < ymax) :
    ∃ r1 r2 r3 r4 r5 r6, k.baryonicRates exactQ norm k.a 0 ymax = [r1, r2, r3, r4, r5, r6] ∧
      (0 ≤ r1 ∧ r1 ≤ norm * ((k.q + ymax / k.a) ^ 2 * N / k.a ^ 3)) ∧
      (0 ≤ r2 ∧ r2 ≤ norm * (ε * (k.q + ymax / k.a) ^ 2 * (ymax / k.a) ^ 3 / 3)) ∧
      (norm * (freeDecay k.q k.me - ε * freeDecay k.q k.me - k.q ^ 2 * N / k.a ^ 3) ≤ r3 ∧ r3 ≤ norm * freeDecay k.q k.me) ∧
      (0 ≤ r4 ∧ r4 ≤ norm * (ε * freeDecay k.q k.me)) ∧
      (ymax ≤ (k.q + k.me) * k.a → r5 = 0 ∧ r6 = 0) := by
  classical
  have hq0 : 0 < k.q := hm.trans hq
  have hb : 0 < (k.q - k.me) * k.a := mul_pos (sub_pos.mpr hq) ha
  have hqa : 0 < k.q * k.a := mul_pos hq0 ha
  have hma : 0 < k.me * k.a := mul_pos hm ha
  have ha5 : 0 < k.a ^ 5 := pow_pos ha 5
  have habs : ∀ {u v : ℝ}, 0 ≤ u → u ≤ 1 → 0 ≤ v → v ≤ 1 → |u * v| ≤ 1 := fun {u v} a b c d => by
    rw [abs_of_nonneg (mul_nonneg a c)]; exact mul_le_one₀ b c d
  -- the momentum of the electron
  have myp : Measurable fun y : ℝ => k.fe (k.ye (k.q * k.a + y)) := by
    apply mfe.comp; unfold ye; fun_prop
  have mym : Measurable fun y : ℝ => k.fe (k.ye (k.q * k.a - y)) := by
    apply mfe.comp; unfold ye; fun_prop
  have e0 := fun y => (ho.1 y).1
  have e1 := fun y => (ho.1 y).2
  have n0 := fun y => (ho.2 y).1
  have n1 := fun y => (ho.2 y).2
  have hyε : ∀ E, k.fe (k.ye E) ≤ ε := fun E => hε _ (k.ye_nonneg E)
  have hε0 : 0 ≤ ε := (e0 _).trans (hε 0 le_rfl)
  let vp : ℝ → ℝ := fun y => y ^ 2 * (√((k.q * k.a + y) ^ 2 - (k.me * k.a) ^ 2) * (k.q * k.a + y))
  let vm : ℝ → ℝ := fun y => y ^ 2 * (√((k.q * k.a - y) ^ 2 - (k.me * k.a) ^ 2) * (k.q * k.a - y))
  have cp : Continuous vp := by fun_prop
  have cm : Continuous vm := by fun_prop
  have vp0 : ∀ y, 0 ≤ y → 0 ≤ vp y := fun y hy => by simp only [vp]; positivity
  have vm0 : ∀ y, y ≤ (k.q - k.me) * k.a → 0 ≤ vm y := fun y hy => by
    have : 0 ≤ k.q * k.a - y := by rw [sub_mul] at hy; linarith
    simp only [vm]; positivity
  have sq : ∀ E c : ℝ, 0 ≤ E → √(E ^ 2 - c ^ 2) * E ≤ E ^ 2 := fun E c hE => by
    rw [pow_two E]
    refine mul_le_mul_of_nonneg_right (Real.sqrt_le_iff.mpr ⟨hE, by nlinarith⟩) hE
  have vpb : ∀ y, 0 ≤ y → y ≤ ymax → vp y ≤ (k.q * k.a + ymax) ^ 2 * y ^ 2 := fun y hy hy' => by
    simp only [vp]
    rw [mul_comm _ (y ^ 2)]
    refine mul_le_mul_of_nonneg_left ((sq _ _ (by positivity)).trans ?_) (sq_nonneg y)
    exact pow_le_pow_left₀ (by positivity) (by linarith) 2
  have vmb : ∀ y, 0 ≤ y → y ≤ (k.q - k.me) * k.a → vm y ≤ (k.q * k.a) ^ 2 * y ^ 2 := fun y hy hy' => by
    have h1 : 0 ≤ k.q * k.a - y := by rw [sub_mul] at hy'; linarith
    simp only [vm]
    rw [mul_comm _ (y ^ 2)]
    refine mul_le_mul_of_nonneg_left ((sq _ _ h1).trans ?_) (sq_nonneg y)
    exact pow_le_pow_left₀ h1 (by linarith) 2
  have cn : ∀ b, IntervalIntegrable (fun y => y ^ 2 * k.fnu y) volume 0 b := fun b =>
    weighted_integrable (by fun_prop) mfnu (fun y => by rw [abs_of_nonneg (n0 y)]; exact n1 y) _ _
  have vmint : ∫ y in (0 : ℝ)..(k.q - k.me) * k.a, vm y = k.a ^ 5 * freeDecay k.q k.me := by
    rw [← freeDecay_scale _ _ ha, sub_mul]
    rfl
  have R1 : exactQ k.rate1 0 ymax = ∫ y in (0 : ℝ)..ymax, vp y * ((1 - k.fe (k.ye (k.q * k.a + y))) * k.fnu y) := by
    apply intervalIntegral.integral_congr
    intro y hy
    rw [Set.uIcc_of_le h0.le] at hy
    exact (k.rate12_in (by nlinarith [hy.1])).1
  have R2 : exactQ k.rate2 0 ymax = ∫ y in (0 : ℝ)..ymax, vp y * (k.fe (k.ye (k.q * k.a + y)) * (1 - k.fnu y)) := by
    apply intervalIntegral.integral_congr
    intro y hy
    rw [Set.uIcc_of_le h0.le] at hy
    exact (k.rate12_in (by nlinarith [hy.1])).2
  have R3 : exactQ k.rate3 0 ((k.q - k.me) * k.a) =
      ∫ y in (0 : ℝ)..(k.q - k.me) * k.a, vm y * ((1 - k.fe (k.ye (k.q * k.a - y))) * (1 - k.fnu y)) := by
    apply intervalIntegral.integral_congr
    intro y hy
    rw [Set.uIcc_of_le hb.le] at hy
    exact (k.rate34_in hy.2).1
  have R4 : exactQ k.rate4 0 ((k.q - k.me) * k.a) =
      ∫ y in (0 : ℝ)..(k.q - k.me) * k.a, vm y * (k.fe (k.ye (k.q * k.a - y)) * k.fnu y) := by
    apply intervalIntegral.integral_congr
    intro y hy
    rw [Set.uIcc_of_le hb.le] at hy
    exact (k.rate34_in hy.2).2
  have i1 : IntervalIntegrable (fun y => vp y * ((1 - k.fe (k.ye (k.q * k.a + y))) * k.fnu y)) volume 0 ymax :=
    weighted_integrable cp ((measurable_const.sub myp).mul mfnu)
      (fun y => habs (sub_nonneg.mpr (e1 _)) (sub_le_self _ (e0 _)) (n0 _) (n1 _)) _ _
  have i2 : IntervalIntegrable (fun y => vp y * (k.fe (k.ye (k.q * k.a + y)) * (1 - k.fnu y))) volume 0 ymax :=
    weighted_integrable cp (myp.mul (measurable_const.sub mfnu))
      (fun y => habs (e0 _) (e1 _) (sub_nonneg.mpr (n1 _)) (sub_le_self _ (n0 _))) _ _
  have i3 : IntervalIntegrable (fun y => vm y * ((1 - k.fe (k.ye (k.q * k.a - y))) * (1 - k.fnu y))) volume 0
      ((k.q - k.me) * k.a) :=
    weighted_integrable cm ((measurable_const.sub mym).mul (measurable_const.sub mfnu))
      (fun y => habs (sub_nonneg.mpr (e1 _)) (sub_le_self _ (e0 _)) (sub_nonneg.mpr (n1 _))
        (sub_le_self _ (n0 _))) _ _
  have i4 : IntervalIntegrable (fun y => vm y * (k.fe (k.ye (k.q * k.a - y)) * k.fnu y)) volume 0 ((k.q - k.me) * k.a) :=
    weighted_integrable cm (mym.mul mfnu) (fun y => habs (e0 _) (e1 _) (n0 _) (n1 _)) _ _
  have hns : 0 ≤ norm / k.a ^ 5 := by positivity
  refine ⟨norm / k.a ^ 5 * exactQ k.rate1 0 ymax, norm / k.a ^ 5 * exactQ k.rate2 0 ymax,
    norm / k.a ^ 5 * exactQ k.rate3 0 ((k.q - k.me) * k.a), norm / k.a ^ 5 * exactQ k.rate4 0 ((k.q - k.me) * k.a),
    (if (k.q + k.me) * k.a < ymax then norm / k.a ^ 5 * exactQ k.rate5 ((k.q + k.me) * k.a) ymax else 0),
    (if (k.q + k.me) * k.a < ymax then norm / k.a ^ 5 * exactQ k.rate6 ((k.q + k.me) * k.a) ymax else 0), ?_, ⟨?_, ?_⟩, ⟨?_, ?_⟩, ⟨?_, ?_⟩, ⟨?_, ?_⟩, ?_⟩
  rotate_left
  · refine mul_nonneg hns ?_
    rw [R1]
    refine intervalIntegral.integral_nonneg h0.le fun y hy => mul_nonneg (vp0 y hy.1) (mul_nonneg (sub_nonneg.mpr (e1 _)) (n0 _))
  · have h : exactQ k.rate1 0 ymax ≤ (k.q * k.a + ymax) ^ 2 * N := by
      rw [R1]
      refine le_trans (intervalIntegral.integral_mono_on h0.le i1 ((cn ymax).const_mul ((k.q * k.a + ymax) ^ 2)) fun y hy => ?_) ?_
      · rw [← mul_assoc, ← mul_assoc]
        refine mul_le_mul_of_nonneg_right ?_ (n0 y)
        exact (mul_le_of_le_one_right (vp0 y hy.1) (by linarith [e0 (k.ye (k.q * k.a + y))])).trans (vpb y hy.1 hy.2)
      · rw [intervalIntegral.integral_const_mul]
        exact mul_le_mul_of_nonneg_left (hN ymax h0.le) (sq_nonneg _)
    refine (mul_le_mul_of_nonneg_left h hns).trans (le_of_eq ?_)
    field_simp
  · refine mul_nonneg hns ?_
    rw [R2]
    refine intervalIntegral.integral_nonneg h0.le fun y hy => mul_nonneg (vp0 y hy.1) (mul_nonneg (e0 _) (sub_nonneg.mpr (n1 _)))
  · have h : exactQ k.rate2 0 ymax ≤ ε * (k.q * k.a + ymax) ^ 2 * (ymax ^ 3 / 3) := by
      rw [R2]
      refine le_trans (intervalIntegral.integral_mono_on (g := fun y => ε * (k.q * k.a + ymax) ^ 2 * y ^ 2) h0.le i2
        (Continuous.intervalIntegrable (by fun_prop) _ _) fun y hy => ?_) ?_
      · have a1 : k.fe (k.ye (k.q * k.a + y)) * (1 - k.fnu y) ≤ ε :=
          (mul_le_of_le_one_right (e0 _) (by linarith [n0 y])).trans (hyε _)
        calc _ ≤ ((k.q * k.a + ymax) ^ 2 * y ^ 2) * ε :=
              mul_le_mul (vpb y hy.1 hy.2) a1 (mul_nonneg (e0 _) (sub_nonneg.mpr (n1 _))) (by positivity)
          _ = _ := by ring
      · rw [intervalIntegral.integral_const_mul, integral_pow]
        norm_num
    refine (mul_le_mul_of_nonneg_left h hns).trans (le_of_eq ?_)
    field_simp
  · have h : k.a ^ 5 * freeDecay k.q k.me - ε * (k.a ^ 5 * freeDecay k.q k.me) - (k.q * k.a) ^ 2 * N ≤
        exactQ k.rate3 0 ((k.q - k.me) * k.a) := by
      rw [R3, ← vmint]
      have c1 := cm.intervalIntegrable (μ := volume) 0 ((k.q - k.me) * k.a)
      have c2 := (cn ((k.q - k.me) * k.a)).const_mul ((k.q * k.a) ^ 2)
      have := intervalIntegral.integral_mono_on hb.le ((c1.sub (c1.const_mul ε)).sub c2) i3 fun y hy => by
        have b1 := vmb y hy.1 hy.2
        have b0 := vm0 y hy.2
        have d1 := hyε (k.q * k.a - y)
        have d0 := e0 (k.ye (k.q * k.a - y))
        have m0 := n0 y
        change vm y - ε * vm y - (k.q * k.a) ^ 2 * (y ^ 2 * k.fnu y) ≤ _
        have t1 : vm y * k.fe (k.ye (k.q * k.a - y)) ≤ vm y * ε := mul_le_mul_of_nonneg_left d1 b0
        have t2 : vm y * k.fnu y ≤ ((k.q * k.a) ^ 2 * y ^ 2) * k.fnu y := mul_le_mul_of_nonneg_right b1 m0
        have t3 : 0 ≤ vm y * (k.fe (k.ye (k.q * k.a - y)) * k.fnu y) := mul_nonneg b0 (mul_nonneg d0 m0)
        nlinarith
      rw [intervalIntegral.integral_sub (c1.sub (c1.const_mul ε)) c2, intervalIntegral.integral_sub c1 (c1.const_mul ε),
        intervalIntegral.integral_const_mul, intervalIntegral.integral_const_mul] at this
      have := mul_le_mul_of_nonneg_left (hN _ hb.le) (sq_nonneg (k.q * k.a))
      linarith
    refine le_trans (le_of_eq ?_) (mul_le_mul_of_nonneg_left h hns)
    field_simp
  · have h : exactQ k.rate3 0 ((k.q - k.me) * k.a) ≤ k.a ^ 5 * freeDecay k.q k.me := by
      rw [R3, ← vmint]
      refine intervalIntegral.integral_mono_on hb.le i3 (cm.intervalIntegrable _ _) fun y hy => ?_
      refine mul_le_of_le_one_right (vm0 y hy.2) ?_
      exact mul_le_one₀ (by linarith [e0 (k.ye (k.q * k.a - y))]) (sub_nonneg.mpr (n1 _)) (by linarith [n0 y])
    refine (mul_le_mul_of_nonneg_left h hns).trans (le_of_eq ?_)
    field_simp
  · refine mul_nonneg hns ?_
    rw [R4]
    refine intervalIntegral.integral_nonneg hb.le fun y hy => mul_nonneg (vm0 y hy.2) (mul_nonneg (e0 _) (n0 _))
  · have h : exactQ k.rate4 0 ((k.q - k.me) * k.a) ≤ ε * (k.a ^ 5 * freeDecay k.q k.me) := by
      rw [R4, ← vmint, ← intervalIntegral.integral_const_mul]
      refine intervalIntegral.integral_mono_on hb.le i4 ((cm.intervalIntegrable _ _).const_mul ε) fun y hy => ?_
      rw [mul_comm ε]
      refine mul_le_mul_of_nonneg_left ?_ (vm0 y hy.2)
      exact (mul_le_of_le_one_right (e0 _) (n1 _)).trans (hyε _)
    refine (mul_le_mul_of_nonneg_left h hns).trans (le_of_eq ?_)
    field_simp
  · intro h
    exact ⟨if_neg (not_lt.mpr h), if_neg (not_lt.mpr h)⟩
  · unfold baryonicRates jobs
    simp only [List.map_cons, List.map_nil, if_pos h0, if_pos hb]

/-- **C124, the end of the run.** The neutrinos free stream with a spectrum of finite density and the electrons die out:
the six rates converge to those of a neutron which does nothing but decay. -/
theorem C124_tendsto (q me norm ymax N : ℝ) (fnu : ℝ → ℝ) (fe : ℝ → ℝ → ℝ) (ε : ℝ → ℝ) (hn : 0 ≤ norm) (hm : 0 < me)
    (hq : me < q) (h0 : 0 < ymax) (mfnu : Measurable fnu) (mfe : ∀ a, Measurable (fe a))
    (hfnu : ∀ y, 0 ≤ fnu y ∧ fnu y ≤ 1) (hfe : ∀ a y, 0 ≤ fe a y ∧ fe a y ≤ 1)
    (hN : ∀ R, 0 ≤ R → ∫ y in (0 : ℝ)..R, y ^ 2 * fnu y ≤ N)
    (hε : ∀ a y, 0 < a → 0 ≤ y → fe a y ≤ ε a) (hlim : Filter.Tendsto ε Filter.atTop (nhds 0)) (i : ℕ) :
    Filter.Tendsto (fun a => (baryonicRates ⟨q, me, a, fe a, fnu⟩ exactQ norm a 0 ymax).getD i 0) Filter.atTop
      (nhds ([0, 0, norm * freeDecay q me, 0, 0, 0].getD i 0)) := by
  have inv : Filter.Tendsto (fun a : ℝ => a⁻¹) Filter.atTop (nhds 0) := tendsto_inv_atTop_zero
  have key : ∀ a, 0 < a → ∃ r1 r2 r3 r4 r5 r6,
      baryonicRates ⟨q, me, a, fe a, fnu⟩ exactQ norm a 0 ymax = [r1, r2, r3, r4, r5, r6] ∧
      (0 ≤ r1 ∧ r1 ≤ norm * ((q + ymax / a) ^ 2 * N / a ^ 3)) ∧
      (0 ≤ r2 ∧ r2 ≤ norm * (ε a * (q + ymax / a) ^ 2 * (ymax / a) ^ 3 / 3)) ∧
      (norm * (freeDecay q me - ε a * freeDecay q me - q ^ 2 * N / a ^ 3) ≤ r3 ∧ r3 ≤ norm * freeDecay q me) ∧
      (0 ≤ r4 ∧ r4 ≤ norm * (ε a * freeDecay q me)) ∧ (ymax ≤ (q + me) * a → r5 = 0 ∧ r6 = 0) := fun a ha =>
    C124_late ⟨q, me, a, fe a, fnu⟩ norm ymax N (ε a) hn ha hm hq ⟨hfe a, hfnu⟩ (mfe a) mfnu (fun y => hε a y ha) hN h0
  have big : ∀ᶠ a : ℝ in Filter.atTop, 0 < a ∧ ymax ≤ (q + me) * a := by
    filter_upwards [Filter.eventually_gt_atTop (0 : ℝ), Filter.eventually_ge_atTop (ymax / (q + me))] with a h1 h2
    have : 0 < q + me := by linarith
    exact ⟨h1, by rwa [div_le_iff₀' this] at h2⟩
  have l1 : Filter.Tendsto (fun a : ℝ => norm * ((q + ymax / a) ^ 2 * N / a ^ 3)) Filter.atTop (nhds 0) := by
    have : Filter.Tendsto (fun a : ℝ => norm * ((q + ymax * a⁻¹) ^ 2 * N * a⁻¹ ^ 3)) Filter.atTop
        (nhds (norm * ((q + ymax * 0) ^ 2 * N * 0 ^ 3))) :=
      ((((tendsto_const_nhds.add (tendsto_const_nhds.mul inv)).pow 2).mul_const N).mul (inv.pow 3)).const_mul norm
    simpa [div_eq_mul_inv] using this
  have l2 : Filter.Tendsto (fun a : ℝ => norm * (ε a * (q + ymax / a) ^ 2 * (ymax / a) ^ 3 / 3)) Filter.atTop (nhds 0) := by
    have : Filter.Tendsto (fun a : ℝ => norm * (ε a * (q + ymax * a⁻¹) ^ 2 * (ymax * a⁻¹) ^ 3 * 3⁻¹)) Filter.atTop
        (nhds (norm * (0 * (q + ymax * 0) ^ 2 * (ymax * 0) ^ 3 * 3⁻¹))) :=
      (((hlim.mul ((tendsto_const_nhds.add (tendsto_const_nhds.mul inv)).pow 2)).mul
        ((tendsto_const_nhds.mul inv).pow 3)).mul_const _).const_mul norm
    simpa [div_eq_mul_inv] using this
  have l3 : Filter.Tendsto (fun a : ℝ => norm * (freeDecay q me - ε a * freeDecay q me - q ^ 2 * N / a ^ 3)) Filter.atTop
      (nhds (norm * freeDecay q me)) := by
    have : Filter.Tendsto (fun a : ℝ => norm * (freeDecay q me - ε a * freeDecay q me - q ^ 2 * N * a⁻¹ ^ 3)) Filter.atTop
        (nhds (norm * (freeDecay q me - 0 * freeDecay q me - q ^ 2 * N * 0 ^ 3))) :=
      ((tendsto_const_nhds.sub (hlim.mul_const _)).sub ((inv.pow 3).const_mul _)).const_mul norm
    simpa [div_eq_mul_inv] using this
  have l4 : Filter.Tendsto (fun a : ℝ => norm * (ε a * freeDecay q me)) Filter.atTop (nhds 0) := by
    simpa using (hlim.mul_const (freeDecay q me)).const_mul norm
  match i with
  | 0 =>
    refine squeeze_zero' (big.mono fun a h => ?_) (big.mono fun a h => ?_) l1 <;>
    · obtain ⟨r1, r2, r3, r4, r5, r6, e, b1, -⟩ := key a h.1
      rw [e]
      first | exact b1.1 | exact b1.2
  | 1 =>
    refine squeeze_zero' (big.mono fun a h => ?_) (big.mono fun a h => ?_) l2 <;>
    · obtain ⟨r1, r2, r3, r4, r5, r6, e, -, b1, -⟩ := key a h.1
      rw [e]
      first | exact b1.1 | exact b1.2
  | 2 =>
    refine tendsto_of_tendsto_of_tendsto_of_le_of_le' l3 (tendsto_const_nhds (x := norm * freeDecay q me))
      (big.mono fun a h => ?_) (big.mono fun a h => ?_) <;>
    · obtain ⟨r1, r2, r3, r4, r5, r6, e, -, -, b1, -⟩ := key a h.1
      rw [e]
      first | exact b1.1 | exact b1.2
  | 3 =>
    refine squeeze_zero' (big.mono fun a h => ?_) (big.mono fun a h => ?_) l4 <;>
    · obtain ⟨r1, r2, r3, r4, r5, r6, e, -, -, -, b1, -⟩ := key a h.1
      rw [e]
      first | exact b1.1 | exact b1.2
  | 4 =>
    refine Filter.Tendsto.congr' (big.mono fun a h => ?_) tendsto_const_nhds
    obtain ⟨r1, r2, r3, r4, r5, r6, e, -, -, -, -, b1⟩ := key a h.1
    dsimp only
    rw [e]
    exact (b1 h.2).1.symm
  | 5 =>
    refine Filter.Tendsto.congr' (big.mono fun a h => ?_) tendsto_const_nhds
    obtain ⟨r1, r2, r3, r4, r5, r6, e, -, -, -, -, b1⟩ := key a h.1
    dsimp only
    rw [e]
    exact (b1 h.2).2.symm
  | n + 6 =>
    refine Filter.Tendsto.congr' (big.mono fun a h => ?_) tendsto_const_nhds
    obtain ⟨r1, r2, r3, r4, r5, r6, e, -⟩ := key a h.1
    dsimp only
    rw [e]
    rfl

/-- Density of massless fermions at unit temperature. -/
theorem fermi_density (R : ℝ) (hR : 0 ≤ R) : ∫ y in (0 : ℝ)..R, y ^ 2 * (Real.exp |y| + 1)⁻¹ ≤ 2 := by
  have hd : ∀ y : ℝ, HasDerivAt (fun y : ℝ => -((y ^ 2 + 2 * y + 2) * Real.exp (-y))) (y ^ 2 * Real.exp (-y)) y := fun y => by
    have h1 : HasDerivAt (fun y : ℝ => y ^ 2 + 2 * y + 2) (2 * y + 2) y := by
      have := ((((hasDerivAt_id y).pow 2).add ((hasDerivAt_id y).const_mul 2)).add_const 2)
      refine (this.congr_deriv (by simp)).congr_of_eventuallyEq (Filter.Eventually.of_forall fun x => by simp)
    have h2 : HasDerivAt (fun y : ℝ => Real.exp (-y)) (-Real.exp (-y)) y := by
      simpa using (hasDerivAt_neg y).exp
    exact ((h1.mul h2).neg).congr_deriv (by ring)
  have c : Continuous fun y : ℝ => y ^ 2 * Real.exp (-y) := by fun_prop
  have hi := intervalIntegral.integral_eq_sub_of_hasDerivAt (fun y _ => hd y) (c.intervalIntegrable 0 R)
  have c2 : Continuous fun y : ℝ => y ^ 2 * (Real.exp |y| + 1)⁻¹ := by
    refine (continuous_pow 2).mul (Continuous.inv₀ (by fun_prop) fun y => by positivity)
  refine (intervalIntegral.integral_mono_on hR (c2.intervalIntegrable _ _) (c.intervalIntegrable _ _) fun y hy => ?_).trans ?_
  · refine mul_le_mul_of_nonneg_left ?_ (sq_nonneg y)
    rw [Real.exp_neg, abs_of_nonneg hy.1]
    exact inv_anti₀ (Real.exp_pos _) (by linarith)
  · rw [hi]
    have := mul_nonneg (by positivity : 0 ≤ R ^ 2 + 2 * R + 2) (Real.exp_pos (-R)).le
    norm_num
    linarith

/-- A neutrino spectrum of unit comoving temperature and electrons of the same temperature, with the shipped masses:
the hypotheses of the theorem hold, and the rates converge to one decay per lifetime. -/
example (i : ℕ) :
    Filter.Tendsto (fun a => (baryonicRates ⟨kawanoQ 1, kawanoMe 1, a,
      fun y => (Real.exp √(y ^ 2 + (kawanoMe 1 * a) ^ 2) + 1)⁻¹, fun y => (Real.exp |y| + 1)⁻¹⟩ exactQ
        (rateNormalization 1) a 0 20).getD i 0) Filter.atTop
      (nhds ([0, 0, rateNormalization 1 * freeDecay (kawanoQ 1) (kawanoMe 1), 0, 0, 0].getD i 0)) := by
  have unit : ∀ x : ℝ, 0 ≤ (Real.exp x + 1)⁻¹ ∧ (Real.exp x + 1)⁻¹ ≤ 1 := fun x =>
    ⟨by positivity, inv_le_one_of_one_le₀ (by linarith [Real.exp_pos x])⟩
  have hm : 0 < kawanoMe 1 := by norm_num [kawanoMe, Tmpl.mass]
  refine C124_tendsto _ _ _ 20 2 _ (fun a y => (Real.exp √(y ^ 2 + (kawanoMe 1 * a) ^ 2) + 1)⁻¹)
    (fun a => Real.exp (-(kawanoMe 1 * a))) (by norm_num [rateNormalization]) hm
    (by norm_num [kawanoMe, kawanoQ, Tmpl.mass]) (by norm_num) (by fun_prop) (fun a => by fun_prop) (fun y => unit _)
    (fun a y => unit _) (fun R hR => fermi_density R hR) (fun a y ha hy => ?_) ?_ i
  · rw [Real.exp_neg]
    refine inv_anti₀ (Real.exp_pos _) ?_
    have h : kawanoMe 1 * a ≤ √(y ^ 2 + (kawanoMe 1 * a) ^ 2) := Real.le_sqrt_of_sq_le (by nlinarith [sq_nonneg y])
    linarith [Real.exp_le_exp.mpr h]
  · exact Real.tendsto_exp_neg_atTop_nhds_zero.comp (Filter.tendsto_id.const_mul_atTop hm)

/-- Blocking at work: behind half filled electron states at least half of the decays are left. -/
example (ymax : ℝ) (h : 0 < ymax) : ∃ r1 r2 r3 r4 r5 r6,
    baryonicRates ⟨2, 1, 1, fun _ => 1 / 2, fun _ => 0⟩ exactQ 1 1 0 ymax = [r1, r2, r3, r4, r5, r6] ∧
      1 / 2 * freeDecay 2 1 ≤ r3 := by
  obtain ⟨r1, r2, r3, r4, r5, r6, e, -, -, b, -⟩ := C124_late ⟨2, 1, 1, fun _ => 1 / 2, fun _ => 0⟩ 1 ymax 0 (1 / 2)
    zero_le_one one_pos one_pos (by norm_num) ⟨fun _ => by norm_num, fun _ => by norm_num⟩ measurable_const measurable_const
    (fun _ _ => le_rfl) (fun R _ => by simp) h
  refine ⟨r1, r2, r3, r4, r5, r6, e, le_trans (le_of_eq ?_) b.1⟩
  norm_num
  ring

end KEnv

end PyBBN
