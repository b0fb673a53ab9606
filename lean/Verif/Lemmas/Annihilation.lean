import Verif.Lemmas.Planck
import Mathlib.Analysis.Calculus.ParametricIntegral
import Mathlib.MeasureTheory.Function.JacobianOneDim
import Mathlib.MeasureTheory.Integral.IntegralEqImproper
import Mathlib.Analysis.SpecialFunctions.Sqrt
import Mathlib.Analysis.SpecialFunctions.ExpDeriv
import Mathlib.Analysis.Complex.Exponential
/-!
# Entropy integrals of thermal species with mass
-/
namespace PyBBN

open MeasureTheory Set Filter Topology

/-- `-n'(e)` for the occupation number `n(e) = 1/(exp e + η)`. -/
noncomputable def edge (eta : ℤ) (e : ℝ) : ℝ := Real.exp e / (Real.exp e + eta) ^ 2

/-- Occupation number of either statistics. -/
noncomputable def occ (eta : ℤ) (e : ℝ) : ℝ := 1 / (Real.exp e + eta)

theorem eta_den {eta : ℤ} (he : eta = 1 ∨ eta = -1) {e : ℝ} (h : 0 < e) :
    0 < Real.exp e - 1 ∧ Real.exp e - 1 ≤ Real.exp e + eta ∧ 0 < Real.exp e + eta := by
  have := Real.one_lt_exp_iff.mpr h
  rcases he with rfl | rfl <;> push_cast <;> refine ⟨by linarith, by linarith, by linarith⟩

theorem occ_bound {eta : ℤ} (he : eta = 1 ∨ eta = -1) {e : ℝ} (h : 0 < e) :
    0 < occ eta e ∧ occ eta e ≤ 1 / (Real.exp e - 1) := by
  obtain ⟨h1, h2, h3⟩ := eta_den he h
  unfold occ
  exact ⟨by positivity, one_div_le_one_div_of_le h1 h2⟩

theorem occ_e_le {eta : ℤ} (he : eta = 1 ∨ eta = -1) {e : ℝ} (h : 0 < e) : e * occ eta e ≤ 1 := by
  obtain ⟨h1, h2⟩ := occ_bound he h
  obtain ⟨h3, -, -⟩ := eta_den he h
  have : e ≤ Real.exp e - 1 := by linarith [Real.add_one_le_exp e]
  calc e * occ eta e ≤ e * (1 / (Real.exp e - 1)) := by gcongr
    _ ≤ (Real.exp e - 1) * (1 / (Real.exp e - 1)) := by gcongr
    _ = 1 := by field_simp

theorem edge_bound {eta : ℤ} (he : eta = 1 ∨ eta = -1) {e : ℝ} (h : 0 < e) :
    0 < edge eta e ∧ e * edge eta e ≤ (1 + e) * (1 / (Real.exp e - 1)) := by
  obtain ⟨h1, h2, h3⟩ := eta_den he h
  have hX := Real.exp_pos e
  unfold edge
  refine ⟨by positivity, ?_⟩
  calc e * (Real.exp e / (Real.exp e + eta) ^ 2) ≤ e * (Real.exp e / (Real.exp e - 1) ^ 2) := by gcongr
    _ ≤ (1 + e) * (1 / (Real.exp e - 1)) := by
      rw [show e * (Real.exp e / (Real.exp e - 1) ^ 2) = e * Real.exp e / (Real.exp e - 1) ^ 2 by ring,
        mul_one_div, div_le_div_iff₀ (by positivity) h1]
      have := Real.add_one_le_exp e
      nlinarith [mul_nonneg (sub_nonneg.mpr this) h1.le]

theorem edge_continuousOn {eta : ℤ} (he : eta = 1 ∨ eta = -1) : ContinuousOn (edge eta) (Ioi 0) := by
  unfold edge
  refine Real.continuous_exp.continuousOn.div (by fun_prop) fun e h => ?_
  exact pow_ne_zero 2 (eta_den he h).2.2.ne'

theorem occ_hasDerivAt {eta : ℤ} (he : eta = 1 ∨ eta = -1) {e : ℝ} (h : 0 < e) :
    HasDerivAt (occ eta) (-edge eta e) e := by
  have h3 := (eta_den he h).2.2
  have d := (hasDerivAt_const e (1 : ℝ)).fun_div ((Real.hasDerivAt_exp e).add_const (eta : ℝ)) h3.ne'
  refine d.congr_deriv ?_
  unfold edge; ring

/-! ## The integrals in terms of the energy -/

theorem sqrt_cube_deriv (q : ℝ) : HasDerivAt (fun q => √q ^ 3) (3 / 2 * √q) q := by
  rcases lt_trichotomy q 0 with h | h | h
  · rw [Real.sqrt_eq_zero_of_nonpos h.le, mul_zero]
    refine (hasDerivAt_const q (0 : ℝ)).congr_of_eventuallyEq ?_
    filter_upwards [Iio_mem_nhds h] with r hr
    rw [Real.sqrt_eq_zero_of_nonpos (le_of_lt hr)]; norm_num
  · subst h
    rw [Real.sqrt_zero, mul_zero, hasDerivAt_iff_tendsto_slope_zero]
    have ht : Tendsto (fun t : ℝ => √|t|) (𝓝[≠] 0) (𝓝 0) := by
      have : Continuous fun t : ℝ => √|t| := by fun_prop
      have := this.tendsto 0
      simp only [abs_zero, Real.sqrt_zero] at this
      exact this.mono_left nhdsWithin_le_nhds
    refine squeeze_zero_norm' ?_ ht
    filter_upwards [self_mem_nhdsWithin] with t ht
    rw [zero_add, Real.sqrt_zero, smul_eq_mul]
    rcases lt_or_gt_of_ne ht with h | h
    · rw [Real.sqrt_eq_zero_of_nonpos (le_of_lt h)]; simp
    · rw [abs_of_pos h, show (√t ^ 3 - 0 ^ 3 : ℝ) = t * √t by
        rw [pow_succ, Real.sq_sqrt h.le]; ring, ← mul_assoc, inv_mul_cancel₀ h.ne', one_mul,
        Real.norm_of_nonneg (Real.sqrt_nonneg _)]
  · have d := (Real.hasDerivAt_sqrt h.ne').fun_pow 3
    refine d.congr_deriv ?_
    have := Real.sqrt_pos.mpr h
    field_simp
    push_cast; ring

theorem shell_deriv (e u : ℝ) :
    HasDerivAt (fun u => √(e ^ 2 - u ^ 2) ^ 3) (-(3 * u * √(e ^ 2 - u ^ 2))) u := by
  have d1 : HasDerivAt (fun u : ℝ => e ^ 2 - u ^ 2) (-(2 * u)) u := by
    have := ((hasDerivAt_id u).fun_pow 2).const_sub (e ^ 2)
    refine this.congr_deriv ?_
    simp only [id]; push_cast; ring
  refine ((sqrt_cube_deriv (e ^ 2 - u ^ 2)).comp u d1).congr_deriv ?_
  ring

/-- `∫ (e² - u²)^{k/2} e (-n'(e)) de`, over the energies above `u` (the square root vanishes below). -/
noncomputable def shell (eta : ℤ) (k : ℕ) (u : ℝ) : ℝ :=
  ∫ e in Ioi (0 : ℝ), √(e ^ 2 - u ^ 2) ^ k * (e * edge eta e)

theorem sqrt_sub_le (e u : ℝ) (h : 0 ≤ e) : √(e ^ 2 - u ^ 2) ≤ e :=
  Real.sqrt_le_iff.mpr ⟨h, by nlinarith [sq_nonneg u]⟩

theorem shell_dominated {eta : ℤ} (he : eta = 1 ∨ eta = -1) (k : ℕ) (u : ℝ) {e : ℝ} (h : 0 < e) :
    0 ≤ √(e ^ 2 - u ^ 2) ^ k * (e * edge eta e) ∧
    √(e ^ 2 - u ^ 2) ^ k * (e * edge eta e) ≤
      e ^ k * (1 / (Real.exp e - 1)) + e ^ (k + 1) * (1 / (Real.exp e - 1)) := by
  obtain ⟨h1, h2⟩ := edge_bound he h
  have h3 := (eta_den he h).1
  refine ⟨by positivity, ?_⟩
  calc √(e ^ 2 - u ^ 2) ^ k * (e * edge eta e) ≤ e ^ k * ((1 + e) * (1 / (Real.exp e - 1))) := by
        gcongr
        exact sqrt_sub_le e u h.le
    _ = _ := by ring

theorem shell_dom_integrable (k : ℕ) (hk : 1 ≤ k) :
    IntegrableOn (fun e : ℝ => e ^ k * (1 / (Real.exp e - 1)) + e ^ (k + 1) * (1 / (Real.exp e - 1))) (Ioi 0) :=
  (bose_integrable k hk).add (bose_integrable (k + 1) (by omega))

theorem shell_measurable {eta : ℤ} (he : eta = 1 ∨ eta = -1) (k : ℕ) (u : ℝ) :
    AEStronglyMeasurable (fun e : ℝ => √(e ^ 2 - u ^ 2) ^ k * (e * edge eta e))
      (volume.restrict (Ioi 0)) := by
  refine ContinuousOn.aestronglyMeasurable ?_ measurableSet_Ioi
  exact ContinuousOn.mul (by fun_prop) (continuousOn_id.mul (edge_continuousOn he))

theorem shell_integrable {eta : ℤ} (he : eta = 1 ∨ eta = -1) (k : ℕ) (hk : 1 ≤ k) (u : ℝ) :
    IntegrableOn (fun e : ℝ => √(e ^ 2 - u ^ 2) ^ k * (e * edge eta e)) (Ioi 0) := by
  refine Integrable.mono' (shell_dom_integrable k hk) (shell_measurable he k u) ?_
  refine (ae_restrict_iff' measurableSet_Ioi).mpr (Eventually.of_forall fun e h => ?_)
  obtain ⟨h1, h2⟩ := shell_dominated he k u (mem_Ioi.mp h)
  rw [Real.norm_of_nonneg h1]
  exact h2

theorem shell_nonneg {eta : ℤ} (he : eta = 1 ∨ eta = -1) (k : ℕ) (u : ℝ) : 0 ≤ shell eta k u :=
  setIntegral_nonneg measurableSet_Ioi fun _ h => (shell_dominated he k u (mem_Ioi.mp h)).1

/-- `d/du ∫ (e²-u²)^{3/2} e(-n') = -3u ∫ (e²-u²)^{1/2} e(-n')`. -/
theorem shell_hasDerivAt {eta : ℤ} (he : eta = 1 ∨ eta = -1) (u : ℝ) :
    HasDerivAt (shell eta 3) (-(3 * u * shell eta 1 u)) u := by
  have key := (hasDerivAt_integral_of_dominated_loc_of_deriv_le (μ := volume.restrict (Ioi (0 : ℝ)))
    (F := fun u e => √(e ^ 2 - u ^ 2) ^ 3 * (e * edge eta e))
    (F' := fun u e => -(3 * u * √(e ^ 2 - u ^ 2)) * (e * edge eta e))
    (bound := fun e => 3 * (|u| + 1) * (e ^ 1 * (1 / (Real.exp e - 1)) + e ^ (1 + 1) * (1 / (Real.exp e - 1))))
    (s := Metric.ball u 1) (x₀ := u)
    (Metric.ball_mem_nhds u one_pos)
    (Eventually.of_forall fun u => shell_measurable he 3 u) (shell_integrable he 3 (by norm_num) u)
    ?_ ?_ ((shell_dom_integrable 1 le_rfl).const_mul _) ?_).2
  · refine key.congr_deriv ?_
    unfold shell
    rw [← integral_const_mul, ← integral_neg]
    refine setIntegral_congr_fun measurableSet_Ioi fun e _ => ?_
    ring
  · have := (shell_measurable he 1 u).const_mul (-(3 * u))
    refine this.congr (Eventually.of_forall fun e => ?_)
    ring
  · refine (ae_restrict_iff' measurableSet_Ioi).mpr (Eventually.of_forall fun e h v hv => ?_)
    obtain ⟨h1, h2⟩ := shell_dominated he 1 v (mem_Ioi.mp h)
    rw [Metric.mem_ball, Real.dist_eq] at hv
    have hv' : |v| ≤ |u| + 1 := by
      have := abs_sub_abs_le_abs_sub v u
      linarith
    have e1 : -(3 * v * √(e ^ 2 - v ^ 2)) * (e * edge eta e) =
        -(3 * v) * (√(e ^ 2 - v ^ 2) ^ 1 * (e * edge eta e)) := by ring
    rw [e1, norm_mul, norm_neg, norm_mul, Real.norm_of_nonneg h1, Real.norm_eq_abs v,
      Real.norm_of_nonneg (by norm_num : (0 : ℝ) ≤ 3)]
    gcongr
  · refine (ae_restrict_iff' measurableSet_Ioi).mpr (Eventually.of_forall fun e _ v _ => ?_)
    exact (shell_deriv e v).mul_const _

theorem shell_tendsto {eta : ℤ} (he : eta = 1 ∨ eta = -1) : Tendsto (shell eta 3) atTop (𝓝 0) := by
  have := tendsto_integral_filter_of_dominated_convergence (μ := volume.restrict (Ioi (0 : ℝ)))
    (l := atTop) (F := fun (u : ℝ) (e : ℝ) => √(e ^ 2 - u ^ 2) ^ 3 * (e * edge eta e)) (f := fun _ => 0)
    (fun e => e ^ 3 * (1 / (Real.exp e - 1)) + e ^ (3 + 1) * (1 / (Real.exp e - 1)))
    (Eventually.of_forall fun u => shell_measurable he 3 u)
    (Eventually.of_forall fun u => ?_) (shell_dom_integrable 3 (by norm_num)) ?_
  · rw [integral_zero] at this
    exact this
  · refine (ae_restrict_iff' measurableSet_Ioi).mpr (Eventually.of_forall fun e h => ?_)
    obtain ⟨h1, h2⟩ := shell_dominated he 3 u (mem_Ioi.mp h)
    rw [Real.norm_of_nonneg h1]
    exact h2
  · refine (ae_restrict_iff' measurableSet_Ioi).mpr (Eventually.of_forall fun e h => ?_)
    refine tendsto_const_nhds.congr' ?_
    filter_upwards [eventually_ge_atTop e] with u hu
    rw [mem_Ioi] at h
    rw [Real.sqrt_eq_zero_of_nonpos (by nlinarith)]; norm_num

theorem shell_antitone {eta : ℤ} (he : eta = 1 ∨ eta = -1) {u v : ℝ} (hu : 0 ≤ u) (h : u ≤ v) (k : ℕ) :
    shell eta k v ≤ shell eta k u ∨ k = 0 := by
  rcases Nat.eq_zero_or_pos k with hk | hk
  · exact Or.inr hk
  left
  refine setIntegral_mono_on (shell_integrable he k hk v) (shell_integrable he k hk u) measurableSet_Ioi
    fun e h' => ?_
  have := (edge_bound he (mem_Ioi.mp h')).1
  have h0 := mem_Ioi.mp h'
  gcongr

/-! ## The integrals in terms of the momentum -/

theorem energy_pos {u v : ℝ} (hv : 0 < v) : 0 < √(v ^ 2 + u ^ 2) := Real.sqrt_pos.mpr (by positivity)

theorem energy_ge {u v : ℝ} (hv : 0 ≤ v) : v ≤ √(v ^ 2 + u ^ 2) :=
  (Real.sqrt_sq hv).symm.le.trans (Real.sqrt_le_sqrt (by nlinarith [sq_nonneg u]))

theorem energy_le {u v : ℝ} (hv : 0 ≤ v) (hu : 0 ≤ u) : √(v ^ 2 + u ^ 2) ≤ v + u :=
  Real.sqrt_le_iff.mpr ⟨by positivity, by nlinarith [mul_nonneg hv hu]⟩

theorem energy_hasDerivAt {u v : ℝ} (hv : 0 < v) :
    HasDerivAt (fun v => √(v ^ 2 + u ^ 2)) (v / √(v ^ 2 + u ^ 2)) v := by
  have d1 : HasDerivAt (fun v : ℝ => v ^ 2 + u ^ 2) (2 * v) v := by
    have := ((hasDerivAt_id v).fun_pow 2).add_const (u ^ 2)
    refine this.congr_deriv ?_
    simp only [id]; push_cast; ring
  refine (d1.sqrt (by positivity)).congr_deriv ?_
  have := energy_pos (u := u) hv
  field_simp

/-- Substitution `e = √(v² + u²)`. -/
theorem shell_momentum (eta : ℤ) (k : ℕ) (hk : 1 ≤ k) (u : ℝ) (hu : 0 ≤ u) :
    ∫ v in Ioi (0 : ℝ), v ^ (k + 1) * edge eta (√(v ^ 2 + u ^ 2)) = shell eta k u := by
  have him : (fun v : ℝ => √(v ^ 2 + u ^ 2)) '' Ioi 0 = Ioi u := by
    ext e
    constructor
    · rintro ⟨v, hv, rfl⟩
      rw [mem_Ioi] at hv ⊢
      exact Real.lt_sqrt_of_sq_lt (by nlinarith)
    · intro h
      rw [mem_Ioi] at h
      have h1 : 0 < e ^ 2 - u ^ 2 := by nlinarith
      refine ⟨√(e ^ 2 - u ^ 2), mem_Ioi.mpr (Real.sqrt_pos.mpr h1), ?_⟩
      simp only
      rw [Real.sq_sqrt h1.le, sub_add_cancel, Real.sqrt_sq (by linarith)]
  have hinj : InjOn (fun v : ℝ => √(v ^ 2 + u ^ 2)) (Ioi 0) := by
    intro a ha b hb h
    rw [mem_Ioi] at ha hb
    have := (Real.sqrt_inj (by positivity) (by positivity)).mp h
    have h2 : (a - b) * (a + b) = 0 := by linarith
    rcases mul_eq_zero.mp h2 with h | h <;> linarith
  have cv := integral_image_eq_integral_abs_deriv_smul (s := Ioi (0 : ℝ)) measurableSet_Ioi
    (fun v hv => (energy_hasDerivAt (u := u) (mem_Ioi.mp hv)).hasDerivWithinAt) hinj
    (fun e => √(e ^ 2 - u ^ 2) ^ k * (e * edge eta e))
  rw [him] at cv
  have hsub : shell eta k u = ∫ e in Ioi u, √(e ^ 2 - u ^ 2) ^ k * (e * edge eta e) := by
    unfold shell
    refine setIntegral_eq_of_subset_of_forall_sdiff_eq_zero measurableSet_Ioi (Ioi_subset_Ioi hu) ?_
    rintro e ⟨h1, h2⟩
    rw [mem_Ioi] at h1
    rw [mem_Ioi, not_lt] at h2
    rw [Real.sqrt_eq_zero_of_nonpos (by nlinarith), zero_pow (by omega), zero_mul]
  rw [hsub, cv]
  refine setIntegral_congr_fun measurableSet_Ioi fun v hv => ?_
  rw [mem_Ioi] at hv
  have h0 := energy_pos (u := u) hv
  simp only [smul_eq_mul]
  rw [abs_of_nonneg (by positivity), Real.sq_sqrt (by positivity), add_sub_cancel_right, Real.sqrt_sq hv.le]
  field_simp
  ring

/-- Integration by parts: `∫ v⁴(-n') = ∫ (3 v² e + v⁴/e) n`, three times the entropy integral. -/
theorem entropy_parts {eta : ℤ} (he : eta = 1 ∨ eta = -1) (u : ℝ) (hu : 0 ≤ u) :
    IntegrableOn (fun v : ℝ => v ^ 2 * √(v ^ 2 + u ^ 2) * occ eta (√(v ^ 2 + u ^ 2))) (Ioi 0) ∧
    IntegrableOn (fun v : ℝ => v ^ 4 / √(v ^ 2 + u ^ 2) * occ eta (√(v ^ 2 + u ^ 2))) (Ioi 0) ∧
    shell eta 3 u = 3 * (∫ v in Ioi (0 : ℝ), v ^ 2 * √(v ^ 2 + u ^ 2) * occ eta (√(v ^ 2 + u ^ 2))) +
      ∫ v in Ioi (0 : ℝ), v ^ 4 / √(v ^ 2 + u ^ 2) * occ eta (√(v ^ 2 + u ^ 2)) := by
  have hB : ∀ v : ℝ, 0 < v → 1 / (Real.exp (√(v ^ 2 + u ^ 2)) - 1) ≤ 1 / (Real.exp v - 1) := by
    intro v hv
    refine one_div_le_one_div_of_le (by linarith [Real.one_lt_exp_iff.mpr hv]) ?_
    linarith [Real.exp_le_exp.mpr (energy_ge (u := u) hv.le)]
  have hocc : ContinuousOn (fun v : ℝ => occ eta (√(v ^ 2 + u ^ 2))) (Ioi 0) := by
    intro v hv
    have := (occ_hasDerivAt he (energy_pos (u := u) (mem_Ioi.mp hv))).continuousAt
    exact (ContinuousAt.comp (f := fun v : ℝ => √(v ^ 2 + u ^ 2)) this
      (by fun_prop)).continuousWithinAt
  have hedge : ContinuousOn (fun v : ℝ => edge eta (√(v ^ 2 + u ^ 2))) (Ioi 0) := by
    refine (edge_continuousOn he).comp (by fun_prop) fun v hv => ?_
    exact mem_Ioi.mpr (energy_pos (mem_Ioi.mp hv))
  have i1 : IntegrableOn (fun v : ℝ => v ^ 2 * √(v ^ 2 + u ^ 2) * occ eta (√(v ^ 2 + u ^ 2))) (Ioi 0) := by
    refine Integrable.mono' ((bose_integrable 3 (by norm_num)).add
      ((bose_integrable 2 (by norm_num)).const_mul u)) ?_ ?_
    · exact (ContinuousOn.mul (by fun_prop) hocc).aestronglyMeasurable measurableSet_Ioi
    · refine (ae_restrict_iff' measurableSet_Ioi).mpr (Eventually.of_forall fun v hv => ?_)
      rw [mem_Ioi] at hv
      obtain ⟨o1, o2⟩ := occ_bound he (energy_pos (u := u) hv)
      have h1 := (eta_den (eta := 1) (Or.inl rfl) hv).1
      rw [Real.norm_of_nonneg (by positivity)]
      calc _ ≤ v ^ 2 * (v + u) * (1 / (Real.exp v - 1)) := by
            gcongr
            · exact energy_le hv.le hu
            · exact o2.trans (hB v hv)
        _ = _ := by simp only [Pi.add_apply]; ring
  have i2 : IntegrableOn (fun v : ℝ => v ^ 4 / √(v ^ 2 + u ^ 2) * occ eta (√(v ^ 2 + u ^ 2))) (Ioi 0) := by
    refine Integrable.mono' (bose_integrable 3 (by norm_num)) ?_ ?_
    · refine (ContinuousOn.mul (ContinuousOn.div (by fun_prop) (by fun_prop) ?_) hocc).aestronglyMeasurable
        measurableSet_Ioi
      exact fun v hv => (energy_pos (mem_Ioi.mp hv)).ne'
    · refine (ae_restrict_iff' measurableSet_Ioi).mpr (Eventually.of_forall fun v hv => ?_)
      rw [mem_Ioi] at hv
      have hE := energy_pos (u := u) hv
      obtain ⟨o1, o2⟩ := occ_bound he hE
      rw [Real.norm_of_nonneg (by positivity)]
      refine mul_le_mul ?_ (o2.trans (hB v hv)) o1.le (by positivity)
      rw [div_le_iff₀ hE]
      have := mul_le_mul_of_nonneg_left (energy_ge (u := u) hv.le) (pow_nonneg hv.le 3)
      linarith [this, pow_succ v 3]
  have i3 : IntegrableOn (fun v : ℝ => v ^ 4 * edge eta (√(v ^ 2 + u ^ 2))) (Ioi 0) := by
    refine Integrable.mono' (((bose_integrable 3 (by norm_num)).const_mul (1 + u)).add
      (bose_integrable 4 (by norm_num))) ?_ ?_
    · exact (ContinuousOn.mul (by fun_prop) hedge).aestronglyMeasurable measurableSet_Ioi
    · refine (ae_restrict_iff' measurableSet_Ioi).mpr (Eventually.of_forall fun v hv => ?_)
      rw [mem_Ioi] at hv
      have hE := energy_pos (u := u) hv
      obtain ⟨o1, o2⟩ := edge_bound he hE
      have h1 := (eta_den (eta := 1) (Or.inl rfl) hv).1
      have h2 := (eta_den (eta := 1) (Or.inl rfl) hE).1
      rw [Real.norm_of_nonneg (by positivity)]
      calc v ^ 4 * edge eta (√(v ^ 2 + u ^ 2)) = v ^ 3 * (v * edge eta (√(v ^ 2 + u ^ 2))) := by ring
        _ ≤ v ^ 3 * (√(v ^ 2 + u ^ 2) * edge eta (√(v ^ 2 + u ^ 2))) := by
            gcongr; exact energy_ge hv.le
        _ ≤ v ^ 3 * ((1 + √(v ^ 2 + u ^ 2)) * (1 / (Real.exp (√(v ^ 2 + u ^ 2)) - 1))) := by gcongr
        _ ≤ v ^ 3 * ((1 + (v + u)) * (1 / (Real.exp v - 1))) := by
            gcongr
            · exact energy_le hv.le hu
            · exact energy_ge hv.le
        _ = _ := by simp only [Pi.add_apply]; ring
  refine ⟨i1, i2, ?_⟩
  have i12 : IntegrableOn (fun v : ℝ => 3 * (v ^ 2 * √(v ^ 2 + u ^ 2) * occ eta (√(v ^ 2 + u ^ 2))) +
      v ^ 4 / √(v ^ 2 + u ^ 2) * occ eta (√(v ^ 2 + u ^ 2))) (Ioi 0) := (i1.const_mul 3).add i2
  have i123 : IntegrableOn (fun v : ℝ => (3 * (v ^ 2 * √(v ^ 2 + u ^ 2) * occ eta (√(v ^ 2 + u ^ 2))) +
      v ^ 4 / √(v ^ 2 + u ^ 2) * occ eta (√(v ^ 2 + u ^ 2))) - v ^ 4 * edge eta (√(v ^ 2 + u ^ 2)))
      (Ioi 0) := i12.sub i3
  have hG0 : ∀ v : ℝ, 0 < v → 0 ≤ v ^ 3 * (√(v ^ 2 + u ^ 2) * occ eta (√(v ^ 2 + u ^ 2))) ∧
      v ^ 3 * (√(v ^ 2 + u ^ 2) * occ eta (√(v ^ 2 + u ^ 2))) ≤ v ^ 3 := by
    intro v hv
    have hE := energy_pos (u := u) hv
    obtain ⟨o1, -⟩ := occ_bound he hE
    refine ⟨by positivity, ?_⟩
    have := mul_le_mul_of_nonneg_left (occ_e_le he hE) (pow_nonneg hv.le 3)
    linarith
  have key := integral_Ioi_of_hasDerivAt_of_tendsto (a := 0) (m := 0)
    (f := fun v : ℝ => v ^ 3 * (√(v ^ 2 + u ^ 2) * occ eta (√(v ^ 2 + u ^ 2))))
    (f' := fun v : ℝ => (3 * (v ^ 2 * √(v ^ 2 + u ^ 2) * occ eta (√(v ^ 2 + u ^ 2))) +
      v ^ 4 / √(v ^ 2 + u ^ 2) * occ eta (√(v ^ 2 + u ^ 2))) - v ^ 4 * edge eta (√(v ^ 2 + u ^ 2)))
    ?_ ?_ i123 ?_
  · have hz : (0 : ℝ) ^ 3 * (√((0 : ℝ) ^ 2 + u ^ 2) * occ eta (√((0 : ℝ) ^ 2 + u ^ 2))) = 0 := by
      rw [zero_pow (by norm_num), zero_mul]
    simp only [hz, sub_zero] at key
    rw [integral_sub i12 i3, integral_add (i1.const_mul 3) i2, integral_const_mul,
      shell_momentum eta 3 (by norm_num) u hu] at key
    linarith
  · rw [ContinuousWithinAt]
    have hz : (0 : ℝ) ^ 3 * (√((0 : ℝ) ^ 2 + u ^ 2) * occ eta (√((0 : ℝ) ^ 2 + u ^ 2))) = 0 := by
      rw [zero_pow (by norm_num), zero_mul]
    simp only [hz]
    have ht : Tendsto (fun v : ℝ => v ^ 3) (𝓝[≥] 0) (𝓝 0) := by
      have := (continuous_pow 3 (M := ℝ)).tendsto 0
      rw [zero_pow (by norm_num)] at this
      exact this.mono_left nhdsWithin_le_nhds
    refine squeeze_zero' ?_ ?_ ht
    · filter_upwards [self_mem_nhdsWithin] with v hv
      rcases eq_or_lt_of_le (mem_Ici.mp hv) with h | h
      · rw [← h, hz]
      · exact (hG0 v h).1
    · filter_upwards [self_mem_nhdsWithin] with v hv
      rcases eq_or_lt_of_le (mem_Ici.mp hv) with h | h
      · rw [← h, hz, zero_pow (by norm_num)]
      · exact (hG0 v h).2
  · intro v hv
    rw [mem_Ioi] at hv
    have hE := energy_pos (u := u) hv
    have dE := energy_hasDerivAt (u := u) hv
    have dn := (occ_hasDerivAt he hE).comp v dE
    have d := ((hasDerivAt_id v).fun_pow 3).mul (dE.mul dn)
    refine HasDerivAt.congr_deriv d ?_
    simp only [id, Function.comp_apply, Pi.mul_apply]
    push_cast
    field_simp
    ring
  · have ht : Tendsto (fun v : ℝ => 120 / v) atTop (𝓝 0) := tendsto_const_nhds.div_atTop tendsto_id
    refine squeeze_zero' ?_ ?_ ht
    · filter_upwards [eventually_gt_atTop 0] with v hv
      exact (hG0 v hv).1
    · filter_upwards [eventually_gt_atTop 0] with v hv
      have hE := energy_pos (u := u) hv
      obtain ⟨o1, o2⟩ := occ_bound he hE
      have hge := energy_ge (u := u) hv.le
      set E := √(v ^ 2 + u ^ 2)
      have hs := Real.sum_le_exp_of_nonneg hE.le 6
      have h5 : E ^ 5 / 120 ≤ Real.exp E - 1 := by
        simp only [Finset.sum_range_succ, Finset.sum_range_zero, Nat.factorial] at hs
        norm_num at hs
        have : 0 ≤ E + E ^ 2 / 2 + E ^ 3 / 6 + E ^ 4 / 24 := by positivity
        linarith
      have h6 : occ eta E ≤ 120 / E ^ 5 := by
        refine o2.trans ?_
        calc 1 / (Real.exp E - 1) ≤ 1 / (E ^ 5 / 120) := one_div_le_one_div_of_le (by positivity) h5
          _ = 120 / E ^ 5 := by field_simp
      calc v ^ 3 * (E * occ eta E) ≤ v ^ 3 * (E * (120 / E ^ 5)) := by gcongr
        _ = 120 * v ^ 3 / E ^ 4 := by field_simp
        _ ≤ 120 * v ^ 3 / v ^ 4 := by gcongr
        _ = 120 / v := by field_simp

/-- Value for massless particles: `4π⁴/15` for bosons and `7/8` of it for fermions. -/
theorem shell_zero {eta : ℤ} (he : eta = 1 ∨ eta = -1) :
    shell eta 3 0 = (if eta = 1 then 7 / 8 else 1) * (4 * Real.pi ^ 4 / 15) := by
  obtain ⟨-, -, h⟩ := entropy_parts he 0 le_rfl
  have e1 : ∀ v ∈ Ioi (0 : ℝ), v ^ 2 * √(v ^ 2 + (0 : ℝ) ^ 2) * occ eta (√(v ^ 2 + (0 : ℝ) ^ 2)) =
      v ^ 3 * (1 / (Real.exp v + eta)) := by
    intro v hv
    rw [show v ^ 2 + (0 : ℝ) ^ 2 = v ^ 2 by ring, Real.sqrt_sq (le_of_lt (mem_Ioi.mp hv))]
    unfold occ; ring
  have e2 : ∀ v ∈ Ioi (0 : ℝ), v ^ 4 / √(v ^ 2 + (0 : ℝ) ^ 2) * occ eta (√(v ^ 2 + (0 : ℝ) ^ 2)) =
      v ^ 3 * (1 / (Real.exp v + eta)) := by
    intro v hv
    have := mem_Ioi.mp hv
    rw [show v ^ 2 + (0 : ℝ) ^ 2 = v ^ 2 by ring, Real.sqrt_sq this.le]
    unfold occ; field_simp
  rw [h, setIntegral_congr_fun measurableSet_Ioi e1, setIntegral_congr_fun measurableSet_Ioi e2]
  rcases he with rfl | rfl
  · rw [if_pos rfl]
    simp only [Int.cast_one]
    rw [fermi_integral 3 (by norm_num), zetaSum_three]
    norm_num [Nat.factorial]; ring
  · rw [if_neg (by norm_num)]
    simp only [Int.cast_neg, Int.cast_one, ← sub_eq_add_neg]
    rw [bose_integral 3 (by norm_num), zetaSum_three]
    norm_num [Nat.factorial]; ring

/-- The entropy integral lost to the mass is at most quadratic in the mass. -/
theorem shell_quadratic {eta : ℤ} (he : eta = 1 ∨ eta = -1) (u : ℝ) (hu : 0 ≤ u) :
    shell eta 3 0 - 3 / 2 * u ^ 2 * shell eta 1 0 ≤ shell eta 3 u := by
  have mono : MonotoneOn (fun u => shell eta 3 u + 3 / 2 * u ^ 2 * shell eta 1 0) (Ici 0) := by
    have hd : ∀ u : ℝ, HasDerivAt (fun u => shell eta 3 u + 3 / 2 * u ^ 2 * shell eta 1 0)
        (-(3 * u * shell eta 1 u) + 3 * u * shell eta 1 0) u := by
      intro u
      have := (shell_hasDerivAt he u).add
        ((((hasDerivAt_id u).fun_pow 2).const_mul (3 / 2)).mul_const (shell eta 1 0))
      refine this.congr_deriv ?_
      simp only [id]; push_cast; ring
    refine monotoneOn_of_deriv_nonneg (convex_Ici 0) (fun u _ => (hd u).continuousAt.continuousWithinAt)
      (fun u _ => (hd u).differentiableAt.differentiableWithinAt) fun u h => ?_
    rw [interior_Ici, mem_Ioi] at h
    rw [(hd u).deriv]
    have := (shell_antitone he le_rfl h.le 1).resolve_right (by norm_num)
    nlinarith
  have := mono (mem_Ici.mpr le_rfl) (mem_Ici.mpr hu) hu
  simp only at this
  linarith [this]

end PyBBN
