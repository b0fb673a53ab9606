import Verif.Props.Planck
import Verif.Props.Master
import Verif.Lemmas.Annihilation
import Mathlib.Analysis.SpecialFunctions.Pow.Deriv
import Mathlib.Analysis.Calculus.Deriv.MeanValue
import Mathlib.Analysis.Calculus.Deriv.Inverse
import Mathlib.Topology.Order.MonotoneContinuity
/-!
# Heating of the plasma when massive species annihilate (C116)

Specification: the entropy `a³ (ρ + p)/T` of the species in equilibrium, with `ρ` and `p` the integrals of
the occupation number over all momenta.
-/
namespace PyBBN

open MeasureTheory Set Filter Topology

/-! ## Specification -/

/-- Energy density and pressure of a thermal species: the integrals over all momenta of the integrands of
`IntermediateParticle.energy_density` and `pressure`. -/
noncomputable def fullEnergy (sp : Species) (T : ℝ) : ℝ :=
  ∫ p in Ioi (0 : ℝ), sp.stat (physEnergy sp p / T) * p ^ 2 * physEnergy sp p * sp.dof / 2 / Real.pi ^ 2

noncomputable def fullPressure (sp : Species) (T : ℝ) : ℝ :=
  ∫ p in Ioi (0 : ℝ), sp.stat (physEnergy sp p / T) * p ^ 4 / physEnergy sp p * sp.dof / 6 / Real.pi ^ 2

/-- Entropy `a³ (ρ + p)/T` of a species kept in equilibrium at scale factor `a` and temperature `T`;
species out of equilibrium do not belong to the plasma. -/
noncomputable def speciesEntropy (t : TPart) (a T : ℝ) : ℝ :=
  match t.regime with
  | .radiation => a ^ 3 * ((radEnergyDensity t.sp T + radPressure t.sp T) / T)
  | .intermediate => a ^ 3 * ((fullEnergy t.sp T + fullPressure t.sp T) / T)
  | .dust => a ^ 3 * ((fullEnergy t.sp T + fullPressure t.sp T) / T)
  | .noneq => 0

noncomputable def plasmaEntropy (ts : List TPart) (a T : ℝ) : ℝ :=
  (ts.map fun t => speciesEntropy t a T).sum

/-- Relativistic degrees of freedom: a fermion counts 7/8. -/
noncomputable def effDof (t : TPart) : ℝ := (if t.sp.fermion then 7 / 8 else 1) * t.sp.dof

def Regime.massive (r : Regime) : Prop := r = .intermediate ∨ r = .dust

/-- Total relativistic degrees of freedom of the massless part and of the whole plasma. -/
noncomputable def lightDof (ts : List TPart) : ℝ :=
  (ts.map fun t => if t.regime = .radiation then effDof t else 0).sum

noncomputable def thermalDof (ts : List TPart) : ℝ :=
  (ts.map fun t => if t.regime = .noneq then 0 else effDof t).sum

/-- The content of the universe: massless species in the radiation regime, at least one of them present,
massive species in equilibrium, and decoupled species. -/
structure Content (ts : List TPart) : Prop where
  dof : ∀ t ∈ ts, 0 ≤ t.sp.dof
  massive : ∀ t ∈ ts, t.regime.massive → 0 < t.sp.mass
  light : ∃ t ∈ ts, t.regime = .radiation ∧ 0 < t.sp.dof

/-- What `Int` approximates in either branch (`C72_laguerre`, `C72_branches`): the integral over all
momenta. -/
noncomputable def fullInt (sp : Species) (_ymin _ymax : ℝ) (p : Params) (k : ℕ) : ℝ :=
  sp.dof / 2 / Real.pi ^ 2 * ∫ y in Ioi (0 : ℝ),
    y ^ k * Real.exp (conformalEnergy sp y (sp.mass * p.a) / p.aT)
      / (Real.exp (conformalEnergy sp y (sp.mass * p.a) / p.aT) + sp.eta) ^ 2

/-- `t'` is the particle `t` during the run: same species, at the plasma temperature, in the same regime
except that `intermediate` and `dust` may alternate; decoupled species do not interact. -/
structure Stands (θ : ℝ) (t t' : TPart) : Prop where
  sp : t'.sp = t.sp
  aT : t'.aT = θ
  regime : t'.regime = t.regime ∨ (t.regime.massive ∧ t'.regime.massive)
  frozen : t'.regime = .noneq → ∀ k, t'.coll k = 0

/-- The temperature history `θ = a T` obeys the program's temperature equation at `x`, with the integrals
over all momenta in place of their quadratures. -/
def Heats (m : ℝ) (ts : List TPart) (θ : ℝ → ℝ) (x : ℝ) : Prop :=
  ∃ (p : Params) (l : List TPart), p.x = x ∧ p.m = m ∧ p.a = x / m ∧ p.aT = θ x ∧
    List.Forall₂ (Stands (θ x)) ts l ∧
    HasDerivAt θ (if p.log then temperatureSlope fullInt p l / x else temperatureSlope fullInt p l) x

/-! ## The program's terms -/

theorem eta_cases (sp : Species) : sp.eta = 1 ∨ sp.eta = -1 := by
  unfold Species.eta; split_ifs <;> simp

/-- Entropy of a species over `θ³`, as a function of `w = x/θ`. -/
noncomputable def cW (m : ℝ) (t : TPart) (w : ℝ) : ℝ :=
  match t.regime with
  | .radiation => 2 * Real.pi ^ 2 / 45 * effDof t
  | .intermediate => t.sp.dof / (6 * Real.pi ^ 2) * shell t.sp.eta 3 (t.sp.mass / m * w)
  | .dust => t.sp.dof / (6 * Real.pi ^ 2) * shell t.sp.eta 3 (t.sp.mass / m * w)
  | .noneq => 0

noncomputable def bW (m : ℝ) (t : TPart) (w : ℝ) : ℝ :=
  match t.regime with
  | .radiation => 0
  | .intermediate => t.sp.dof / (6 * Real.pi ^ 2) * ((t.sp.mass / m * w) ^ 2 * shell t.sp.eta 1 (t.sp.mass / m * w))
  | .dust => t.sp.dof / (6 * Real.pi ^ 2) * ((t.sp.mass / m * w) ^ 2 * shell t.sp.eta 1 (t.sp.mass / m * w))
  | .noneq => 0

noncomputable def sumC (m : ℝ) (ts : List TPart) (w : ℝ) : ℝ := (ts.map fun t => cW m t w).sum
noncomputable def sumB (m : ℝ) (ts : List TPart) (w : ℝ) : ℝ := (ts.map fun t => bW m t w).sum

theorem fullInt_value (sp : Species) (a b m x θ : ℝ) (p : Params) (j : ℕ) (hj : 1 ≤ j) (hx : 0 < x)
    (hm : 0 < m) (hθ : 0 < θ) (hM : 0 < sp.mass) (pa : p.a = x / m) (paT : p.aT = θ) :
    fullInt sp a b p (j + 1) =
      sp.dof / 2 / Real.pi ^ 2 * (θ ^ (j + 2) * shell sp.eta j (sp.mass / m * (x / θ))) := by
  unfold fullInt
  congr 1
  rw [pa, paT]
  have h := integral_comp_mul_left_Ioi (fun y : ℝ =>
    y ^ (j + 1) * Real.exp (conformalEnergy sp y (sp.mass * (x / m)) / θ)
      / (Real.exp (conformalEnergy sp y (sp.mass * (x / m)) / θ) + sp.eta) ^ 2) 0 (b := θ) hθ
  rw [mul_zero, smul_eq_mul] at h
  have h' : ∫ y in Ioi (0 : ℝ), y ^ (j + 1) * Real.exp (conformalEnergy sp y (sp.mass * (x / m)) / θ)
      / (Real.exp (conformalEnergy sp y (sp.mass * (x / m)) / θ) + sp.eta) ^ 2 =
      θ * ∫ v in Ioi (0 : ℝ), (θ * v) ^ (j + 1) *
        Real.exp (conformalEnergy sp (θ * v) (sp.mass * (x / m)) / θ)
      / (Real.exp (conformalEnergy sp (θ * v) (sp.mass * (x / m)) / θ) + sp.eta) ^ 2 := by
    rw [h]; field_simp
  rw [h', ← shell_momentum sp.eta j hj _ (by positivity), pow_succ θ (j + 1), mul_comm (θ ^ (j + 1)) θ,
    mul_assoc θ]
  congr 1
  rw [← integral_const_mul]
  refine setIntegral_congr_fun measurableSet_Ioi fun v hv => ?_
  have hE : conformalEnergy sp (θ * v) (sp.mass * (x / m)) / θ =
      √(v ^ 2 + (sp.mass / m * (x / θ)) ^ 2) := by
    unfold conformalEnergy
    rw [if_pos hM, show (θ * v) ^ 2 + (sp.mass * (x / m)) ^ 2 =
      θ ^ 2 * (v ^ 2 + (sp.mass / m * (x / θ)) ^ 2) by field_simp, Real.sqrt_mul (by positivity),
      Real.sqrt_sq hθ.le, mul_div_cancel_left₀ _ hθ.ne']
  simp only [hE]
  unfold edge
  rw [mul_pow]; ring

theorem stands_terms (m x θ : ℝ) (t t' : TPart) (p : Params) (hx : 0 < x) (hm : 0 < m) (hθ : 0 < θ)
    (hM : t.regime.massive → 0 < t.sp.mass) (px : p.x = x) (pm : p.m = m) (pa : p.a = x / m) (paT : p.aT = θ)
    (st : Stands θ t t') :
    t'.denominator fullInt p = 3 * θ ^ 3 * (cW m t (x / θ) + bW m t (x / θ)) ∧
    t'.numerator fullInt p = 3 * θ ^ 4 / x * bW m t (x / θ) := by
  have hpi := Real.pi_pos
  have massive : t.regime.massive → t'.regime.massive →
      t'.denominator fullInt p = 3 * θ ^ 3 * (cW m t (x / θ) + bW m t (x / θ)) ∧
      t'.numerator fullInt p = 3 * θ ^ 4 / x * bW m t (x / θ) := by
    intro h1 h2
    have hM' := hM h1
    have i4 := fullInt_value t.sp t'.ymin t'.ymax m x θ p 3 (by norm_num) hx hm hθ hM' pa paT
    have i2 := fullInt_value t.sp t'.ymin t'.ymax m x θ p 1 (by norm_num) hx hm hθ hM' pa paT
    have hc : cW m t (x / θ) = t.sp.dof / (6 * Real.pi ^ 2) * shell t.sp.eta 3 (t.sp.mass / m * (x / θ)) := by
      unfold cW; rcases h1 with h | h <;> rw [h]
    have hb : bW m t (x / θ) = t.sp.dof / (6 * Real.pi ^ 2) *
        ((t.sp.mass / m * (x / θ)) ^ 2 * shell t.sp.eta 1 (t.sp.mass / m * (x / θ))) := by
      unfold bW; rcases h1 with h | h <;> rw [h]
    have hd : t'.denominator fullInt p = intDenominator t.sp p (fullInt t.sp t'.ymin t'.ymax p) := by
      unfold TPart.denominator; rcases h2 with h | h <;> rw [h, st.sp]
    have hn : t'.numerator fullInt p = intNumerator t.sp p (fullInt t.sp t'.ymin t'.ymax p) := by
      unfold TPart.numerator; rcases h2 with h | h <;> rw [h, st.sp]
    rw [hd, hn, hc, hb]
    unfold intDenominator intNumerator
    rw [i4, i2, px, pm, pa, paT]
    constructor <;> field_simp <;> ring
  rcases st.regime with h | ⟨h1, h2⟩
  · cases hr : t.regime with
    | radiation =>
      rw [hr] at h
      unfold TPart.denominator TPart.numerator cW bW effDof radDenominator
      simp only [h, hr, st.sp, st.aT]
      refine ⟨?_, by ring⟩
      split_ifs <;> ring
    | intermediate => exact massive (Or.inl hr) (Or.inl (h.trans hr))
    | dust => exact massive (Or.inr hr) (Or.inr (h.trans hr))
    | noneq =>
      rw [hr] at h
      have hz := st.frozen h
      unfold TPart.denominator TPart.numerator cW bW
      simp only [h, hr]
      refine ⟨by ring, ?_⟩
      unfold neqNumerator simps
      simp [hz]
  · exact massive h1 h2

theorem stands_sums (m x θ : ℝ) (ts l : List TPart) (p : Params) (hx : 0 < x) (hm : 0 < m) (hθ : 0 < θ)
    (hM : ∀ t ∈ ts, t.regime.massive → 0 < t.sp.mass) (px : p.x = x) (pm : p.m = m) (pa : p.a = x / m)
    (paT : p.aT = θ) (st : List.Forall₂ (Stands θ) ts l) :
    temperatureTerms fullInt p l =
      (3 * θ ^ 4 / x * sumB m ts (x / θ), 3 * θ ^ 3 * (sumC m ts (x / θ) + sumB m ts (x / θ))) := by
  rw [temperatureTerms_eq]
  unfold sumB sumC
  induction st with
  | nil => simp
  | cons h _ ih =>
    have i := ih fun t h => hM t (List.mem_cons_of_mem _ h)
    obtain ⟨h1, h2⟩ := stands_terms m x θ _ _ p hx hm hθ (hM _ List.mem_cons_self) px pm pa paT h
    simp only [List.map_cons, List.sum_cons, Prod.mk.injEq] at i ⊢
    rw [h1, h2, i.1, i.2]
    constructor <;> ring

theorem bW_nonneg (m : ℝ) (t : TPart) (w : ℝ) (hg : 0 ≤ t.sp.dof) : 0 ≤ bW m t w := by
  have hpi := Real.pi_pos
  have := shell_nonneg (eta_cases t.sp) 1 (t.sp.mass / m * w)
  unfold bW; split <;> positivity

theorem cW_nonneg (m : ℝ) (t : TPart) (w : ℝ) (hg : 0 ≤ t.sp.dof) : 0 ≤ cW m t w := by
  have hpi := Real.pi_pos
  have := shell_nonneg (eta_cases t.sp) 3 (t.sp.mass / m * w)
  unfold cW effDof
  split
  · split_ifs <;> positivity
  · positivity
  · positivity
  · exact le_rfl

theorem sumB_nonneg (m : ℝ) (ts : List TPart) (w : ℝ) (h : ∀ t ∈ ts, 0 ≤ t.sp.dof) : 0 ≤ sumB m ts w :=
  List.sum_nonneg (by
    intro y hy
    obtain ⟨t, ht, rfl⟩ := List.mem_map.mp hy
    exact bW_nonneg m t w (h t ht))

theorem effDof_nonneg (t : TPart) (h : 0 ≤ t.sp.dof) : 0 ≤ effDof t := by
  unfold effDof; split_ifs <;> positivity

theorem lightDof_pos (ts : List TPart) (hc : Content ts) : 0 < lightDof ts := by
  obtain ⟨t, ht, hr, hg⟩ := hc.light
  unfold lightDof
  have hnn : ∀ y ∈ ts.map (fun t => if t.regime = .radiation then effDof t else 0), 0 ≤ y := by
    intro y hy
    obtain ⟨s, hs, rfl⟩ := List.mem_map.mp hy
    have := effDof_nonneg s (hc.dof s hs)
    split_ifs <;> linarith
  have hmem : effDof t ∈ ts.map (fun t => if t.regime = .radiation then effDof t else 0) :=
    List.mem_map.mpr ⟨t, ht, by simp only [if_pos hr]⟩
  have h1 := List.single_le_sum hnn _ hmem
  have : 0 < effDof t := by unfold effDof; split_ifs <;> positivity
  linarith

/-- Bounds of the entropy function: between its massless part and its value at high temperature. -/
theorem sumC_bounds (m : ℝ) (ts : List TPart) (w : ℝ) (hm : 0 < m) (hw : 0 ≤ w) (hc : Content ts) :
    2 * Real.pi ^ 2 / 45 * lightDof ts ≤ sumC m ts w ∧ sumC m ts w ≤ 2 * Real.pi ^ 2 / 45 * thermalDof ts := by
  have hpi := Real.pi_pos
  have hd := hc.dof
  have hM := hc.massive
  clear hc
  unfold lightDof thermalDof sumC
  induction ts with
  | nil => simp
  | cons t ts ih =>
    obtain ⟨i1, i2⟩ := ih (fun t h => hd t (List.mem_cons_of_mem _ h))
      (fun t h => hM t (List.mem_cons_of_mem _ h))
    simp only [List.map_cons, List.sum_cons]
    have hg := hd t List.mem_cons_self
    have key : 2 * Real.pi ^ 2 / 45 * (if t.regime = .radiation then effDof t else 0) ≤ cW m t w ∧
        cW m t w ≤ 2 * Real.pi ^ 2 / 45 * (if t.regime = .noneq then 0 else effDof t) := by
      have mass : t.regime.massive → t.sp.dof / (6 * Real.pi ^ 2) * shell t.sp.eta 3 (t.sp.mass / m * w) ≤
          2 * Real.pi ^ 2 / 45 * effDof t := by
        intro h
        have hMt := hM t List.mem_cons_self h
        have h1 := (shell_antitone (eta_cases t.sp) le_rfl
          (show 0 ≤ t.sp.mass / m * w by positivity) 3).resolve_right (by norm_num)
        rw [shell_zero (eta_cases t.sp)] at h1
        have h2 : t.sp.dof / (6 * Real.pi ^ 2) * shell t.sp.eta 3 (t.sp.mass / m * w) ≤
          t.sp.dof / (6 * Real.pi ^ 2) * ((if t.sp.eta = 1 then 7 / 8 else 1) * (4 * Real.pi ^ 4 / 15)) := by
          gcongr
        refine h2.trans (le_of_eq ?_)
        unfold effDof Species.eta
        cases t.sp.fermion
        · simp only [Bool.false_eq_true, if_false, show ¬((-1 : ℤ) = 1) by norm_num]; field_simp; ring
        · simp only [if_true]; field_simp; ring
      have hnn := cW_nonneg m t w hg
      cases hr : t.regime with
      | radiation => unfold cW; rw [hr]; simp
      | intermediate =>
        refine ⟨by simpa using hnn, ?_⟩
        have := mass (Or.inl hr)
        unfold cW; rw [hr]; simpa using this
      | dust =>
        refine ⟨by simpa using hnn, ?_⟩
        have := mass (Or.inr hr)
        unfold cW; rw [hr]; simpa using this
      | noneq => unfold cW; rw [hr]; simp
    rw [mul_add, mul_add]
    exact ⟨by linarith [key.1], by linarith [key.2]⟩

theorem cW_hasDerivAt (m : ℝ) (t : TPart) (w : ℝ) (hw : w ≠ 0) :
    HasDerivAt (cW m t) (-(3 * bW m t w / w)) w := by
  have mass : HasDerivAt (fun w => t.sp.dof / (6 * Real.pi ^ 2) * shell t.sp.eta 3 (t.sp.mass / m * w))
      (-(3 * (t.sp.dof / (6 * Real.pi ^ 2) *
        ((t.sp.mass / m * w) ^ 2 * shell t.sp.eta 1 (t.sp.mass / m * w))) / w)) w := by
    have d := ((shell_hasDerivAt (eta_cases t.sp) (t.sp.mass / m * w)).comp w
      ((hasDerivAt_id w).const_mul (t.sp.mass / m))).const_mul (t.sp.dof / (6 * Real.pi ^ 2))
    refine HasDerivAt.congr_deriv d ?_
    field_simp
  cases hr : t.regime with
  | radiation =>
    unfold cW bW; simp only [hr]
    simpa using hasDerivAt_const w (2 * Real.pi ^ 2 / 45 * effDof t)
  | intermediate => unfold cW bW; simp only [hr]; exact mass
  | dust => unfold cW bW; simp only [hr]; exact mass
  | noneq => unfold cW bW; simp only [hr]; simpa using hasDerivAt_const w (0 : ℝ)

theorem sumC_hasDerivAt (m : ℝ) (ts : List TPart) (w : ℝ) (hw : w ≠ 0) :
    HasDerivAt (sumC m ts) (-(3 * sumB m ts w / w)) w := by
  unfold sumB
  induction ts with
  | nil =>
    have : sumC m [] = fun _ => 0 := by funext; simp [sumC]
    rw [this]; simpa using hasDerivAt_const w (0 : ℝ)
  | cons t ts ih =>
    have : sumC m (t :: ts) = fun w => cW m t w + sumC m ts w := by funext; simp [sumC]
    rw [this]
    refine ((cW_hasDerivAt m t w hw).add ih).congr_deriv ?_
    simp only [List.map_cons, List.sum_cons]; ring

theorem cW_limits (m : ℝ) (t : TPart) (hm : 0 < m) (hM : t.regime.massive → 0 < t.sp.mass) :
    ContinuousAt (cW m t) 0 ∧
    cW m t 0 = 2 * Real.pi ^ 2 / 45 * (if t.regime = .noneq then 0 else effDof t) ∧
    Tendsto (cW m t) atTop (𝓝 (2 * Real.pi ^ 2 / 45 * (if t.regime = .radiation then effDof t else 0))) := by
  have hpi := Real.pi_pos
  have mass : t.regime.massive →
      ContinuousAt (fun w => t.sp.dof / (6 * Real.pi ^ 2) * shell t.sp.eta 3 (t.sp.mass / m * w)) 0 ∧
      t.sp.dof / (6 * Real.pi ^ 2) * shell t.sp.eta 3 (t.sp.mass / m * 0) = 2 * Real.pi ^ 2 / 45 * effDof t ∧
      Tendsto (fun w => t.sp.dof / (6 * Real.pi ^ 2) * shell t.sp.eta 3 (t.sp.mass / m * w)) atTop (𝓝 0) := by
    intro h
    have hMt := hM h
    refine ⟨?_, ?_, ?_⟩
    · refine ContinuousAt.mul continuousAt_const ?_
      exact ContinuousAt.comp (f := fun w : ℝ => t.sp.mass / m * w)
        (shell_hasDerivAt (eta_cases t.sp) _).continuousAt (by fun_prop)
    · rw [mul_zero, shell_zero (eta_cases t.sp)]
      unfold effDof Species.eta
      cases t.sp.fermion
      · simp only [Bool.false_eq_true, if_false, show ¬((-1 : ℤ) = 1) by norm_num]; field_simp; ring
      · simp only [if_true]; field_simp; ring
    · have h1 : Tendsto (fun w : ℝ => t.sp.mass / m * w) atTop atTop :=
        tendsto_id.const_mul_atTop (by positivity)
      have := ((shell_tendsto (eta_cases t.sp)).comp h1).const_mul (t.sp.dof / (6 * Real.pi ^ 2))
      rw [mul_zero] at this
      exact this
  cases hr : t.regime with
  | radiation =>
    unfold cW; simp only [hr]
    exact ⟨continuousAt_const, by simp, by simp⟩
  | intermediate =>
    obtain ⟨h1, h2, h3⟩ := mass (Or.inl hr)
    unfold cW; simp only [hr]
    exact ⟨h1, by simpa using h2, by simpa using h3⟩
  | dust =>
    obtain ⟨h1, h2, h3⟩ := mass (Or.inr hr)
    unfold cW; simp only [hr]
    exact ⟨h1, by simpa using h2, by simpa using h3⟩
  | noneq =>
    unfold cW; simp only [hr]
    exact ⟨continuousAt_const, by simp, by simp⟩

theorem sumC_limits (m : ℝ) (ts : List TPart) (hm : 0 < m) (hM : ∀ t ∈ ts, t.regime.massive → 0 < t.sp.mass) :
    ContinuousAt (sumC m ts) 0 ∧ sumC m ts 0 = 2 * Real.pi ^ 2 / 45 * thermalDof ts ∧
    Tendsto (sumC m ts) atTop (𝓝 (2 * Real.pi ^ 2 / 45 * lightDof ts)) := by
  unfold thermalDof lightDof
  induction ts with
  | nil =>
    have : sumC m [] = fun _ => 0 := by funext; simp [sumC]
    rw [this]
    exact ⟨continuousAt_const, by simp, by simp⟩
  | cons t ts ih =>
    obtain ⟨i1, i2, i3⟩ := ih fun t h => hM t (List.mem_cons_of_mem _ h)
    obtain ⟨h1, h2, h3⟩ := cW_limits m t hm (hM t List.mem_cons_self)
    have : sumC m (t :: ts) = fun w => cW m t w + sumC m ts w := by funext; simp [sumC]
    rw [this]
    simp only [List.map_cons, List.sum_cons, mul_add]
    exact ⟨h1.add i1, by rw [h2, i2], h3.add i3⟩

/-! ## The specification in the same terms -/

theorem stat_eq_occ (sp : Species) (e : ℝ) : sp.stat e = occ sp.eta e := by
  unfold Species.stat Species.eta Fermi Bose occ
  cases sp.fermion <;> simp [sub_eq_add_neg]

theorem full_scaled (sp : Species) (T : ℝ) (hT : 0 < T) (hM : 0 < sp.mass) :
    fullEnergy sp T = sp.dof / (2 * Real.pi ^ 2) * T ^ 4 * (∫ v in Ioi (0 : ℝ),
      v ^ 2 * √(v ^ 2 + (sp.mass / T) ^ 2) * occ sp.eta (√(v ^ 2 + (sp.mass / T) ^ 2))) ∧
    fullPressure sp T = sp.dof / (6 * Real.pi ^ 2) * T ^ 4 * (∫ v in Ioi (0 : ℝ),
      v ^ 4 / √(v ^ 2 + (sp.mass / T) ^ 2) * occ sp.eta (√(v ^ 2 + (sp.mass / T) ^ 2))) := by
  have hpi := Real.pi_pos
  have hE : ∀ v, physEnergy sp (T * v) = T * √(v ^ 2 + (sp.mass / T) ^ 2) := by
    intro v
    unfold physEnergy
    rw [if_pos hM, show (T * v) ^ 2 + sp.mass ^ 2 = T ^ 2 * (v ^ 2 + (sp.mass / T) ^ 2) by field_simp,
      Real.sqrt_mul (by positivity), Real.sqrt_sq hT.le]
  have scale : ∀ g : ℝ → ℝ, ∫ y in Ioi (0 : ℝ), g y = T * ∫ v in Ioi (0 : ℝ), g (T * v) := by
    intro g
    have h := integral_comp_mul_left_Ioi g 0 (b := T) hT
    rw [mul_zero, smul_eq_mul] at h
    rw [h]; field_simp
  constructor
  · unfold fullEnergy
    rw [scale, ← integral_const_mul, ← integral_const_mul]
    refine setIntegral_congr_fun measurableSet_Ioi fun v _ => ?_
    simp only [hE, mul_div_cancel_left₀ _ hT.ne', stat_eq_occ]
    field_simp
  · unfold fullPressure
    rw [scale, ← integral_const_mul, ← integral_const_mul]
    refine setIntegral_congr_fun measurableSet_Ioi fun v hv => ?_
    have := energy_pos (u := sp.mass / T) (mem_Ioi.mp hv)
    simp only [hE, mul_div_cancel_left₀ _ hT.ne', stat_eq_occ]
    field_simp

theorem speciesEntropy_eq (m x θ : ℝ) (t : TPart) (hx : 0 < x) (hm : 0 < m) (hθ : 0 < θ)
    (hM : t.regime.massive → 0 < t.sp.mass) :
    speciesEntropy t (x / m) (θ / (x / m)) = θ ^ 3 * cW m t (x / θ) := by
  have hpi := Real.pi_pos
  have ha : 0 < x / m := div_pos hx hm
  have hT : 0 < θ / (x / m) := div_pos hθ ha
  have mass : t.regime.massive →
      (x / m) ^ 3 * ((fullEnergy t.sp (θ / (x / m)) + fullPressure t.sp (θ / (x / m))) / (θ / (x / m))) =
      θ ^ 3 * (t.sp.dof / (6 * Real.pi ^ 2) * shell t.sp.eta 3 (t.sp.mass / m * (x / θ))) := by
    intro h
    have hMt := hM h
    obtain ⟨f1, f2⟩ := full_scaled t.sp (θ / (x / m)) hT hMt
    have hu : t.sp.mass / m * (x / θ) = t.sp.mass / (θ / (x / m)) := by field_simp
    obtain ⟨-, -, h3⟩ := entropy_parts (eta_cases t.sp) (t.sp.mass / (θ / (x / m))) (by positivity)
    have alg : ∀ T g I₁ I₂ : ℝ, g / (2 * Real.pi ^ 2) * T ^ 4 * I₁ + g / (6 * Real.pi ^ 2) * T ^ 4 * I₂ =
        g / (6 * Real.pi ^ 2) * T ^ 4 * (3 * I₁ + I₂) := by intros; field_simp; ring
    rw [hu, f1, f2, alg, ← h3]
    field_simp
  cases hr : t.regime with
  | radiation =>
    unfold speciesEntropy cW effDof radPressure radEnergyDensity
    simp only [hr]
    split_ifs <;> field_simp <;> ring
  | intermediate => unfold speciesEntropy cW; simp only [hr]; exact mass (Or.inl hr)
  | dust => unfold speciesEntropy cW; simp only [hr]; exact mass (Or.inr hr)
  | noneq => unfold speciesEntropy cW; simp only [hr]; ring

theorem plasmaEntropy_eq (m x θ : ℝ) (ts : List TPart) (hx : 0 < x) (hm : 0 < m) (hθ : 0 < θ)
    (hM : ∀ t ∈ ts, t.regime.massive → 0 < t.sp.mass) :
    plasmaEntropy ts (x / m) (θ / (x / m)) = θ ^ 3 * sumC m ts (x / θ) := by
  unfold plasmaEntropy sumC
  rw [← List.sum_map_mul_left]
  congr 1
  exact List.map_congr_left fun t ht => speciesEntropy_eq m x θ t hx hm hθ (hM t ht)

/-! ## Conservation -/

theorem heats_slope (m : ℝ) (ts : List TPart) (θ : ℝ → ℝ) (x : ℝ) (hm : 0 < m) (hx : 0 < x) (hθ : 0 < θ x)
    (hc : Content ts) :
    Heats m ts θ x → HasDerivAt θ (θ x * sumB m ts (x / θ x) /
      (x * (sumC m ts (x / θ x) + sumB m ts (x / θ x)))) x := by
  rintro ⟨p, l, px, pm, pa, paT, st, d⟩
  have hs := stands_sums m x (θ x) ts l p hx hm hθ hc.massive px pm pa paT st
  have hpi := Real.pi_pos
  have hC : 0 < sumC m ts (x / θ x) := by
    have := (sumC_bounds m ts (x / θ x) hm (by positivity) hc).1
    have := lightDof_pos ts hc
    have : 0 < 2 * Real.pi ^ 2 / 45 * lightDof ts := by positivity
    linarith
  have hB := sumB_nonneg m ts (x / θ x) hc.dof
  refine d.congr_deriv ?_
  unfold temperatureSlope
  simp only [hs, px]
  split_ifs <;> field_simp

theorem heats_conserves (m : ℝ) (ts : List TPart) (θ : ℝ → ℝ) (x : ℝ) (hm : 0 < m) (hx : 0 < x)
    (hθ : 0 < θ x) (hc : Content ts) (h : Heats m ts θ x) :
    HasDerivAt (fun x => θ x ^ 3 * sumC m ts (x / θ x)) 0 x := by
  have dθ := heats_slope m ts θ x hm hx hθ hc h
  have hpi := Real.pi_pos
  have hC : 0 < sumC m ts (x / θ x) := by
    have := (sumC_bounds m ts (x / θ x) hm (by positivity) hc).1
    have := lightDof_pos ts hc
    have : 0 < 2 * Real.pi ^ 2 / 45 * lightDof ts := by positivity
    linarith
  have hB := sumB_nonneg m ts (x / θ x) hc.dof
  have dw := (hasDerivAt_id x).fun_div dθ hθ.ne'
  have dC := (sumC_hasDerivAt m ts (x / θ x) (by positivity)).comp x dw
  have d := (dθ.fun_pow 3).mul dC
  refine HasDerivAt.congr_deriv d ?_
  simp only [id, Function.comp_apply]
  push_cast
  have : sumC m ts (x / θ x) + sumB m ts (x / θ x) ≠ 0 := by positivity
  field_simp
  ring


theorem sumC_pos (m : ℝ) (ts : List TPart) (w : ℝ) (hm : 0 < m) (hw : 0 ≤ w) (hc : Content ts) :
    0 < sumC m ts w := by
  have hpi := Real.pi_pos
  have := (sumC_bounds m ts w hm hw hc).1
  have := lightDof_pos ts hc
  have : 0 < 2 * Real.pi ^ 2 / 45 * lightDof ts := by positivity
  linarith

theorem heats_const (m : ℝ) (ts : List TPart) (θ : ℝ → ℝ) (x₁ x₂ : ℝ) (hm : 0 < m) (h1 : 0 < x₁)
    (h12 : x₁ ≤ x₂) (hc : Content ts) (h : ∀ x ∈ Icc x₁ x₂, 0 < θ x ∧ Heats m ts θ x) :
    θ x₂ ^ 3 * sumC m ts (x₂ / θ x₂) = θ x₁ ^ 3 * sumC m ts (x₁ / θ x₁) := by
  have hd : ∀ x ∈ Icc x₁ x₂, HasDerivAt (fun x => θ x ^ 3 * sumC m ts (x / θ x)) 0 x := fun x hx =>
    heats_conserves m ts θ x hm (lt_of_lt_of_le h1 hx.1) (h x hx).1 hc (h x hx).2
  exact constant_of_has_deriv_right_zero (f := fun x => θ x ^ 3 * sumC m ts (x / θ x))
    (fun x hx => (hd x hx).continuousAt.continuousWithinAt)
    (fun x hx => (hd x (Ico_subset_Icc_self hx)).hasDerivWithinAt) x₂ (right_mem_Icc.mpr h12)

/-- **C116 (entropy).** Any temperature history obeying the program's temperature equation keeps the
entropy `a³(ρ + p)/T` of the plasma constant, for every content of massless, massive and decoupled
species, of either statistics, in both step modes; and `a T` never decreases. -/
theorem C116_entropy (m : ℝ) (ts : List TPart) (θ : ℝ → ℝ) (x₁ x₂ : ℝ) (hm : 0 < m) (h1 : 0 < x₁)
    (h12 : x₁ ≤ x₂) (hc : Content ts) (h : ∀ x ∈ Icc x₁ x₂, 0 < θ x ∧ Heats m ts θ x) :
    plasmaEntropy ts (x₂ / m) (θ x₂ / (x₂ / m)) = plasmaEntropy ts (x₁ / m) (θ x₁ / (x₁ / m)) ∧
    θ x₁ ≤ θ x₂ := by
  have p1 := (h x₁ (left_mem_Icc.mpr h12)).1
  have p2 := (h x₂ (right_mem_Icc.mpr h12)).1
  refine ⟨?_, ?_⟩
  · rw [plasmaEntropy_eq m x₁ (θ x₁) ts h1 hm p1 hc.massive,
      plasmaEntropy_eq m x₂ (θ x₂) ts (h1.trans_le h12) hm p2 hc.massive]
    exact heats_const m ts θ x₁ x₂ hm h1 h12 hc h
  · have hd : ∀ x ∈ Icc x₁ x₂, HasDerivAt θ (θ x * sumB m ts (x / θ x) /
      (x * (sumC m ts (x / θ x) + sumB m ts (x / θ x)))) x := fun x hx =>
      heats_slope m ts θ x hm (h1.trans_le hx.1) (h x hx).1 hc (h x hx).2
    have mono : MonotoneOn θ (Icc x₁ x₂) := by
      refine monotoneOn_of_deriv_nonneg (convex_Icc x₁ x₂)
        (fun x hx => (hd x hx).continuousAt.continuousWithinAt)
        (fun x hx => (hd x (interior_subset hx)).differentiableAt.differentiableWithinAt) fun x hx => ?_
      have hx' := interior_subset hx
      rw [(hd x hx').deriv]
      have hx0 : 0 < x := h1.trans_le hx'.1
      have hθ := (h x hx').1
      have hB := sumB_nonneg m ts (x / θ x) hc.dof
      have hC := sumC_pos m ts (x / θ x) hm (by positivity) hc
      positivity
    exact mono (left_mem_Icc.mpr h12) (right_mem_Icc.mpr h12) h12

theorem cube_root_tendsto {l : Filter ℝ} {θ : ℝ → ℝ} {L : ℝ} (hθ : ∀ᶠ x in l, 0 < θ x)
    (h : Tendsto (fun x => θ x ^ 3) l (𝓝 L)) : Tendsto θ l (𝓝 (L ^ (1 / 3 : ℝ))) := by
  have := h.rpow_const (p := (1 / 3 : ℝ)) (Or.inr (by norm_num))
  refine this.congr' ?_
  filter_upwards [hθ] with x hx
  rw [← Real.rpow_natCast, ← Real.rpow_mul hx.le]
  norm_num

theorem cube_root_cube {L : ℝ} (h : 0 ≤ L) : (L ^ (1 / 3 : ℝ)) ^ 3 = L := by
  rw [← Real.rpow_natCast, ← Real.rpow_mul h]
  norm_num

/-- Late times: `θ` tends to a limit fixed by the entropy at the start. -/
theorem heats_late (m : ℝ) (ts : List TPart) (θ : ℝ → ℝ) (x₁ : ℝ) (hm : 0 < m) (h1 : 0 < x₁)
    (hc : Content ts) (h : ∀ x, x₁ ≤ x → 0 < θ x ∧ Heats m ts θ x) :
    ∃ θ₁ : ℝ, 0 < θ₁ ∧ Tendsto θ atTop (𝓝 θ₁) ∧
      θ₁ ^ 3 * (2 * Real.pi ^ 2 / 45 * lightDof ts) = θ x₁ ^ 3 * sumC m ts (x₁ / θ x₁) := by
  have hpi := Real.pi_pos
  have hL := lightDof_pos ts hc
  have hθ1 := (h x₁ le_rfl).1
  set s := θ x₁ ^ 3 * sumC m ts (x₁ / θ x₁) with hs
  have hs0 : 0 < s := mul_pos (by positivity) (sumC_pos m ts _ hm (by positivity) hc)
  have hcons : ∀ x, x₁ ≤ x → θ x ^ 3 * sumC m ts (x / θ x) = s := fun x hx =>
    heats_const m ts θ x₁ x hm h1 hx hc fun y hy => h y hy.1
  set cl := 2 * Real.pi ^ 2 / 45 * lightDof ts with hcl
  have hcl0 : 0 < cl := by positivity
  have hup : ∀ x, x₁ ≤ x → θ x ^ 3 ≤ s / cl := by
    intro x hx
    have hp := (h x hx).1
    rw [le_div_iff₀ hcl0, ← hcons x hx]
    have := (sumC_bounds m ts (x / θ x) hm (by have := h1.trans_le hx; positivity) hc).1
    gcongr
  have hup' : ∀ x, x₁ ≤ x → θ x ≤ (s / cl) ^ (1 / 3 : ℝ) := by
    intro x hx
    have hp := (h x hx).1
    refine le_of_pow_le_pow_left₀ (n := 3) (by norm_num) (by positivity) ?_
    rw [cube_root_cube (by positivity)]
    exact hup x hx
  have hw : Tendsto (fun x => x / θ x) atTop atTop := by
    have hk : 0 < (s / cl) ^ (1 / 3 : ℝ) := by positivity
    have : Tendsto (fun x : ℝ => x / (s / cl) ^ (1 / 3 : ℝ)) atTop atTop := tendsto_id.atTop_div_const hk
    refine tendsto_atTop_mono' _ ?_ this
    filter_upwards [eventually_ge_atTop x₁] with x hx
    have hp := (h x hx).1
    have hx0 := h1.trans_le hx
    exact div_le_div_of_nonneg_left hx0.le hp (hup' x hx)
  have hC := (sumC_limits m ts hm hc.massive).2.2.comp hw
  have h3 : Tendsto (fun x => θ x ^ 3) atTop (𝓝 (s / cl)) := by
    refine (tendsto_const_nhds.div hC hcl0.ne').congr' ?_
    filter_upwards [eventually_ge_atTop x₁] with x hx
    have hp := (h x hx).1
    have hx0 := h1.trans_le hx
    have := sumC_pos m ts (x / θ x) hm (by positivity) hc
    change s / sumC m ts (x / θ x) = θ x ^ 3
    rw [← hcons x hx]
    field_simp
  refine ⟨(s / cl) ^ (1 / 3 : ℝ), by positivity, cube_root_tendsto ?_ h3, ?_⟩
  · filter_upwards [eventually_ge_atTop x₁] with x hx using (h x hx).1
  · rw [cube_root_cube (by positivity)]; field_simp

theorem thermalDof_ge (ts : List TPart) (hc : Content ts) : lightDof ts ≤ thermalDof ts := by
  have h := sumC_bounds 1 ts 0 one_pos le_rfl hc
  have hpi := Real.pi_pos
  have : 0 < 2 * Real.pi ^ 2 / 45 := by positivity
  nlinarith [h.1.trans h.2]

/-- **C116 (heating).** A history obeying the program's temperature equation at all times has limits
`θ₀` and `θ₁` of `a T` at early and late times, stays between them, and
`θ₁³ g(massless) = θ₀³ g(all in equilibrium)`: the massive species hand over all their entropy. -/
theorem C116_heating (m : ℝ) (ts : List TPart) (θ : ℝ → ℝ) (hm : 0 < m) (hc : Content ts)
    (h : ∀ x, 0 < x → 0 < θ x ∧ Heats m ts θ x) :
    ∃ θ₀ θ₁ : ℝ, 0 < θ₀ ∧ Tendsto θ (𝓝[>] 0) (𝓝 θ₀) ∧ Tendsto θ atTop (𝓝 θ₁) ∧
      (∀ x, 0 < x → θ₀ ≤ θ x ∧ θ x ≤ θ₁) ∧ θ₁ ^ 3 * lightDof ts = θ₀ ^ 3 * thermalDof ts := by
  have hpi := Real.pi_pos
  obtain ⟨θ₁, p1, t1, e1⟩ := heats_late m ts θ 1 hm one_pos hc fun x hx => h x (by linarith)
  set s := θ 1 ^ 3 * sumC m ts (1 / θ 1) with hs
  have hθ1 := (h 1 one_pos).1
  have hs0 : 0 < s := mul_pos (by positivity) (sumC_pos m ts _ hm (by positivity) hc)
  have hcons : ∀ x, 0 < x → θ x ^ 3 * sumC m ts (x / θ x) = s := by
    intro x hx
    rcases le_total 1 x with hl | hl
    · exact heats_const m ts θ 1 x hm one_pos hl hc fun y hy => h y (by linarith [hy.1])
    · exact (heats_const m ts θ x 1 hm hx hl hc fun y hy => h y (by linarith [hy.1])).symm
  set ca := 2 * Real.pi ^ 2 / 45 * thermalDof ts with hca
  have hca0 : 0 < ca := by
    have := lightDof_pos ts hc
    have := thermalDof_ge ts hc
    have : 0 < thermalDof ts := by linarith
    positivity
  have hlo : ∀ x, 0 < x → (s / ca) ^ (1 / 3 : ℝ) ≤ θ x := by
    intro x hx
    have hp := (h x hx).1
    refine le_of_pow_le_pow_left₀ (n := 3) (by norm_num) hp.le ?_
    rw [cube_root_cube (by positivity), div_le_iff₀ hca0, ← hcons x hx]
    have := (sumC_bounds m ts (x / θ x) hm (by positivity) hc).2
    gcongr
  have hk : 0 < (s / ca) ^ (1 / 3 : ℝ) := by positivity
  have hw : Tendsto (fun x => x / θ x) (𝓝[>] 0) (𝓝 0) := by
    have hx : Tendsto (fun x : ℝ => x / (s / ca) ^ (1 / 3 : ℝ)) (𝓝[>] 0) (𝓝 0) := by
      have : Continuous fun x : ℝ => x / (s / ca) ^ (1 / 3 : ℝ) := by fun_prop
      have := this.tendsto 0
      rw [zero_div] at this
      exact this.mono_left nhdsWithin_le_nhds
    refine squeeze_zero' ?_ ?_ hx
    · filter_upwards [self_mem_nhdsWithin] with x hx
      exact div_nonneg (le_of_lt hx) (h x hx).1.le
    · filter_upwards [self_mem_nhdsWithin] with x hx
      exact div_le_div_of_nonneg_left (le_of_lt hx) hk (hlo x hx)
  obtain ⟨c1, c2, -⟩ := sumC_limits m ts hm hc.massive
  have hC : Tendsto (fun x => sumC m ts (x / θ x)) (𝓝[>] 0) (𝓝 ca) := by
    rw [hca, ← c2]
    exact c1.tendsto.comp hw
  have h3 : Tendsto (fun x => θ x ^ 3) (𝓝[>] 0) (𝓝 (s / ca)) := by
    refine (tendsto_const_nhds.div hC hca0.ne').congr' ?_
    filter_upwards [self_mem_nhdsWithin] with x hx
    have hx0 : 0 < x := hx
    have hp := (h x hx0).1
    have := sumC_pos m ts (x / θ x) hm (by positivity) hc
    change s / sumC m ts (x / θ x) = θ x ^ 3
    rw [← hcons x hx0]
    field_simp
  refine ⟨(s / ca) ^ (1 / 3 : ℝ), θ₁, hk, cube_root_tendsto ?_ h3, t1, fun x hx => ⟨hlo x hx, ?_⟩, ?_⟩
  · filter_upwards [self_mem_nhdsWithin] with x hx using (h x hx).1
  · refine ge_of_tendsto t1 ?_
    filter_upwards [eventually_ge_atTop x] with y hy
    exact (C116_entropy m ts θ x y hm hx hy hc fun z hz => h z (hx.trans_le hz.1)).2
  · rw [cube_root_cube (by positivity)]
    rw [hca]
    have e : θ₁ ^ 3 * lightDof ts = s / (2 * Real.pi ^ 2 / 45) := by
      rw [eq_div_iff (by positivity)]; linarith [e1]
    rw [e]
    have : thermalDof ts ≠ 0 := by
      intro h0; rw [hca, h0, mul_zero] at hca0; exact lt_irrefl _ hca0
    field_simp

theorem lightDof_frozen (ts : List TPart) (h : ∀ t ∈ ts, t.regime = .noneq) :
    lightDof ts = 0 ∧ thermalDof ts = 0 := by
  unfold lightDof thermalDof
  constructor <;>
  · refine List.sum_eq_zero fun y hy => ?_
    obtain ⟨t, ht, rfl⟩ := List.mem_map.mp hy
    simp [h t ht]

/-- Photons, electrons with positrons, and decoupled species. -/
structure PhotonElectron (γ e : TPart) (ν : List TPart) : Prop where
  γr : γ.regime = .radiation
  γf : γ.sp.fermion = false
  γg : γ.sp.dof = 2
  er : e.regime = .intermediate ∨ e.regime = .dust
  ef : e.sp.fermion = true
  eg : e.sp.dof = 4
  em : 0 < e.sp.mass
  ν : ∀ t ∈ ν, t.regime = .noneq ∧ 0 ≤ t.sp.dof

theorem PhotonElectron.content {γ e : TPart} {ν : List TPart} (h : PhotonElectron γ e ν) :
    Content (γ :: e :: ν) := by
  refine ⟨?_, ?_, ⟨γ, List.mem_cons_self, h.γr, by rw [h.γg]; norm_num⟩⟩
  · intro t ht
    rcases List.mem_cons.mp ht with rfl | ht
    · rw [h.γg]; norm_num
    rcases List.mem_cons.mp ht with rfl | ht
    · rw [h.eg]; norm_num
    · exact (h.ν t ht).2
  · intro t ht hr
    rcases List.mem_cons.mp ht with rfl | ht
    · rcases hr with hr | hr <;> rw [h.γr] at hr <;> cases hr
    rcases List.mem_cons.mp ht with rfl | ht
    · exact h.em
    · rcases hr with hr | hr <;> rw [(h.ν t ht).1] at hr <;> cases hr

theorem PhotonElectron.dofs {γ e : TPart} {ν : List TPart} (h : PhotonElectron γ e ν) :
    lightDof (γ :: e :: ν) = 2 ∧ thermalDof (γ :: e :: ν) = 11 / 2 := by
  obtain ⟨z1, z2⟩ := lightDof_frozen ν fun t ht => (h.ν t ht).1
  constructor
  · have : lightDof (γ :: e :: ν) = 2 + (0 + lightDof ν) := by
      unfold lightDof effDof
      simp only [List.map_cons, List.sum_cons]
      rcases h.er with he | he <;> simp [h.γr, h.γf, h.γg, he]
    rw [this, z1]; norm_num
  · have : thermalDof (γ :: e :: ν) = 2 + (7 / 8 * 4 + thermalDof ν) := by
      unfold thermalDof effDof
      simp only [List.map_cons, List.sum_cons]
      rcases h.er with he | he <;> simp [h.γr, h.γf, h.γg, he, h.ef, h.eg]
    rw [this, z2]; norm_num

/-- **C116 (photons, electrons, decoupled neutrinos).** The comoving photon temperature rises by exactly
`(11/4)^{1/3}`, between 1.401 and 1.40103. -/
theorem C116_annihilation (m : ℝ) (γ e : TPart) (ν : List TPart) (θ : ℝ → ℝ) (hm : 0 < m)
    (hp : PhotonElectron γ e ν) (h : ∀ x, 0 < x → 0 < θ x ∧ Heats m (γ :: e :: ν) θ x) :
    ∃ θ₀ θ₁ : ℝ, 0 < θ₀ ∧ Tendsto θ (𝓝[>] 0) (𝓝 θ₀) ∧ Tendsto θ atTop (𝓝 θ₁) ∧
      (∀ x, 0 < x → θ₀ ≤ θ x ∧ θ x ≤ θ₁) ∧ θ₁ / θ₀ = (11 / 4 : ℝ) ^ (1 / 3 : ℝ) ∧
      1.401 < θ₁ / θ₀ ∧ θ₁ / θ₀ < 1.40103 := by
  obtain ⟨θ₀, θ₁, p0, t0, t1, hb, he⟩ := C116_heating m _ θ hm hp.content h
  rw [hp.dofs.1, hp.dofs.2] at he
  have hr0 : 0 ≤ θ₁ / θ₀ := div_nonneg (p0.le.trans ((hb 1 one_pos).1.trans (hb 1 one_pos).2)) p0.le
  have hr : (θ₁ / θ₀) ^ 3 = 11 / 4 := by
    rw [div_pow, div_eq_iff (by positivity)]; linarith
  refine ⟨θ₀, θ₁, p0, t0, t1, hb, ?_, ?_, ?_⟩
  · rw [← hr, ← Real.rpow_natCast, ← Real.rpow_mul hr0]; norm_num
  · refine lt_of_pow_lt_pow_left₀ 3 hr0 ?_
    rw [hr]; norm_num
  · refine lt_of_pow_lt_pow_left₀ 3 (by norm_num) ?_
    rw [hr]; norm_num

/-! ## Starting at a finite temperature -/

theorem shell_one_zero {eta : ℤ} (he : eta = 1 ∨ eta = -1) : shell eta 1 0 ≤ 4.06 := by
  have h : shell eta 1 0 ≤ ∫ e in Ioi (0 : ℝ),
      (e ^ 1 * (1 / (Real.exp e - 1)) + e ^ (1 + 1) * (1 / (Real.exp e - 1))) :=
    setIntegral_mono_on (shell_integrable he 1 le_rfl 0) (shell_dom_integrable 1 le_rfl) measurableSet_Ioi
      fun e h => (shell_dominated he 1 0 (mem_Ioi.mp h)).2
  rw [integral_add (bose_integrable 1 le_rfl) (bose_integrable (1 + 1) (by norm_num)),
    bose_integral 1 le_rfl, bose_integral (1 + 1) (by norm_num)] at h
  have z1 : zetaSum 1 = Real.pi ^ 2 / 6 := by
    have h := hasSum_zeta_two
    have h2 := (hasSum_nat_add_iff' 1).mpr h
    simp only [Finset.sum_range_one, Nat.cast_zero] at h2
    norm_num at h2
    unfold zetaSum
    refine HasSum.tsum_eq ?_
    simpa using h2
  have z2 := zetaSum_two_bounds.2
  norm_num [Nat.factorial] at h
  rw [z1] at h
  have hp := Real.pi_lt_d2
  have hp0 := Real.pi_pos
  have : Real.pi ^ 2 < 9.9225 := by nlinarith
  linarith

/-- Relative loss of entropy at temperature `T`: `∑ g (M/T)²` over the massive species. -/
noncomputable def massLoss (ts : List TPart) (T : ℝ) : ℝ :=
  (ts.map fun t => if t.regime = .intermediate ∨ t.regime = .dust then t.sp.dof * (t.sp.mass / T) ^ 2 else 0).sum

theorem sumC_lower (m x θ : ℝ) (ts : List TPart) (hm : 0 < m) (hx : 0 < x) (hθ : 0 < θ)
    (hd : ∀ t ∈ ts, 0 ≤ t.sp.dof) (hM : ∀ t ∈ ts, t.regime.massive → 0 < t.sp.mass) :
    2 * Real.pi ^ 2 / 45 * (thermalDof ts - 0.24 * massLoss ts (θ / (x / m))) ≤ sumC m ts (x / θ) := by
  have hpi := Real.pi_pos
  unfold thermalDof massLoss sumC
  induction ts with
  | nil => simp
  | cons t ts ih =>
    have i := ih (fun t h => hd t (List.mem_cons_of_mem _ h)) (fun t h => hM t (List.mem_cons_of_mem _ h))
    have hg := hd t List.mem_cons_self
    simp only [List.map_cons, List.sum_cons]
    have mass : t.regime.massive → 2 * Real.pi ^ 2 / 45 * (effDof t - 0.24 *
        (t.sp.dof * (t.sp.mass / (θ / (x / m))) ^ 2)) ≤
        t.sp.dof / (6 * Real.pi ^ 2) * shell t.sp.eta 3 (t.sp.mass / m * (x / θ)) := by
      intro h
      have hMt := hM t List.mem_cons_self h
      have hu : t.sp.mass / (θ / (x / m)) = t.sp.mass / m * (x / θ) := by field_simp
      rw [hu]
      have hu0 : 0 ≤ t.sp.mass / m * (x / θ) := by positivity
      set u := t.sp.mass / m * (x / θ)
      have h1 := shell_quadratic (eta_cases t.sp) u hu0
      have h2 := shell_one_zero (eta_cases t.sp)
      have h3 : shell t.sp.eta 3 0 - 6.09 * u ^ 2 ≤ shell t.sp.eta 3 u := by
        have := mul_le_mul_of_nonneg_left h2 (show 0 ≤ 3 / 2 * u ^ 2 by positivity)
        linarith
      have h4 : t.sp.dof / (6 * Real.pi ^ 2) * (shell t.sp.eta 3 0 - 6.09 * u ^ 2) ≤
          t.sp.dof / (6 * Real.pi ^ 2) * shell t.sp.eta 3 u := by gcongr
      refine le_trans ?_ h4
      have h5 : t.sp.dof / (6 * Real.pi ^ 2) * shell t.sp.eta 3 0 = 2 * Real.pi ^ 2 / 45 * effDof t := by
        rw [shell_zero (eta_cases t.sp)]
        unfold effDof Species.eta
        cases t.sp.fermion
        · simp only [Bool.false_eq_true, if_false, show ¬((-1 : ℤ) = 1) by norm_num]; field_simp; ring
        · simp only [if_true]; field_simp; ring
      rw [mul_sub, mul_sub, h5]
      have h6 : t.sp.dof / (6 * Real.pi ^ 2) * (6.09 * u ^ 2) ≤
          2 * Real.pi ^ 2 / 45 * (0.24 * (t.sp.dof * u ^ 2)) := by
        have h7 : 6.09 / (6 * Real.pi ^ 2) ≤ 2 * Real.pi ^ 2 / 45 * 0.24 := by
          rw [div_le_iff₀ (by positivity)]
          have := Real.pi_gt_d2
          have h8 : 9.8596 < Real.pi ^ 2 := by nlinarith
          nlinarith
        calc t.sp.dof / (6 * Real.pi ^ 2) * (6.09 * u ^ 2)
            = 6.09 / (6 * Real.pi ^ 2) * (t.sp.dof * u ^ 2) := by ring
          _ ≤ (2 * Real.pi ^ 2 / 45 * 0.24) * (t.sp.dof * u ^ 2) := by gcongr
          _ = _ := by ring
      linarith
    have key : 2 * Real.pi ^ 2 / 45 * ((if t.regime = .noneq then 0 else effDof t) - 0.24 *
        (if t.regime = .intermediate ∨ t.regime = .dust then
          t.sp.dof * (t.sp.mass / (θ / (x / m))) ^ 2 else 0)) ≤ cW m t (x / θ) := by
      unfold cW
      cases hr : t.regime with
      | radiation => simp
      | intermediate => simpa using mass (Or.inl hr)
      | dust => simpa using mass (Or.inr hr)
      | noneq => simp
    refine le_trans (le_of_eq ?_) (add_le_add key i)
    ring

/-- **C116 (finite start).** A run started at `x₁`, temperature `T₁ = θ(x₁)/a`: `a T` tends to a limit at
late times, which falls short of the full transfer of entropy by at most `0.24 ∑ g (M/T₁)²` degrees of
freedom. -/
theorem C116_finite_start (m : ℝ) (ts : List TPart) (θ : ℝ → ℝ) (x₁ : ℝ) (hm : 0 < m) (h1 : 0 < x₁)
    (hc : Content ts) (h : ∀ x, x₁ ≤ x → 0 < θ x ∧ Heats m ts θ x) :
    ∃ θ₁ : ℝ, Tendsto θ atTop (𝓝 θ₁) ∧ (∀ x, x₁ ≤ x → θ x ≤ θ₁) ∧
      θ₁ ^ 3 * lightDof ts ≤ θ x₁ ^ 3 * thermalDof ts ∧
      θ x₁ ^ 3 * (thermalDof ts - 0.24 * massLoss ts (θ x₁ / (x₁ / m))) ≤ θ₁ ^ 3 * lightDof ts := by
  have hpi := Real.pi_pos
  obtain ⟨θ₁, p1, t1, e1⟩ := heats_late m ts θ x₁ hm h1 hc h
  have hθ := (h x₁ le_rfl).1
  have hup := (sumC_bounds m ts (x₁ / θ x₁) hm (by positivity) hc).2
  have hlo := sumC_lower m x₁ (θ x₁) ts hm h1 hθ hc.dof hc.massive
  have hk : 0 < 2 * Real.pi ^ 2 / 45 := by positivity
  refine ⟨θ₁, t1, fun x hx => ?_, ?_, ?_⟩
  · refine ge_of_tendsto t1 ?_
    filter_upwards [eventually_ge_atTop x] with y hy
    exact (C116_entropy m ts θ x y hm (h1.trans_le hx) hy hc fun z hz => h z (hx.trans hz.1)).2
  · refine le_of_mul_le_mul_left ?_ hk
    calc 2 * Real.pi ^ 2 / 45 * (θ₁ ^ 3 * lightDof ts) = θ x₁ ^ 3 * sumC m ts (x₁ / θ x₁) := by
          rw [← e1]; ring
      _ ≤ θ x₁ ^ 3 * (2 * Real.pi ^ 2 / 45 * thermalDof ts) := by gcongr
      _ = _ := by ring
  · refine le_of_mul_le_mul_left ?_ hk
    calc 2 * Real.pi ^ 2 / 45 * (θ x₁ ^ 3 * (thermalDof ts - 0.24 * massLoss ts (θ x₁ / (x₁ / m))))
        = θ x₁ ^ 3 * (2 * Real.pi ^ 2 / 45 * (thermalDof ts - 0.24 * massLoss ts (θ x₁ / (x₁ / m)))) := by ring
      _ ≤ θ x₁ ^ 3 * sumC m ts (x₁ / θ x₁) := by gcongr
      _ = _ := by rw [← e1]; ring

/-- **C116 (start of the test scripts).** Started at a temperature above 19 electron masses (the test
scripts start at 10 MeV) the comoving photon temperature rises by a factor between 1.4007 and 1.40103. -/
theorem C116_test_start (m : ℝ) (γ e : TPart) (ν : List TPart) (θ : ℝ → ℝ) (x₁ : ℝ) (hm : 0 < m)
    (h1 : 0 < x₁) (hp : PhotonElectron γ e ν)
    (h : ∀ x, x₁ ≤ x → 0 < θ x ∧ Heats m (γ :: e :: ν) θ x)
    (hT : 19 * e.sp.mass ≤ θ x₁ / (x₁ / m)) :
    ∃ θ₁ : ℝ, Tendsto θ atTop (𝓝 θ₁) ∧ (∀ x, x₁ ≤ x → θ x ≤ θ₁) ∧
      1.4007 < θ₁ / θ x₁ ∧ θ₁ / θ x₁ < 1.40103 := by
  obtain ⟨θ₁, t1, hb, hup, hlo⟩ := C116_finite_start m _ θ x₁ hm h1 hp.content h
  have hθ := (h x₁ le_rfl).1
  have hloss : massLoss (γ :: e :: ν) (θ x₁ / (x₁ / m)) ≤ 4 * (1 / 19) ^ 2 := by
    have hz : (ν.map fun t => if t.regime = .intermediate ∨ t.regime = .dust then
        t.sp.dof * (t.sp.mass / (θ x₁ / (x₁ / m))) ^ 2 else 0).sum = 0 := by
      refine List.sum_eq_zero fun y hy => ?_
      obtain ⟨t, ht, rfl⟩ := List.mem_map.mp hy
      simp [(hp.ν t ht).1]
    unfold massLoss
    simp only [List.map_cons, List.sum_cons]
    rw [hz, if_neg (by simp [hp.γr]), if_pos hp.er, hp.eg, zero_add, add_zero]
    have hem := hp.em
    have hT0 : 0 < θ x₁ / (x₁ / m) := by positivity
    have : e.sp.mass / (θ x₁ / (x₁ / m)) ≤ 1 / 19 := by
      rw [div_le_div_iff₀ hT0 (by norm_num)]; linarith
    gcongr
  rw [hp.dofs.1, hp.dofs.2] at hup
  rw [hp.dofs.1, hp.dofs.2] at hlo
  have hθ₁ : 0 < θ₁ := hθ.trans_le (hb x₁ le_rfl)
  have hr0 : 0 ≤ θ₁ / θ x₁ := by positivity
  have hr1 : (θ₁ / θ x₁) ^ 3 ≤ 11 / 4 := by
    rw [div_pow, div_le_iff₀ (by positivity)]; linarith
  have hr2 : 11 / 4 - 0.48 * (1 / 19) ^ 2 ≤ (θ₁ / θ x₁) ^ 3 := by
    rw [div_pow (θ₁), le_div_iff₀ (by positivity)]
    have h3 : 0 < θ x₁ ^ 3 := by positivity
    have := mul_le_mul_of_nonneg_left hloss h3.le
    linarith
  refine ⟨θ₁, t1, hb, ?_, ?_⟩
  · refine lt_of_pow_lt_pow_left₀ 3 hr0 (lt_of_lt_of_le ?_ hr2)
    norm_num
  · refine lt_of_pow_lt_pow_left₀ 3 (by norm_num) (lt_of_le_of_lt hr1 ?_)
    norm_num

/-! ## Such histories exist -/

theorem sumC_hasDerivAt_all (m : ℝ) (ts : List TPart) (w : ℝ) :
    ∃ d, HasDerivAt (sumC m ts) d w ∧ w * d = -(3 * sumB m ts w) := by
  rcases eq_or_ne w 0 with rfl | hw
  · have hb : sumB m ts 0 = 0 := by
      unfold sumB
      refine List.sum_eq_zero fun y hy => ?_
      obtain ⟨t, -, rfl⟩ := List.mem_map.mp hy
      unfold bW
      cases t.regime <;> simp
    have : ∀ ts : List TPart, ∃ d, HasDerivAt (sumC m ts) d 0 := by
      intro ts
      induction ts with
      | nil =>
        have : sumC m [] = fun _ => 0 := by funext; simp [sumC]
        rw [this]; exact ⟨0, hasDerivAt_const _ _⟩
      | cons t ts ih =>
        obtain ⟨d, hd⟩ := ih
        have e : sumC m (t :: ts) = fun w => cW m t w + sumC m ts w := by funext; simp [sumC]
        have hsh : ∃ d', HasDerivAt (fun w => t.sp.dof / (6 * Real.pi ^ 2) *
            shell t.sp.eta 3 (t.sp.mass / m * w)) d' 0 :=
          ⟨_, ((shell_hasDerivAt (eta_cases t.sp) (t.sp.mass / m * 0)).comp 0
            ((hasDerivAt_id 0).const_mul (t.sp.mass / m))).const_mul _⟩
        have : ∃ d', HasDerivAt (cW m t) d' 0 := by
          unfold cW
          cases t.regime with
          | radiation => exact ⟨0, hasDerivAt_const _ _⟩
          | intermediate => exact hsh
          | dust => exact hsh
          | noneq => exact ⟨0, hasDerivAt_const _ _⟩
        obtain ⟨d', hd'⟩ := this
        rw [e]
        exact ⟨_, hd'.add hd⟩
    obtain ⟨d, hd⟩ := this ts
    exact ⟨d, hd, by rw [hb]; ring⟩
  · exact ⟨_, sumC_hasDerivAt m ts w hw, by field_simp⟩

theorem sumC_even (m : ℝ) (ts : List TPart) (w : ℝ) : sumC m ts (-w) = sumC m ts w := by
  unfold sumC
  congr 1
  refine List.map_congr_left fun t _ => ?_
  unfold cW shell
  cases t.regime <;> simp

/-- **C116 (existence).** For every content and every positive initial entropy there is a history obeying
the temperature equation at all times. -/
theorem C116_exists (m s : ℝ) (ts : List TPart) (hm : 0 < m) (hs : 0 < s) (hc : Content ts)
    (hz : ∀ t ∈ ts, t.regime = .noneq → ∀ k, t.coll k = 0) :
    ∃ θ : ℝ → ℝ, (∀ x, 0 < x → 0 < θ x ∧ Heats m ts θ x) ∧
      ∀ x, 0 < x → plasmaEntropy ts (x / m) (θ x / (x / m)) = s := by
  have hpos : ∀ w, 0 < sumC m ts w := by
    intro w
    rcases le_total 0 w with h | h
    · exact sumC_pos m ts w hm h hc
    · rw [← sumC_even]; exact sumC_pos m ts (-w) hm (by linarith) hc
  set τ : ℝ → ℝ := fun w => (s / sumC m ts w) ^ (1 / 3 : ℝ) with hτ
  have hτ0 : ∀ w, 0 < τ w := fun w => Real.rpow_pos_of_pos (div_pos hs (hpos w)) _
  have hτ3 : ∀ w, τ w ^ 3 = s / sumC m ts w := fun w => cube_root_cube (div_pos hs (hpos w)).le
  have hX : ∀ w, HasDerivAt (fun w => w * τ w) (τ w * (1 + sumB m ts w / sumC m ts w)) w := by
    intro w
    obtain ⟨d, hd, hwd⟩ := sumC_hasDerivAt_all m ts w
    have hC := hpos w
    have dq := (hasDerivAt_const w s).fun_div hd hC.ne'
    have dτ := dq.rpow_const (p := (1 / 3 : ℝ)) (Or.inl (div_pos hs hC).ne')
    have dX := (hasDerivAt_id w).mul dτ
    refine HasDerivAt.congr_deriv dX ?_
    have hr : (s / sumC m ts w) ^ (1 / 3 - 1 : ℝ) = τ w / (s / sumC m ts w) :=
      Real.rpow_sub_one (div_pos hs hC).ne' _
    have hid : (0 * sumC m ts w - s * d) / sumC m ts w ^ 2 * (1 / 3) * (s / sumC m ts w) ^ (1 / 3 - 1 : ℝ) =
        -(d / (3 * sumC m ts w)) * τ w := by
      rw [hr]; field_simp; ring
    simp only [id, one_mul]
    rw [hid]
    have : w * (-(d / (3 * sumC m ts w)) * τ w) = -(w * d) / (3 * sumC m ts w) * τ w := by ring
    rw [this, hwd]
    field_simp
    ring
  have hX0 : ∀ w, 0 < τ w * (1 + sumB m ts w / sumC m ts w) := by
    intro w
    have := hpos w
    have := hτ0 w
    have := sumB_nonneg m ts w hc.dof
    positivity
  have hmono : StrictMono fun w => w * τ w :=
    strictMono_of_deriv_pos fun w => by rw [(hX w).deriv]; exact hX0 w
  have hcont : Continuous fun w => w * τ w :=
    continuous_iff_continuousAt.mpr fun w => (hX w).continuousAt
  obtain ⟨lo, hlo, hle⟩ : ∃ lo : ℝ, 0 < lo ∧ ∀ w, lo ≤ τ w := by
    refine ⟨τ 0, hτ0 0, fun w => ?_⟩
    refine le_of_pow_le_pow_left₀ (n := 3) (by norm_num) (hτ0 w).le ?_
    rw [hτ3, hτ3]
    refine div_le_div_of_nonneg_left hs.le (hpos w) ?_
    have hw : sumC m ts w = sumC m ts |w| := by
      rcases abs_cases w with ⟨h, _⟩ | ⟨h, _⟩ <;> rw [h]
      rw [sumC_even]
    rw [hw, (sumC_limits m ts hm hc.massive).2.1]
    exact (sumC_bounds m ts |w| hm (abs_nonneg w) hc).2
  have htop : Tendsto (fun w => w * τ w) atTop atTop := by
    refine tendsto_atTop_mono' _ ?_ (tendsto_id.atTop_mul_const hlo)
    filter_upwards [eventually_ge_atTop 0] with w hw
    exact mul_le_mul_of_nonneg_left (hle w) hw
  have hbot : Tendsto (fun w => w * τ w) atBot atBot := by
    refine tendsto_atBot_mono' _ ?_ (tendsto_id.atBot_mul_const hlo)
    filter_upwards [eventually_le_atBot 0] with w hw
    exact mul_le_mul_of_nonpos_left (hle w) hw
  have hsurj : Function.Surjective fun w => w * τ w := hcont.surjective htop hbot
  set iso := hmono.orderIsoOfSurjective _ hsurj with hiso
  obtain ⟨g, hg⟩ : ∃ g : ℝ → ℝ, g = fun x => iso.symm x := ⟨_, rfl⟩
  have hgX : ∀ x, g x * τ (g x) = x := fun x => by rw [hg]; exact iso.apply_symm_apply x
  have hgc : Continuous g := by rw [hg]; exact iso.symm.continuous
  have hgpos : ∀ x, 0 < x → 0 < g x := by
    intro x hx
    have := hgX x
    by_contra hneg
    have := mul_nonpos_of_nonpos_of_nonneg (not_lt.mp hneg) (hτ0 (g x)).le
    linarith
  have dg : ∀ x, HasDerivAt g (τ (g x) * (1 + sumB m ts (g x) / sumC m ts (g x)))⁻¹ x := fun x =>
    HasDerivAt.of_local_left_inverse hgc.continuousAt (hX (g x)) (hX0 (g x)).ne'
      (Eventually.of_forall hgX)
  refine ⟨fun x => τ (g x), fun x hx => ⟨hτ0 _, ?_⟩, fun x hx => ?_⟩
  · have hw := hgpos x hx
    have hxw : x / τ (g x) = g x := by
      rw [div_eq_iff (hτ0 _).ne']; exact (hgX x).symm
    have hC := hpos (g x)
    have hB := sumB_nonneg m ts (g x) hc.dof
    refine ⟨⟨false, m, τ (g x) / (x / m), x / m, 1, x, none, τ (g x), 0, 0, none, none, 0, 0, 0, 0⟩,
      ts.map fun t => { t with aT := τ (g x) }, rfl, rfl, rfl, rfl, ?_, ?_⟩
    · rw [List.forall₂_map_right_iff, List.forall₂_same]
      exact fun t ht => ⟨rfl, rfl, Or.inl rfl, fun h => hz t ht h⟩
    · rw [if_neg (by simp)]
      have hsums := stands_sums m x (τ (g x)) ts (ts.map fun t => { t with aT := τ (g x) })
        ⟨false, m, τ (g x) / (x / m), x / m, 1, x, none, τ (g x), 0, 0, none, none, 0, 0, 0, 0⟩
        hx hm (hτ0 _) hc.massive rfl rfl rfl rfl (by
          rw [List.forall₂_map_right_iff, List.forall₂_same]
          exact fun t ht => ⟨rfl, rfl, Or.inl rfl, fun h => hz t ht h⟩)
      unfold temperatureSlope
      simp only [hsums, Bool.false_eq_true, if_false]
      rw [hxw]
      have e : (fun x => τ (g x)) =ᶠ[𝓝 x] fun x => x / g x := by
        filter_upwards [Ioi_mem_nhds hx] with y hy
        have := hgpos y hy
        rw [eq_div_iff this.ne', mul_comm]; exact hgX y
      refine HasDerivAt.congr_of_eventuallyEq ?_ e
      have d := (hasDerivAt_id x).fun_div (dg x) hw.ne'
      refine d.congr_deriv ?_
      have hτx := hτ0 (g x)
      have hx' := hgX x
      simp only [id]
      have hsum : sumC m ts (g x) + sumB m ts (g x) ≠ 0 := by positivity
      have hsum' : 1 + sumB m ts (g x) / sumC m ts (g x) = (sumC m ts (g x) + sumB m ts (g x)) / sumC m ts (g x) := by
        field_simp
      rw [hsum']
      generalize sumC m ts (g x) = C at *
      generalize sumB m ts (g x) = B at *
      generalize τ (g x) = t at *
      generalize g x = w at *
      rw [← hx']
      field_simp
      ring
  · have hw := hgpos x hx
    have hxw : x / τ (g x) = g x := by
      rw [div_eq_iff (hτ0 _).ne']; exact (hgX x).symm
    rw [plasmaEntropy_eq m x (τ (g x)) ts hx hm (hτ0 _) hc.massive, hxw, hτ3]
    have := hpos (g x)
    field_simp

/-- Photons, electrons and a decoupled neutrino with the values of `library/SM.py` (50–57, 310–318). -/
noncomputable def demoPlasma : TPart × TPart × TPart :=
  (⟨⟨"Photon", 0, 2, false, true, 0, [], false, 1⟩, 1, 0, 20, .radiation, ⟨0, fun _ => 0, fun _ => 0⟩, fun _ => 0⟩,
   ⟨⟨"Electron", 0.511, 4, true, true, -1, [], false, 1⟩, 1, 0, 20, .intermediate,
     ⟨0, fun _ => 0, fun _ => 0⟩, fun _ => 0⟩,
   ⟨⟨"Electron neutrino", 0, 2, true, false, 0, [], false, 1⟩, 1, 0, 20, .noneq,
     ⟨3, fun _ => 1, fun k => k + 1⟩, fun _ => 0⟩)

theorem demoPlasma_ok : PhotonElectron demoPlasma.1 demoPlasma.2.1 [demoPlasma.2.2] :=
  ⟨rfl, rfl, rfl, Or.inl rfl, rfl, rfl, by norm_num [demoPlasma], by simp [demoPlasma]⟩

/-- Non-vacuity: a history of this plasma exists, and its temperature rises by `(11/4)^{1/3}`. -/
example : ∃ θ : ℝ → ℝ,
    (∀ x, 0 < x → 0 < θ x ∧ Heats 1 [demoPlasma.1, demoPlasma.2.1, demoPlasma.2.2] θ x) ∧
    ∃ θ₀ θ₁ : ℝ, Tendsto θ (𝓝[>] 0) (𝓝 θ₀) ∧ Tendsto θ atTop (𝓝 θ₁) ∧
      θ₁ / θ₀ = (11 / 4 : ℝ) ^ (1 / 3 : ℝ) := by
  obtain ⟨θ, h, -⟩ := C116_exists 1 1 _ one_pos one_pos demoPlasma_ok.content (by simp [demoPlasma])
  obtain ⟨θ₀, θ₁, -, t0, t1, -, hr, -⟩ := C116_annihilation 1 _ _ _ θ one_pos demoPlasma_ok h
  exact ⟨θ, h, θ₀, θ₁, t0, t1, hr⟩

/-- Non-vacuity of the start condition: every history is hotter than 19 electron masses early enough. -/
example : ∃ (θ : ℝ → ℝ) (x₁ : ℝ), 0 < x₁ ∧
    (∀ x, x₁ ≤ x → 0 < θ x ∧ Heats 1 [demoPlasma.1, demoPlasma.2.1, demoPlasma.2.2] θ x) ∧
    19 * demoPlasma.2.1.sp.mass ≤ θ x₁ / (x₁ / 1) := by
  obtain ⟨θ, h, -⟩ := C116_exists 1 1 _ one_pos one_pos demoPlasma_ok.content (by simp [demoPlasma])
  obtain ⟨θ₀, θ₁, p0, t0, t1, hb, hr, -⟩ := C116_annihilation 1 _ _ _ θ one_pos demoPlasma_ok h
  refine ⟨θ, θ₀ / 10, by positivity, fun x hx => h x (lt_of_lt_of_le (by positivity) hx), ?_⟩
  have := (hb (θ₀ / 10) (by positivity)).1
  rw [div_one, le_div_iff₀ (by positivity)]
  norm_num [demoPlasma]
  linarith

end PyBBN
