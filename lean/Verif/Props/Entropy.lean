import Verif.Props.Thermo
import Verif.Props.Collision
import Mathlib.Analysis.SpecialFunctions.Log.Deriv
/-!
# Entropy of non-equilibrium species, and the H-theorem (C73, C74)
-/
namespace PyBBN

open Finset

/-- Specification: entropy per mode of a fermion (`eta = 1`) or boson (`eta = -1`). -/
noncomputable def modeEntropy (eta : ℤ) (f : ℝ) : ℝ :=
  -(f * Real.log f + eta * (1 - eta * f) * Real.log (1 - eta * f))

/-- A mode that is neither empty nor full. -/
def Partly (eta : ℤ) (f : ℝ) : Prop := (eta = 1 ∨ eta = -1) ∧ 0 < f ∧ (eta : ℝ) * f < 1

theorem Species.eta_cases (sp : Species) : sp.eta = 1 ∨ sp.eta = -1 := by
  unfold Species.eta; split_ifs <;> simp

theorem modeEntropy_pos {eta : ℤ} {f : ℝ} (h : Partly eta f) : 0 < modeEntropy eta f := by
  obtain ⟨he, h0, h1⟩ := h
  unfold modeEntropy
  rcases he with rfl | rfl
  · push_cast at h1 ⊢
    have l1 : f * Real.log f < 0 := mul_neg_of_pos_of_neg h0 (Real.log_neg h0 (by linarith))
    have l2 : (1 - 1 * f) * Real.log (1 - 1 * f) < 0 :=
      mul_neg_of_pos_of_neg (by linarith) (Real.log_neg (by linarith) (by linarith))
    linarith
  · push_cast
    have l1 : Real.log f < Real.log (1 - -1 * f) := Real.log_lt_log h0 (by linarith)
    have l2 : 0 < Real.log (1 - -1 * f) := Real.log_pos (by linarith)
    nlinarith [mul_pos h0 (sub_pos.mpr l1)]

theorem modeEntropy_zero (eta : ℤ) : modeEntropy eta 0 = 0 := by simp [modeEntropy]

/-- **C73 (value).** The entropy of the code is the quadrature of the mode entropy times `y²`, and with
non-negative weights it is non-negative; it is zero exactly when all modes that count are empty.  (At a
full fermion mode the code evaluates `0 * log 0`, a nan: excluded by the hypothesis.) -/
theorem C73_entropy (g : NGrid) (sp : Species) (p : Params) (f : ℕ → ℝ) (ha : 0 < p.a)
    (hg : 0 < sp.dof) (hw : ∀ k < g.n, 0 ≤ g.w k)
    (hf : ∀ k < g.n, f k = 0 ∨ Partly sp.eta (f k)) :
    neqEntropy g sp p f = sp.dof / 2 / Real.pi ^ 2 / p.a ^ 3 *
      ∑ k ∈ range g.n, g.w k * (g.y k ^ 2 * modeEntropy sp.eta (f k)) ∧
    0 ≤ neqEntropy g sp p f ∧
    (neqEntropy g sp p f = 0 ↔ ∀ k < g.n, g.w k = 0 ∨ g.y k = 0 ∨ f k = 0) := by
  have hpi := Real.pi_pos
  have e : neqEntropy g sp p f = sp.dof / 2 / Real.pi ^ 2 / p.a ^ 3 *
      ∑ k ∈ range g.n, g.w k * (g.y k ^ 2 * modeEntropy sp.eta (f k)) := by
    unfold neqEntropy simps
    rw [mul_sum]
    refine sum_congr rfl fun k hk => ?_
    beta_reduce
    rcases hf k (mem_range.mp hk) with h | h
    · rw [if_neg (show ¬f k > 0 by rw [h]; exact lt_irrefl _), h, modeEntropy_zero]; ring
    · rw [if_pos h.2.1]; unfold modeEntropy; ring
  have hs : ∀ k ∈ range g.n, 0 ≤ modeEntropy sp.eta (f k) := by
    intro k hk
    rcases hf k (mem_range.mp hk) with h | h
    · rw [h, modeEntropy_zero]
    · exact (modeEntropy_pos h).le
  have hterm : ∀ k ∈ range g.n, 0 ≤ g.w k * (g.y k ^ 2 * modeEntropy sp.eta (f k)) := fun k hk =>
    mul_nonneg (hw k (mem_range.mp hk)) (mul_nonneg (sq_nonneg _) (hs k hk))
  have hc : 0 < sp.dof / 2 / Real.pi ^ 2 / p.a ^ 3 := by positivity
  refine ⟨e, ?_, ?_⟩
  · rw [e]; exact mul_nonneg hc.le (sum_nonneg hterm)
  · rw [e, mul_eq_zero, or_iff_right hc.ne', sum_eq_zero_iff_of_nonneg hterm]
    constructor
    · intro h k hk
      rcases mul_eq_zero.mp (h k (mem_range.mpr hk)) with h | h
      · exact Or.inl h
      · rcases mul_eq_zero.mp h with h | h
        · exact Or.inr (Or.inl (by simpa using h))
        · rcases hf k hk with h' | h'
          · exact Or.inr (Or.inr h')
          · exact absurd h (modeEntropy_pos h').ne'
    · intro h k hk
      rcases h k (mem_range.mp hk) with h | h | h <;> simp [h, modeEntropy_zero]

/-- **C73 (equilibrium).** On thermal occupations the mode entropy is the thermodynamic one,
`z f + η ln(1 + η e^{-z})` with `z = E/T`. -/
theorem C73_equilibrium (eta : ℤ) (z : ℝ) (he : eta = 1 ∨ eta = -1) (hz : 0 < z) :
    modeEntropy eta (1 / (Real.exp z + eta)) =
      z * (1 / (Real.exp z + eta)) + eta * Real.log (1 + eta * Real.exp (-z)) := by
  have hX := Real.one_lt_exp_iff.mpr hz
  have hD : 0 < Real.exp z + eta := by rcases he with rfl | rfl <;> push_cast <;> linarith
  have hsq : (eta : ℝ) * eta = 1 := by rcases he with rfl | rfl <;> norm_num
  have h1 : 1 - (eta : ℝ) * (1 / (Real.exp z + eta)) = Real.exp z * (1 / (Real.exp z + eta)) := by
    field_simp; ring
  have h2 : 1 + (eta : ℝ) * Real.exp (-z) = (Real.exp z + eta) / Real.exp z := by
    rw [Real.exp_neg]; have := Real.exp_pos z; field_simp
  unfold modeEntropy
  rw [h1, h2, Real.log_mul (Real.exp_pos z).ne' (by positivity), Real.log_div hD.ne' (Real.exp_pos z).ne',
    Real.log_exp, one_div, Real.log_inv]
  have hi : (Real.exp z + eta) * (Real.exp z + eta)⁻¹ = 1 := mul_inv_cancel₀ hD.ne'
  have hi' : Real.exp z * (Real.exp z + eta)⁻¹ = 1 - eta * (Real.exp z + eta)⁻¹ := by linarith
  rw [mul_assoc (eta : ℝ), hi']
  linear_combination ((Real.exp z + eta)⁻¹ * (z - Real.log (Real.exp z + eta))) * hsq

/-- **C73 (pressure).** The pressure is non-negative and at most a third of the energy density, with
equality for massless species. -/
theorem C73_pressure (g : NGrid) (sp : Species) (p : Params) (f : ℕ → ℝ) (ha : 0 < p.a)
    (hg : 0 ≤ sp.dof) (hm : 0 ≤ sp.mass) (hw : ∀ k < g.n, 0 ≤ g.w k) (hy : ∀ k < g.n, 0 ≤ g.y k)
    (hf : ∀ k < g.n, 0 ≤ f k) :
    0 ≤ neqPressure g sp p f ∧ 3 * neqPressure g sp p f ≤ neqEnergyDensity g sp p f ∧
    (sp.mass = 0 → 3 * neqPressure g sp p f = neqEnergyDensity g sp p f) := by
  have hpi := Real.pi_pos
  have h0 : sp.mass = 0 → 3 * neqPressure g sp p f = neqEnergyDensity g sp p f := by
    intro h
    unfold neqPressure neqEnergyDensity simps
    rw [if_pos h, mul_sum]
    refine sum_congr rfl fun k hk => ?_
    unfold conformalEnergy
    beta_reduce
    rw [if_neg (show ¬sp.mass > 0 by rw [h]; exact lt_irrefl _), abs_of_nonneg (hy k (mem_range.mp hk))]
    field_simp; ring
  refine ⟨?_, ?_, h0⟩
  · unfold neqPressure simps
    split_ifs
    · refine sum_nonneg fun k hk => mul_nonneg (hw k (mem_range.mp hk)) ?_
      have := hf k (mem_range.mp hk); have := hy k (mem_range.mp hk)
      beta_reduce
      positivity
    · refine sum_nonneg fun k hk => mul_nonneg (hw k (mem_range.mp hk)) ?_
      have := hf k (mem_range.mp hk); have := hy k (mem_range.mp hk)
      have : 0 ≤ conformalEnergy sp (g.y k) (sp.mass * p.a) := by
        unfold conformalEnergy; split_ifs <;> positivity
      beta_reduce
      positivity
  · rcases eq_or_lt_of_le hm with h | h
    · exact (h0 h.symm).le
    · unfold neqPressure neqEnergyDensity simps
      rw [if_neg h.ne', mul_sum]
      refine sum_le_sum fun k hk => ?_
      have hf := hf k (mem_range.mp hk); have hy := hy k (mem_range.mp hk)
      have hw := hw k (mem_range.mp hk)
      have hE : conformalEnergy sp (g.y k) (sp.mass * p.a) = √(g.y k ^ 2 + (sp.mass * p.a) ^ 2) := by
        unfold conformalEnergy; rw [if_pos h]
      have hpos : 0 < √(g.y k ^ 2 + (sp.mass * p.a) ^ 2) := Real.sqrt_pos.mpr (by positivity)
      have hsq := Real.sq_sqrt (show 0 ≤ g.y k ^ 2 + (sp.mass * p.a) ^ 2 by positivity)
      beta_reduce
      rw [hE]
      set E := √(g.y k ^ 2 + (sp.mass * p.a) ^ 2)
      have : g.y k ^ 4 / E ≤ g.y k ^ 2 * E := by
        rw [div_le_iff₀ hpos]
        nlinarith [sq_nonneg (g.y k), sq_nonneg (sp.mass * p.a), mul_nonneg (sq_nonneg (g.y k)) (sq_nonneg (sp.mass * p.a))]
      calc 3 * (g.w k * (f k * g.y k ^ 4 / E * sp.dof / 6 / Real.pi ^ 2 / p.a ^ 4))
          = g.w k * f k * sp.dof / 2 / Real.pi ^ 2 / p.a ^ 4 * (g.y k ^ 4 / E) := by ring
        _ ≤ g.w k * f k * sp.dof / 2 / Real.pi ^ 2 / p.a ^ 4 * (g.y k ^ 2 * E) :=
            mul_le_mul_of_nonneg_left this (by positivity)
        _ = _ := by ring

/-- **C73 (physical densities).** Number density, energy density and pressure of a species out of equilibrium
are the textbook integrals over the physical momentum `y/a` (nodes `y/a`, weights `w/a` of the quadrature). -/
theorem C73_physical (g : NGrid) (sp : Species) (p : Params) (f : ℕ → ℝ) (ha : 0 < p.a) (hm : 0 ≤ sp.mass)
    (hy : ∀ k < g.n, 0 < g.y k) :
    neqDensity g sp p f = sp.dof / (2 * Real.pi ^ 2) *
      ∑ k ∈ range g.n, g.w k / p.a * ((g.y k / p.a) ^ 2 * f k) ∧
    neqEnergyDensity g sp p f = sp.dof / (2 * Real.pi ^ 2) *
      ∑ k ∈ range g.n, g.w k / p.a * ((g.y k / p.a) ^ 2 * √((g.y k / p.a) ^ 2 + sp.mass ^ 2) * f k) ∧
    neqPressure g sp p f = sp.dof / (6 * Real.pi ^ 2) *
      ∑ k ∈ range g.n, g.w k / p.a * ((g.y k / p.a) ^ 4 / √((g.y k / p.a) ^ 2 + sp.mass ^ 2) * f k) := by
  have hpi := Real.pi_pos
  have hE : ∀ k < g.n, conformalEnergy sp (g.y k) (sp.mass * p.a) =
      p.a * √((g.y k / p.a) ^ 2 + sp.mass ^ 2) ∧ 0 < √((g.y k / p.a) ^ 2 + sp.mass ^ 2) ∧
      (sp.mass = 0 → √((g.y k / p.a) ^ 2 + sp.mass ^ 2) = g.y k / p.a) := by
    intro k hk
    have hyk := hy k hk
    have h0 : 0 < √((g.y k / p.a) ^ 2 + sp.mass ^ 2) := Real.sqrt_pos.mpr (by positivity)
    have hz : sp.mass = 0 → √((g.y k / p.a) ^ 2 + sp.mass ^ 2) = g.y k / p.a := by
      intro h
      rw [h, show (g.y k / p.a) ^ 2 + (0 : ℝ) ^ 2 = (g.y k / p.a) ^ 2 by ring, Real.sqrt_sq (by positivity)]
    refine ⟨?_, h0, hz⟩
    unfold conformalEnergy
    rcases eq_or_lt_of_le hm with h | h
    · rw [if_neg (by rw [← h]; exact lt_irrefl _), hz h.symm, abs_of_pos hyk]
      field_simp
    · rw [if_pos h]
      rw [show g.y k ^ 2 + (sp.mass * p.a) ^ 2 = p.a ^ 2 * ((g.y k / p.a) ^ 2 + sp.mass ^ 2) by field_simp,
        Real.sqrt_mul (by positivity), Real.sqrt_sq ha.le]
  refine ⟨?_, ?_, ?_⟩
  · unfold neqDensity simps
    rw [mul_sum]
    refine sum_congr rfl fun k hk => ?_
    beta_reduce
    field_simp
  · unfold neqEnergyDensity simps
    rw [mul_sum]
    refine sum_congr rfl fun k hk => ?_
    beta_reduce
    rw [(hE k (mem_range.mp hk)).1]
    field_simp
  · unfold neqPressure simps
    rw [mul_sum]
    by_cases h : sp.mass = 0
    · rw [if_pos h]
      refine sum_congr rfl fun k hk => ?_
      have hyk := hy k (mem_range.mp hk)
      beta_reduce
      rw [(hE k (mem_range.mp hk)).2.2 h]
      field_simp
    · rw [if_neg h]
      refine sum_congr rfl fun k hk => ?_
      beta_reduce
      rw [(hE k (mem_range.mp hk)).1]
      have := (hE k (mem_range.mp hk)).2.1
      field_simp

/-- **C73 (dilution).** With frozen occupations the number in a comoving volume is conserved; for a massless
species `a⁴ρ` is. -/
theorem C73_dilution (g : NGrid) (sp : Species) (p q : Params) (f : ℕ → ℝ) (hp : 0 < p.a) (hq : 0 < q.a) :
    p.a ^ 3 * neqDensity g sp p f = q.a ^ 3 * neqDensity g sp q f ∧
    (sp.mass = 0 → p.a ^ 4 * neqEnergyDensity g sp p f = q.a ^ 4 * neqEnergyDensity g sp q f) := by
  have hpi := Real.pi_pos
  refine ⟨?_, fun h => ?_⟩
  · unfold neqDensity simps
    rw [mul_sum, mul_sum]
    refine sum_congr rfl fun k _ => ?_
    beta_reduce
    field_simp
  · unfold neqEnergyDensity simps conformalEnergy
    rw [h, mul_sum, mul_sum]
    refine sum_congr rfl fun k _ => ?_
    beta_reduce
    rw [if_neg (lt_irrefl _), if_neg (lt_irrefl _)]
    field_simp

/-! ## C74 -/

/-- Derivative of the mode entropy. -/
theorem modeEntropy_deriv {eta : ℤ} {f : ℝ} (h : Partly eta f) :
    HasDerivAt (modeEntropy eta) (Real.log (1 - eta * f) - Real.log f) f := by
  obtain ⟨he, h0, h1⟩ := h
  have hsq : (eta : ℝ) * eta = 1 := by rcases he with rfl | rfl <;> norm_num
  have hb : 1 - (eta : ℝ) * f ≠ 0 := by linarith
  have d1 := (hasDerivAt_id f).mul (Real.hasDerivAt_log h0.ne')
  have d2 := ((hasDerivAt_id f).const_mul (eta : ℝ)).const_sub 1
  have d3 := (d2.const_mul (eta : ℝ)).mul (d2.log hb)
  refine HasDerivAt.congr_deriv ((d1.add d3).neg) ?_
  have e1 : f * f⁻¹ = 1 := mul_inv_cancel₀ h0.ne'
  have e2 : (eta : ℝ) * (1 - eta * f) * (-(eta : ℝ) / (1 - eta * f)) = -(eta * eta) := by
    rw [mul_assoc, mul_div_cancel₀ _ hb]; ring
  simp only [id, mul_one]
  rw [e1, e2]
  linear_combination (Real.log (1 - eta * f) + 1) * hsq

theorem sum_map_neg_of {α : Type*} (l : List α) (g h : α → ℝ) (e : ∀ x ∈ l, g x = -h x) :
    (l.map g).sum = -(l.map h).sum := by
  induction l with
  | nil => simp
  | cons x l ih =>
    rw [List.map_cons, List.map_cons, List.sum_cons, List.sum_cons, e x (by simp),
      ih fun y hy => e y (by simp [hy])]
    ring

/-- Entropy gained when the reaction happens once in the direction that fills the initial state: an
initial particle (side -1) is added, a final one (side +1) removed. -/
noncomputable def eventEntropy (l : List (Reactant × ℝ)) : ℝ :=
  (l.map fun x => -(x.1.side : ℝ) * (deriv (modeEntropy x.1.specie.eta) x.2)).sum

theorem gain_loss_pos (l : List (Reactant × ℝ)) (h2 : TwoSided l)
    (hp : ∀ x ∈ l, Partly x.1.specie.eta x.2) :
    0 < gain l ∧ 0 < loss l ∧ Real.log (gain l) - Real.log (loss l) = eventEntropy l := by
  induction l with
  | nil => simp [gain, loss, occupied, blocked, eventEntropy]
  | cons x l ih =>
    obtain ⟨i1, i2, i3⟩ := ih (fun y hy => h2 y (by simp [hy])) fun y hy => hp y (by simp [hy])
    have hx := hp x (by simp)
    have hb : 0 < 1 - (x.1.specie.eta : ℝ) * x.2 := by linarith [hx.2.2]
    have hd := (modeEntropy_deriv hx).deriv
    have hev : eventEntropy (x :: l) = -(x.1.side : ℝ) * (Real.log (1 - x.1.specie.eta * x.2)
        - Real.log x.2) + eventEntropy l := by
      unfold eventEntropy; rw [List.map_cons, List.sum_cons, hd]
    rcases h2 x (by simp) with h | h
    · have hg : gain (x :: l) = x.2 * gain l := by
        unfold gain; rw [occupied_cons, blocked_cons, h]; norm_num; ring
      have hl : loss (x :: l) = (1 - x.1.specie.eta * x.2) * loss l := by
        unfold loss; rw [occupied_cons, blocked_cons, h]; norm_num; ring
      rw [hg, hl, hev, h]
      refine ⟨mul_pos hx.2.1 i1, mul_pos hb i2, ?_⟩
      rw [Real.log_mul hx.2.1.ne' i1.ne', Real.log_mul hb.ne' i2.ne', ← i3]
      push_cast; ring
    · have hg : gain (x :: l) = (1 - x.1.specie.eta * x.2) * gain l := by
        unfold gain; rw [occupied_cons, blocked_cons, h]; norm_num; ring
      have hl : loss (x :: l) = x.2 * loss l := by
        unfold loss; rw [occupied_cons, blocked_cons, h]; norm_num; ring
      rw [hg, hl, hev, h]
      refine ⟨mul_pos hb i1, mul_pos hx.2.1 i2, ?_⟩
      rw [Real.log_mul hb.ne' i1.ne', Real.log_mul hx.2.1.ne' i2.ne', ← i3]
      push_cast; ring

/-- **C74 (H-theorem).** The statistics functional of the code never decreases the entropy: the net rate
it returns times the entropy gained per event is non-negative, for any number of particles, statistics,
sides and partly filled modes; it is zero exactly when the functional vanishes. -/
theorem C74_H_theorem (r0 : Reactant) (rs : List Reactant) (f0 : ℝ) (fs : List ℝ)
    (hlen : rs.length = fs.length) (h0 : r0.side = -1) (h2 : TwoSided (rs.zip fs))
    (hp : ∀ x ∈ (r0, f0) :: rs.zip fs, Partly x.1.specie.eta x.2) :
    ∃ v, kindFactor .full (r0 :: rs) (f0 :: fs) = .ok v ∧
      0 ≤ v * eventEntropy ((r0, f0) :: rs.zip fs) ∧
      (v * eventEntropy ((r0, f0) :: rs.zip fs) = 0 ↔ v = 0) := by
  have hf : ∀ f ∈ fs, 0 ≤ f := by
    intro f hf
    have : fs = (rs.zip fs).map Prod.snd := by rw [List.map_snd_zip]; omega
    rw [this] at hf
    obtain ⟨x, hx, rfl⟩ := List.mem_map.mp hf
    exact (hp x (by simp [hx])).2.1.le
  have h2' : TwoSided ((r0, f0) :: rs.zip fs) := by
    intro x hx
    rcases List.mem_cons.mp hx with rfl | hx
    · exact Or.inr h0
    · exact h2 x hx
  obtain ⟨hg, hl, he⟩ := gain_loss_pos _ h2' hp
  refine ⟨_, C32_full r0 rs f0 fs hlen h0 h2 hf, ?_, ?_⟩
  · rw [← he]
    rcases le_total (loss ((r0, f0) :: rs.zip fs)) (gain ((r0, f0) :: rs.zip fs)) with h | h
    · exact mul_nonneg (by linarith) (by linarith [Real.log_le_log hl h])
    · exact mul_nonneg_of_nonpos_of_nonpos (by linarith) (by linarith [Real.log_le_log hg h])
  · rw [← he]
    constructor
    · intro h
      rcases mul_eq_zero.mp h with h | h
      · exact h
      · have := Real.log_injOn_pos (Set.mem_Ioi.mpr hg) (Set.mem_Ioi.mpr hl) (by linarith)
        linarith
    · intro h; rw [h, zero_mul]

/-- **C74 (equilibrium).** Conversely to detailed balance: the functional vanishes only in chemical
equilibrium, `Σ sideᵢ ln((1-ηfᵢ)/fᵢ) = 0`. -/
theorem C74_zero_iff (r0 : Reactant) (rs : List Reactant) (f0 : ℝ) (fs : List ℝ)
    (hlen : rs.length = fs.length) (h0 : r0.side = -1) (h2 : TwoSided (rs.zip fs))
    (hp : ∀ x ∈ (r0, f0) :: rs.zip fs, Partly x.1.specie.eta x.2) :
    kindFactor .full (r0 :: rs) (f0 :: fs) = .ok 0 ↔
      (((r0, f0) :: rs.zip fs).map fun x => (x.1.side : ℝ) *
        Real.log ((1 - x.1.specie.eta * x.2) / x.2)).sum = 0 := by
  have hf : ∀ f ∈ fs, 0 ≤ f := by
    intro f hf
    have : fs = (rs.zip fs).map Prod.snd := by rw [List.map_snd_zip]; omega
    rw [this] at hf
    obtain ⟨x, hx, rfl⟩ := List.mem_map.mp hf
    exact (hp x (by simp [hx])).2.1.le
  have h2' : TwoSided ((r0, f0) :: rs.zip fs) := by
    intro x hx
    rcases List.mem_cons.mp hx with rfl | hx
    · exact Or.inr h0
    · exact h2 x hx
  obtain ⟨hg, hl, he⟩ := gain_loss_pos _ h2' hp
  have hs : (((r0, f0) :: rs.zip fs).map fun x => (x.1.side : ℝ) *
        Real.log ((1 - x.1.specie.eta * x.2) / x.2)).sum = -eventEntropy ((r0, f0) :: rs.zip fs) := by
    unfold eventEntropy
    refine sum_map_neg_of _ _ _ fun x hx => ?_
    have h := hp x hx
    rw [(modeEntropy_deriv h).deriv, Real.log_div (by linarith [h.2.2]) h.2.1.ne']
    ring
  rw [hs, ← he, C32_full r0 rs f0 fs hlen h0 h2 hf]
  constructor
  · intro h
    have h := Except.ok.inj h
    rw [show gain ((r0, f0) :: rs.zip fs) = loss ((r0, f0) :: rs.zip fs) by linarith]; ring
  · intro h
    have := Real.log_injOn_pos (Set.mem_Ioi.mpr hg) (Set.mem_Ioi.mpr hl) (by linarith)
    rw [this, sub_self]

/-- Non-vacuity: a partly filled fermion and a highly occupied boson. -/
example : Partly 1 0.3 ∧ Partly (-1) 5 := by
  refine ⟨⟨Or.inl rfl, by norm_num, by norm_num⟩, Or.inr rfl, by norm_num, by norm_num⟩

/-- Non-vacuity of C74: `a + b → c + d` of fermions out of equilibrium. -/
example : ∃ (r0 : Reactant) (rs : List Reactant) (f0 : ℝ) (fs : List ℝ), rs.length = 3 ∧
    rs.length = fs.length ∧ r0.side = -1 ∧ TwoSided (rs.zip fs) ∧
    (∀ x ∈ (r0, f0) :: rs.zip fs, Partly x.1.specie.eta x.2) ∧
    kindFactor .full (r0 :: rs) (f0 :: fs) ≠ .ok 0 := by
  let s : CParticle := ⟨1, 0, [], [], false, 1⟩
  have hts : TwoSided (([⟨s, -1⟩, ⟨s, 1⟩, ⟨s, 1⟩] : List Reactant).zip [0.5, 0.25, 0.25]) := by
    intro x hx
    simp only [List.zip_cons_cons, List.zip_nil_left, List.mem_cons, List.not_mem_nil, or_false] at hx
    rcases hx with rfl | rfl | rfl <;> simp
  refine ⟨⟨s, -1⟩, [⟨s, -1⟩, ⟨s, 1⟩, ⟨s, 1⟩], 0.5, [0.5, 0.25, 0.25], rfl, rfl, rfl, hts, ?_, ?_⟩
  · intro x hx
    simp only [List.zip_cons_cons, List.zip_nil_left, List.mem_cons, List.not_mem_nil, or_false] at hx
    rcases hx with rfl | rfl | rfl | rfl <;> exact ⟨Or.inl rfl, by norm_num, by norm_num [s]⟩
  · rw [C32_full _ _ _ _ rfl rfl hts (by intro f hf; simp at hf; rcases hf with rfl | rfl <;> norm_num)]
    intro h
    have h := Except.ok.inj h
    norm_num [gain, loss, occupied, blocked, s] at h

end PyBBN
