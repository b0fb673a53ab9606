import Verif.Props.Oscillations
import Mathlib.Analysis.SpecialFunctions.Trigonometric.Arctan
import Mathlib.Analysis.Real.Pi.Bounds
/-!
# C80: mixing angles in matter
-/
namespace PyBBN

/-- The mixing angle in matter: twice the angle is the direction of `(cos 2θ + A, sin 2θ)`, which is
what diagonalises the two-flavour Hamiltonian with vacuum angle `θ` and relative matter potential `A`. -/
def MatterAngle (θ A φ : ℝ) : Prop :=
  ∃ r > 0, r * Real.cos (2 * φ) = Real.cos (2 * θ) + A ∧ r * Real.sin (2 * φ) = Real.sin (2 * θ)

/-- The spec is the diagonalisation: the rotation by `φ` removes the off-diagonal element of the
Hamiltonian, leaving the lighter state first. -/
theorem MatterAngle.diagonalises {θ A φ : ℝ} (h : MatterAngle θ A φ) :
    let c := Real.cos (2 * θ) + A
    let s := Real.sin (2 * θ)
    -- off-diagonal and diagonal elements of `R(φ)ᵀ [[-c, s], [s, c]] R(φ)`
    (Real.cos φ ^ 2 - Real.sin φ ^ 2) * s - 2 * Real.sin φ * Real.cos φ * c = 0 ∧
    -c * (Real.cos φ ^ 2 - Real.sin φ ^ 2) - 2 * s * Real.sin φ * Real.cos φ < 0 := by
  obtain ⟨r, hr, h1, h2⟩ := h
  intro c s
  have e1 : Real.cos φ ^ 2 - Real.sin φ ^ 2 = Real.cos (2 * φ) := by
    rw [Real.cos_two_mul, ← Real.sin_sq_add_cos_sq φ]
    ring
  have e2 : 2 * Real.sin φ * Real.cos φ = Real.sin (2 * φ) := (Real.sin_two_mul φ).symm
  have hc : c = r * Real.cos (2 * φ) := h1.symm
  have hs : s = r * Real.sin (2 * φ) := h2.symm
  have e3 : -c * (Real.cos φ ^ 2 - Real.sin φ ^ 2) - 2 * s * Real.sin φ * Real.cos φ = -r := by
    have : 2 * s * Real.sin φ * Real.cos φ = s * Real.sin (2 * φ) := by rw [← e2]; ring
    rw [this, e1, hc, hs]
    linear_combination -r * Real.sin_sq_add_cos_sq (2 * φ)
  refine ⟨by rw [e1, e2, hc, hs]; ring, by rw [e3]; linarith⟩

/-- The formula of the code is right while the denominator is positive. -/
theorem arctan_matter (θ A : ℝ) (h : 0 < Real.cos (2 * θ) + A) :
    MatterAngle θ A (0.5 * Real.arctan (Real.sin (2 * θ) / (Real.cos (2 * θ) + A))) := by
  set t := Real.sin (2 * θ) / (Real.cos (2 * θ) + A) with ht
  have e : 2 * (0.5 * Real.arctan t) = Real.arctan t := by ring
  have hp : 0 < √(1 + t ^ 2) := by positivity
  refine ⟨(Real.cos (2 * θ) + A) * √(1 + t ^ 2), by positivity, ?_, ?_⟩
  · rw [e, Real.cos_arctan]; field_simp
  · rw [e, Real.sin_arctan]
    have : (Real.cos (2 * θ) + A) * t = Real.sin (2 * θ) := by rw [ht]; field_simp
    rw [← this]; field_simp

/-- Beyond the resonance it is off by a right angle. -/
theorem arctan_beyond (θ A : ℝ) (h : Real.cos (2 * θ) + A < 0) :
    MatterAngle θ A (0.5 * Real.arctan (Real.sin (2 * θ) / (Real.cos (2 * θ) + A)) + Real.pi / 2) := by
  set t := Real.sin (2 * θ) / (Real.cos (2 * θ) + A) with ht
  have e : 2 * (0.5 * Real.arctan t + Real.pi / 2) = Real.arctan t + Real.pi := by ring
  have hp : 0 < √(1 + t ^ 2) := by positivity
  refine ⟨-(Real.cos (2 * θ) + A) * √(1 + t ^ 2), by nlinarith, ?_, ?_⟩
  · rw [e, Real.cos_add_pi, Real.cos_arctan]; field_simp
  · rw [e, Real.sin_add_pi, Real.sin_arctan]
    have : (Real.cos (2 * θ) + A) * t = Real.sin (2 * θ) := by
      rw [ht]; exact mul_div_cancel₀ _ h.ne
    rw [← this]; field_simp

theorem MatterAngle.unique {θ A φ ψ : ℝ} (h : MatterAngle θ A φ) (h' : MatterAngle θ A ψ) :
    Real.cos (2 * φ) = Real.cos (2 * ψ) ∧ Real.sin (2 * φ) = Real.sin (2 * ψ) := by
  obtain ⟨r, hr, h1, h2⟩ := h
  obtain ⟨q, hq, k1, k2⟩ := h'
  have : r ^ 2 = q ^ 2 := by
    have a := Real.sin_sq_add_cos_sq (2 * φ)
    have b := Real.sin_sq_add_cos_sq (2 * ψ)
    calc r ^ 2 = (r * Real.cos (2 * φ)) ^ 2 + (r * Real.sin (2 * φ)) ^ 2 := by
          linear_combination -r ^ 2 * a
      _ = (q * Real.cos (2 * ψ)) ^ 2 + (q * Real.sin (2 * ψ)) ^ 2 := by rw [h1, h2, k1, k2]
      _ = q ^ 2 := by linear_combination q ^ 2 * b
  have hrq : r = q := by
    rcases sq_eq_sq_iff_eq_or_eq_neg.mp this with h | h
    · exact h
    · linarith
  subst hrq
  exact ⟨mul_left_cancel₀ hr.ne' (h1.trans k1.symm), mul_left_cancel₀ hr.ne' (h2.trans k2.symm)⟩

/-- The table depends on the doubled angles only. -/
theorem oscillationTable_congr {a b c d : ℝ} (h1 : Real.cos (2 * a) = Real.cos (2 * c))
    (h2 : Real.sin (2 * a) = Real.sin (2 * c)) (h3 : Real.cos (2 * b) = Real.cos (2 * d))
    (h4 : Real.sin (2 * b) = Real.sin (2 * d)) : oscillationTable a b = oscillationTable c d := by
  have hc : Real.cos b ^ 2 = Real.cos d ^ 2 := by
    rw [Real.cos_sq, Real.cos_sq, h3]
  have hs : Real.sin b ^ 2 = Real.sin d ^ 2 := by
    rw [Real.sin_sq, Real.sin_sq, hc]
  have hc4 : Real.cos b ^ 4 = Real.cos d ^ 4 := by
    rw [show Real.cos b ^ 4 = (Real.cos b ^ 2) ^ 2 by ring, hc]; ring
  funext α β
  cases α <;> cases β <;> simp only [oscillationTable, h2, h4, hc, hs, hc4]

/-- Exchange of electron and tau flavour. -/
def swapETau : Flavour → Flavour
  | .electron => .tau
  | .muon => .muon
  | .tau => .electron

theorem oscillationTable_shift (a b : ℝ) (α β : Flavour) :
    oscillationTable a b α β =
      oscillationTable a (b + Real.pi / 2) (swapETau α) (swapETau β) := by
  have h2 : Real.sin (2 * (b + Real.pi / 2)) = -Real.sin (2 * b) := by
    rw [show 2 * (b + Real.pi / 2) = 2 * b + Real.pi by ring, Real.sin_add_pi]
  cases α <;> cases β <;>
    simp only [swapETau, oscillationTable, h2, Real.sin_add_pi_div_two, Real.cos_add_pi_div_two,
      Real.sin_two_mul b] <;> ring

theorem cos_theta12_pos : 0 < Real.cos (2 * 0.57636) :=
  Real.cos_pos_of_mem_Ioo ⟨by linarith [Real.pi_gt_three], by linarith [Real.pi_gt_three]⟩

theorem cos_theta13_pos : 0 < Real.cos (2 * 0.14715) :=
  Real.cos_pos_of_mem_Ioo ⟨by linarith [Real.pi_gt_three], by linarith [Real.pi_gt_three]⟩

/-- The relative matter potential of the plasma at comoving momentum `y` for a mass splitting. -/
noncomputable def potential (c : OscConsts) (p : Params) (y dm : ℝ) : ℝ :=
  c.msw * y ^ 2 * p.T ^ 4 / (dm * p.a ^ 2)

theorem potential_eq (c : OscConsts) (p : Params) (y dm : ℝ) :
    c.msw * y ^ 2 * p.T ^ 4 / dm / p.a ^ 2 = potential c p y dm := by
  unfold potential; rw [div_div]

theorem potential_nonneg (c : OscConsts) (p : Params) (y dm : ℝ) (h : 0 ≤ c.msw) (hd : 0 < dm) :
    0 ≤ potential c p y dm := by
  unfold potential; positivity

/-- **C80.** With the normal hierarchy the table used is that of the mixing angles in matter of the two
splittings, at every temperature and momentum. -/
theorem C80_normal_partial (c : OscConsts) (p : Params) (y φ12 φ13 : ℝ) (hc : 0 ≤ c.msw)
    (h12 : 0 < c.dm12) (h13 : 0 < c.dm13)
    (m12 : MatterAngle 0.57636 (potential c p y c.dm12) φ12)
    (m13 : MatterAngle 0.14715 (potential c p y c.dm13) φ13) :
    oscillationParameters c true true p y = oscillationTable φ12 φ13 := by
  unfold oscillationParameters oscillationsMap
  simp only [if_true, potential_eq]
  obtain ⟨a, b⟩ := (arctan_matter 0.57636 (potential c p y c.dm12)
    (by linarith [cos_theta12_pos, potential_nonneg c p y c.dm12 hc h12])).unique m12
  obtain ⟨d, e⟩ := (arctan_matter 0.14715 (potential c p y c.dm13)
    (by linarith [cos_theta13_pos, potential_nonneg c p y c.dm13 hc h13])).unique m13
  exact oscillationTable_congr a b d e

/-- **C80.** With the inverted hierarchy (potential of the opposite sign for the 13 splitting) it is as
long as the potential is below the resonance. -/
theorem C80_inverted_below_partial (c : OscConsts) (p : Params) (y φ12 φ13 : ℝ) (hc : 0 ≤ c.msw)
    (h12 : 0 < c.dm12) (hres : potential c p y c.dm13 < Real.cos (2 * 0.14715))
    (m12 : MatterAngle 0.57636 (potential c p y c.dm12) φ12)
    (m13 : MatterAngle 0.14715 (-potential c p y c.dm13) φ13) :
    oscillationParameters c true false p y = oscillationTable φ12 φ13 := by
  unfold oscillationParameters oscillationsMap
  simp only [if_true, potential_eq, Bool.false_eq_true, if_false, mul_neg_one]
  obtain ⟨a, b⟩ := (arctan_matter 0.57636 (potential c p y c.dm12)
    (by linarith [cos_theta12_pos, potential_nonneg c p y c.dm12 hc h12])).unique m12
  obtain ⟨d, e⟩ := (arctan_matter 0.14715 (-potential c p y c.dm13) (by linarith)).unique m13
  exact oscillationTable_congr a b d e

/-- **C80, refutation.** Beyond the resonance the inverted-hierarchy table is the right one with the
electron and tau flavours exchanged: the arctangent picks the wrong branch. -/
theorem C80_inverted_swaps (c : OscConsts) (p : Params) (y φ12 φ13 : ℝ) (hc : 0 ≤ c.msw)
    (h12 : 0 < c.dm12) (hres : Real.cos (2 * 0.14715) < potential c p y c.dm13)
    (m12 : MatterAngle 0.57636 (potential c p y c.dm12) φ12)
    (m13 : MatterAngle 0.14715 (-potential c p y c.dm13) φ13) (α β : Flavour) :
    oscillationParameters c true false p y α β =
      oscillationTable φ12 φ13 (swapETau α) (swapETau β) := by
  unfold oscillationParameters oscillationsMap
  simp only [if_true, potential_eq, Bool.false_eq_true, if_false, mul_neg_one]
  obtain ⟨a, b⟩ := (arctan_matter 0.57636 (potential c p y c.dm12)
    (by linarith [cos_theta12_pos, potential_nonneg c p y c.dm12 hc h12])).unique m12
  obtain ⟨d, e⟩ := (arctan_beyond 0.14715 (-potential c p y c.dm13) (by linarith)).unique m13
  rw [oscillationTable_shift, oscillationTable_congr a b d e]

/-- **C80.** The exchange matters: the electron–muon entry used then exceeds the right one. -/
theorem C80_inverted_wrong (c : OscConsts) (p : Params) (y φ12 φ13 : ℝ) (hc : 0 ≤ c.msw)
    (h12 : 0 < c.dm12) (hres : Real.cos (2 * 0.14715) < potential c p y c.dm13)
    (m12 : MatterAngle 0.57636 (potential c p y c.dm12) φ12)
    (m13 : MatterAngle 0.14715 (-potential c p y c.dm13) φ13) :
    oscillationTable φ12 φ13 .electron .muon <
      oscillationParameters c true false p y .electron .muon := by
  rw [C80_inverted_swaps c p y φ12 φ13 hc h12 hres m12 m13]
  simp only [swapETau, oscillationTable]
  obtain ⟨r, hr, -, h2⟩ := m12
  have hs : 0 < Real.sin (2 * 0.57636) :=
    Real.sin_pos_of_pos_of_lt_pi (by norm_num) (by linarith [Real.pi_gt_three])
  have hs2 : 0 < Real.sin (2 * φ12) ^ 2 := by
    have : 0 < Real.sin (2 * φ12) := by
      by_contra h
      push Not at h
      nlinarith
    positivity
  obtain ⟨q, hq, k1, -⟩ := m13
  have hneg : Real.cos (2 * φ13) < 0 := by
    by_contra h
    push Not at h
    nlinarith
  have h3 := Real.cos_two_mul φ13
  have h4 := Real.sin_sq_add_cos_sq φ13
  have : Real.cos φ13 ^ 2 < Real.sin φ13 ^ 2 := by nlinarith
  nlinarith

/-- **C80.** In the normal hierarchy matter only suppresses the mixing: both angles stay between zero and
the vacuum angle, the more so the larger the potential. -/
theorem C80_suppression (θ A B : ℝ) (hθ : 0 < θ) (hθ' : θ < Real.pi / 4) (hA : 0 ≤ A) (hAB : A < B) :
    let angle := fun A => 0.5 * Real.arctan (Real.sin (2 * θ) / (Real.cos (2 * θ) + A))
    0 < angle B ∧ angle B < angle A ∧ angle A ≤ θ := by
  intro angle
  have hc : 0 < Real.cos (2 * θ) := Real.cos_pos_of_mem_Ioo ⟨by linarith [Real.pi_pos], by linarith⟩
  have hs : 0 < Real.sin (2 * θ) := Real.sin_pos_of_pos_of_lt_pi (by linarith) (by linarith)
  have h1 : Real.sin (2 * θ) / (Real.cos (2 * θ) + B) < Real.sin (2 * θ) / (Real.cos (2 * θ) + A) :=
    div_lt_div_of_pos_left hs (by linarith) (by linarith)
  have h2 : Real.sin (2 * θ) / (Real.cos (2 * θ) + A) ≤ Real.tan (2 * θ) := by
    rw [Real.tan_eq_sin_div_cos]
    exact div_le_div_of_nonneg_left hs.le hc (by linarith)
  have h3 : Real.arctan (Real.tan (2 * θ)) = 2 * θ :=
    Real.arctan_tan (by linarith [Real.pi_pos]) (by linarith)
  have h4 := Real.arctan_strictMono h1
  have h5 := Real.arctan_strictMono.monotone h2
  have h6 : 0 < Real.arctan (Real.sin (2 * θ) / (Real.cos (2 * θ) + B)) :=
    Real.arctan_pos.mpr (div_pos hs (by linarith))
  rw [h3] at h5
  refine ⟨?_, ?_, ?_⟩ <;> simp only [angle] <;> linarith

/-- Matter angles exist on both sides of the resonance, so the hypotheses above can be met: unit
constants, `y = T = 1`, and the scale factor that makes the potential `1` or `4`. -/
example (p : Params) (hT : p.T = 1) (ha : p.a = 1) :
    (∃ φ12 φ13, MatterAngle 0.57636 (potential ⟨1, 1, 1⟩ p 1 1) φ12 ∧
      MatterAngle 0.14715 (-potential ⟨1, 1, 1⟩ p 2 1) φ13) ∧
    Real.cos (2 * 0.14715) < potential ⟨1, 1, 1⟩ p 2 1 := by
  have e1 : potential ⟨1, 1, 1⟩ p 1 1 = 1 := by simp [potential, hT, ha]
  have e2 : potential ⟨1, 1, 1⟩ p 2 1 = 4 := by norm_num [potential, hT, ha]
  rw [e1, e2]
  have := Real.cos_le_one (2 * 0.14715)
  exact ⟨⟨_, _, arctan_matter _ _ (by linarith [cos_theta12_pos]),
    arctan_beyond _ _ (by linarith)⟩, by linarith⟩

example : ∃ φ, MatterAngle 0.14715 2 φ := ⟨_, arctan_matter _ _ (by linarith [cos_theta13_pos])⟩

end PyBBN
