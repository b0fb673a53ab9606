import Verif.Props.CutOff
import Verif.Model.Integration
/-!
# Two-body kinematics

Total energy `W`, total momentum `P`, invariant mass squared `s = W² - P²`; a particle of mass `m` and momentum
`p` recoils against a second one.
-/
namespace PyBBN

/-- From the cosine bounds `|2WE - A| ≤ 2Pp` to the roots of the quadratic equation for `p`. -/
theorem twoBody {W P E p m A : ℝ} (hW : 0 ≤ W) (hP : 0 ≤ P) (hs : P ≤ W) (hp : 0 ≤ p) (hE : 0 ≤ E)
    (hEp : E ^ 2 = p ^ 2 + m ^ 2) (h1 : W * E - P * p ≤ A / 2) (h2 : A / 2 ≤ W * E + P * p) :
    0 ≤ A ∧ (W ^ 2 - P ^ 2) * p ^ 2 - A * P * p + W ^ 2 * m ^ 2 - A ^ 2 / 4 ≤ 0 ∧
    0 ≤ (W ^ 2 - P ^ 2) * p ^ 2 + A * P * p + W ^ 2 * m ^ 2 - A ^ 2 / 4 := by
  have hpE : p ≤ E := by
    apply (sq_le_sq₀ hp hE).mp
    rw [hEp]; nlinarith [sq_nonneg m]
  have hA : 0 ≤ A := by
    have : P * p ≤ W * E := mul_le_mul hs hpE hp hW
    linarith
  have hWE : 0 ≤ W * E := mul_nonneg hW hE
  have hPp : 0 ≤ P * p := mul_nonneg hP hp
  have hs2 : 0 ≤ W ^ 2 - P ^ 2 := by nlinarith
  refine ⟨hA, ?_, ?_⟩
  · have : (W * E) ^ 2 ≤ (A / 2 + P * p) ^ 2 := pow_le_pow_left₀ hWE (by linarith) 2
    rw [mul_pow, hEp] at this
    nlinarith
  · rcases le_total (P * p) (A / 2) with h | h
    · have : (A / 2 - P * p) ^ 2 ≤ (W * E) ^ 2 := pow_le_pow_left₀ (by linarith) (by linarith) 2
      rw [mul_pow, hEp] at this
      nlinarith
    · have : A * (A / 2) ≤ A * (P * p) := mul_le_mul_of_nonneg_left h hA
      have : 0 ≤ (W ^ 2 - P ^ 2) * p ^ 2 := mul_nonneg hs2 (sq_nonneg p)
      have : 0 ≤ W ^ 2 * m ^ 2 := by positivity
      nlinarith [sq_nonneg A]

/-- The limits on `p` in terms of the square root. -/
theorem twoBody_roots {W P E p m A : ℝ} (hW : 0 ≤ W) (hP : 0 ≤ P) (hs : P ≤ W) (hp : 0 ≤ p)
    (hE : 0 ≤ E) (hEp : E ^ 2 = p ^ 2 + m ^ 2) (h1 : W * E - P * p ≤ A / 2)
    (h2 : A / 2 ≤ W * E + P * p) :
    0 ≤ W ^ 2 * (A ^ 2 - 4 * (W ^ 2 - P ^ 2) * m ^ 2) ∧
    |2 * (W ^ 2 - P ^ 2) * p - A * P| ≤ √(W ^ 2 * (A ^ 2 - 4 * (W ^ 2 - P ^ 2) * m ^ 2)) ∧
    √(W ^ 2 * (A ^ 2 - 4 * (W ^ 2 - P ^ 2) * m ^ 2)) ≤ 2 * (W ^ 2 - P ^ 2) * p + A * P := by
  obtain ⟨hA, q1, q2⟩ := twoBody hW hP hs hp hE hEp h1 h2
  have hs2 : 0 ≤ W ^ 2 - P ^ 2 := by nlinarith
  have k1 : (2 * (W ^ 2 - P ^ 2) * p - A * P) ^ 2 ≤ W ^ 2 * (A ^ 2 - 4 * (W ^ 2 - P ^ 2) * m ^ 2) := by
    have := mul_le_mul_of_nonneg_left q1 hs2
    nlinarith
  have k2 : W ^ 2 * (A ^ 2 - 4 * (W ^ 2 - P ^ 2) * m ^ 2) ≤ (2 * (W ^ 2 - P ^ 2) * p + A * P) ^ 2 := by
    have := mul_le_mul_of_nonneg_left q2 hs2
    nlinarith
  refine ⟨(sq_nonneg _).trans k1, Real.abs_le_sqrt k1, ?_⟩
  rw [Real.sqrt_le_left (by positivity)]
  exact k2

/-- Converse, with strict inequalities. -/
theorem twoBody_conv {W P E p m A : ℝ} (hW : 0 ≤ W) (hP : 0 ≤ P) (hp : 0 ≤ p) (hE : 0 ≤ E) (hA : 0 ≤ A)
    (hEp : E ^ 2 = p ^ 2 + m ^ 2)
    (q1 : (W ^ 2 - P ^ 2) * p ^ 2 - A * P * p + W ^ 2 * m ^ 2 - A ^ 2 / 4 < 0)
    (q2 : 0 < (W ^ 2 - P ^ 2) * p ^ 2 + A * P * p + W ^ 2 * m ^ 2 - A ^ 2 / 4) :
    W * E - P * p < A / 2 ∧ A / 2 < W * E + P * p := by
  have hWE : 0 ≤ W * E := mul_nonneg hW hE
  have hPp : 0 ≤ P * p := mul_nonneg hP hp
  have e : (W * E) ^ 2 = W ^ 2 * (p ^ 2 + m ^ 2) := by rw [mul_pow, hEp]
  constructor
  · have : W * E < A / 2 + P * p := by
      apply (sq_lt_sq₀ hWE (by linarith)).mp
      rw [e]; nlinarith
    linarith
  · have : A / 2 - P * p < W * E := by
      rcases le_or_gt (A / 2 - P * p) 0 with h | h
      · by_contra hc
        push Not at hc
        have z1 : W * E = 0 := by linarith
        have z2 : A / 2 - P * p = 0 := by linarith
        rw [z1] at e
        nlinarith
      · apply (sq_lt_sq₀ h.le hWE).mp
        rw [e]; nlinarith
    linarith

theorem twoBody_roots_conv {W P E p m A : ℝ} (hW : 0 ≤ W) (hP : 0 ≤ P) (hs : P < W) (hp : 0 ≤ p)
    (hE : 0 ≤ E) (hA : 0 ≤ A) (hEp : E ^ 2 = p ^ 2 + m ^ 2)
    (hR : 0 ≤ W ^ 2 * (A ^ 2 - 4 * (W ^ 2 - P ^ 2) * m ^ 2))
    (h1 : |2 * (W ^ 2 - P ^ 2) * p - A * P| < √(W ^ 2 * (A ^ 2 - 4 * (W ^ 2 - P ^ 2) * m ^ 2)))
    (h2 : √(W ^ 2 * (A ^ 2 - 4 * (W ^ 2 - P ^ 2) * m ^ 2)) < 2 * (W ^ 2 - P ^ 2) * p + A * P) :
    W * E - P * p < A / 2 ∧ A / 2 < W * E + P * p := by
  have hs2 : 0 < W ^ 2 - P ^ 2 := by nlinarith
  have k1 : (2 * (W ^ 2 - P ^ 2) * p - A * P) ^ 2 < W ^ 2 * (A ^ 2 - 4 * (W ^ 2 - P ^ 2) * m ^ 2) := by
    rw [← Real.sq_sqrt hR, ← sq_abs (2 * (W ^ 2 - P ^ 2) * p - A * P)]
    exact pow_lt_pow_left₀ h1 (abs_nonneg _) (by norm_num)
  have k2 : W ^ 2 * (A ^ 2 - 4 * (W ^ 2 - P ^ 2) * m ^ 2) < (2 * (W ^ 2 - P ^ 2) * p + A * P) ^ 2 := by
    conv_lhs => rw [← Real.sq_sqrt hR]
    exact pow_lt_pow_left₀ h2 (Real.sqrt_nonneg _) (by norm_num)
  apply twoBody_conv hW hP hp hE hA hEp
  · by_contra hc
    push Not at hc
    have := mul_le_mul_of_nonneg_left hc hs2.le
    nlinarith
  · by_contra hc
    push Not at hc
    have := mul_le_mul_of_nonneg_left hc hs2.le
    nlinarith

/-- The recoiling particle has non-negative energy. -/
theorem recoil_nonneg {W P M E p m m' : ℝ} (hW : 0 ≤ W) (hP : 0 ≤ P) (hWP : P ≤ W)
    (hM : W ^ 2 = P ^ 2 + M ^ 2) (hm : m ^ 2 ≤ M ^ 2)
    (c : W * E - P * p < (M ^ 2 + m ^ 2 - m' ^ 2) / 2)
    (l : (P - p) ^ 2 < (W - E) ^ 2 - m' ^ 2) : 0 ≤ W - E := by
  by_contra hc
  push Not at hc
  have k1 : |P - p| ≤ E - W := by
    apply (sq_le_sq₀ (abs_nonneg _) (by linarith)).mp
    rw [sq_abs, show (E - W) ^ 2 = (W - E) ^ 2 by ring]
    linarith [sq_nonneg m']
  have k2 : P * |P - p| ≤ W * (E - W) := mul_le_mul hWP k1 (abs_nonneg _) hW
  have k3 : P * (p - P) ≤ P * |P - p| := by
    apply mul_le_mul_of_nonneg_left _ hP
    rw [abs_sub_comm]; exact le_abs_self _
  have k4 : P * p - P ^ 2 ≤ W * E - W ^ 2 := by linarith
  linarith [sq_nonneg m']

/-- Cosine bounds for `E + E' = W`. -/
theorem cos_decay {W P E p m E' p' m' : ℝ} (hsum : E + E' = W) (hEp : E ^ 2 = p ^ 2 + m ^ 2)
    (hEp' : E' ^ 2 = p' ^ 2 + m' ^ 2) (hp' : 0 ≤ p')
    (t1 : P ≤ p + p') (t2 : p ≤ P + p') (t3 : p' ≤ P + p) :
    W * E - P * p ≤ (W ^ 2 - P ^ 2 + m ^ 2 - m' ^ 2) / 2 ∧
    (W ^ 2 - P ^ 2 + m ^ 2 - m' ^ 2) / 2 ≤ W * E + P * p := by
  have a1 : p' ^ 2 ≤ (P + p) ^ 2 := pow_le_pow_left₀ hp' t3 2
  have a2 : (P - p) ^ 2 ≤ p' ^ 2 := by
    rw [← sq_abs (P - p)]
    exact pow_le_pow_left₀ (abs_nonneg _) (abs_le.mpr ⟨by linarith, by linarith⟩) 2
  have e : E' = W - E := by linarith
  subst e
  constructor <;> nlinarith

/-- Cosine bounds for `E' = W + E` (inverse decay). -/
theorem cos_creation {W P M E p m E' p' m' : ℝ} (hsum : E' = W + E) (hEp : E ^ 2 = p ^ 2 + m ^ 2)
    (hW : W ^ 2 = P ^ 2 + M ^ 2)
    (hEp' : E' ^ 2 = p' ^ 2 + m' ^ 2) (hp' : 0 ≤ p')
    (t1 : P ≤ p + p') (t2 : p ≤ P + p') (t3 : p' ≤ P + p) :
    W * E - P * p ≤ (m' ^ 2 - M ^ 2 - m ^ 2) / 2 ∧
    (m' ^ 2 - M ^ 2 - m ^ 2) / 2 ≤ W * E + P * p := by
  have a1 : p' ^ 2 ≤ (P + p) ^ 2 := pow_le_pow_left₀ hp' t3 2
  have a2 : (P - p) ^ 2 ≤ p' ^ 2 := by
    rw [← sq_abs (P - p)]
    exact pow_le_pow_left₀ (abs_nonneg _) (abs_le.mpr ⟨by linarith, by linarith⟩) 2
  subst hsum
  constructor <;> nlinarith

theorem energy_sq (p m : ℝ) : energy p m ^ 2 = p ^ 2 + m ^ 2 := by
  unfold energy
  rw [Real.sq_sqrt (by nlinarith [mul_self_nonneg p, mul_self_nonneg m])]; ring

theorem energy_nonneg (p m : ℝ) : 0 ≤ energy p m := Real.sqrt_nonneg _

theorem le_energy (p m : ℝ) : p ≤ energy p m := by
  unfold energy
  exact Real.le_sqrt_of_sq_le (by nlinarith [mul_self_nonneg m])

theorem mass_le_energy (p m : ℝ) : m ≤ energy p m := by
  unfold energy
  exact Real.le_sqrt_of_sq_le (by nlinarith [mul_self_nonneg p])

/-- A bound on the energy is a bound on the momentum. -/
theorem le_sqrt_of_energy_le {p m X : ℝ} (h : energy p m ≤ X) : p ≤ √(X ^ 2 - m ^ 2) := by
  apply Real.le_sqrt_of_sq_le
  have := pow_le_pow_left₀ (energy_nonneg p m) h 2
  rw [energy_sq] at this
  linarith

theorem sqrt_le_of_le_energy {p m X : ℝ} (hp : 0 ≤ p) (hX : 0 ≤ X) (h : X ≤ energy p m) :
    √(X ^ 2 - m ^ 2) ≤ p := by
  rw [Real.sqrt_le_left hp]
  have := pow_le_pow_left₀ hX h 2
  rw [energy_sq] at this
  linarith

end PyBBN
