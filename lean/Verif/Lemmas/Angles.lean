import Verif.Props.Amplitude
import Mathlib.Analysis.SpecialFunctions.Integrals.Basic
/-!
# Averages over all directions of four momenta

The kernels of the code are averages over the length of `k₀ + k₁` for each pairing of the momenta separately.  Here they are averages
over the same configurations of four vectors with vanishing sum, whatever the pairing.
-/
namespace PyBBN
open MeasureTheory

theorem div_sum_sq (a b c : ℝ) (ha : 0 ≤ a) (hb : 0 ≤ b) : (a ^ 2 - b ^ 2) * c / (a + b) = (a - b) * c := by
  by_cases h : a + b = 0
  · have h1 : a = 0 := by linarith
    have h2 : b = 0 := by linarith
    rw [h1, h2]; simp
  · field_simp; ring

theorem div_diff_sq (a b c : ℝ) (h : a = b → c = 0) : (a ^ 2 - b ^ 2) * c / (a - b) = (a + b) * c := by
  by_cases e : a - b = 0
  · rw [h (by linarith)]; simp
  · field_simp; ring

/-- Antiderivative of the part of `k₀·k₃` which does not depend on the angle. -/
noncomputable def crossPrim (q0 q1 q2 q3 d : ℝ) : ℝ :=
  -1 / 4 * (d ^ 3 / 3 + (q0 ^ 2 - q1 ^ 2 + (q3 ^ 2 - q2 ^ 2)) * d - (q0 ^ 2 - q1 ^ 2) * (q3 ^ 2 - q2 ^ 2) / d)

theorem crossPrim_sum {q0 q1 : ℝ} (h0 : 0 ≤ q0) (h1 : 0 ≤ q1) (q2 q3 : ℝ) : crossPrim q0 q1 q2 q3 (q0 + q1) =
    -1 / 4 * ((q0 + q1) ^ 3 / 3 + (q0 ^ 2 - q1 ^ 2 + (q3 ^ 2 - q2 ^ 2)) * (q0 + q1) - (q0 - q1) * (q3 ^ 2 - q2 ^ 2)) := by
  unfold crossPrim; rw [div_sum_sq _ _ _ h0 h1]

theorem crossPrim_sum' {q2 q3 : ℝ} (h2 : 0 ≤ q2) (h3 : 0 ≤ q3) (q0 q1 : ℝ) : crossPrim q0 q1 q2 q3 (q2 + q3) =
    -1 / 4 * ((q2 + q3) ^ 3 / 3 + (q0 ^ 2 - q1 ^ 2 + (q3 ^ 2 - q2 ^ 2)) * (q2 + q3) - (q3 - q2) * (q0 ^ 2 - q1 ^ 2)) := by
  unfold crossPrim; rw [mul_comm (q0 ^ 2 - q1 ^ 2) (q3 ^ 2 - q2 ^ 2), add_comm q2, div_sum_sq _ _ _ h3 h2]

theorem crossPrim_diff {q0 q1 q2 q3 : ℝ} (h : q0 = q1 → q3 ^ 2 - q2 ^ 2 = 0) : crossPrim q0 q1 q2 q3 (q0 - q1) =
    -1 / 4 * ((q0 - q1) ^ 3 / 3 + (q0 ^ 2 - q1 ^ 2 + (q3 ^ 2 - q2 ^ 2)) * (q0 - q1) - (q0 + q1) * (q3 ^ 2 - q2 ^ 2)) := by
  unfold crossPrim; rw [div_diff_sq _ _ _ h]

theorem crossPrim_neg (q0 q1 q2 q3 d : ℝ) : crossPrim q0 q1 q2 q3 (-d) = -crossPrim q0 q1 q2 q3 d := by
  unfold crossPrim; rw [div_neg]; ring

theorem crossPrim_pairs (q0 q1 q2 q3 d : ℝ) : crossPrim q0 q1 q2 q3 d = crossPrim q3 q2 q1 q0 d := by
  unfold crossPrim; ring

/-- The average of `k₀·k₃` is that of the other pairing. -/
theorem crossPrim_average {q0 q1 q2 q3 : ℝ} (h0 : 0 ≤ q0) (h1 : 0 ≤ q1) (h2 : 0 ≤ q2) (h3 : 0 ≤ q3) :
    crossPrim q0 q1 q2 q3 (exHi q0 q1 q2 q3) - crossPrim q0 q1 q2 q3 (exLo q0 q1 q2 q3) =
      (exHi q0 q3 q1 q2 ^ 3 - exLo q0 q3 q1 q2 ^ 3) / 6 - (q0 ^ 2 + q3 ^ 2) / 2 * (exHi q0 q3 q1 q2 - exLo q0 q3 q1 q2) := by
  by_cases hf : Forbidden q0 q1 q2 q3
  · have hf' : Forbidden q0 q3 q1 q2 := by
      unfold Forbidden at hf ⊢
      rcases hf with h | h | h | h
      · left; linarith
      · right; right; left; linarith
      · right; right; right; linarith
      · right; left; linarith
    rw [exHi_of_forbidden h0 h1 h2 h3 hf, exHi_of_forbidden h0 h3 h1 h2 hf']
    ring
  unfold Forbidden at hf
  push Not at hf
  obtain ⟨f0, f1, f2, f3⟩ := hf
  have lo1 : ∀ {a b c d : ℝ}, a - b ≥ c - d → a - b ≥ d - c → exLo a b c d = a - b := by
    intro a b c d h h'
    unfold exLo
    rw [abs_of_nonneg (by linarith : 0 ≤ a - b)]
    exact max_eq_left (abs_le.mpr ⟨by linarith, h⟩)
  have lo2 : ∀ {a b c d : ℝ}, b - a ≥ c - d → b - a ≥ d - c → exLo a b c d = -(a - b) := by
    intro a b c d h h'
    unfold exLo
    rw [abs_of_nonpos (by linarith : a - b ≤ 0)]
    exact max_eq_left (abs_le.mpr ⟨by linarith, by linarith⟩)
  have lo3 : ∀ {a b c d : ℝ}, a - b ≤ c - d → b - a ≤ c - d → exLo a b c d = c - d := by
    intro a b c d h h'
    unfold exLo
    rw [abs_of_nonneg (by linarith : 0 ≤ c - d)]
    exact max_eq_right (abs_le.mpr ⟨by linarith, by linarith⟩)
  have lo4 : ∀ {a b c d : ℝ}, a - b ≤ d - c → b - a ≤ d - c → exLo a b c d = -(c - d) := by
    intro a b c d h h'
    unfold exLo
    rw [abs_of_nonpos (by linarith : c - d ≤ 0)]
    exact max_eq_right (abs_le.mpr ⟨by linarith, by linarith⟩)
  have hi : ∀ {a b c d : ℝ}, 0 ≤ a → 0 ≤ b → 0 ≤ c → 0 ≤ d → a ≤ b + c + d → b ≤ a + c + d → c ≤ a + b + d → d ≤ a + b + c →
      exHi a b c d = min (a + b) (c + d) := by
    intro a b c d h0 h1 h2 h3 f0 f1 f2 f3
    unfold exHi exLo
    refine max_eq_right (max_le (abs_le.mpr ⟨?_, ?_⟩) (abs_le.mpr ⟨?_, ?_⟩))
    · have : b - a ≤ min (a + b) (c + d) := le_min (by linarith) (by linarith)
      linarith
    · exact le_min (by linarith) (by linarith)
    · have : d - c ≤ min (a + b) (c + d) := le_min (by linarith) (by linarith)
      linarith
    · exact le_min (by linarith) (by linarith)
  rw [hi h0 h1 h2 h3 f0 f1 f2 f3, hi h0 h3 h1 h2 (by linarith) (by linarith) (by linarith) (by linarith)]
  have d1 := crossPrim_sum h0 h1 q2 q3
  have d2 := crossPrim_sum' h2 h3 q0 q1
  have d3 : (q0 = q1 → q2 = q3) → crossPrim q0 q1 q2 q3 (q0 - q1) =
      -1 / 4 * ((q0 - q1) ^ 3 / 3 + (q0 ^ 2 - q1 ^ 2 + (q3 ^ 2 - q2 ^ 2)) * (q0 - q1) - (q0 + q1) * (q3 ^ 2 - q2 ^ 2)) :=
    fun h => crossPrim_diff fun e => by rw [h e]; ring
  have d4 : (q2 = q3 → q0 = q1) → crossPrim q0 q1 q2 q3 (q2 - q3) =
      1 / 4 * ((q3 - q2) ^ 3 / 3 + (q3 ^ 2 - q2 ^ 2 + (q0 ^ 2 - q1 ^ 2)) * (q3 - q2) - (q3 + q2) * (q0 ^ 2 - q1 ^ 2)) := by
    intro h
    rw [crossPrim_pairs, show q2 - q3 = -(q3 - q2) by ring, crossPrim_neg,
      crossPrim_diff fun e => by rw [h e.symm]; ring]
    ring
  have e1 : q0 + q1 ≤ q2 + q3 → min (q0 + q1) (q2 + q3) = q0 + q1 := min_eq_left
  have e2 : q2 + q3 ≤ q0 + q1 → min (q0 + q1) (q2 + q3) = q2 + q3 := min_eq_right
  have e3 : q0 + q3 ≤ q1 + q2 → min (q0 + q3) (q1 + q2) = q0 + q3 := min_eq_left
  have e4 : q1 + q2 ≤ q0 + q3 → min (q0 + q3) (q1 + q2) = q1 + q2 := min_eq_right
  rcases le_total (q0 + q1) (q2 + q3) with s1 | s1 <;> rcases le_total (q0 + q3) (q1 + q2) with s2 | s2 <;>
    rcases le_total (q0 + q2) (q1 + q3) with s3 | s3
  · rw [e1 s1, e3 s2, lo2 (a := q0) (b := q1) (by linarith) (by linarith), lo2 (a := q0) (b := q3) (by linarith) (by linarith),
      crossPrim_neg, d1, d3 (by intro h; linarith)]
    ring
  · rw [e1 s1, e3 s2, lo3 (a := q0) (b := q1) (by linarith) (by linarith), lo4 (a := q0) (b := q3) (by linarith) (by linarith),
      d1, d4 (by intro h; linarith)]
    ring
  · rw [e1 s1, e4 s2, lo4 (a := q0) (b := q1) (by linarith) (by linarith), lo2 (a := q0) (b := q3) (by linarith) (by linarith),
      crossPrim_neg, d1, d4 (by intro h; linarith)]
    ring
  · rw [e1 s1, e4 s2, lo1 (a := q0) (b := q1) (by linarith) (by linarith), lo4 (a := q0) (b := q3) (by linarith) (by linarith),
      d1, d3 (by intro h; linarith)]
    ring
  · rw [e2 s1, e3 s2, lo2 (a := q0) (b := q1) (by linarith) (by linarith), lo3 (a := q0) (b := q3) (by linarith) (by linarith),
      crossPrim_neg, d2, d3 (by intro h; linarith)]
    ring
  · rw [e2 s1, e3 s2, lo3 (a := q0) (b := q1) (by linarith) (by linarith), lo1 (a := q0) (b := q3) (by linarith) (by linarith),
      d2, d4 (by intro h; linarith)]
    ring
  · rw [e2 s1, e4 s2, lo4 (a := q0) (b := q1) (by linarith) (by linarith), lo3 (a := q0) (b := q3) (by linarith) (by linarith),
      crossPrim_neg, d2, d4 (by intro h; linarith)]
    ring
  · rw [e2 s1, e4 s2, lo1 (a := q0) (b := q1) (by linarith) (by linarith), lo1 (a := q0) (b := q3) (by linarith) (by linarith),
      d2, d3 (by intro h; linarith)]
    ring
/-- Component of `k₀` along `k₀ + k₁`. -/
noncomputable def alongOf (a b d : ℝ) : ℝ := (d ^ 2 + a ^ 2 - b ^ 2) / (2 * d)

/-- Length of the component of `k₀` across `k₀ + k₁`. -/
noncomputable def acrossOf (a b d : ℝ) : ℝ := Real.sqrt (a ^ 2 - alongOf a b d ^ 2)

/-- Four vectors of lengths `q` and vanishing sum, when `k₀ + k₁` has length `d` and the planes of the two pairs form the angle `φ`. -/
noncomputable def kVec (q : Fin 4 → ℝ) (d φ : ℝ) : Fin 4 → Fin 3 → ℝ :=
  let z0 := alongOf (q 0) (q 1) d
  let z3 := alongOf (q 3) (q 2) d
  let r0 := acrossOf (q 0) (q 1) d
  let r3 := acrossOf (q 3) (q 2) d
  ![![r0, 0, z0], ![-r0, 0, d - z0], ![-(r3 * Real.cos φ), -(r3 * Real.sin φ), z3 - d], ![r3 * Real.cos φ, r3 * Real.sin φ, -z3]]

/-- Scalar product in space. -/
def dot3 (x y : Fin 3 → ℝ) : ℝ := x 0 * y 0 + x 1 * y 1 + x 2 * y 2

theorem kVec_sum (q : Fin 4 → ℝ) (d φ : ℝ) (j : Fin 3) : ∑ i, kVec q d φ i j = 0 := by
  rw [Fin.sum_univ_four]
  fin_cases j <;> simp [kVec]

theorem across_sq {a b d : ℝ} (hd : 0 < d) (h1 : |a - b| ≤ d) (h2 : d ≤ a + b) :
    acrossOf a b d ^ 2 = a ^ 2 - alongOf a b d ^ 2 := by
  unfold acrossOf
  rw [Real.sq_sqrt]
  have e : a ^ 2 - alongOf a b d ^ 2 = (((a + b) ^ 2 - d ^ 2) * (d ^ 2 - (a - b) ^ 2)) / (2 * d) ^ 2 := by
    unfold alongOf; field_simp; ring
  rw [e]
  have h3 : (a - b) ^ 2 ≤ d ^ 2 := sq_le_sq.mpr (by rwa [abs_of_pos hd])
  have h4 : d ^ 2 ≤ (a + b) ^ 2 := by nlinarith
  exact div_nonneg (mul_nonneg (by linarith) (by linarith)) (by positivity)

/-- Such `d` and lengths. -/
def Allowed (q : Fin 4 → ℝ) (d : ℝ) : Prop :=
  0 < d ∧ (|q 0 - q 1| ≤ d ∧ d ≤ q 0 + q 1) ∧ |q 2 - q 3| ≤ d ∧ d ≤ q 2 + q 3

theorem kVec_length {q : Fin 4 → ℝ} {d : ℝ} (φ : ℝ) (h : Allowed q d) (i : Fin 4) : dot3 (kVec q d φ i) (kVec q d φ i) = q i ^ 2 := by
  obtain ⟨hd, ⟨a1, a2⟩, b1, b2⟩ := h
  have e0 := across_sq hd a1 a2
  have e3 := across_sq (a := q 3) (b := q 2) hd (by rwa [abs_sub_comm]) (by linarith)
  have cs := Real.sin_sq_add_cos_sq φ
  have z0 : 2 * d * alongOf (q 0) (q 1) d = d ^ 2 + q 0 ^ 2 - q 1 ^ 2 := by unfold alongOf; field_simp
  have z3 : 2 * d * alongOf (q 3) (q 2) d = d ^ 2 + q 3 ^ 2 - q 2 ^ 2 := by unfold alongOf; field_simp
  fin_cases i <;> simp [kVec, dot3]
  · linear_combination e0
  · linear_combination e0 - z0
  · linear_combination e3 - z3 + acrossOf (q 3) (q 2) d ^ 2 * cs
  · linear_combination e3 + acrossOf (q 3) (q 2) d ^ 2 * cs

/-- Scalar products within the pairs do not depend on the angle. -/
theorem kVec_pairs {q : Fin 4 → ℝ} {d : ℝ} (φ : ℝ) (h : Allowed q d) : dot3 (kVec q d φ 0) (kVec q d φ 1) = dot (q 0) (q 1) d ∧
    dot3 (kVec q d φ 2) (kVec q d φ 3) = dot (q 2) (q 3) d := by
  obtain ⟨hd, ⟨a1, a2⟩, b1, b2⟩ := h
  have e0 := across_sq hd a1 a2
  have e3 := across_sq (a := q 3) (b := q 2) hd (by rwa [abs_sub_comm]) (by linarith)
  have cs := Real.sin_sq_add_cos_sq φ
  have z0 : 2 * d * alongOf (q 0) (q 1) d = d ^ 2 + q 0 ^ 2 - q 1 ^ 2 := by unfold alongOf; field_simp
  have z3 : 2 * d * alongOf (q 3) (q 2) d = d ^ 2 + q 3 ^ 2 - q 2 ^ 2 := by unfold alongOf; field_simp
  constructor <;> simp [kVec, dot3, dot]
  · linear_combination -e0 + z0 / 2
  · linear_combination -e3 + z3 / 2 - acrossOf (q 3) (q 2) d ^ 2 * cs


/-! ## Integrals -/

/-- Laurent polynomials whose poles are outside the range of integration. -/
theorem laurent_integral (u v a b c lo hi : ℝ) (h0 : 0 ≤ lo) (hl : lo ≤ hi) (hz : lo = 0 → u = 0 ∧ v = 0) :
    IntervalIntegrable (fun d : ℝ => u / d ^ 4 + v / d ^ 2 + a + b * d ^ 2 + c * d ^ 4) volume lo hi ∧
    ∫ d in lo..hi, (u / d ^ 4 + v / d ^ 2 + a + b * d ^ 2 + c * d ^ 4) =
      (-u / (3 * hi ^ 3) - v / hi + a * hi + b * (hi ^ 3 / 3) + c * (hi ^ 5 / 5)) -
      (-u / (3 * lo ^ 3) - v / lo + a * lo + b * (lo ^ 3 / 3) + c * (lo ^ 5 / 5)) := by
  rcases h0.eq_or_lt with h | h
  · obtain ⟨rfl, rfl⟩ := hz h.symm
    have hd : ∀ d : ℝ, HasDerivAt (fun d : ℝ => a * d + b * (d ^ 3 / 3) + c * (d ^ 5 / 5)) (a + b * d ^ 2 + c * d ^ 4) d := by
      intro d
      have h3 : HasDerivAt (fun d : ℝ => d ^ 3 / 3) (d ^ 2) d := by
        have := (hasDerivAt_pow 3 d).div_const 3
        exact this.congr_deriv (by push_cast; ring)
      have h5 : HasDerivAt (fun d : ℝ => d ^ 5 / 5) (d ^ 4) d := by
        have := (hasDerivAt_pow 5 d).div_const 5
        exact this.congr_deriv (by push_cast; ring)
      have := (((hasDerivAt_id d).const_mul a).add (h3.const_mul b)).add (h5.const_mul c)
      exact this.congr_deriv (by ring)
    have hc : Continuous fun d : ℝ => a + b * d ^ 2 + c * d ^ 4 := by fun_prop
    simp only [zero_div, zero_add, neg_zero, sub_zero]
    refine ⟨hc.intervalIntegrable _ _, ?_⟩
    rw [intervalIntegral.integral_eq_sub_of_hasDerivAt (fun d _ => hd d) (hc.intervalIntegrable _ _)]
  · have hpos : ∀ d ∈ Set.uIcc lo hi, 0 < d := by
      intro d hd
      rw [Set.uIcc_of_le hl] at hd
      exact h.trans_le hd.1
    have hd : ∀ d ∈ Set.uIcc lo hi, HasDerivAt (fun d : ℝ => -u / (3 * d ^ 3) - v / d + a * d + b * (d ^ 3 / 3) + c * (d ^ 5 / 5))
        (u / d ^ 4 + v / d ^ 2 + a + b * d ^ 2 + c * d ^ 4) d := by
      intro d hd
      have hp := hpos d hd
      have h3 : HasDerivAt (fun d : ℝ => d ^ 3 / 3) (d ^ 2) d := by
        have := (hasDerivAt_pow 3 d).div_const 3
        exact this.congr_deriv (by push_cast; ring)
      have h5 : HasDerivAt (fun d : ℝ => d ^ 5 / 5) (d ^ 4) d := by
        have := (hasDerivAt_pow 5 d).div_const 5
        exact this.congr_deriv (by push_cast; ring)
      have h4 : HasDerivAt (fun d : ℝ => -u / (3 * d ^ 3)) (u / d ^ 4) d := by
        have := (hasDerivAt_const d (-u)).div ((hasDerivAt_pow 3 d).const_mul 3) (by positivity)
        exact this.congr_deriv (by push_cast; field_simp; ring)
      have h1 : HasDerivAt (fun d : ℝ => v / d) (-(v / d ^ 2)) d := by
        have := (hasDerivAt_const d v).div (hasDerivAt_id d) hp.ne'
        exact this.congr_deriv (by simp only [id]; field_simp; ring)
      have := (((h4.sub h1).add ((hasDerivAt_id d).const_mul a)).add (h3.const_mul b)).add (h5.const_mul c)
      exact this.congr_deriv (by ring)
    have hc : IntervalIntegrable (fun d : ℝ => u / d ^ 4 + v / d ^ 2 + a + b * d ^ 2 + c * d ^ 4) volume lo hi := by
      apply ContinuousOn.intervalIntegrable
      intro d hd
      have hp := hpos d hd
      apply ContinuousAt.continuousWithinAt
      have h1 : d ^ 4 ≠ 0 := by positivity
      have h2 : d ^ 2 ≠ 0 := by positivity
      fun_prop (disch := assumption)
    exact ⟨hc, intervalIntegral.integral_eq_sub_of_hasDerivAt hd hc⟩

theorem ring_linear (a b : ℝ) : ∫ φ in (0 : ℝ)..(2 * Real.pi), (a + b * Real.cos φ) = 2 * Real.pi * a := by
  rw [intervalIntegral.integral_add (by simp) (by exact (Real.continuous_cos.const_mul b |>.intervalIntegrable _ _)),
    intervalIntegral.integral_const_mul, integral_cos]
  simp

theorem ring_square (a b a' b' : ℝ) : ∫ φ in (0 : ℝ)..(2 * Real.pi), (a + b * Real.cos φ) * (a' + b' * Real.cos φ) =
    2 * Real.pi * (a * a' + b * b' / 2) := by
  have e : (fun φ => (a + b * Real.cos φ) * (a' + b' * Real.cos φ)) = fun φ =>
      (a * a' + (a * b' + b * a') * Real.cos φ) + b * b' * Real.cos φ ^ 2 := by funext φ; ring
  have c1 : Continuous fun φ => a * a' + (a * b' + b * a') * Real.cos φ := by fun_prop
  have c2 : Continuous fun φ => b * b' * Real.cos φ ^ 2 := by fun_prop
  rw [e, intervalIntegral.integral_add (c1.intervalIntegrable _ _) (c2.intervalIntegrable _ _), ring_linear,
    intervalIntegral.integral_const_mul, integral_cos_sq]
  simp
  ring

/-! ## Averages -/

/-- Average over the angle between the planes. -/
noncomputable def ringAverage (q : Fin 4 → ℝ) (F : (Fin 4 → Fin 3 → ℝ) → ℝ) (d : ℝ) : ℝ :=
  (∫ φ in (0 : ℝ)..(2 * Real.pi), F (kVec q d φ)) / (2 * Real.pi)

/-- Average over all configurations of four momenta of lengths `q`. -/
noncomputable def solidAverage (q : Fin 4 → ℝ) (F : (Fin 4 → Fin 3 → ℝ) → ℝ) : ℝ :=
  pairAverage (q 0) (q 1) (q 2) (q 3) (ringAverage q F)

/-- `F` has the average `v`. -/
structure HasAvg (q : Fin 4 → ℝ) (F : (Fin 4 → Fin 3 → ℝ) → ℝ) (v : ℝ) : Prop where
  cont : Continuous F
  int : IntervalIntegrable (ringAverage q F) volume (exLo (q 0) (q 1) (q 2) (q 3)) (exHi (q 0) (q 1) (q 2) (q 3))
  avg : 1 / 2 * (∫ d in (exLo (q 0) (q 1) (q 2) (q 3))..(exHi (q 0) (q 1) (q 2) (q 3)), ringAverage q F d) = v

theorem exHi_ge (q1 q2 q3 q4 : ℝ) : exLo q1 q2 q3 q4 ≤ exHi q1 q2 q3 q4 := le_max_left _ _

theorem pairAverage_ex (q1 q2 q3 q4 : ℝ) (g : ℝ → ℝ) :
    pairAverage q1 q2 q3 q4 g = 1 / 2 * ∫ d in (exLo q1 q2 q3 q4)..(exHi q1 q2 q3 q4), g d := by
  unfold pairAverage exHi exLo
  split_ifs with h
  · rw [max_eq_right h]
  · rw [max_eq_left (le_of_lt (not_le.mp h))]; simp

theorem HasAvg.solid {q : Fin 4 → ℝ} {F : (Fin 4 → Fin 3 → ℝ) → ℝ} {v : ℝ} (h : HasAvg q F v) : solidAverage q F = v := by
  unfold solidAverage
  rw [pairAverage_ex, h.avg]

theorem kVec_continuous (q : Fin 4 → ℝ) (d : ℝ) : Continuous (kVec q d) := by
  refine continuous_pi fun i => continuous_pi fun j => ?_
  fin_cases i <;> fin_cases j <;> simp [kVec] <;> fun_prop

theorem HasAvg.lin {q : Fin 4 → ℝ} {F G : (Fin 4 → Fin 3 → ℝ) → ℝ} {v w : ℝ} (hF : HasAvg q F v) (hG : HasAvg q G w) (a b : ℝ) :
    HasAvg q (fun k => a * F k + b * G k) (a * v + b * w) := by
  have e : ringAverage q (fun k => a * F k + b * G k) = fun d => a * ringAverage q F d + b * ringAverage q G d := by
    funext d
    have c1 : Continuous fun φ => F (kVec q d φ) := hF.cont.comp (kVec_continuous q d)
    have c2 : Continuous fun φ => G (kVec q d φ) := hG.cont.comp (kVec_continuous q d)
    unfold ringAverage
    rw [intervalIntegral.integral_add ((c1.const_mul a).intervalIntegrable _ _) ((c2.const_mul b).intervalIntegrable _ _),
      intervalIntegral.integral_const_mul, intervalIntegral.integral_const_mul]
    ring
  refine ⟨(hF.cont.const_mul a).add (hG.cont.const_mul b), ?_, ?_⟩
  · rw [e]; exact (hF.int.const_mul a).add (hG.int.const_mul b)
  · rw [e, intervalIntegral.integral_add (hF.int.const_mul a) (hG.int.const_mul b), intervalIntegral.integral_const_mul,
      intervalIntegral.integral_const_mul, ← hF.avg, ← hG.avg]
    ring

theorem HasAvg.zero (q : Fin 4 → ℝ) : HasAvg q (fun _ => 0) 0 := by
  have e : ringAverage q (fun _ => 0) = fun _ => 0 := by funext d; simp [ringAverage]
  exact ⟨continuous_const, by rw [e]; simp, by rw [e]; simp⟩

theorem HasAvg.sum {κ : Type*} {q : Fin 4 → ℝ} (s : Finset κ) (F : κ → (Fin 4 → Fin 3 → ℝ) → ℝ) (v : κ → ℝ)
    (h : ∀ i ∈ s, HasAvg q (F i) (v i)) : HasAvg q (fun k => ∑ i ∈ s, F i k) (∑ i ∈ s, v i) := by
  classical
  induction s using Finset.induction_on with
  | empty => simpa using HasAvg.zero q
  | insert i s hi ih =>
    have := (h i (Finset.mem_insert_self i s)).lin (ih fun j hj => h j (Finset.mem_insert_of_mem hj)) 1 1
    simpa [Finset.sum_insert hi] using this

theorem allowed_of {q : Fin 4 → ℝ} {d : ℝ}
    (hd : d ∈ Set.Ioc (exLo (q 0) (q 1) (q 2) (q 3)) (exHi (q 0) (q 1) (q 2) (q 3))) : Allowed q d := by
  obtain ⟨h1, h2⟩ := hd
  have hlo : 0 ≤ exLo (q 0) (q 1) (q 2) (q 3) := (abs_nonneg _).trans (le_max_left _ _)
  have h3 : exHi (q 0) (q 1) (q 2) (q 3) = min (q 0 + q 1) (q 2 + q 3) := by
    unfold exHi
    refine max_eq_right ?_
    by_contra h
    have : exHi (q 0) (q 1) (q 2) (q 3) = exLo (q 0) (q 1) (q 2) (q 3) := max_eq_left (le_of_lt (not_le.mp h))
    linarith
  rw [h3] at h2
  exact ⟨hlo.trans_lt h1, ⟨((le_max_left _ _).trans h1.le), h2.trans (min_le_left _ _)⟩, ((le_max_right _ _).trans h1.le),
    h2.trans (min_le_right _ _)⟩

/-- Averages of what is not negative. -/
theorem HasAvg.nonneg {q : Fin 4 → ℝ} {F : (Fin 4 → Fin 3 → ℝ) → ℝ} {v : ℝ} (h : HasAvg q F v)
    (hF : ∀ d φ, Allowed q d → 0 ≤ F (kVec q d φ)) : 0 ≤ v := by
  rw [← h.avg, intervalIntegral.integral_of_le (exHi_ge _ _ _ _)]
  refine mul_nonneg (by norm_num) (setIntegral_nonneg measurableSet_Ioc fun d hd => ?_)
  unfold ringAverage
  refine div_nonneg (intervalIntegral.integral_nonneg (by positivity) fun φ _ => hF d φ (allowed_of hd)) (by positivity)

/-- A ring average that is a Laurent polynomial. -/
theorem HasAvg.laurent {q : Fin 4 → ℝ} {F : (Fin 4 → Fin 3 → ℝ) → ℝ} (hF : Continuous F) (u v a b c w : ℝ)
    (hz : q 0 = q 1 → q 2 = q 3 → u = 0 ∧ v = 0)
    (hr : ∀ d, Allowed q d → ringAverage q F d = u / d ^ 4 + v / d ^ 2 + a + b * d ^ 2 + c * d ^ 4)
    (hw : 1 / 2 * ((-u / (3 * exHi (q 0) (q 1) (q 2) (q 3) ^ 3) - v / exHi (q 0) (q 1) (q 2) (q 3) + a * exHi (q 0) (q 1) (q 2) (q 3) +
        b * (exHi (q 0) (q 1) (q 2) (q 3) ^ 3 / 3) + c * (exHi (q 0) (q 1) (q 2) (q 3) ^ 5 / 5)) -
      (-u / (3 * exLo (q 0) (q 1) (q 2) (q 3) ^ 3) - v / exLo (q 0) (q 1) (q 2) (q 3) + a * exLo (q 0) (q 1) (q 2) (q 3) +
        b * (exLo (q 0) (q 1) (q 2) (q 3) ^ 3 / 3) + c * (exLo (q 0) (q 1) (q 2) (q 3) ^ 5 / 5))) = w) : HasAvg q F w := by
  have hlo : 0 ≤ exLo (q 0) (q 1) (q 2) (q 3) := (abs_nonneg _).trans (le_max_left _ _)
  obtain ⟨i1, i2⟩ := laurent_integral u v a b c (exLo (q 0) (q 1) (q 2) (q 3)) (exHi (q 0) (q 1) (q 2) (q 3)) hlo (exHi_ge _ _ _ _) (by
    intro h
    have h1 : |q 0 - q 1| ≤ 0 := (le_max_left _ _).trans_eq h
    have h2 : |q 2 - q 3| ≤ 0 := (le_max_right _ _).trans_eq h
    exact hz (by linarith [abs_eq_zero.mp (le_antisymm h1 (abs_nonneg _))]) (by linarith [abs_eq_zero.mp (le_antisymm h2 (abs_nonneg _))]))
  have hcongr : ∀ d ∈ Set.uIoc (exLo (q 0) (q 1) (q 2) (q 3)) (exHi (q 0) (q 1) (q 2) (q 3)),
      u / d ^ 4 + v / d ^ 2 + a + b * d ^ 2 + c * d ^ 4 = ringAverage q F d := by
    intro d hd
    rw [Set.uIoc_of_le (exHi_ge _ _ _ _)] at hd
    exact (hr d (allowed_of hd)).symm
  refine ⟨hF, i1.congr hcongr, ?_⟩
  rw [← hw, ← i2]
  congr 1
  rw [intervalIntegral.integral_of_le (exHi_ge _ _ _ _), intervalIntegral.integral_of_le (exHi_ge _ _ _ _)]
  refine setIntegral_congr_fun measurableSet_Ioc fun d hd => hr d (allowed_of hd)


/-! ## Scalar products -/

theorem along_other {d : ℝ} (hd : 0 < d) (a b : ℝ) : d - alongOf a b d = alongOf b a d := by
  unfold alongOf; field_simp; ring

theorem dot3_continuous (i j : Fin 4) : Continuous fun k : Fin 4 → Fin 3 → ℝ => dot3 (k i) (k j) := by
  unfold dot3; fun_prop

theorem ring_lin_of {q : Fin 4 → ℝ} {F : (Fin 4 → Fin 3 → ℝ) → ℝ} {d : ℝ} (a b : ℝ)
    (h : ∀ φ, F (kVec q d φ) = a + b * Real.cos φ) : ringAverage q F d = a := by
  unfold ringAverage
  simp only [h]
  rw [ring_linear]
  have := Real.pi_pos
  field_simp

theorem ring_sq_of {q : Fin 4 → ℝ} {F : (Fin 4 → Fin 3 → ℝ) → ℝ} {d : ℝ} (a b a' b' : ℝ)
    (h : ∀ φ, F (kVec q d φ) = (a + b * Real.cos φ) * (a' + b' * Real.cos φ)) : ringAverage q F d = a * a' + b * b' / 2 := by
  unfold ringAverage
  simp only [h]
  rw [ring_square]
  have := Real.pi_pos
  field_simp

theorem pairAverage_dot (a b c d : ℝ) : pairAverage a b c d (dot a b) =
    1 / 2 * ((exHi a b c d ^ 3 - exLo a b c d ^ 3) / 6 - (a ^ 2 + b ^ 2) / 2 * (exHi a b c d - exLo a b c d)) := by
  rw [pairAverage_eq _ _ _ _ _ (fun x => 1 / 2 * (x ^ 3 / 3 - (a ^ 2 + b ^ 2) * x))]
  · ring
  · intro x y
    have : dot a b = fun d => 1 / 2 * (d ^ 2 - (a ^ 2 + b ^ 2)) := by funext d; unfold dot; ring
    rw [this, intervalIntegral.integral_const_mul, integral_quad]; ring

theorem exLo_flip (a b c d : ℝ) : exLo b a c d = exLo a b c d := by unfold exLo; rw [abs_sub_comm]
theorem exLo_flip' (a b c d : ℝ) : exLo a b d c = exLo a b c d := by unfold exLo; rw [abs_sub_comm d]
theorem exHi_flip (a b c d : ℝ) : exHi b a c d = exHi a b c d := by unfold exHi; rw [exLo_flip, add_comm a]
theorem exHi_flip' (a b c d : ℝ) : exHi a b d c = exHi a b c d := by unfold exHi; rw [exLo_flip', add_comm c]

/-- Scalar product of momenta from different pairs. -/
theorem cross_avg {q : Fin 4 → ℝ} {F : (Fin 4 → Fin 3 → ℝ) → ℝ} (hF : Continuous F) (x0 x1 x2 x3 : ℝ) (h0 : 0 ≤ x0) (h1 : 0 ≤ x1)
    (h2 : 0 ≤ x2) (h3 : 0 ≤ x3) (hl : exLo (q 0) (q 1) (q 2) (q 3) = exLo x0 x1 x2 x3)
    (hh : exHi (q 0) (q 1) (q 2) (q 3) = exHi x0 x1 x2 x3) (hz : q 0 = q 1 → x0 = x1)
    (hr : ∀ d, Allowed q d → ringAverage q F d = -(alongOf x0 x1 d * alongOf x3 x2 d)) :
    HasAvg q F (pairAverage x0 x3 x1 x2 (dot x0 x3)) := by
  refine HasAvg.laurent hF 0 (-((x0 ^ 2 - x1 ^ 2) * (x3 ^ 2 - x2 ^ 2)) / 4) (-(x0 ^ 2 - x1 ^ 2 + (x3 ^ 2 - x2 ^ 2)) / 4) (-1 / 4) 0 _ ?_ ?_ ?_
  · intro h _
    rw [hz h]
    exact ⟨rfl, by ring⟩
  · intro d hd
    rw [hr d hd]
    have := hd.1
    unfold alongOf
    field_simp
    ring
  · rw [hl, hh, pairAverage_dot, ← crossPrim_average h0 h1 h2 h3]
    unfold crossPrim
    ring

theorem avg_one {q : Fin 4 → ℝ} : HasAvg q (fun _ => 1) (pairAverage (q 0) (q 1) (q 2) (q 3) fun _ => 1) := by
  refine HasAvg.laurent continuous_const 0 0 1 0 0 _ (fun _ _ => ⟨rfl, rfl⟩) ?_ ?_
  · intro d _
    rw [ring_lin_of 1 0 (by simp)]
    ring
  · rw [pairAverage_eq _ _ _ _ _ (fun d => d) (by simp)]
    ring

variable {q : Fin 4 → ℝ}

theorem kVec_03 (d φ : ℝ) : dot3 (kVec q d φ 0) (kVec q d φ 3) = -(alongOf (q 0) (q 1) d * alongOf (q 3) (q 2) d) +
    acrossOf (q 0) (q 1) d * acrossOf (q 3) (q 2) d * Real.cos φ := by simp [kVec, dot3]; ring
theorem kVec_12 (d φ : ℝ) : dot3 (kVec q d φ 1) (kVec q d φ 2) = -((d - alongOf (q 0) (q 1) d) * (d - alongOf (q 3) (q 2) d)) +
    acrossOf (q 0) (q 1) d * acrossOf (q 3) (q 2) d * Real.cos φ := by simp [kVec, dot3]; ring
theorem kVec_02 (d φ : ℝ) : dot3 (kVec q d φ 0) (kVec q d φ 2) = -(alongOf (q 0) (q 1) d * (d - alongOf (q 3) (q 2) d)) +
    -(acrossOf (q 0) (q 1) d * acrossOf (q 3) (q 2) d) * Real.cos φ := by simp [kVec, dot3]; ring
theorem kVec_13 (d φ : ℝ) : dot3 (kVec q d φ 1) (kVec q d φ 3) = -((d - alongOf (q 0) (q 1) d) * alongOf (q 3) (q 2) d) +
    -(acrossOf (q 0) (q 1) d * acrossOf (q 3) (q 2) d) * Real.cos φ := by simp [kVec, dot3]; ring

theorem avg_03 (hq : ∀ i, 0 ≤ q i) : HasAvg q (fun k => dot3 (k 0) (k 3)) (pairAverage (q 0) (q 3) (q 1) (q 2) (dot (q 0) (q 3))) :=
  cross_avg (dot3_continuous 0 3) (q 0) (q 1) (q 2) (q 3) (hq _) (hq _) (hq _) (hq _) rfl rfl id
    fun d _ => ring_lin_of _ _ (kVec_03 d)

theorem avg_12 (hq : ∀ i, 0 ≤ q i) : HasAvg q (fun k => dot3 (k 1) (k 2)) (pairAverage (q 1) (q 2) (q 0) (q 3) (dot (q 1) (q 2))) :=
  cross_avg (dot3_continuous 1 2) (q 1) (q 0) (q 3) (q 2) (hq _) (hq _) (hq _) (hq _) (by rw [exLo_flip, exLo_flip'])
    (by rw [exHi_flip, exHi_flip']) Eq.symm
    fun d hd => (ring_lin_of _ _ (kVec_12 d)).trans (by rw [along_other hd.1, along_other hd.1])

theorem avg_02 (hq : ∀ i, 0 ≤ q i) : HasAvg q (fun k => dot3 (k 0) (k 2)) (pairAverage (q 0) (q 2) (q 1) (q 3) (dot (q 0) (q 2))) :=
  cross_avg (dot3_continuous 0 2) (q 0) (q 1) (q 3) (q 2) (hq _) (hq _) (hq _) (hq _) (by rw [exLo_flip']) (by rw [exHi_flip']) id
    fun d hd => (ring_lin_of _ _ (kVec_02 d)).trans (by rw [along_other hd.1])

theorem avg_13 (hq : ∀ i, 0 ≤ q i) : HasAvg q (fun k => dot3 (k 1) (k 3)) (pairAverage (q 1) (q 3) (q 0) (q 2) (dot (q 1) (q 3))) :=
  cross_avg (dot3_continuous 1 3) (q 1) (q 0) (q 2) (q 3) (hq _) (hq _) (hq _) (hq _) (by rw [exLo_flip]) (by rw [exHi_flip]) Eq.symm
    fun d hd => (ring_lin_of _ _ (kVec_13 d)).trans (by rw [along_other hd.1])

theorem avg_01 : HasAvg q (fun k => dot3 (k 0) (k 1)) (pairAverage (q 0) (q 1) (q 2) (q 3) (dot (q 0) (q 1))) := by
  refine HasAvg.laurent (dot3_continuous 0 1) 0 0 (-(q 0 ^ 2 + q 1 ^ 2) / 2) (1 / 2) 0 _ (fun _ _ => ⟨rfl, rfl⟩) ?_ ?_
  · intro d hd
    rw [ring_lin_of (dot (q 0) (q 1) d) 0 (fun φ => by rw [(kVec_pairs φ hd).1]; ring)]
    unfold dot; ring
  · rw [pairAverage_dot]; ring

theorem avg_23 : HasAvg q (fun k => dot3 (k 2) (k 3)) (pairAverage (q 2) (q 3) (q 0) (q 1) (dot (q 2) (q 3))) := by
  refine HasAvg.laurent (dot3_continuous 2 3) 0 0 (-(q 2 ^ 2 + q 3 ^ 2) / 2) (1 / 2) 0 _ (fun _ _ => ⟨rfl, rfl⟩) ?_ ?_
  · intro d hd
    rw [ring_lin_of (dot (q 2) (q 3) d) 0 (fun φ => by rw [(kVec_pairs φ hd).2]; ring)]
    unfold dot; ring
  · rw [pairAverage_pairs, pairAverage_eq _ _ _ _ _ (fun x => 1 / 2 * (x ^ 3 / 3 - (q 2 ^ 2 + q 3 ^ 2) * x))]
    · ring
    · intro x y
      have : dot (q 2) (q 3) = fun d => 1 / 2 * (d ^ 2 - (q 2 ^ 2 + q 3 ^ 2)) := by funext d; unfold dot; ring
      rw [this, intervalIntegral.integral_const_mul, integral_quad]; ring

theorem pairAverage_dots (a b c d : ℝ) : pairAverage a b c d (fun x => dot a b x * dot c d x) =
    1 / 8 * ((exHi a b c d ^ 5 - exLo a b c d ^ 5) / 5
      - (a ^ 2 + b ^ 2 + (c ^ 2 + d ^ 2)) * ((exHi a b c d ^ 3 - exLo a b c d ^ 3) / 3)
      + (a ^ 2 + b ^ 2) * (c ^ 2 + d ^ 2) * (exHi a b c d - exLo a b c d)) := by
  rw [pairAverage_eq _ _ _ _ _ (fun x => 1 / 4 * (x ^ 5 / 5 - (a ^ 2 + b ^ 2 + (c ^ 2 + d ^ 2)) * (x ^ 3 / 3) +
    (a ^ 2 + b ^ 2) * (c ^ 2 + d ^ 2) * x))]
  · ring
  · intro x y
    have : (fun x => dot a b x * dot c d x) = fun x => 1 / 4 * (x ^ 4 - (a ^ 2 + b ^ 2 + (c ^ 2 + d ^ 2)) * x ^ 2 +
        (a ^ 2 + b ^ 2) * (c ^ 2 + d ^ 2)) := by funext d; unfold dot; ring
    rw [this, intervalIntegral.integral_const_mul, integral_quartic]; ring

theorem avg_dots : HasAvg q (fun k => dot3 (k 0) (k 1) * dot3 (k 2) (k 3))
    (pairAverage (q 0) (q 1) (q 2) (q 3) fun x => dot (q 0) (q 1) x * dot (q 2) (q 3) x) := by
  refine HasAvg.laurent (F := fun k => dot3 (k 0) (k 1) * dot3 (k 2) (k 3)) ((dot3_continuous 0 1).mul (dot3_continuous 2 3)) 0 0 ((q 0 ^ 2 + q 1 ^ 2) * (q 2 ^ 2 + q 3 ^ 2) / 4)
    (-(q 0 ^ 2 + q 1 ^ 2 + (q 2 ^ 2 + q 3 ^ 2)) / 4) (1 / 4) _ (fun _ _ => ⟨rfl, rfl⟩) ?_ ?_
  · intro d hd
    rw [ring_lin_of (dot (q 0) (q 1) d * dot (q 2) (q 3) d) 0 (fun φ => by rw [(kVec_pairs φ hd).1, (kVec_pairs φ hd).2]; ring)]
    unfold dot; ring
  · rw [pairAverage_dots]; ring

/-- At the ends of the range the momenta of one pair are parallel. -/
theorem ends_parallel (q0 q1 q2 q3 x : ℝ) (hx : x = exLo q0 q1 q2 q3 ∨ x = exHi q0 q1 q2 q3) :
    (x ^ 4 - 2 * (q0 ^ 2 + q1 ^ 2) * x ^ 2 + (q0 ^ 2 - q1 ^ 2) ^ 2) * (x ^ 4 - 2 * (q2 ^ 2 + q3 ^ 2) * x ^ 2 + (q3 ^ 2 - q2 ^ 2) ^ 2) = 0 := by
  have four : x ^ 2 = (q0 - q1) ^ 2 ∨ x ^ 2 = (q2 - q3) ^ 2 ∨ x ^ 2 = (q0 + q1) ^ 2 ∨ x ^ 2 = (q2 + q3) ^ 2 := by
    have lo : exLo q0 q1 q2 q3 ^ 2 = (q0 - q1) ^ 2 ∨ exLo q0 q1 q2 q3 ^ 2 = (q2 - q3) ^ 2 := by
      unfold exLo
      rcases max_choice |q0 - q1| |q2 - q3| with h | h <;> rw [h, sq_abs] <;> simp
    rcases hx with rfl | rfl
    · rcases lo with h | h
      · exact Or.inl h
      · exact Or.inr (Or.inl h)
    · unfold exHi
      rcases max_choice (exLo q0 q1 q2 q3) (min (q0 + q1) (q2 + q3)) with h | h
      · rw [h]
        rcases lo with h | h
        · exact Or.inl h
        · exact Or.inr (Or.inl h)
      · rw [h]
        rcases min_choice (q0 + q1) (q2 + q3) with h | h <;> rw [h] <;> simp
  have f1 : x ^ 4 - 2 * (q0 ^ 2 + q1 ^ 2) * x ^ 2 + (q0 ^ 2 - q1 ^ 2) ^ 2 = (x ^ 2 - (q0 - q1) ^ 2) * (x ^ 2 - (q0 + q1) ^ 2) := by ring
  have f2 : x ^ 4 - 2 * (q2 ^ 2 + q3 ^ 2) * x ^ 2 + (q3 ^ 2 - q2 ^ 2) ^ 2 = (x ^ 2 - (q2 - q3) ^ 2) * (x ^ 2 - (q2 + q3) ^ 2) := by ring
  rw [f1, f2]
  rcases four with h | h | h | h <;> rw [h] <;> ring

/-- Products of scalar products of momenta from different pairs. -/
theorem crossed_avg {F : (Fin 4 → Fin 3 → ℝ) → ℝ} (hF : Continuous F)
    (hr : ∀ d, Allowed q d → ringAverage q F d = alongOf (q 0) (q 1) d * alongOf (q 3) (q 2) d * ((d - alongOf (q 0) (q 1) d) *
      (d - alongOf (q 3) (q 2) d)) + acrossOf (q 0) (q 1) d ^ 2 * acrossOf (q 3) (q 2) d ^ 2 / 2) :
    HasAvg q F (pairAverage (q 0) (q 1) (q 2) (q 3) fun x => dot (q 0) (q 1) x * dot (q 2) (q 3) x) := by
  have key : ∀ x, x = exLo (q 0) (q 1) (q 2) (q 3) ∨ x = exHi (q 0) (q 1) (q 2) (q 3) →
      -(3 * (q 0 ^ 2 - q 1 ^ 2) ^ 2 * (q 3 ^ 2 - q 2 ^ 2) ^ 2 / 32) / (3 * x ^ 3) -
        (-((q 0 ^ 2 + q 1 ^ 2) * (q 3 ^ 2 - q 2 ^ 2) ^ 2 + (q 2 ^ 2 + q 3 ^ 2) * (q 0 ^ 2 - q 1 ^ 2) ^ 2) / 16) / x +
        ((q 0 ^ 2 + q 1 ^ 2) * (q 2 ^ 2 + q 3 ^ 2) / 8 - ((q 0 ^ 2 - q 1 ^ 2) ^ 2 + (q 3 ^ 2 - q 2 ^ 2) ^ 2) / 32) * x +
        -(q 0 ^ 2 + q 1 ^ 2 + (q 2 ^ 2 + q 3 ^ 2)) / 16 * (x ^ 3 / 3) + 3 / 32 * (x ^ 5 / 5) =
      1 / 4 * (x ^ 5 / 5 - (q 0 ^ 2 + q 1 ^ 2 + (q 2 ^ 2 + q 3 ^ 2)) * (x ^ 3 / 3) + (q 0 ^ 2 + q 1 ^ 2) * (q 2 ^ 2 + q 3 ^ 2) * x) := by
    intro x hx
    have h := ends_parallel _ _ _ _ x hx
    by_cases h0 : x = 0
    · rw [h0]; simp
    · field_simp
      linear_combination -7680 * h
  refine HasAvg.laurent hF (3 * (q 0 ^ 2 - q 1 ^ 2) ^ 2 * (q 3 ^ 2 - q 2 ^ 2) ^ 2 / 32)
    (-((q 0 ^ 2 + q 1 ^ 2) * (q 3 ^ 2 - q 2 ^ 2) ^ 2 + (q 2 ^ 2 + q 3 ^ 2) * (q 0 ^ 2 - q 1 ^ 2) ^ 2) / 16)
    ((q 0 ^ 2 + q 1 ^ 2) * (q 2 ^ 2 + q 3 ^ 2) / 8 - ((q 0 ^ 2 - q 1 ^ 2) ^ 2 + (q 3 ^ 2 - q 2 ^ 2) ^ 2) / 32)
    (-(q 0 ^ 2 + q 1 ^ 2 + (q 2 ^ 2 + q 3 ^ 2)) / 16) (3 / 32) _ ?_ (fun d hd => ?_) ?_
  · intro h h'
    rw [h, h']
    constructor <;> ring
  · rw [hr d hd, across_sq hd.1 hd.2.1.1 hd.2.1.2,
      across_sq (a := q 3) (b := q 2) hd.1 (by rw [abs_sub_comm]; exact hd.2.2.1) (by linarith [hd.2.2.2])]
    have := hd.1
    unfold alongOf
    field_simp
    ring
  · rw [key _ (Or.inl rfl), key _ (Or.inr rfl), pairAverage_dots]; ring

theorem avg_dots_03 : HasAvg q (fun k => dot3 (k 0) (k 3) * dot3 (k 1) (k 2))
    (pairAverage (q 0) (q 1) (q 2) (q 3) fun x => dot (q 0) (q 1) x * dot (q 2) (q 3) x) :=
  crossed_avg ((dot3_continuous 0 3).mul (dot3_continuous 1 2)) fun d _ =>
    (ring_sq_of _ _ _ _ fun φ => by rw [kVec_03, kVec_12]).trans (by ring)

theorem avg_dots_02 : HasAvg q (fun k => dot3 (k 0) (k 2) * dot3 (k 1) (k 3))
    (pairAverage (q 0) (q 1) (q 2) (q 3) fun x => dot (q 0) (q 1) x * dot (q 2) (q 3) x) :=
  crossed_avg ((dot3_continuous 0 2).mul (dot3_continuous 1 3)) fun d _ =>
    (ring_sq_of _ _ _ _ fun φ => by rw [kVec_02, kVec_13]).trans (by ring)

end PyBBN
