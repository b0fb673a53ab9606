import Verif.Props.Collision
import Verif.Lemmas.DLimits
import Mathlib.Analysis.InnerProductSpace.PiL2
/-!
# C35: the kinematic cut-off

Specification: vectors of the given lengths in three-dimensional space adding up to zero.
-/
namespace PyBBN

/-- Three-dimensional Euclidean space. -/
abbrev Space := EuclideanSpace ℝ (Fin 3)

/-- Momentum can be conserved with the given lengths. -/
def CanClose {n : ℕ} (p : Fin n → ℝ) : Prop :=
  ∃ v : Fin n → Space, (∀ i, ‖v i‖ = p i) ∧ ∑ i, v i = 0

theorem norm_vec (x y : ℝ) : ‖(!₂[x, y, 0] : Space)‖ = √(x ^ 2 + y ^ 2) := by
  rw [EuclideanSpace.norm_eq]
  simp [Fin.sum_univ_three]

/-- A triangle with sides `a, b, d`. -/
theorem triangle {a b d : ℝ} (ha : 0 ≤ a) (hb : 0 ≤ b) (h1 : |a - b| ≤ d) (h2 : d ≤ a + b) :
    ∃ v w : Space, ‖v‖ = a ∧ ‖w‖ = b ∧ v + w = !₂[d, 0, 0] := by
  have hd : 0 ≤ d := (abs_nonneg _).trans h1
  rcases eq_or_lt_of_le hd with h | h
  · subst h
    have hab : a = b := by
      have := abs_nonpos_iff.mp h1; linarith
    subst hab
    refine ⟨!₂[a, 0, 0], !₂[-a, 0, 0], ?_, ?_, ?_⟩
    · rw [norm_vec]; simp [Real.sqrt_sq ha]
    · rw [norm_vec]; simp [Real.sqrt_sq ha]
    · ext i; fin_cases i <;> simp
  · obtain ⟨g1, g2⟩ := abs_le.mp h1
    set x := (a ^ 2 + d ^ 2 - b ^ 2) / (2 * d) with hx
    have hxd : 2 * d * x = a ^ 2 + d ^ 2 - b ^ 2 := by rw [hx]; field_simp
    have hy : 0 ≤ a ^ 2 - x ^ 2 := by
      have : 0 ≤ (2 * d) ^ 2 * (a ^ 2 - x ^ 2) := by
        have : (2 * d) ^ 2 * (a ^ 2 - x ^ 2) =
            ((a + d - b) * (b + d - a)) * ((a + b - d) * (a + b + d)) := by
          have : (2 * d) ^ 2 * (a ^ 2 - x ^ 2) = (2 * d * a) ^ 2 - (2 * d * x) ^ 2 := by ring
          rw [this, hxd]; ring
        rw [this]
        apply mul_nonneg <;> apply mul_nonneg <;> linarith
      by_contra hc
      push Not at hc
      have : (2 * d) ^ 2 * (a ^ 2 - x ^ 2) < 0 := mul_neg_of_pos_of_neg (by positivity) hc
      linarith
    refine ⟨!₂[x, √(a ^ 2 - x ^ 2), 0], !₂[d - x, -√(a ^ 2 - x ^ 2), 0], ?_, ?_, ?_⟩
    · rw [norm_vec, Real.sq_sqrt hy, show x ^ 2 + (a ^ 2 - x ^ 2) = a ^ 2 by ring, Real.sqrt_sq ha]
    · rw [norm_vec, neg_sq, Real.sq_sqrt hy,
        show (d - x) ^ 2 + (a ^ 2 - x ^ 2) = b ^ 2 by linear_combination -hxd, Real.sqrt_sq hb]
    · ext i; fin_cases i <;> simp

/-- Closing vectors exist exactly when no length exceeds the sum of the others. -/
theorem canClose4_iff (p : Fin 4 → ℝ) (hp : ∀ i, 0 ≤ p i) :
    CanClose p ↔ p 0 ≤ p 1 + p 2 + p 3 ∧ p 1 ≤ p 0 + p 2 + p 3 ∧ p 2 ≤ p 0 + p 1 + p 3 ∧
      p 3 ≤ p 0 + p 1 + p 2 := by
  constructor
  · rintro ⟨v, hv, hsum⟩
    rw [Fin.sum_univ_four] at hsum
    have t : ∀ a b c : Space, ‖a + b + c‖ ≤ ‖a‖ + ‖b‖ + ‖c‖ := fun a b c => norm_add₃_le
    have e0 : v 0 = -(v 1 + v 2 + v 3) := by
      rw [eq_neg_iff_add_eq_zero, ← hsum]; abel
    have e1 : v 1 = -(v 0 + v 2 + v 3) := by
      rw [eq_neg_iff_add_eq_zero, ← hsum]; abel
    have e2 : v 2 = -(v 0 + v 1 + v 3) := by
      rw [eq_neg_iff_add_eq_zero, ← hsum]; abel
    have e3 : v 3 = -(v 0 + v 1 + v 2) := by
      rw [eq_neg_iff_add_eq_zero, ← hsum]; abel
    rw [← hv 0, ← hv 1, ← hv 2, ← hv 3]
    refine ⟨?_, ?_, ?_, ?_⟩
    · conv_lhs => rw [e0, norm_neg]
      exact t _ _ _
    · conv_lhs => rw [e1, norm_neg]
      exact t _ _ _
    · conv_lhs => rw [e2, norm_neg]
      exact t _ _ _
    · conv_lhs => rw [e3, norm_neg]
      exact t _ _ _
  · rintro ⟨h0, h1, h2, h3⟩
    have n0 := hp 0
    have n1 := hp 1
    have n2 := hp 2
    have n3 := hp 3
    set d := max |p 0 - p 1| |p 2 - p 3| with hd
    have d1 : d ≤ p 0 + p 1 := max_le (abs_le.mpr ⟨by linarith, by linarith⟩)
      (abs_le.mpr ⟨by linarith, by linarith⟩)
    have d2 : d ≤ p 2 + p 3 := max_le (abs_le.mpr ⟨by linarith, by linarith⟩)
      (abs_le.mpr ⟨by linarith, by linarith⟩)
    obtain ⟨v, w, hv, hw, hvw⟩ := triangle n0 n1 (le_max_left _ _ : _ ≤ d) d1
    obtain ⟨v', w', hv', hw', hvw'⟩ := triangle n2 n3 (le_max_right _ _ : _ ≤ d) d2
    refine ⟨![v, w, -v', -w'], ?_, ?_⟩
    · intro i
      fin_cases i
      · exact hv
      · exact hw
      · change ‖-v'‖ = _; rw [norm_neg]; exact hv'
      · change ‖-w'‖ = _; rw [norm_neg]; exact hw'
    · rw [Fin.sum_univ_four]
      change v + w + -v' + -w' = 0
      rw [hvw, ← hvw']; abel

/-- **C35.** The four-particle cut-off accepts exactly when the fourth energy is at least its mass and
vectors of the four lengths can sum to zero. -/
theorem C35_four (p E m : Fin 4 → ℝ) (hp : ∀ i, 0 ≤ p i) :
    inBounds4 p E m ↔ m 3 ≤ E 3 ∧ CanClose p := by
  rw [canClose4_iff p hp]
  unfold inBounds4
  rw [ordMax_eq, ordMin_eq, ordMax_eq, ordMin_eq]
  have n0 := hp 0
  have n1 := hp 1
  have n2 := hp 2
  have n3 := hp 3
  refine and_congr Iff.rfl ?_
  rcases le_total (p 0) (p 1) with h | h <;> rcases le_total (p 2) (p 3) with g | g <;>
    simp only [max_eq_left, max_eq_right, min_eq_left, min_eq_right, h, g] <;>
    constructor <;> intro hh
  all_goals first
    | (obtain ⟨a, b, c, d⟩ := hh; exact ⟨by linarith, by linarith⟩)
    | (obtain ⟨a, b⟩ := hh; exact ⟨by linarith, by linarith, by linarith, by linarith⟩)

/-- **C35.** Consequently an accepted configuration is realised by actual three-momenta, and what the
integrand discards has none. -/
theorem C35_integrand_support (p0 p1 p2 : ℝ) (r : Fin 4 → Reactant) (Ms : List CM) (kind : ℤ)
    (h0 : 0 ≤ p0) (h1 : 0 ≤ p1) (h2 : 0 ≤ p2) (v : ℝ) (hv : v ≠ 0)
    (h : integrandFull4 p0 p1 p2 r Ms kind = .ok v) :
    (r 3).specie.m ≤ lastEnergy4 r p0 p1 p2 ∧ CanClose (momenta4 r p0 p1 p2) := by
  have hp : ∀ i, 0 ≤ momenta4 r p0 p1 p2 i := by
    intro i
    fin_cases i
    exacts [h0, h1, h2, Real.sqrt_nonneg _]
  unfold integrandFull4 at h
  by_cases hE : lastEnergy4 r p0 p1 p2 < (r 3).specie.m
  · rw [if_pos hE] at h
    exact absurd (Except.ok.inj h).symm hv
  rw [if_neg hE] at h
  by_cases hb : inBounds4 (momenta4 r p0 p1 p2) (energies4 r p0 p1 p2) fun i => (r i).specie.m
  · exact ⟨not_lt.mp hE, ((C35_four _ _ _ hp).mp hb).2⟩
  · simp only [if_pos hb] at h
    exact absurd (Except.ok.inj h).symm hv

theorem canClose3_iff (p : Fin 3 → ℝ) (hp : ∀ i, 0 ≤ p i) :
    CanClose p ↔ p 0 ≤ p 1 + p 2 ∧ p 1 ≤ p 0 + p 2 ∧ p 2 ≤ p 0 + p 1 := by
  constructor
  · rintro ⟨v, hv, hsum⟩
    rw [Fin.sum_univ_three] at hsum
    have e0 : v 0 = -(v 1 + v 2) := by rw [eq_neg_iff_add_eq_zero, ← hsum]; abel
    have e1 : v 1 = -(v 0 + v 2) := by rw [eq_neg_iff_add_eq_zero, ← hsum]; abel
    have e2 : v 2 = -(v 0 + v 1) := by rw [eq_neg_iff_add_eq_zero, ← hsum]; abel
    rw [← hv 0, ← hv 1, ← hv 2]
    refine ⟨?_, ?_, ?_⟩
    · conv_lhs => rw [e0, norm_neg]
      exact norm_add_le _ _
    · conv_lhs => rw [e1, norm_neg]
      exact norm_add_le _ _
    · conv_lhs => rw [e2, norm_neg]
      exact norm_add_le _ _
  · rintro ⟨h0, h1, h2⟩
    obtain ⟨v, w, hv, hw, hvw⟩ := triangle (hp 0) (hp 1)
      (abs_le.mpr ⟨by linarith, by linarith⟩ : |p 0 - p 1| ≤ p 2) h2
    refine ⟨![v, w, -!₂[p 2, 0, 0]], ?_, ?_⟩
    · intro i
      fin_cases i
      · exact hv
      · exact hw
      · change ‖-(!₂[p 2, 0, 0] : Space)‖ = _
        rw [norm_neg, norm_vec]
        simp [Real.sqrt_sq (hp 2)]
    · rw [Fin.sum_univ_three]
      change v + w + -!₂[p 2, 0, 0] = 0
      rw [hvw]; abel

theorem inBounds3_eq (p : Fin 3 → ℝ) :
    inBounds3 p = sgn (p 0 + p 1 - p 2) + sgn (p 0 - p 1 + p 2) + sgn (-p 0 + p 1 + p 2)
      - sgn (p 0 + p 1 + p 2) := by
  have h := Db1_eq (p 0) (p 1) (p 2)
  have e : Db1 (p 0) (p 1) (p 2) = 0.5 * inBounds3 p := rfl
  rw [e] at h
  norm_num at h
  linarith

/-- **C35.** Three-particle factor: 2 in the interior of the triangle region, 1 on the degenerate boundary,
0 outside (for positive momenta) … -/
theorem C35_three (p : Fin 3 → ℝ) (hp : ∀ i, 0 < p i) :
    (inBounds3 p = 2 ∨ inBounds3 p = 1 ∨ inBounds3 p = 0) ∧
    (inBounds3 p = 2 ↔ p 0 < p 1 + p 2 ∧ p 1 < p 0 + p 2 ∧ p 2 < p 0 + p 1) ∧
    (inBounds3 p = 1 ↔ p 0 = p 1 + p 2 ∨ p 1 = p 0 + p 2 ∨ p 2 = p 0 + p 1) ∧
    (0 < inBounds3 p ↔ CanClose p) := by
  have n0 := hp 0
  have n1 := hp 1
  have n2 := hp 2
  rw [canClose3_iff p (fun i => (hp i).le), inBounds3_eq, sgn_pos (show 0 < p 0 + p 1 + p 2 by linarith)]
  rcases lt_trichotomy (p 0 + p 1 - p 2) 0 with a | a | a
  · rw [sgn_of_neg a, sgn_pos (show 0 < p 0 - p 1 + p 2 by linarith),
      sgn_pos (show 0 < -p 0 + p 1 + p 2 by linarith)]
    norm_num
    refine ⟨fun _ _ => by linarith, ⟨by intro; linarith, by intro; linarith, by intro; linarith⟩, fun _ _ => by linarith⟩
  · rw [a, sgn_zero, sgn_pos (show 0 < p 0 - p 1 + p 2 by linarith),
      sgn_pos (show 0 < -p 0 + p 1 + p 2 by linarith)]
    norm_num
    refine ⟨fun _ _ => by linarith, by right; right; linarith, by linarith, by linarith, by linarith⟩
  · rw [sgn_pos a]
    rcases lt_trichotomy (p 0 - p 1 + p 2) 0 with b | b | b
    · rw [sgn_of_neg b, sgn_pos (show 0 < -p 0 + p 1 + p 2 by linarith)]
      norm_num
      refine ⟨fun _ _ => by linarith, ⟨by intro; linarith, by intro; linarith, by intro; linarith⟩, fun _ _ => by linarith⟩
    · rw [b, sgn_zero, sgn_pos (show 0 < -p 0 + p 1 + p 2 by linarith)]
      norm_num
      refine ⟨fun _ _ => by linarith, by right; left; linarith, by linarith, by linarith, by linarith⟩
    · rw [sgn_pos b]
      rcases lt_trichotomy (-p 0 + p 1 + p 2) 0 with c | c | c
      · rw [sgn_of_neg c]
        norm_num
        refine ⟨fun _ _ => by linarith, ⟨by intro; linarith, by intro; linarith, by intro; linarith⟩, fun _ _ => by linarith⟩
      · rw [c, sgn_zero]
        norm_num
        refine ⟨fun _ _ => by linarith, by left; linarith, by linarith, by linarith, by linarith⟩
      · rw [sgn_pos c]
        norm_num
        refine ⟨⟨by linarith, by linarith, by linarith⟩, ⟨by intro; linarith, by intro; linarith, by intro; linarith⟩, by linarith, by linarith, by linarith⟩

/-- … and 0 if any momentum vanishes, even where momentum can be conserved. -/
theorem C35_three_zero_momentum (p : Fin 3 → ℝ) (h : p 0 = 0 ∨ p 1 = 0 ∨ p 2 = 0) :
    inBounds3 p = 0 := by
  rw [inBounds3_eq]
  rcases h with h | h | h <;> rw [h]
  · rw [show 0 + p 1 - p 2 = -(0 - p 1 + p 2) by ring, sgn_neg,
      show -0 + p 1 + p 2 = 0 + p 1 + p 2 by ring]; ring
  · rw [show p 0 + 0 - p 2 = -(-p 0 + 0 + p 2) by ring, sgn_neg,
      show p 0 - 0 + p 2 = p 0 + 0 + p 2 by ring]; ring
  · rw [show p 0 - p 1 + 0 = -(-p 0 + p 1 + 0) by ring, sgn_neg,
      show p 0 + p 1 - 0 = p 0 + p 1 + 0 by ring]; ring

/-- **C35.** For non-negative momenta a non-zero factor means that momentum can be conserved. -/
theorem C35_three_sound (p : Fin 3 → ℝ) (hp : ∀ i, 0 ≤ p i) (h : inBounds3 p ≠ 0) : CanClose p := by
  have hpos : ∀ i, 0 < p i := by
    intro i
    refine lt_of_le_of_ne (hp i) fun he => h (C35_three_zero_momentum p ?_)
    fin_cases i
    exacts [Or.inl he.symm, Or.inr (Or.inl he.symm), Or.inr (Or.inr he.symm)]
  obtain ⟨h3, -, -, hc⟩ := C35_three p hpos
  refine hc.mp ?_
  rcases h3 with e | e | e
  · rw [e]; norm_num
  · rw [e]; norm_num
  · exact absurd e h

/-- Accepted, boundary and rejected configurations. -/
example : inBounds3 ![3, 4, 5] = 2 ∧ inBounds3 ![1, 2, 3] = 1 ∧ inBounds3 ![1, 1, 3] = 0 ∧
    inBounds4 ![1, 2, 3, 4] ![0, 0, 0, 9] ![0, 0, 0, 8] ∧
    ¬ inBounds4 ![1, 2, 8, 4] ![0, 0, 0, 9] ![0, 0, 0, 8] := by
  refine ⟨?_, ?_, ?_, ?_, ?_⟩
  · rw [inBounds3_eq]; simp only [Matrix.cons_val]; norm_num [sgn]
  · rw [inBounds3_eq]; simp only [Matrix.cons_val]; norm_num [sgn]
  · rw [inBounds3_eq]; simp only [Matrix.cons_val]; norm_num [sgn]
  · simp only [inBounds4, ordMax, ordMin, Matrix.cons_val]; norm_num
  · simp only [inBounds4, ordMax, ordMin, Matrix.cons_val]; norm_num

end PyBBN
