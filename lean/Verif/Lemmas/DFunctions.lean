import Verif.Model.DFunctions
import Mathlib.Tactic.Linarith
import Mathlib.Tactic.Ring
import Mathlib.Algebra.Order.Group.Abs
/-! Helper lemmas on the angular kernels: every kernel on ordered arguments as a polynomial. -/
namespace PyBBN

theorem sgn_mul_sq (x : ℝ) : x ^ 2 * sgn x = x * |x| := by
  unfold sgn
  rcases lt_trichotomy x 0 with h | h | h
  · simp [h, not_lt.mpr h.le, abs_of_neg h]; ring
  · subst h; simp
  · simp [h, not_lt.mpr h.le, abs_of_pos h]; ring

theorem sgn_neg (x : ℝ) : sgn (-x) = -sgn x := by
  unfold sgn; simp only [gt_iff_lt, Left.neg_pos_iff, Left.neg_neg_iff]; ring

theorem sgn_pos {x : ℝ} (h : 0 < x) : sgn x = 1 := by simp [sgn, h, not_lt.mpr h.le]
theorem sgn_of_neg {x : ℝ} (h : x < 0) : sgn x = -1 := by simp [sgn, h, not_lt.mpr h.le]
@[simp] theorem sgn_zero : sgn 0 = 0 := by simp [sgn]

theorem ordMax_eq (a b : ℝ) : ordMax a b = max a b := by
  unfold ordMax; split_ifs with h
  · rw [max_eq_right h.le]
  · rw [max_eq_left (not_lt.mp h)]

theorem ordMin_eq (a b : ℝ) : ordMin a b = min a b := by
  unfold ordMin; split_ifs with h
  · rw [min_eq_left h.le]
  · rw [min_eq_right (not_lt.mp h)]

/-- The published piecewise form of `D2` on ordered arguments. -/
noncomputable def D2branch (q1 q2 q3 q4 : ℝ) : ℝ :=
  open Classical in
  if q1 > q2 + q3 + q4 ∨ q3 > q2 + q1 + q4 then 0
  else if q1 + q2 ≥ q3 + q4 then
    if q1 + q4 ≥ q2 + q3 then
      ((q1 - q2) * ((q1 - q2) ^ 2 - 3 * (q3 ^ 2 + q4 ^ 2)) + 2 * (q3 ^ 3 + q4 ^ 3)) / 12
    else q4 ^ 3 / 3
  else
    if q1 + q4 ≥ q2 + q3 then q2 * (3 * (q3 ^ 2 + q4 ^ 2 - q1 ^ 2) - q2 ^ 2) / 6
    else ((q1 + q2) * (3 * (q3 ^ 2 + q4 ^ 2) - (q1 + q2) ^ 2) + 2 * (q4 ^ 3 - q3 ^ 3)) / 12

/-- The signed squares in `D2core` as `x |x|`, with the always non-negative ones removed. -/
theorem D2core_abs (q1 q2 q3 q4 : ℝ) (h12 : q2 ≤ q1) (h34 : q4 ≤ q3) (h2 : 0 ≤ q2) (h4 : 0 ≤ q4) :
    D2core q1 q2 q3 q4 =
      (24 * q1 * q2 * q4 + 24 * q2 * q3 * q4 + |q1 + q2 - q3 - q4| ^ 3 + |q1 - q2 - q3 + q4| ^ 3
    - |q1 + q2 - q3 + q4| ^ 3
    + 6 * q3 * q4 * (4 * q2 + |q1 + q2 - q3 - q4| - |q1 - q2 - q3 + q4| + |q1 + q2 - q3 + q4|
      - |-q1 + q2 + q3 + q4|)
    - |-q1 + q2 + q3 + q4| ^ 3
    - 3 * q4 * (-((-q1 + q2 + q3 + q4) * |-q1 + q2 + q3 + q4|)
      - (q1 + q2 - q3 - q4) * |q1 + q2 - q3 - q4|
      - (q1 - q2 + q3 - q4) ^ 2
      + (q1 + q2 + q3 - q4) ^ 2
      + (q1 - q2 - q3 + q4) * |q1 - q2 - q3 + q4|
      - (q1 + q2 - q3 + q4) * |q1 + q2 - q3 + q4|
      - (q1 - q2 + q3 + q4) ^ 2
      + (q1 + q2 + q3 + q4) ^ 2)
    - 3 * q3 * (-((-q1 + q2 + q3 + q4) * |-q1 + q2 + q3 + q4|)
      - (q1 + q2 - q3 - q4) * |q1 + q2 - q3 - q4|
      + (q1 - q2 + q3 - q4) ^ 2
      - (q1 + q2 + q3 - q4) ^ 2
      - (q1 - q2 - q3 + q4) * |q1 - q2 - q3 + q4|
      + (q1 + q2 - q3 + q4) * |q1 + q2 - q3 + q4|
      - (q1 - q2 + q3 + q4) ^ 2
      + (q1 + q2 + q3 + q4) ^ 2)) / 24 := by
  have e1 : (-q1 + q2 + q3 + q4) ^ 2 * sgn (q1 - q2 - q3 - q4) =
      -((-q1 + q2 + q3 + q4) * |-q1 + q2 + q3 + q4|) := by
    rw [← sgn_mul_sq, show q1 - q2 - q3 - q4 = -(-q1 + q2 + q3 + q4) by ring, sgn_neg]; ring
  have e2 : (q1 - q2 + q3 - q4) ^ 2 * sgn (q1 - q2 + q3 - q4) = (q1 - q2 + q3 - q4) ^ 2 := by
    rw [sgn_mul_sq, abs_of_nonneg (by linarith)]; ring
  have e3 : (q1 + q2 + q3 - q4) ^ 2 * sgn (q1 + q2 + q3 - q4) = (q1 + q2 + q3 - q4) ^ 2 := by
    rw [sgn_mul_sq, abs_of_nonneg (by linarith)]; ring
  have e4 : (q1 - q2 + q3 + q4) ^ 2 * sgn (q1 - q2 + q3 + q4) = (q1 - q2 + q3 + q4) ^ 2 := by
    rw [sgn_mul_sq, abs_of_nonneg (by linarith)]; ring
  have e5 : (q1 + q2 + q3 + q4) ^ 2 * sgn (q1 + q2 + q3 + q4) = (q1 + q2 + q3 + q4) ^ 2 := by
    rw [sgn_mul_sq, abs_of_nonneg (by linarith)]; ring
  unfold D2core
  rw [e1, e2, e3, e4, e5, sgn_mul_sq, sgn_mul_sq, sgn_mul_sq]

/-- On ordered non-negative arguments the absolute-value form equals the piecewise form. -/
theorem D2core_eq_branch (q1 q2 q3 q4 : ℝ) (h12 : q2 ≤ q1) (h34 : q4 ≤ q3) (h2 : 0 ≤ q2)
    (h4 : 0 ≤ q4) : D2core q1 q2 q3 q4 = D2branch q1 q2 q3 q4 := by
  rw [D2core_abs q1 q2 q3 q4 h12 h34 h2 h4]
  unfold D2branch
  by_cases hA : q3 + q4 ≤ q1 + q2
  · rw [abs_of_nonneg (by linarith : (0 : ℝ) ≤ q1 + q2 - q3 - q4),
      abs_of_nonneg (by linarith : (0 : ℝ) ≤ q1 + q2 - q3 + q4)]
    by_cases hD : q1 ≤ q2 + q3 + q4
    · rw [abs_of_nonneg (by linarith : (0 : ℝ) ≤ -q1 + q2 + q3 + q4),
        if_neg (by push_neg; constructor <;> linarith), if_pos hA]
      by_cases hB : q2 + q3 ≤ q1 + q4
      · rw [abs_of_nonneg (by linarith : (0 : ℝ) ≤ q1 - q2 - q3 + q4), if_pos hB]; ring
      · rw [abs_of_neg (by linarith : q1 - q2 - q3 + q4 < 0), if_neg hB]; ring
    · rw [abs_of_neg (by linarith : -q1 + q2 + q3 + q4 < 0), if_pos (Or.inl (not_le.mp hD)),
        abs_of_nonneg (by linarith : (0 : ℝ) ≤ q1 - q2 - q3 + q4)]
      ring
  · rw [abs_of_neg (by linarith : q1 + q2 - q3 - q4 < 0),
      abs_of_nonneg (by linarith : (0 : ℝ) ≤ -q1 + q2 + q3 + q4)]
    by_cases hC : q3 ≤ q1 + q2 + q4
    · rw [abs_of_nonneg (by linarith : (0 : ℝ) ≤ q1 + q2 - q3 + q4),
        if_neg (by push_neg; constructor <;> linarith), if_neg hA]
      by_cases hB : q2 + q3 ≤ q1 + q4
      · rw [abs_of_nonneg (by linarith : (0 : ℝ) ≤ q1 - q2 - q3 + q4), if_pos hB]; ring
      · rw [abs_of_neg (by linarith : q1 - q2 - q3 + q4 < 0), if_neg hB]; ring
    · rw [abs_of_neg (by linarith : q1 + q2 - q3 + q4 < 0), if_pos (Or.inr (by linarith)),
        abs_of_neg (by linarith : q1 - q2 - q3 + q4 < 0)]
      ring

/-! ## The kernels as integrals over the momentum exchanged between the two pairs -/

/-- Smallest possible length of `p₁ + p₂ = -(p₃ + p₄)`. -/
noncomputable def exLo (q1 q2 q3 q4 : ℝ) : ℝ := max |q1 - q2| |q3 - q4|
/-- Largest possible length of `p₁ + p₂ = -(p₃ + p₄)`, or `exLo` if there is none. -/
noncomputable def exHi (q1 q2 q3 q4 : ℝ) : ℝ := max (exLo q1 q2 q3 q4) (min (q1 + q2) (q3 + q4))

theorem exLo_ordered {a b c d : ℝ} (hab : b ≤ a) (hcd : d ≤ c) :
    exLo a b c d = max (a - b) (c - d) := by
  unfold exLo
  rw [abs_of_nonneg (by linarith), abs_of_nonneg (by linarith)]

theorem exLo_sort (q1 q2 q3 q4 : ℝ) :
    exLo (ordMax q1 q2) (ordMin q1 q2) (ordMax q3 q4) (ordMin q3 q4) = exLo q1 q2 q3 q4 := by
  have h : ∀ a b : ℝ, |ordMax a b - ordMin a b| = |a - b| := by
    intro a b
    rw [ordMax_eq, ordMin_eq, max_sub_min_eq_abs, abs_abs, abs_sub_comm]
  unfold exLo
  rw [h, h]

theorem ord_add (a b : ℝ) : ordMax a b + ordMin a b = a + b := by
  rw [ordMax_eq, ordMin_eq, max_add_min]

theorem exHi_sort (q1 q2 q3 q4 : ℝ) :
    exHi (ordMax q1 q2) (ordMin q1 q2) (ordMax q3 q4) (ordMin q3 q4) = exHi q1 q2 q3 q4 := by
  unfold exHi
  rw [exLo_sort, ord_add, ord_add]

theorem ord_sq (a b : ℝ) : ordMax a b ^ 2 + ordMin a b ^ 2 = a ^ 2 + b ^ 2 := by
  unfold ordMax ordMin; split_ifs <;> ring

/-- The five possible positions of the two intervals, for ordered arguments. -/
theorem ex_cases {a b c d : ℝ} (hab : b ≤ a) (hcd : d ≤ c) (hb : 0 ≤ b) (hd : 0 ≤ d) :
    (a > b + c + d ∧ exHi a b c d = exLo a b c d) ∨
    (c > b + a + d ∧ exHi a b c d = exLo a b c d) ∨
    ((¬ (a > b + c + d ∨ c > b + a + d)) ∧
      exLo a b c d = (if a + d ≥ b + c then a - b else c - d) ∧
      exHi a b c d = (if a + b ≥ c + d then c + d else a + b)) := by
  have hlo := exLo_ordered hab hcd
  by_cases h1 : a > b + c + d
  · left
    refine ⟨h1, ?_⟩
    unfold exHi
    rw [max_eq_left]
    rw [hlo]
    exact le_trans (min_le_right _ _) (le_trans (by linarith) (le_max_left _ _))
  · by_cases h2 : c > b + a + d
    · right; left
      refine ⟨h2, ?_⟩
      unfold exHi
      rw [max_eq_left]
      rw [hlo]
      exact le_trans (min_le_left _ _) (le_trans (by linarith) (le_max_right _ _))
    · right; right
      push Not at h1 h2
      refine ⟨by push Not; exact ⟨h1, h2⟩, ?_, ?_⟩
      · rw [hlo]
        split_ifs with h
        · exact max_eq_left (by linarith)
        · exact max_eq_right (by linarith)
      · unfold exHi
        rw [max_eq_right]
        · split_ifs with h
          · exact min_eq_right h
          · exact min_eq_left (by linarith)
        · rw [hlo]
          refine le_min (max_le ?_ ?_) (max_le ?_ ?_) <;> linarith

theorem D1_overlap_ordered {a b c d : ℝ} (hab : b ≤ a) (hcd : d ≤ c) (hb : 0 ≤ b) (hd : 0 ≤ d) :
    D1 a b c d = 1 / 2 * (exHi a b c d - exLo a b c d) := by
  have ha := hb.trans hab
  have hc := hd.trans hcd
  unfold D1
  rw [abs_of_nonneg (by linarith : (0 : ℝ) ≤ a - b + c - d),
    abs_of_nonneg (by linarith : (0 : ℝ) ≤ a + b + c - d),
    abs_of_nonneg (by linarith : (0 : ℝ) ≤ a - b + c + d),
    abs_of_nonneg (by linarith : (0 : ℝ) ≤ a + b + c + d)]
  rcases ex_cases hab hcd hb hd with ⟨h, e⟩ | ⟨h, e⟩ | ⟨h, e1, e2⟩
  · rw [e, abs_of_nonneg (by linarith : (0 : ℝ) ≤ a + b - c - d),
      abs_of_nonneg (by linarith : (0 : ℝ) ≤ a - b - c + d),
      abs_of_nonneg (by linarith : (0 : ℝ) ≤ a + b - c + d),
      abs_of_neg (by linarith : -a + b + c + d < 0)]
    norm_num; ring
  · rw [e, abs_of_neg (by linarith : a + b - c - d < 0),
      abs_of_neg (by linarith : a - b - c + d < 0),
      abs_of_neg (by linarith : a + b - c + d < 0),
      abs_of_nonneg (by linarith : 0 ≤ -a + b + c + d)]
    norm_num; ring
  · push Not at h
    rw [e1, e2, abs_of_nonneg (by linarith : (0 : ℝ) ≤ -a + b + c + d),
      abs_of_nonneg (by linarith : (0 : ℝ) ≤ a + b - c + d)]
    split_ifs with h1 h2 h2
    · rw [abs_of_nonneg (by linarith : (0 : ℝ) ≤ a + b - c - d),
        abs_of_nonneg (by linarith : (0 : ℝ) ≤ a - b - c + d)]; norm_num; ring
    · rw [abs_of_nonneg (by linarith : (0 : ℝ) ≤ a + b - c - d),
        abs_of_neg (by linarith : a - b - c + d < 0)]; norm_num; ring
    · rw [abs_of_neg (by linarith : a + b - c - d < 0),
        abs_of_nonneg (by linarith : (0 : ℝ) ≤ a - b - c + d)]; norm_num; ring
    · rw [abs_of_neg (by linarith : a + b - c - d < 0),
        abs_of_neg (by linarith : a - b - c + d < 0)]; norm_num; ring

theorem D2_overlap_ordered {a b c d : ℝ} (hab : b ≤ a) (hcd : d ≤ c) (hb : 0 ≤ b) (hd : 0 ≤ d) :
    D2core a b c d = -1 / 4 * ((exHi a b c d ^ 3 - exLo a b c d ^ 3) / 3
      - (c ^ 2 + d ^ 2) * (exHi a b c d - exLo a b c d)) := by
  rw [D2core_eq_branch a b c d hab hcd hb hd]
  unfold D2branch
  rcases ex_cases hab hcd hb hd with ⟨h, e⟩ | ⟨h, e⟩ | ⟨h, e1, e2⟩
  · rw [e, if_pos (Or.inl h)]; ring
  · rw [e, if_pos (Or.inr h)]; ring
  · rw [e1, e2, if_neg h]
    split_ifs <;> ring

theorem D3_overlap_ordered {a b c d : ℝ} (hab : b ≤ a) (hcd : d ≤ c) (hb : 0 ≤ b) (hd : 0 ≤ d) :
    D3core a b c d = 1 / 8 * ((exHi a b c d ^ 5 - exLo a b c d ^ 5) / 5
      - (a ^ 2 + b ^ 2 + (c ^ 2 + d ^ 2)) * ((exHi a b c d ^ 3 - exLo a b c d ^ 3) / 3)
      + (a ^ 2 + b ^ 2) * (c ^ 2 + d ^ 2) * (exHi a b c d - exLo a b c d)) := by
  unfold D3core
  rcases ex_cases hab hcd hb hd with ⟨h, e⟩ | ⟨h, e⟩ | ⟨h, e1, e2⟩
  · rw [e, if_pos (Or.inl h)]; ring
  · rw [e, if_pos (Or.inr h)]; ring
  · rw [e1, e2, if_neg h]
    split_ifs <;> ring

theorem D1_swap12 (a b c d : ℝ) : D1 a b c d = D1 b a c d := by
  unfold D1
  rw [show b + a - c - d = a + b - c - d by ring, show b - a + c - d = -(a - b - c + d) by ring,
    show b + a + c - d = a + b + c - d by ring, show b - a - c + d = -(a - b + c - d) by ring,
    show b + a - c + d = a + b - c + d by ring, show b - a + c + d = -a + b + c + d by ring,
    show -b + a + c + d = a - b + c + d by ring, show b + a + c + d = a + b + c + d by ring,
    abs_neg, abs_neg]
  ring

theorem D1_swap34 (a b c d : ℝ) : D1 a b c d = D1 a b d c := by
  unfold D1
  rw [show a + b - d - c = a + b - c - d by ring, show a - b + d - c = a - b - c + d by ring,
    show a + b + d - c = a + b - c + d by ring, show a - b - d + c = a - b + c - d by ring,
    show a + b - d + c = a + b + c - d by ring, show a - b + d + c = a - b + c + d by ring,
    show -a + b + d + c = -a + b + c + d by ring, show a + b + d + c = a + b + c + d by ring]
  ring

theorem D1_swap23 (a b c d : ℝ) : D1 a b c d = D1 a c b d := by
  unfold D1
  rw [show a + c - b - d = a - b + c - d by ring, show a - c + b - d = a + b - c - d by ring,
    show a + c + b - d = a + b + c - d by ring, show a - c - b + d = a - b - c + d by ring,
    show a + c - b + d = a - b + c + d by ring, show a - c + b + d = a + b - c + d by ring,
    show -a + c + b + d = -a + b + c + d by ring, show a + c + b + d = a + b + c + d by ring]
  ring

theorem D1_sort (q1 q2 q3 q4 : ℝ) :
    D1 (ordMax q1 q2) (ordMin q1 q2) (ordMax q3 q4) (ordMin q3 q4) = D1 q1 q2 q3 q4 := by
  unfold ordMax ordMin
  split_ifs
  · rw [D1_swap12, D1_swap34]
  · rw [D1_swap12]
  · rw [D1_swap34]
  · rfl

theorem ord_le (a b : ℝ) : ordMin a b ≤ ordMax a b := by
  rw [ordMax_eq, ordMin_eq]; exact min_le_max
theorem ordMin_nonneg {a b : ℝ} (ha : 0 ≤ a) (hb : 0 ≤ b) : 0 ≤ ordMin a b := by
  rw [ordMin_eq]; exact le_min ha hb

variable {q1 q2 q3 q4 : ℝ}

theorem D1_overlap (h1 : 0 ≤ q1) (h2 : 0 ≤ q2) (h3 : 0 ≤ q3) (h4 : 0 ≤ q4) :
    D1 q1 q2 q3 q4 = 1 / 2 * (exHi q1 q2 q3 q4 - exLo q1 q2 q3 q4) := by
  rw [← D1_sort, D1_overlap_ordered (ord_le _ _) (ord_le _ _) (ordMin_nonneg h1 h2)
    (ordMin_nonneg h3 h4), exHi_sort, exLo_sort]

theorem D2_overlap (h1 : 0 ≤ q1) (h2 : 0 ≤ q2) (h3 : 0 ≤ q3) (h4 : 0 ≤ q4) :
    D2 q1 q2 q3 q4 = -1 / 4 * ((exHi q1 q2 q3 q4 ^ 3 - exLo q1 q2 q3 q4 ^ 3) / 3
      - (q3 ^ 2 + q4 ^ 2) * (exHi q1 q2 q3 q4 - exLo q1 q2 q3 q4)) := by
  unfold D2
  rw [D2_overlap_ordered (ord_le _ _) (ord_le _ _) (ordMin_nonneg h1 h2)
    (ordMin_nonneg h3 h4), exHi_sort, exLo_sort, ord_sq]

theorem D3_overlap (h1 : 0 ≤ q1) (h2 : 0 ≤ q2) (h3 : 0 ≤ q3) (h4 : 0 ≤ q4) :
    D3 q1 q2 q3 q4 = 1 / 8 * ((exHi q1 q2 q3 q4 ^ 5 - exLo q1 q2 q3 q4 ^ 5) / 5
      - (q1 ^ 2 + q2 ^ 2 + (q3 ^ 2 + q4 ^ 2)) * ((exHi q1 q2 q3 q4 ^ 3 - exLo q1 q2 q3 q4 ^ 3) / 3)
      + (q1 ^ 2 + q2 ^ 2) * (q3 ^ 2 + q4 ^ 2) * (exHi q1 q2 q3 q4 - exLo q1 q2 q3 q4)) := by
  unfold D3
  rw [D3_overlap_ordered (ord_le _ _) (ord_le _ _) (ordMin_nonneg h1 h2)
    (ordMin_nonneg h3 h4), exHi_sort, exLo_sort, ord_sq, ord_sq]

end PyBBN
