import Verif.Lemmas.DSymm
import Mathlib.Analysis.SpecialFunctions.Integrals.Basic
/-!
# C36–C39: the angular kernels

Specification.  Four momenta of lengths `q₁..q₄` with vanishing vector sum are described by the
length `d` of `p₁ + p₂ = -(p₃ + p₄)`, which lies in `[|q₁-q₂|, q₁+q₂] ∩ [|q₃-q₄|, q₃+q₄]`; then
`p₁·p₂ = (d² - q₁² - q₂²)/2` and likewise for the other pair.  The kernels are the averages
`½ ∫ g(d) dd` of `1`, `-p₃·p₄` and `(p₁·p₂)(p₃·p₄)`.
-/
namespace PyBBN

open Classical in
/-- `½ ∫ g(d) dd` over the allowed lengths of `p₁ + p₂`; 0 if there is none. -/
noncomputable def pairAverage (q1 q2 q3 q4 : ℝ) (g : ℝ → ℝ) : ℝ :=
  if max |q1 - q2| |q3 - q4| ≤ min (q1 + q2) (q3 + q4) then
    1 / 2 * ∫ d in (max |q1 - q2| |q3 - q4|)..(min (q1 + q2) (q3 + q4)), g d
  else 0

/-- Scalar product of vectors of lengths `a`, `b` whose sum has length `d`. -/
noncomputable def dot (a b d : ℝ) : ℝ := (d ^ 2 - a ^ 2 - b ^ 2) / 2

/-- Momentum cannot be conserved: one length exceeds the sum of the others. -/
def Forbidden (q1 q2 q3 q4 : ℝ) : Prop :=
  q1 > q2 + q3 + q4 ∨ q2 > q1 + q3 + q4 ∨ q3 > q1 + q2 + q4 ∨ q4 > q1 + q2 + q3

theorem pairAverage_eq (q1 q2 q3 q4 : ℝ) (g G : ℝ → ℝ)
    (hG : ∀ a b, ∫ d in a..b, g d = G b - G a) :
    pairAverage q1 q2 q3 q4 g = 1 / 2 * (G (exHi q1 q2 q3 q4) - G (exLo q1 q2 q3 q4)) := by
  unfold pairAverage exHi exLo
  split_ifs with h
  · rw [hG, max_eq_right h]
  · rw [max_eq_left (le_of_lt (not_le.mp h))]; simp

theorem integral_quad (A : ℝ) (a b : ℝ) :
    ∫ d in a..b, (d ^ 2 - A) = (b ^ 3 / 3 - A * b) - (a ^ 3 / 3 - A * a) := by
  rw [intervalIntegral.integral_sub (by simp) (by simp)]
  simp; ring

theorem integral_quartic (A B : ℝ) (a b : ℝ) :
    ∫ d in a..b, (d ^ 4 - A * d ^ 2 + B) =
      (b ^ 5 / 5 - A * (b ^ 3 / 3) + B * b) - (a ^ 5 / 5 - A * (a ^ 3 / 3) + B * a) := by
  have i1 : IntervalIntegrable (fun d : ℝ => d ^ 4) MeasureTheory.volume a b := by simp
  have i2 : IntervalIntegrable (fun d : ℝ => A * d ^ 2) MeasureTheory.volume a b :=
    (by simp : IntervalIntegrable (fun d : ℝ => d ^ 2) MeasureTheory.volume a b).const_mul A
  rw [intervalIntegral.integral_add (i1.sub i2) (by simp), intervalIntegral.integral_sub i1 i2,
    intervalIntegral.integral_const_mul]
  simp; ring

variable {q1 q2 q3 q4 : ℝ}

/-! ## C36 -/

/-- **C36.** `D1` is half the length of the interval of allowed `|p₁ + p₂|`. -/
theorem C36_integral (h1 : 0 ≤ q1) (h2 : 0 ≤ q2) (h3 : 0 ≤ q3) (h4 : 0 ≤ q4) :
    D1 q1 q2 q3 q4 = pairAverage q1 q2 q3 q4 (fun _ => 1) := by
  rw [D1_overlap h1 h2 h3 h4, pairAverage_eq _ _ _ _ _ (fun d => d) (by simp)]

/-- **C36.** Symmetry under all 24 permutations of the arguments, for all real arguments. -/
theorem C36_symmetric (σ : Equiv.Perm (Fin 4)) (q : Fin 4 → ℝ) :
    D1 (q (σ 0)) (q (σ 1)) (q (σ 2)) (q (σ 3)) = D1 (q 0) (q 1) (q 2) (q 3) :=
  symm4 (fun _ => True) D1 (fun a b c d _ _ _ _ => D1_swap12 a b c d)
    (fun a b c d _ _ _ _ => D1_swap23 a b c d) (fun a b c d _ _ _ _ => D1_swap34 a b c d) σ q
    (fun _ => trivial)

/-- **C36.** Bounds: non-negative and at most each of the momenta. -/
theorem C36_bounds (h1 : 0 ≤ q1) (h2 : 0 ≤ q2) (h3 : 0 ≤ q3) (h4 : 0 ≤ q4) :
    0 ≤ D1 q1 q2 q3 q4 ∧ D1 q1 q2 q3 q4 ≤ min (min q1 q2) (min q3 q4) := by
  rw [D1_overlap h1 h2 h3 h4]
  have hle : exLo q1 q2 q3 q4 ≤ exHi q1 q2 q3 q4 := le_max_left _ _
  refine ⟨by linarith, ?_⟩
  have key : ∀ a b : ℝ, 0 ≤ a → 0 ≤ b → a + b - |a - b| = 2 * min a b := by
    intro a b _ _
    rcases le_total a b with h | h
    · rw [min_eq_left h, abs_of_nonpos (by linarith)]; ring
    · rw [min_eq_right h, abs_of_nonneg (by linarith)]; ring
  have k1 := key q1 q2 h1 h2
  have k2 := key q3 q4 h3 h4
  have l1 : |q1 - q2| ≤ exLo q1 q2 q3 q4 := le_max_left _ _
  have l2 : |q3 - q4| ≤ exLo q1 q2 q3 q4 := le_max_right _ _
  have m1 := min_le_left (q1 + q2) (q3 + q4)
  have m2 := min_le_right (q1 + q2) (q3 + q4)
  have n1 : 0 ≤ min q1 q2 := le_min h1 h2
  have n2 : 0 ≤ min q3 q4 := le_min h3 h4
  unfold exHi
  rcases max_cases (exLo q1 q2 q3 q4) (min (q1 + q2) (q3 + q4)) with ⟨e, -⟩ | ⟨e, -⟩ <;> rw [e] <;>
    apply le_min <;> linarith

example : D1 3 1 2 2 ≤ 1 := by
  have := (C36_bounds (q1 := 3) (q2 := 1) (q3 := 2) (q4 := 2) (by norm_num) (by norm_num) (by norm_num) (by norm_num)).2
  norm_num at this
  exact this

theorem forbidden_iff (h1 : 0 ≤ q1) (h2 : 0 ≤ q2) (h3 : 0 ≤ q3) (h4 : 0 ≤ q4) :
    Forbidden q1 q2 q3 q4 ↔ min (q1 + q2) (q3 + q4) < exLo q1 q2 q3 q4 := by
  unfold Forbidden exLo
  rw [min_lt_iff, lt_max_iff, lt_max_iff, lt_abs, lt_abs, lt_abs, lt_abs]
  constructor
  · rintro (h | h | h | h)
    · exact Or.inr (Or.inl (Or.inl (by linarith)))
    · exact Or.inr (Or.inl (Or.inr (by linarith)))
    · exact Or.inl (Or.inr (Or.inl (by linarith)))
    · exact Or.inl (Or.inr (Or.inr (by linarith)))
  · rintro (((h | h) | (h | h)) | ((h | h) | (h | h)))
    · exfalso; linarith
    · exfalso; linarith
    · right; right; left; linarith
    · right; right; right; linarith
    · left; linarith
    · right; left; linarith
    · exfalso; linarith
    · exfalso; linarith

theorem exHi_of_forbidden (h1 : 0 ≤ q1) (h2 : 0 ≤ q2) (h3 : 0 ≤ q3) (h4 : 0 ≤ q4)
    (h : Forbidden q1 q2 q3 q4) : exHi q1 q2 q3 q4 = exLo q1 q2 q3 q4 :=
  max_eq_left (le_of_lt ((forbidden_iff h1 h2 h3 h4).mp h))

/-- **C36.** Zero where momentum cannot be conserved; conversely positive when all momenta are
positive and each is smaller than the sum of the others. -/
theorem C36_support (h1 : 0 ≤ q1) (h2 : 0 ≤ q2) (h3 : 0 ≤ q3) (h4 : 0 ≤ q4) :
    (Forbidden q1 q2 q3 q4 → D1 q1 q2 q3 q4 = 0) ∧
    (0 < q1 → 0 < q2 → 0 < q3 → 0 < q4 → q1 < q2 + q3 + q4 → q2 < q1 + q3 + q4 →
      q3 < q1 + q2 + q4 → q4 < q1 + q2 + q3 → 0 < D1 q1 q2 q3 q4) := by
  rw [D1_overlap h1 h2 h3 h4]
  constructor
  · intro h; rw [exHi_of_forbidden h1 h2 h3 h4 h]; ring
  · intro p1 p2 p3 p4 a b c d
    have : exLo q1 q2 q3 q4 < min (q1 + q2) (q3 + q4) := by
      unfold exLo
      refine max_lt (abs_lt.mpr ⟨?_, ?_⟩) (abs_lt.mpr ⟨?_, ?_⟩)
      · rw [neg_lt]; refine lt_of_lt_of_le (b := min (q1 + q2) (q3 + q4)) ?_ le_rfl
        refine lt_min ?_ ?_ <;> linarith
      · refine lt_min ?_ ?_ <;> linarith
      · rw [neg_lt]; refine lt_min ?_ ?_ <;> linarith
      · refine lt_min ?_ ?_ <;> linarith
    unfold exHi
    rw [max_eq_right this.le]
    linarith

/-- A momentum of 5 cannot be balanced by 1, 2 and 1; 3 can by 1, 2 and 2. -/
example : D1 5 1 2 1 = 0 ∧ 0 < D1 3 1 2 2 :=
  ⟨(C36_support (by norm_num) (by norm_num) (by norm_num) (by norm_num)).1 (by norm_num [Forbidden]),
    (C36_support (by norm_num) (by norm_num) (by norm_num) (by norm_num)).2 (by norm_num) (by norm_num) (by norm_num) (by norm_num)
      (by norm_num) (by norm_num) (by norm_num) (by norm_num)⟩

/-- The published piecewise-linear form of `D1` (also the commented-out code, Ds.cpp 18–35), for
`q₁ ≥ q₂`, `q₃ ≥ q₄`. -/
noncomputable def publishedD1 (q1 q2 q3 q4 : ℝ) : ℝ :=
  open Classical in
  if q1 > q2 + q3 + q4 ∨ q3 > q2 + q1 + q4 then 0
  else if q1 + q2 ≥ q3 + q4 then
    if q1 + q4 ≥ q2 + q3 then 1 / 2 * (-q1 + q2 + q3 + q4) else q4
  else if q1 + q4 < q2 + q3 then 1 / 2 * (q1 + q2 - q3 + q4) else q2

/-- **C36.** `D1` equals the published formula after sorting each pair. -/
theorem C36_published (h1 : 0 ≤ q1) (h2 : 0 ≤ q2) (h3 : 0 ≤ q3) (h4 : 0 ≤ q4) :
    D1 q1 q2 q3 q4 = publishedD1 (max q1 q2) (min q1 q2) (max q3 q4) (min q3 q4) := by
  rw [← D1_sort, ordMax_eq, ordMin_eq, ordMax_eq, ordMin_eq]
  have hab : min q1 q2 ≤ max q1 q2 := min_le_max
  have hcd : min q3 q4 ≤ max q3 q4 := min_le_max
  have hb : 0 ≤ min q1 q2 := le_min h1 h2
  have hd : 0 ≤ min q3 q4 := le_min h3 h4
  rw [D1_overlap_ordered hab hcd hb hd]
  unfold publishedD1
  rcases ex_cases hab hcd hb hd with ⟨h, e⟩ | ⟨h, e⟩ | ⟨h, e1, e2⟩
  · rw [e, if_pos (Or.inl h)]; ring
  · rw [e, if_pos (Or.inr h)]; ring
  · rw [e1, e2, if_neg h]
    split_ifs <;> first | (exfalso; linarith) | ring1

/-! ## C37 -/

/-- **C37.** `D2` is the average of `-p₃·p₄`. -/
theorem C37_integral (h1 : 0 ≤ q1) (h2 : 0 ≤ q2) (h3 : 0 ≤ q3) (h4 : 0 ≤ q4) :
    D2 q1 q2 q3 q4 = pairAverage q1 q2 q3 q4 (fun d => -dot q3 q4 d) := by
  rw [D2_overlap h1 h2 h3 h4, pairAverage_eq _ _ _ _ _
    (fun d => -1 / 2 * (d ^ 3 / 3 - (q3 ^ 2 + q4 ^ 2) * d))]
  · ring
  · intro a b
    have : (fun d => -dot q3 q4 d) = fun d => -1 / 2 * (d ^ 2 - (q3 ^ 2 + q4 ^ 2)) := by
      funext d; unfold dot; ring
    rw [this, intervalIntegral.integral_const_mul, integral_quad]; ring

/-- **C37.** The absolute-value form in the code equals the published piecewise-cubic formula. -/
theorem C37_published (h1 : 0 ≤ q1) (h2 : 0 ≤ q2) (h3 : 0 ≤ q3) (h4 : 0 ≤ q4) :
    D2 q1 q2 q3 q4 = D2branch (max q1 q2) (min q1 q2) (max q3 q4) (min q3 q4) := by
  unfold D2
  rw [ordMax_eq, ordMin_eq, ordMax_eq, ordMin_eq]
  exact D2core_eq_branch _ _ _ _ min_le_max min_le_max (le_min h1 h2) (le_min h3 h4)

/-- **C37.** Symmetry within each pair, for all reals. -/
theorem C37_pair_symmetric (a b c d : ℝ) : D2 a b c d = D2 b a c d ∧ D2 a b c d = D2 a b d c :=
  ⟨D2_swap12 a b c d, D2_swap34 a b c d⟩

/-- **C37.** Zero where momentum cannot be conserved. -/
theorem C37_support (h1 : 0 ≤ q1) (h2 : 0 ≤ q2) (h3 : 0 ≤ q3) (h4 : 0 ≤ q4)
    (h : Forbidden q1 q2 q3 q4) : D2 q1 q2 q3 q4 = 0 := by
  rw [D2_overlap h1 h2 h3 h4, exHi_of_forbidden h1 h2 h3 h4 h]; ring

example : D2 5 1 2 1 = 0 := C37_support (by norm_num) (by norm_num) (by norm_num) (by norm_num) (by norm_num [Forbidden])

/-- `D2` is not symmetric under exchange of the pairs, and may be negative. -/
theorem C37_not_pair_exchange_symmetric :
    D2 3 1 2 2 = -2 / 3 ∧ D2 2 2 3 1 = 1 / 3 := by
  rw [C37_published (by norm_num) (by norm_num) (by norm_num) (by norm_num),
    C37_published (by norm_num) (by norm_num) (by norm_num) (by norm_num)]
  norm_num [D2branch]

/-! ## C38 -/

/-- **C38.** `D3` is the average of `(p₁·p₂)(p₃·p₄)`. -/
theorem C38_integral (h1 : 0 ≤ q1) (h2 : 0 ≤ q2) (h3 : 0 ≤ q3) (h4 : 0 ≤ q4) :
    D3 q1 q2 q3 q4 = pairAverage q1 q2 q3 q4 (fun d => dot q1 q2 d * dot q3 q4 d) := by
  rw [D3_overlap h1 h2 h3 h4, pairAverage_eq _ _ _ _ _
    (fun d => 1 / 4 * (d ^ 5 / 5 - (q1 ^ 2 + q2 ^ 2 + (q3 ^ 2 + q4 ^ 2)) * (d ^ 3 / 3)
      + (q1 ^ 2 + q2 ^ 2) * (q3 ^ 2 + q4 ^ 2) * d))]
  · ring
  · intro a b
    have : (fun d => dot q1 q2 d * dot q3 q4 d) = fun d => 1 / 4 *
        (d ^ 4 - (q1 ^ 2 + q2 ^ 2 + (q3 ^ 2 + q4 ^ 2)) * d ^ 2
          + (q1 ^ 2 + q2 ^ 2) * (q3 ^ 2 + q4 ^ 2)) := by
      funext d; unfold dot; ring
    rw [this, intervalIntegral.integral_const_mul, integral_quartic]; ring

/-- **C38.** Symmetry under all 24 permutations of non-negative arguments. -/
theorem C38_symmetric (σ : Equiv.Perm (Fin 4)) (q : Fin 4 → ℝ) (hq : ∀ i, 0 ≤ q i) :
    D3 (q (σ 0)) (q (σ 1)) (q (σ 2)) (q (σ 3)) = D3 (q 0) (q 1) (q 2) (q 3) :=
  symm4 (fun x => 0 ≤ x) D3 (fun a b c d _ _ _ _ => D3_swap12 a b c d)
    (fun a b c d ha hb hc hd => (D3_pairings a b c d ha hb hc hd).1)
    (fun a b c d _ _ _ _ => D3_swap34 a b c d) σ q hq

example : D3 1 3 2 2 = D3 3 1 2 2 := by
  have := C38_symmetric (Equiv.swap 0 1) ![3, 1, 2, 2] (by intro i; fin_cases i <;> simp)
  simpa [Equiv.swap_apply_of_ne_of_ne] using this

/-- **C38.** Zero where momentum cannot be conserved. -/
theorem C38_support (h1 : 0 ≤ q1) (h2 : 0 ≤ q2) (h3 : 0 ≤ q3) (h4 : 0 ≤ q4)
    (h : Forbidden q1 q2 q3 q4) : D3 q1 q2 q3 q4 = 0 := by
  rw [D3_overlap h1 h2 h3 h4, exHi_of_forbidden h1 h2 h3 h4 h]; ring

example : D3 5 1 2 1 = 0 := C38_support (by norm_num) (by norm_num) (by norm_num) (by norm_num) (by norm_num [Forbidden])

theorem continuous_exLo : Continuous fun q : Fin 4 → ℝ => exLo (q 0) (q 1) (q 2) (q 3) := by
  unfold exLo; fun_prop

theorem continuous_exHi : Continuous fun q : Fin 4 → ℝ => exHi (q 0) (q 1) (q 2) (q 3) := by
  unfold exHi
  exact continuous_exLo.max (by fun_prop)

/-- **C38.** All three kernels are continuous in the momenta: branches agree on their common
boundaries, including the edge of the allowed region. -/
theorem C38_continuous :
    ContinuousOn (fun q : Fin 4 → ℝ => D1 (q 0) (q 1) (q 2) (q 3)) {q | ∀ i, 0 ≤ q i} ∧
    ContinuousOn (fun q : Fin 4 → ℝ => D2 (q 0) (q 1) (q 2) (q 3)) {q | ∀ i, 0 ≤ q i} ∧
    ContinuousOn (fun q : Fin 4 → ℝ => D3 (q 0) (q 1) (q 2) (q 3)) {q | ∀ i, 0 ≤ q i} := by
  have hl := continuous_exLo
  have hh := continuous_exHi
  refine ⟨?_, ?_, ?_⟩
  · refine ContinuousOn.congr (f := fun q : Fin 4 → ℝ =>
      1 / 2 * (exHi (q 0) (q 1) (q 2) (q 3) - exLo (q 0) (q 1) (q 2) (q 3))) ?_
      (fun q hq => D1_overlap (hq 0) (hq 1) (hq 2) (hq 3))
    exact Continuous.continuousOn (by fun_prop)
  · refine ContinuousOn.congr ?_ (fun q hq => D2_overlap (hq 0) (hq 1) (hq 2) (hq 3))
    exact Continuous.continuousOn (by fun_prop)
  · refine ContinuousOn.congr ?_ (fun q hq => D3_overlap (hq 0) (hq 1) (hq 2) (hq 3))
    exact Continuous.continuousOn (by fun_prop)

/-- Concrete values in the allowed region. -/
example : D1 3 1 2 2 = 1 ∧ D2 3 1 2 2 = -2 / 3 ∧ D3 3 1 2 2 = 14 / 5 ∧ ¬ Forbidden 3 1 2 2 := by
  rw [D1_overlap (by norm_num) (by norm_num) (by norm_num) (by norm_num),
    D2_overlap (by norm_num) (by norm_num) (by norm_num) (by norm_num),
    D3_overlap (by norm_num) (by norm_num) (by norm_num) (by norm_num)]
  have h1 : exLo 3 1 2 2 = 2 := by unfold exLo; norm_num [abs_of_pos]
  have h2 : exHi 3 1 2 2 = 4 := by unfold exHi; rw [h1]; norm_num
  rw [h1, h2]
  norm_num [Forbidden]

end PyBBN
