import Verif.Model.Grids
import Mathlib.Algebra.Order.Floor.Ring
import Mathlib.Data.Real.Archimedean
import Mathlib.Tactic.FieldSimp
import Mathlib.Tactic.Ring
import Mathlib.Tactic.Linarith
import Mathlib.Tactic.Positivity
/-!
# C20, C21: momentum grids
-/
namespace PyBBN

/-! ## C20 -/

/-- What a user expects from a grid object of `n` samples up to `mx`. -/
structure GoodGrid (g : Grid) (n : ℕ) (mx : ℝ) : Prop where
  samples : g.samples = n
  length : g.template.length = n
  minM : g.minMomentum = 0
  maxM : g.maxMomentum = mx
  first : g.template.head? = some 0
  last : g.template.getLast? = some mx
  increasing : g.template.Pairwise (· < ·)

theorem pairwise_map_range {n : ℕ} {f : ℕ → ℝ} (h : ∀ i j, i < j → j < n → f i < f j) :
    ((List.range n).map f).Pairwise (· < ·) := by
  rw [List.pairwise_iff_getElem]
  intro i j hi hj hij
  simp at hi hj
  simpa using h i j hij hj

/-- **C20.** Linear grid: for at least two samples and a positive maximum the grid is strictly
increasing from 0 to the maximum with exactly the requested number of points, uniformly spaced. -/
theorem C20_linear (defMax : ℝ) (defN n : ℕ) (mx : ℝ) (hn : 2 ≤ n) (hmx : 0 < mx) :
    let g := linearSpacedGrid defMax defN (some n) (some mx)
    GoodGrid g n mx ∧ ∀ i, (hi : i < g.template.length) → g.template[i] = i * (mx / (n - 1)) := by
  intro g
  have hg : g = ⟨0, mx, n, linspace 0 mx n⟩ := by
    simp only [g, linearSpacedGrid, orDefault]
    rw [if_neg (ne_of_gt hmx), if_neg (by omega)]
  have hn1 : ((n - 1 : ℕ) : ℝ) = (n : ℝ) - 1 := by push_cast [Nat.cast_sub (by omega : 1 ≤ n)]; rfl
  have hpos : (0 : ℝ) < (n : ℝ) - 1 := by
    have : (2 : ℝ) ≤ n := by exact_mod_cast hn
    linarith
  rw [hg]
  refine ⟨⟨rfl, by simp [linspace], rfl, rfl, ?_, ?_, ?_⟩, ?_⟩
  · simp only [linspace, List.head?_map]
    rw [show n = (n - 1) + 1 by omega, List.range_succ_eq_map]; simp
  · simp only [linspace, List.getLast?_map]
    rw [show (List.range n).getLast? = some (n - 1) by
      rw [List.getLast?_range, if_neg (by omega)]]
    simp only [Option.map_some]
    rw [hn1]; congr 1; field_simp; ring
  · apply pairwise_map_range
    intro i j hij _
    have : (i : ℝ) < j := by exact_mod_cast hij
    have : 0 < (mx - 0) / ((n - 1 : ℕ) : ℝ) := by rw [hn1, sub_zero]; positivity
    nlinarith
  · intro i hi
    simp [linspace, hn1]

/-- **C20.** Logarithmic grid: same guarantees; the spacing grows by the factor 1.2. -/
theorem C20_log (defMax : ℝ) (defN n : ℕ) (mx : ℝ) (hn : 2 ≤ n) (hmx : 0 < mx) :
    let g := logSpacedGrid defMax defN (some n) (some mx)
    GoodGrid g n mx ∧ ∀ (i : ℕ) (x y z : ℝ), g.template[i]? = some x → g.template[i + 1]? = some y →
      g.template[i + 2]? = some z → z - y = 1.2 * (y - x) := by
  intro g
  have hg : g = ⟨0, 0 + mx, n, logTemplate 0 (0 + mx) n⟩ := by
    simp only [g, logSpacedGrid, orDefault]
    rw [if_neg (ne_of_gt hmx), if_neg (by omega)]
  have hpos : (0 : ℝ) < (1.2 : ℝ) ^ (n - 1) - 1 := by
    have := one_lt_pow₀ (by norm_num : (1 : ℝ) < 1.2) (by omega : n - 1 ≠ 0)
    linarith
  rw [hg]
  refine ⟨⟨rfl, by simp [logTemplate], rfl, by simp, ?_, ?_, ?_⟩, ?_⟩
  · simp only [logTemplate, List.head?_map]
    rw [show n = (n - 1) + 1 by omega, List.range_succ_eq_map]; simp
  · simp only [logTemplate, List.getLast?_map]
    rw [show (List.range n).getLast? = some (n - 1) by
      rw [List.getLast?_range, if_neg (by omega)]]
    simp only [Option.map_some]
    congr 1
    rw [mul_div_assoc, div_self (ne_of_gt hpos)]; ring
  · apply pairwise_map_range
    intro i j hij _
    have : (1.2 : ℝ) ^ i < 1.2 ^ j := pow_lt_pow_right₀ (by norm_num) hij
    have h1 : (0 + mx - 0) * ((1.2 : ℝ) ^ i - 1) < (0 + mx - 0) * ((1.2 : ℝ) ^ j - 1) := by nlinarith
    have := div_lt_div_of_pos_right h1 hpos
    linarith
  · intro i x y z hx hy hz
    obtain ⟨h1, rfl⟩ := List.getElem?_eq_some_iff.mp hx
    obtain ⟨h2, rfl⟩ := List.getElem?_eq_some_iff.mp hy
    obtain ⟨h3, rfl⟩ := List.getElem?_eq_some_iff.mp hz
    simp only [logTemplate, List.getElem_map, List.getElem_range]
    field_simp
    ring

/-- **C20.** A missing or zero argument falls back to the environment default, for both classes. -/
theorem C20_defaults (defMax : ℝ) (defN : ℕ) (n : Option ℕ) (mx : Option ℝ) :
    (linearSpacedGrid defMax defN none mx = linearSpacedGrid defMax defN (some defN) mx ∨ defN = 0) ∧
    linearSpacedGrid defMax defN (some 0) mx = linearSpacedGrid defMax defN none mx ∧
    linearSpacedGrid defMax defN n (some 0) = linearSpacedGrid defMax defN n none ∧
    (linearSpacedGrid defMax defN n none).maxMomentum = defMax ∧
    (linearSpacedGrid defMax defN none mx).samples = defN ∧
    logSpacedGrid defMax defN (some 0) mx = logSpacedGrid defMax defN none mx ∧
    logSpacedGrid defMax defN n (some 0) = logSpacedGrid defMax defN n none ∧
    (logSpacedGrid defMax defN n none).maxMomentum = defMax ∧
    (logSpacedGrid defMax defN none mx).samples = defN := by
  refine ⟨?_, ?_, ?_, ?_, ?_, ?_, ?_, ?_, ?_⟩
  · by_cases h : defN = 0
    · exact Or.inr h
    · left; simp [linearSpacedGrid, orDefault, h]
  all_goals simp [linearSpacedGrid, logSpacedGrid, orDefault]

example : GoodGrid (linearSpacedGrid 100 401 (some 5) (some 20)) 5 20 :=
  (C20_linear 100 401 5 20 (by norm_num) (by norm_num)).1

/-! ## C21 -/

theorem heurT_pos_le (M aT c g : ℝ) (hM : 0 < M) (ha : 0 < aT) (hc : 0 < c) (hg : 0 < g) :
    0 < heurT M aT c g ∧ heurT M aT c g ≤ M * c ^ 2 / 4 := by
  set u := g * c ^ 2 with hu
  have hupos : 0 < u := by positivity
  set r := Real.sqrt (aT * (aT + 2 * g * c ^ 2)) with hr
  have hrr : r * r = aT * (aT + 2 * u) := by
    rw [hr, Real.mul_self_sqrt (by positivity), hu]; ring
  have hr0 : 0 ≤ r := Real.sqrt_nonneg _
  have hra : aT ≤ r := by
    rw [hr]; apply Real.le_sqrt_of_sq_le; nlinarith
  have key : (aT + u - r) * (aT + u + r) = u ^ 2 := by nlinarith
  have hsum : 0 < aT + u + r := by positivity
  have hdiff : aT + u - r = u ^ 2 / (aT + u + r) := by
    rw [eq_div_iff (ne_of_gt hsum)]; exact key
  have hT : heurT M aT c g = aT * M * c ^ 2 / (2 * (aT + u + r)) := by
    unfold heurT
    rw [← hr, ← hu, hdiff, hu]
    field_simp
  rw [hT]
  constructor
  · positivity
  · rw [div_le_div_iff₀ (by positivity) (by norm_num)]
    have h1 : 2 * aT ≤ aT + u + r := by linarith
    have h2 : 0 ≤ M * c ^ 2 := by positivity
    nlinarith

/-- Each step lowers the momentum by at least a fixed positive amount. -/
theorem heurNext_step (M aT c g : ℝ) (hM : 0 < M) (ha : 0 < aT) (hc : 0 < c) (hg : 0 < g) :
    heurNext M aT c g = 0 ∨ heurNext M aT c g ≤ g - 2 * aT / (c * Real.sqrt c) := by
  obtain ⟨hT, hTle⟩ := heurT_pos_le M aT c g hM ha hc hg
  set T := heurT M aT c g with hTdef
  have hsc : 0 < Real.sqrt c := Real.sqrt_pos.mpr hc
  have hscc : Real.sqrt c * Real.sqrt c = c := Real.mul_self_sqrt hc.le
  have hstep : 2 * aT / (c * Real.sqrt c) ≤ Real.sqrt (M * T / c) * aT / T := by
    have h1 : 2 * T / (c * Real.sqrt c) ≤ Real.sqrt (M * T / c) := by
      apply Real.le_sqrt_of_sq_le
      have e : (2 * T / (c * Real.sqrt c)) ^ 2 = 4 * T ^ 2 / (c ^ 3) := by
        rw [div_pow, mul_pow, mul_pow, show Real.sqrt c ^ 2 = c by rw [sq]; exact hscc]
        congr 1; ring
      rw [e, div_le_div_iff₀ (by positivity) hc]
      have : 4 * T ≤ M * c ^ 2 := by linarith
      nlinarith [mul_pos hT hc, mul_le_mul_of_nonneg_left this (mul_pos hT hc).le]
    rw [le_div_iff₀ hT]
    calc 2 * aT / (c * Real.sqrt c) * T = 2 * T / (c * Real.sqrt c) * aT := by ring
      _ ≤ Real.sqrt (M * T / c) * aT := mul_le_mul_of_nonneg_right h1 ha.le
  unfold heurNext
  rw [← hTdef]
  simp only
  rcases max_choice (g - Real.sqrt (M * T / c) * aT / T) 0 with h | h
  · right; rw [h]; linarith
  · left; exact h

theorem heurNext_nonneg (M aT c g : ℝ) : 0 ≤ heurNext M aT c g := le_max_right _ _

theorem heurLoop_spec (M aT c : ℝ) (hM : 0 < M) (ha : 0 < aT) (hc : 0 < c) (N : ℕ) :
    ∀ (g : ℝ) (rest : List ℝ), 0 ≤ g → g ≤ N * (2 * aT / (c * Real.sqrt c)) →
      (g :: rest).Pairwise (· < ·) →
      ∃ t, (∀ fuel, N ≤ fuel → heurLoop M aT c fuel (g :: rest) = some t) ∧
        t.head? = some 0 ∧ t.Pairwise (· < ·) ∧ t.getLast? = (g :: rest).getLast? ∧
        t.length ≤ (g :: rest).length + N := by
  have hd : 0 < 2 * aT / (c * Real.sqrt c) := by
    have := Real.sqrt_pos.mpr hc; positivity
  induction N with
  | zero =>
    intro g rest h0 hle hp
    have : g = 0 := by simp at hle; linarith
    subst this
    refine ⟨0 :: rest, ?_, rfl, hp, rfl, by simp⟩
    intro fuel _
    cases fuel <;> simp [heurLoop]
  | succ N ih =>
    intro g rest h0 hle hp
    by_cases hg : g > 0
    · have hn0 := heurNext_nonneg M aT c g
      have hstep := heurNext_step M aT c g hM ha hc hg
      have hlt : heurNext M aT c g < g := by
        rcases hstep with h | h
        · rw [h]; exact hg
        · linarith
      have hle' : heurNext M aT c g ≤ N * (2 * aT / (c * Real.sqrt c)) := by
        rcases hstep with h | h
        · rw [h]; positivity
        · push_cast at hle; linarith
      have hp' : (heurNext M aT c g :: g :: rest).Pairwise (· < ·) := by
        rw [List.pairwise_cons]
        refine ⟨?_, hp⟩
        intro x hx
        rcases List.mem_cons.mp hx with rfl | hx
        · exact hlt
        · exact lt_trans hlt ((List.pairwise_cons.mp hp).1 x hx)
      obtain ⟨t, e, a, b, d, l⟩ := ih _ (g :: rest) hn0 hle' hp'
      refine ⟨t, ?_, a, b, by rw [d]; simp [List.getLast?_cons_cons],
        by simp only [List.length_cons] at l ⊢; omega⟩
      intro fuel hf
      match fuel, hf with
      | fuel + 1, hf =>
        simp only [heurLoop, hg, if_true]
        exact e fuel (by omega)
    · have : g = 0 := by linarith [not_lt.mp hg]
      subst this
      refine ⟨0 :: rest, ?_, rfl, hp, rfl, by simp⟩
      intro fuel _
      cases fuel <;> simp [heurLoop]

/-- **C21.** For positive parameters the construction terminates — within an explicit number of
iterations — and yields a strictly increasing grid from 0 to its maximum, of consistent length. -/
theorem C21_terminates (s M tau aT b c : ℝ) (hs : 0 < s) (hM : 0 < M) (htau : 0 < tau)
    (ha : 0 < aT) (hb : 0 < b) (hc : 0 < c) (N : ℕ)
    (hN : heurFirst s M tau aT b ≤ N * (2 * aT / (c * Real.sqrt c))) :
    ∃ g : Grid, (∀ fuel, N ≤ fuel → heuristicGrid s M tau aT b c fuel = some g) ∧
      g.template.Pairwise (· < ·) ∧ g.template.head? = some 0 ∧
      g.template.getLast? = some g.maxMomentum ∧ g.minMomentum = 0 ∧ 0 < g.maxMomentum ∧
      g.samples = g.template.length ∧ g.samples ≤ N + 1 := by
  have hfirst : 0 < heurFirst s M tau aT b := by
    unfold heurFirst
    have : 0 < Real.sqrt (2 * (0.5 / s) * b * tau) := Real.sqrt_pos.mpr (by positivity)
    have := Real.sqrt_nonneg (M * (aT / Real.sqrt (2 * (0.5 / s) * b * tau)))
    positivity
  obtain ⟨t, e, h0, hp, hl, hlen⟩ := heurLoop_spec M aT c hM ha hc N (heurFirst s M tau aT b) []
    hfirst.le hN (by simp)
  refine ⟨⟨0, heurFirst s M tau aT b, t.length, t⟩, ?_, hp, h0, by simpa using hl, rfl, hfirst, rfl,
    by simpa [add_comm] using hlen⟩
  intro fuel hf
  simp [heuristicGrid, e fuel hf]

/-- A bound `N` as in `C21_terminates` always exists. -/
theorem C21_bound_exists (s M tau aT b c : ℝ) (ha : 0 < aT) (hc : 0 < c) :
    ∃ N : ℕ, heurFirst s M tau aT b ≤ N * (2 * aT / (c * Real.sqrt c)) := by
  have hd : 0 < 2 * aT / (c * Real.sqrt c) := by
    have := Real.sqrt_pos.mpr hc; positivity
  obtain ⟨N, hN⟩ := exists_nat_ge (heurFirst s M tau aT b / (2 * aT / (c * Real.sqrt c)))
  exact ⟨N, by rwa [div_le_iff₀ hd] at hN⟩

/-- The default parameters (`aT` of 1, `b = 0.8`, `c = 200`) meet the hypotheses. -/
example : ∃ g : Grid, ∃ N, ∀ fuel, N ≤ fuel → heuristicGrid 1 140 1 1 0.8 200 fuel = some g := by
  obtain ⟨N, hN⟩ := C21_bound_exists 1 140 1 1 0.8 200 one_pos (by norm_num)
  obtain ⟨g, h, _⟩ := C21_terminates 1 140 1 1 0.8 200 one_pos (by norm_num) one_pos one_pos
    (by norm_num) (by norm_num) N hN
  exact ⟨g, N, h⟩

end PyBBN
