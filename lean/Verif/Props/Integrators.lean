import Verif.Model.Integrators
import Mathlib.Algebra.Polynomial.Degree.Lemmas
import Mathlib.Algebra.Polynomial.Eval.Degree
import Mathlib.Algebra.BigOperators.Group.List.Basic
import Mathlib.Analysis.SpecialFunctions.Integrals.Basic
import Mathlib.Topology.Algebra.Polynomial
import Mathlib.Tactic.FieldSimp
import Mathlib.Tactic.Ring
import Mathlib.Tactic.Linarith
/-!
# C14–C17, C19: ODE steps and quadrature
-/
namespace PyBBN
open Polynomial intervalIntegral

/-! ## C14 -/

theorem integral_poly (p : ℝ[X]) (k : ℕ) (hp : p.natDegree < k) (a b : ℝ) :
    ∫ t in a..b, p.eval t = ∑ i ∈ Finset.range k, p.coeff i * ((b ^ (i + 1) - a ^ (i + 1)) / (i + 1)) := by
  have : ∀ t, p.eval t = ∑ i ∈ Finset.range k, p.coeff i * t ^ i := fun t =>
    Polynomial.eval_eq_sum_range' hp t
  simp_rw [this]
  rw [intervalIntegral.integral_finsetSum]
  · simp_rw [intervalIntegral.integral_const_mul, integral_pow]
  · intro i _
    exact (Continuous.intervalIntegrable (by fun_prop) _ _)

/-- Slopes `p(t-(k-1)h), …, p(t-h), p(t)` preceding time `t`, oldest first. -/
noncomputable def pastSlopes (p : ℝ[X]) (t h : ℝ) (k : ℕ) : List ℝ :=
  (List.range k).map fun j => p.eval (t - ((k : ℝ) - 1 - j) * h)

theorem pyLast_append {α : Type*} (pre l : List α) (k : ℕ) (hk : 0 < k) (hl : l.length = k) :
    pyLast (pre ++ l) k = l := by
  unfold pyLast
  rw [if_neg (by omega), List.length_append, hl, Nat.add_sub_cancel, List.drop_append_of_le_length le_rfl,
    List.drop_length, List.nil_append]

/-- **C14 (exactness).** For `k = 1..5`, a slope polynomial of degree `< k`, any older history `pre`,
any time and step: the order-`k` correction is the exact integral of the slope over the next
step. -/
theorem C14_exact (p : ℝ[X]) (k : ℕ) (hk : 1 ≤ k ∧ k ≤ 5) (hp : p.natDegree < k) (t h : ℝ)
    (pre : List ℝ) :
    adamsBashforth (pre ++ pastSlopes p t h k) h (some k) = .ok (∫ s in t..(t + h), p.eval s) := by
  have hlen : (pastSlopes p t h k).length = k := by simp [pastSlopes]
  rw [integral_poly p k hp]
  unfold adamsBashforth
  simp only [pyLast_append pre _ k (by omega) hlen, hlen, if_true]
  have ev : ∀ s, p.eval s = ∑ i ∈ Finset.range k, p.coeff i * s ^ i := fun s =>
    Polynomial.eval_eq_sum_range' hp s
  obtain ⟨h1, h5⟩ := hk
  unfold pastSlopes dotZip
  simp only [ev]
  interval_cases k <;>
  · simp [abCoefficients, List.range_succ, Finset.sum_range_succ]
    try norm_num
    try ring

/-- **C14.** With the order chosen automatically the same holds for a history of length `k ≤ 5`
exactly, and for five or more samples the order is five. -/
theorem C14_exact_auto (p : ℝ[X]) (k : ℕ) (hk : 1 ≤ k ∧ k ≤ 5) (hp : p.natDegree < k) (t h : ℝ)
    (pre : List ℝ) (hpre : pre = [] ∨ k = 5) :
    adamsBashforth (pre ++ pastSlopes p t h k) h none = .ok (∫ s in t..(t + h), p.eval s) := by
  rw [← C14_exact p k hk hp t h pre]
  have hlen : (pastSlopes p t h k).length = k := by simp [pastSlopes]
  have : min maxAB (pre ++ pastSlopes p t h k).length = k := by
    rcases hpre with rfl | rfl
    · simp only [List.nil_append, hlen, maxAB]; omega
    · simp only [List.length_append, hlen, maxAB]; omega
  unfold adamsBashforth
  simp only [this]

example : adamsBashforth ([7, 7] ++ pastSlopes (X ^ 4 : ℝ[X]) 1 2 5) 2 none = .ok (∫ s in (1 : ℝ)..(1 + 2), (X ^ 4 : ℝ[X]).eval s) :=
  C14_exact_auto (X ^ 4) 5 (by omega) (by simp) 1 2 [7, 7] (Or.inr rfl)

/-- **C14 (locality).** Only the last `k` slopes matter. -/
theorem C14_last_samples_only (pre pre' fs : List ℝ) (k : ℕ) (h : ℝ) (hk : 0 < k)
    (hl : fs.length = k) :
    adamsBashforth (pre ++ fs) h (some k) = adamsBashforth (pre' ++ fs) h (some k) := by
  unfold adamsBashforth
  simp only [pyLast_append _ fs k hk hl]

example : adamsBashforth [7, 8, 1, 2] 1 (some 2) = adamsBashforth [1, 2] 1 (some 2) :=
  C14_last_samples_only [7, 8] [] [1, 2] 2 1 (by omega) rfl

/-- **C14 (errors).** No history with automatic order: `KeyError`; explicit order 0 or above 5:
`KeyError`; explicit order beyond the available history: `AssertionError`; otherwise a value. -/
theorem C14_errors (fs : List ℝ) (h : ℝ) (k : ℕ) :
    adamsBashforth [] h none = .error .keyError ∧
    (k = 0 ∨ 5 < k → adamsBashforth fs h (some k) = .error .keyError) ∧
    (1 ≤ k ∧ k ≤ 5 → fs.length < k → adamsBashforth fs h (some k) = .error .assertionError) ∧
    (1 ≤ k ∧ k ≤ 5 → k ≤ fs.length → ∃ v, adamsBashforth fs h (some k) = .ok v) ∧
    (fs ≠ [] → ∃ v, adamsBashforth fs h none = .ok v) := by
  have hc : ∀ j, 1 ≤ j ∧ j ≤ 5 → ∃ c, abCoefficients j = some c := by
    rintro j ⟨h1, h5⟩
    interval_cases j <;> exact ⟨_, rfl⟩
  have hlast : ∀ j, 0 < j → j ≤ fs.length → (pyLast fs j).length = j := by
    intro j hj hl
    unfold pyLast; rw [if_neg (by omega), List.length_drop]; omega
  refine ⟨rfl, ?_, ?_, ?_, ?_⟩
  · intro hk
    have : abCoefficients k = none := by
      unfold abCoefficients
      split <;> first | rfl | omega
    simp [adamsBashforth, this]
  · intro hk hl
    obtain ⟨c, hc⟩ := hc k hk
    have : (pyLast fs k).length ≠ k := by
      unfold pyLast; rw [if_neg (by omega), List.length_drop]; omega
    simp [adamsBashforth, hc, this]
  · intro hk hl
    obtain ⟨c, hc⟩ := hc k hk
    have := hlast k (by omega) hl
    exact ⟨h * dotZip c.1 (pyLast fs k) / c.2, by simp [adamsBashforth, hc, this]⟩
  · intro hne
    have hpos : 0 < fs.length := List.length_pos_iff.mpr hne
    obtain ⟨c, hc⟩ := hc (min maxAB fs.length) (by unfold maxAB; omega)
    have := hlast (min maxAB fs.length) (by unfold maxAB; omega) (by omega)
    exact ⟨h * dotZip c.1 (pyLast fs (min maxAB fs.length)) / c.2, by
      simp only [adamsBashforth, hc, this, if_true]⟩

example : adamsBashforth (([7, 7] : List ℝ) ++ pastSlopes (X ^ 2 : ℝ[X]) 1 1 3) 1 (some 3) =
    .ok (∫ s in (1 : ℝ)..(1 + 1), (X ^ 2 : ℝ[X]).eval s) :=
  C14_exact (X ^ 2) 3 (by omega) (by simp) 1 1 [7, 7]

/-! ## C15 -/

/-- Textbook Adams–Moulton weights for the past slopes (oldest first) and for the new slope. -/
noncomputable def amWeights : ℕ → List ℝ × ℝ
  | 1 => ([], 1)
  | 2 => ([1/2], 1/2)
  | 3 => ([-1/12, 8/12], 5/12)
  | 4 => ([1/24, -5/24, 19/24], 9/24)
  | 5 => ([-19/720, 106/720, -264/720, 646/720], 251/720)
  | _ => ([], 0)

/-- The implicit equation to be solved. -/
def AMEquation (y : ℝ) (past : List ℝ) (A B h : ℝ) (order : ℕ) (y' : ℝ) : Prop :=
  y' = y + h * ((List.zipWith (· * ·) (amWeights order).1 past).sum
    + (amWeights order).2 * (A + B * y'))

/-- **C15.** With `order - 1` recorded slopes `past` (and any older history `pre`; none for order 1),
the solver returns the unique solution of the implicit equation, whenever the equation is
non-degenerate. -/
theorem C15_solves (y A B h : ℝ) (pre past : List ℝ) (order : ℕ) (ho : 1 ≤ order ∧ order ≤ 5)
    (hl : past.length = order - 1) (h1 : order = 1 → pre = [])
    (hden : 1 - h * B * (amWeights order).2 ≠ 0) :
    ∃ y', adamsMoulton y (pre ++ past) A B h (some order) = .ok y' ∧
      AMEquation y past A B h order y' ∧
      ∀ z, AMEquation y past A B h order z → z = y' := by
  have hlast : pyLast (pre ++ past) (order - 1) = past := by
    by_cases h0 : order = 1
    · subst h0
      have : past = [] := List.length_eq_zero_iff.mp hl
      rw [h1 rfl, this]; rfl
    · exact pyLast_append _ _ _ (by omega) hl
  have key : ∃ bs d, amCoefficients order = some (bs, d) ∧ d ≠ 0 ∧
      bs.getLastD 0 = d * (amWeights order).2 ∧
      dotZip bs (past ++ [A]) =
        d * ((List.zipWith (· * ·) (amWeights order).1 past).sum + (amWeights order).2 * A) := by
    obtain ⟨o1, o5⟩ := ho
    interval_cases order
    · match past, hl with
      | [], _ => exact ⟨_, _, rfl, by norm_num, by simp [amWeights], by simp [amWeights, dotZip]⟩
    · match past, hl with
      | [a], _ => exact ⟨_, _, rfl, by norm_num, by simp [amWeights],
          by simp [amWeights, dotZip]; ring⟩
    · match past, hl with
      | [a, b], _ => exact ⟨_, _, rfl, by norm_num, by simp [amWeights]; norm_num,
          by simp [amWeights, dotZip]; ring⟩
    · match past, hl with
      | [a, b, c], _ => exact ⟨_, _, rfl, by norm_num, by simp [amWeights]; norm_num,
          by simp [amWeights, dotZip]; ring⟩
    · match past, hl with
      | [a, b, c, e], _ => exact ⟨_, _, rfl, by norm_num, by simp [amWeights]; norm_num,
          by simp [amWeights, dotZip]; ring⟩
  obtain ⟨bs, d, e1, hd, e2, e3⟩ := key
  have hlen : (past ++ [A]).length = order := by simp [hl]; omega
  set W := (List.zipWith (· * ·) (amWeights order).1 past).sum with hW
  set w := (amWeights order).2 with hw
  have hval : adamsMoulton y (pre ++ past) A B h (some order) =
      .ok ((y + h * (W + w * A)) / (1 - h * B * w)) := by
    unfold adamsMoulton
    simp only [e1, hlast, hlen, if_true, e2, e3]
    congr 1
    congr 1
    · field_simp
    · field_simp
  refine ⟨_, hval, ?_, ?_⟩
  · unfold AMEquation
    rw [← hW, ← hw]
    have e := div_mul_cancel₀ (y + h * (W + w * A)) hden
    linear_combination e
  · intro z hz
    unfold AMEquation at hz
    rw [← hW, ← hw] at hz
    rw [eq_div_iff hden]
    linear_combination hz

/-- **C15 (exactness).** With `B = 0` and slopes sampled from a polynomial of degree `< order` at the
past times and at the new time, the solver adds the exact integral over the step. -/
theorem C15_exact (p : ℝ[X]) (order : ℕ) (ho : 1 ≤ order ∧ order ≤ 5) (hp : p.natDegree < order)
    (y t h : ℝ) (pre : List ℝ) (h1 : order = 1 → pre = []) :
    adamsMoulton y (pre ++ pastSlopes p t h (order - 1)) (p.eval (t + h)) 0 h (some order) =
      .ok (y + ∫ s in t..(t + h), p.eval s) := by
  have hlen : (pastSlopes p t h (order - 1)).length = order - 1 := by simp [pastSlopes]
  obtain ⟨y', e, heq, _⟩ := C15_solves y (p.eval (t + h)) 0 h pre _ order ho hlen h1 (by simp)
  rw [e, heq, integral_poly p order hp]
  congr 2
  have ev : ∀ s, p.eval s = ∑ i ∈ Finset.range order, p.coeff i * s ^ i := fun s =>
    Polynomial.eval_eq_sum_range' hp s
  obtain ⟨o1, o5⟩ := ho
  unfold pastSlopes
  simp only [ev]
  interval_cases order <;>
  · simp [amWeights, List.range_succ, Finset.sum_range_succ]
    try norm_num
    try ring

example : adamsMoulton 10 ([9] ++ pastSlopes (X ^ 2 : ℝ[X]) 1 1 2) ((X ^ 2 : ℝ[X]).eval (1 + 1)) 0 1 (some 3) =
    .ok (10 + ∫ s in (1 : ℝ)..(1 + 1), (X ^ 2 : ℝ[X]).eval s) :=
  C15_exact (X ^ 2) 3 (by omega) (by simp) 10 1 1 [9] (by omega)

/-- **C15 (automatic order).** Without an explicit order the solver never raises, for any history
length. -/
theorem C15_auto_total (y A B h : ℝ) (fs : List ℝ) : ∃ v, adamsMoulton y fs A B h none = .ok v := by
  have hc : ∃ c, amCoefficients (min maxAM (fs.length + 1)) = some c := by
    have h1 : 1 ≤ min maxAM (fs.length + 1) := by unfold maxAM; omega
    have h5 : min maxAM (fs.length + 1) ≤ 5 := by unfold maxAM; omega
    generalize min maxAM (fs.length + 1) = k at *
    interval_cases k <;> exact ⟨_, rfl⟩
  obtain ⟨⟨bs, d⟩, hc⟩ := hc
  have hl : (pyLast fs (min maxAM (fs.length + 1) - 1) ++ [A]).length =
      min maxAM (fs.length + 1) := by
    unfold pyLast maxAM
    split
    · have : fs.length = 0 := by omega
      simp [this]
    · simp; omega
  unfold adamsMoulton
  simp only [hc, hl, if_true]
  exact ⟨_, rfl⟩

/-- **C15 (refutation of consistency for explicit order 1).** A documented order, 1, fails on every
non-empty history because `fs[-0:]` is the whole list. -/
theorem C15_order_one_raises (y A B h : ℝ) (fs : List ℝ) (hne : fs ≠ []) :
    adamsMoulton y fs A B h (some 1) = .error .assertionError := by
  have : fs.length ≠ 0 := by simpa using hne
  simp [adamsMoulton, amCoefficients, pyLast, this]

example : ∃ y', adamsMoulton 1 ([9] ++ [2, 3]) 4 (-1) (1/2) (some 3) = .ok y' ∧
    AMEquation 1 [2, 3] 4 (-1) (1/2) 3 y' := by
  obtain ⟨y', a, b, _⟩ := C15_solves 1 4 (-1) (1/2) [9] [2, 3] 3 (by omega) rfl (by omega)
    (by simp [amWeights]; norm_num)
  exact ⟨y', a, b⟩

/-! ## C16 -/

/-- **C16.** The step is the unique solution of the implicit equation. -/
theorem C16_unique_solution (y A B h : ℝ) (hd : 1 - B * h ≠ 0) (z : ℝ) :
    z = y + h * (A + B * z) ↔ z = implicitEuler y A B h := by
  unfold implicitEuler
  rw [eq_div_iff hd]
  constructor <;> intro e <;> linear_combination e

example : implicitEuler 1 2 (-3) 1 = 3 / 4 :=
  ((C16_unique_solution 1 2 (-3) 1 (by norm_num) (3 / 4)).mp (by norm_num)).symm

/-- **C16.** For decay-like right-hand sides (`B ≤ 0`, source `A ≥ 0`) any step size keeps the value
non-negative; without source it never grows. -/
theorem C16_positive (y A B h : ℝ) (hy : 0 ≤ y) (hA : 0 ≤ A) (hB : B ≤ 0) (hh : 0 ≤ h) :
    0 ≤ implicitEuler y A B h ∧ (A = 0 → implicitEuler y A B h ≤ y) := by
  have hden : 1 ≤ 1 - B * h := by nlinarith
  unfold implicitEuler
  constructor
  · exact div_nonneg (by positivity) (by linarith)
  · rintro rfl
    rw [div_le_iff₀ (by linarith)]; nlinarith

example : 0 ≤ implicitEuler 1 0 (-3) 100 ∧ implicitEuler 1 0 (-3) 100 ≤ 1 :=
  ⟨(C16_positive 1 0 (-3) 100 (by norm_num) le_rfl (by norm_num) (by norm_num)).1,
    (C16_positive 1 0 (-3) 100 (by norm_num) le_rfl (by norm_num) (by norm_num)).2 rfl⟩

/-- **C16.** Repeated steps without source: non-negative and monotone for every step size. -/
theorem C16_iterates_monotone (y B h : ℝ) (hy : 0 ≤ y) (hB : B ≤ 0) (hh : 0 ≤ h) (n : ℕ) :
    0 ≤ (fun z => implicitEuler z 0 B h)^[n] y ∧
    (fun z => implicitEuler z 0 B h)^[n + 1] y ≤ (fun z => implicitEuler z 0 B h)^[n] y := by
  have hn : ∀ n, 0 ≤ (fun z => implicitEuler z 0 B h)^[n] y := by
    intro n
    induction n with
    | zero => simpa
    | succ n ih =>
      rw [Function.iterate_succ_apply']
      exact (C16_positive _ 0 B h ih le_rfl hB hh).1
  refine ⟨hn n, ?_⟩
  rw [Function.iterate_succ_apply']
  exact (C16_positive _ 0 B h (hn n) le_rfl hB hh).2 rfl

example : (1 : ℝ) - (-3) * 10 ≠ 0 ∧ (0 : ℝ) ≤ 5 ∧ (-3 : ℝ) ≤ 0 := by norm_num

/-! ## C17 -/

/-- **C17.** Euler's correction is `h·f(t, y)`: exact for slopes that are constant; Heun's is exact
for every slope affine in `t` only; both vanish for `h = 0`. -/
theorem C17_euler_heun (y t h al be : ℝ) (f : ℝ → ℝ → ℝ) :
    (eulerCorrection y t (fun _ _ => al) h = ∫ _ in t..(t + h), al) ∧
    (heunCorrection y t (fun s _ => al + be * s) h = ∫ s in t..(t + h), (al + be * s)) ∧
    eulerCorrection y t f 0 = 0 ∧ heunCorrection y t f 0 = 0 := by
  refine ⟨?_, ?_, ?_, ?_⟩
  · simp [eulerCorrection]
  · rw [intervalIntegral.integral_add (by simp) (Continuous.intervalIntegrable (by fun_prop) _ _),
      intervalIntegral.integral_const_mul, integral_id]
    simp [heunCorrection, eulerCorrection]
    ring
  · simp [eulerCorrection]
  · simp [heunCorrection, eulerCorrection]

/-- **C17.** Heun's correction is the trapezoidal value: mean of the slope at the start and at the
Euler-predicted end; Euler's uses the slope at the start. -/
theorem C17_trapezoid (y t h : ℝ) (f : ℝ → ℝ → ℝ) :
    eulerCorrection y t f h = h * f t y ∧
    heunCorrection y t f h = h * ((f t y + f (t + h) (y + h * f t y)) / 2) := by
  constructor
  · rfl
  · simp only [heunCorrection, eulerCorrection]; ring

/-- **C17.** For the linear equation `y' = l·y` Heun's step is the second-order Taylor polynomial of
the exact solution. -/
theorem C17_heun_second_order (y t h l : ℝ) :
    y + heunCorrection y t (fun _ z => l * z) h = y * (1 + h * l + (h * l) ^ 2 / 2) := by
  simp only [heunCorrection, eulerCorrection]; ring

/-! ## C19 -/

theorem sum_map_mul_left' {α : Type*} (l : List α) (f : α → ℝ) (c : ℝ) :
    (l.map fun x => c * f x).sum = c * (l.map f).sum := by
  induction l with
  | nil => simp
  | cons a l ih => simp [ih]; ring

theorem sum_map_add' {α : Type*} (l : List α) (f g : α → ℝ) :
    (l.map fun x => f x + g x).sum = (l.map f).sum + (l.map g).sum := by
  induction l with
  | nil => simp
  | cons a l ih => simp [ih]; ring

/-- **C19.** Linearity. -/
theorem C19_linear (rule : Rule) (f g : ℝ → ℝ) (c d a b : ℝ) :
    gaussian rule (fun x => c * f x + d * g x) a b =
      c * gaussian rule f a b + d * gaussian rule g a b := by
  unfold gaussian
  by_cases h : (b - a) / 2 = 0
  · simp [h]
  · simp only [h, if_false]
    have : ∀ xw : ℝ × ℝ, (c * f ((b - a) / 2 * xw.1 + (b + a) / 2) +
        d * g ((b - a) / 2 * xw.1 + (b + a) / 2)) * xw.2 =
        c * (f ((b - a) / 2 * xw.1 + (b + a) / 2) * xw.2) +
        d * (g ((b - a) / 2 * xw.1 + (b + a) / 2) * xw.2) := fun _ => by ring
    simp only [this, sum_map_add', sum_map_mul_left']
    ring

/-- **C19.** Empty interval. -/
theorem C19_empty (rule : Rule) (f : ℝ → ℝ) (a : ℝ) : gaussian rule f a a = 0 := by
  simp [gaussian]

/-- **C19.** Swapping the limits changes the sign, for a rule symmetric about 0. -/
theorem C19_swap (rule : Rule) (f : ℝ → ℝ) (a b : ℝ)
    (hsym : (rule.map fun xw => (-xw.1, xw.2)).Perm rule) :
    gaussian rule f b a = - gaussian rule f a b := by
  unfold gaussian
  by_cases h : (b - a) / 2 = 0
  · have : (a - b) / 2 = 0 := by linarith
    simp [h, this]
  · have h' : (a - b) / 2 ≠ 0 := fun e => h (by linarith)
    simp only [h, h', if_false]
    have hs := (hsym.map fun xw : ℝ × ℝ => f ((b - a) / 2 * xw.1 + (b + a) / 2) * xw.2).sum_eq
    rw [← hs, List.map_map]
    have : ((fun xw : ℝ × ℝ => f ((b - a) / 2 * xw.1 + (b + a) / 2) * xw.2) ∘
        fun xw : ℝ × ℝ => (-xw.1, xw.2)) =
        fun xw => f ((a - b) / 2 * xw.1 + (a + b) / 2) * xw.2 := by
      funext xw
      simp only [Function.comp]
      congr 2
      ring
    rw [this]; ring

example (f : ℝ → ℝ) : gaussian [(-1 / 2, 1), (1 / 2, 1)] f 3 1 = - gaussian [(-1 / 2, 1), (1 / 2, 1)] f 1 3 :=
  C19_swap _ f 1 3 (by norm_num; exact List.Perm.swap _ _ _)

/-- **C19.** Monotonicity for positive weights: only the values on the interval matter. -/
theorem C19_monotone (rule : Rule) (f g : ℝ → ℝ) (a b : ℝ) (hab : a ≤ b)
    (hw : ∀ xw ∈ rule, 0 ≤ xw.2 ∧ -1 ≤ xw.1 ∧ xw.1 ≤ 1)
    (hfg : ∀ x, a ≤ x → x ≤ b → f x ≤ g x) :
    gaussian rule f a b ≤ gaussian rule g a b := by
  unfold gaussian
  by_cases h : (b - a) / 2 = 0
  · simp [h]
  · simp only [h, if_false]
    apply mul_le_mul_of_nonneg_left _ (by linarith)
    apply List.sum_le_sum
    intro xw hx
    obtain ⟨w0, x1, x2⟩ := hw xw hx
    apply mul_le_mul_of_nonneg_right _ w0
    apply hfg
    · nlinarith
    · nlinarith

example : gaussian [(-1 / 2, 1), (1 / 2, 1)] (fun x => x) 2 5 ≤ gaussian [(-1 / 2, 1), (1 / 2, 1)] (fun x => x ^ 2) 2 5 :=
  C19_monotone _ _ _ 2 5 (by norm_num) (by norm_num) (fun x h _ => by nlinarith)

/-- **C19.** Non-negative integrands give non-negative results. -/
theorem C19_nonneg (rule : Rule) (f : ℝ → ℝ) (a b : ℝ) (hab : a ≤ b)
    (hw : ∀ xw ∈ rule, 0 ≤ xw.2 ∧ -1 ≤ xw.1 ∧ xw.1 ≤ 1)
    (hf : ∀ x, a ≤ x → x ≤ b → 0 ≤ f x) : 0 ≤ gaussian rule f a b := by
  have := C19_monotone rule (fun _ => 0) f a b hab hw hf
  simpa [gaussian] using this

example : 0 ≤ gaussian [(-1 / 2, 1), (1 / 2, 1)] (fun x => x) 2 5 :=
  C19_nonneg _ _ 2 5 (by norm_num) (by norm_num) (fun x h _ => by linarith)

/-- **C19.** Exactness transfers from `[-1,1]` to every interval: if the rule integrates polynomials
of degree `≤ d` exactly on `[-1,1]`, the wrapper integrates them exactly on every `[a,b]`. -/
theorem C19_exact_degree (rule : Rule) (d : ℕ)
    (hrule : ∀ q : ℝ[X], q.natDegree ≤ d →
      (rule.map fun xw => q.eval xw.1 * xw.2).sum = ∫ x in (-1 : ℝ)..1, q.eval x)
    (p : ℝ[X]) (hp : p.natDegree ≤ d) (a b : ℝ) :
    gaussian rule (fun x => p.eval x) a b = ∫ x in a..b, p.eval x := by
  unfold gaussian
  by_cases h : (b - a) / 2 = 0
  · have : a = b := by linarith
    simp [h, this]
  · simp only [h, if_false]
    set s := (b - a) / 2 with hs
    set m := (b + a) / 2 with hm
    have hq := hrule (p.comp (C s * X + C m)) (by
      refine le_trans Polynomial.natDegree_comp_le ?_
      have : (C s * X + C m : ℝ[X]).natDegree ≤ 1 := Polynomial.natDegree_linear_le
      calc p.natDegree * _ ≤ d * 1 := Nat.mul_le_mul hp this
        _ = d := by simp)
    have he : ∀ x, (p.comp (C s * X + C m)).eval x = p.eval (s * x + m) := fun x => by simp
    simp only [he] at hq
    rw [hq, intervalIntegral.mul_integral_comp_mul_add (f := fun x => p.eval x)]
    congr 1 <;> rw [hs, hm] <;> ring

/-- **C19.** Hence constants and affine functions are exact for any rule with total weight 2 and
vanishing first moment (e.g. a symmetric one). -/
theorem C19_affine (rule : Rule) (hw : (rule.map (·.2)).sum = 2)
    (hm : (rule.map fun xw => xw.1 * xw.2).sum = 0) (al be a b : ℝ) :
    gaussian rule (fun x => al + be * x) a b = al * (b - a) + be * (b ^ 2 - a ^ 2) / 2 := by
  unfold gaussian
  by_cases h : (b - a) / 2 = 0
  · have : a = b := by linarith
    simp [h, this]
  · simp only [h, if_false]
    have : ∀ xw : ℝ × ℝ, (al + be * ((b - a) / 2 * xw.1 + (b + a) / 2)) * xw.2 =
        (al + be * ((b + a) / 2)) * xw.2 + (be * ((b - a) / 2)) * (xw.1 * xw.2) := fun _ => by ring
    simp only [this, sum_map_add', sum_map_mul_left', hm]
    have hw' : (rule.map fun xw => xw.2).sum = 2 := hw
    rw [hw']; ring

example : gaussian [(-1 / 2, 1), (1 / 2, 1)] (fun x => 3 + 2 * x) 1 4 = 24 := by
  rw [C19_affine _ (by norm_num) (by norm_num)]; norm_num

/-- **C19.** The double quadrature is the iterated single one, for arbitrary inner limits. -/
theorem C19_double_iterated (rule : Rule) (f : ℝ → ℝ → ℝ) (a b : ℝ) (g h : ℝ → ℝ) :
    doubleGaussian rule f a b g h =
      gaussian rule (fun x => gaussian rule (f x) (g x) (h x)) a b := by
  have swap : ∀ (l l' : Rule) (F : ℝ × ℝ → ℝ × ℝ → ℝ),
      (l.map fun y => y.2 * (l'.map fun x => F x y * x.2).sum).sum =
      (l'.map fun x => (l.map fun y => F x y * y.2).sum * x.2).sum := by
    intro l l' F
    induction l with
    | nil => simp
    | cons y l ih =>
      simp only [List.map_cons, List.sum_cons, ih]
      rw [← sum_map_mul_left', ← sum_map_add']
      congr 1
      apply List.map_congr_left
      intro x _
      ring
  unfold doubleGaussian
  rw [swap rule rule fun xw yw => remapInterval f xw.1 yw.1 a b g h]
  unfold gaussian
  by_cases hs : (b - a) / 2 = 0
  · simp [hs, remapInterval]
  · simp only [hs, if_false]
    rw [← sum_map_mul_left']
    congr 1
    apply List.map_congr_left
    intro xw _
    set x := (b - a) / 2 * xw.1 + (b + a) / 2 with hx
    have e : ∀ yw : ℝ × ℝ, remapInterval f xw.1 yw.1 a b g h * yw.2 =
        (b - a) / 2 * ((h x - g x) / 2 * (f x ((h x - g x) / 2 * yw.1 + (h x + g x) / 2) * yw.2)) := by
      intro yw
      simp only [remapInterval, ← hx]; ring
    simp only [e, sum_map_mul_left']
    by_cases hy : (h x - g x) / 2 = 0
    · simp [hy]
    · simp only [hy, if_false]; ring

/-- **C19.** Product integrands over a rectangle factorise. -/
theorem C19_double_product (rule : Rule) (u v : ℝ → ℝ) (a b c d : ℝ) :
    doubleGaussian rule (fun x y => u x * v y) a b (fun _ => c) (fun _ => d) =
      gaussian rule u a b * gaussian rule v c d := by
  rw [C19_double_iterated]
  have h1 : ∀ x, gaussian rule (fun y => u x * v y) c d = u x * gaussian rule v c d := by
    intro x
    have := C19_linear rule v (fun _ => 0) (u x) 0 c d
    simpa using this
  simp only [h1]
  have := C19_linear rule u (fun _ => 0) (gaussian rule v c d) 0 a b
  simp only [zero_mul, add_zero] at this
  rw [show (fun x => u x * gaussian rule v c d) = fun x => gaussian rule v c d * u x from
    funext fun x => mul_comm _ _, this, mul_comm]

/-- The one-dimensional integrator is the fixed-order rule when the setting is on (the
default) and the adaptive one otherwise, on the given bounds in the given order. -/
theorem integrate1D_setting (rule : Rule) (quad : (ℝ → ℝ) → ℝ → ℝ → ℝ) (f : ℝ → ℝ) (a b : ℝ) :
    integrate1D rule quad true f (a, b) = gaussian rule f a b ∧
    integrate1D rule quad false f (a, b) = quad f a b := ⟨rfl, rfl⟩

/-- The midpoint rule and Simpson's rule satisfy the hypotheses. -/
example : ([((0 : ℝ), (2 : ℝ))].map fun xw => (-xw.1, xw.2)).Perm [(0, 2)] := by simp

example : (([(-1, 1/3), (0, 4/3), (1, 1/3)] : Rule).map (·.2)).sum = 2 ∧
    (([(-1, 1/3), (0, 4/3), (1, 1/3)] : Rule).map fun xw => xw.1 * xw.2).sum = 0 := by
  constructor <;> norm_num

example : ∀ q : ℝ[X], q.natDegree ≤ 1 →
    (([(0, 2)] : Rule).map fun xw => q.eval xw.1 * xw.2).sum = ∫ x in (-1 : ℝ)..1, q.eval x := by
  intro q hq
  rw [integral_poly q 2 (by omega)]
  simp [Finset.sum_range_succ, ← Polynomial.coeff_zero_eq_eval_zero]
  norm_num

end PyBBN
