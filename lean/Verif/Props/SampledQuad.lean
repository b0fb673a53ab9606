import Verif.Model.SampledQuad
import Mathlib.Analysis.SpecialFunctions.Integrals.Basic
import Mathlib.Tactic
/-!
# C135: the sampling quadratures compute the rules they name, and the cache is invisible
-/
namespace PyBBN
open Finset

/-! ## Panels -/

theorem foldl_add_sum (g : ℕ → ℝ) (n : ℕ) : (List.range n).foldl (fun s (i : ℕ) => s + g i) 0 = ∑ i ∈ range n, g i := by
  induction n with
  | zero => simp
  | succ n ih => rw [List.range_succ, List.foldl_append, ih, sum_range_succ]; simp

/-- If a panel rule gives the increments of `G`, the sampled integral is `G b - G a`. -/
theorem sampled_telescope (f G : ℝ → ℝ) (m : PanelRule) (h : ∀ x w, w * m.apply f x w = G (x + w) - G x) (a b : ℝ) (steps : ℕ)
    (hs : 0 < steps) : integrateSampled f a b steps m = G b - G a := by
  unfold integrateSampled
  dsimp only
  rw [foldl_add_sum, mul_sum]
  have hw : a + (b - a) / steps * steps = b := by
    have : (steps : ℝ) ≠ 0 := by positivity
    rw [div_mul_cancel₀ _ this]; ring
  have : ∀ n : ℕ, ∑ i ∈ range n, (b - a) / steps * m.apply f (a + (b - a) / steps * i) ((b - a) / steps) =
      G (a + (b - a) / steps * n) - G a := by
    intro n
    induction n with
    | zero => simp
    | succ n ih =>
      rw [sum_range_succ, ih, h, show a + (b - a) / (steps : ℝ) * n + (b - a) / steps = a + (b - a) / steps * (n + 1 : ℕ) by
        push_cast; ring]
      ring
  rw [this, hw]

theorem integral_full_cubic (c0 c1 c2 c3 a b : ℝ) : ∫ x in a..b, (c0 + c1 * x + c2 * x ^ 2 + c3 * x ^ 3) =
    (c0 * b + c1 / 2 * b ^ 2 + c2 / 3 * b ^ 3 + c3 / 4 * b ^ 4) - (c0 * a + c1 / 2 * a ^ 2 + c2 / 3 * a ^ 3 + c3 / 4 * a ^ 4) := by
  refine intervalIntegral.integral_eq_sub_of_hasDerivAt
    (f := fun x => c0 * x + c1 / 2 * x ^ 2 + c2 / 3 * x ^ 3 + c3 / 4 * x ^ 4) ?_ ?_
  · intro x _
    have h := (((hasDerivAt_id x).const_mul c0).add ((hasDerivAt_pow 2 x).const_mul (c1 / 2))).add
      ((hasDerivAt_pow 3 x).const_mul (c2 / 3))
    have h := h.add ((hasDerivAt_pow 4 x).const_mul (c3 / 4))
    refine h.congr_deriv ?_
    push_cast
    ring
  · exact (by fun_prop : Continuous fun x : ℝ => c0 + c1 * x + c2 * x ^ 2 + c3 * x ^ 3).intervalIntegrable _ _

/-- **C135 (panels).** With any positive number of steps `integrate_sampled` with the rule of Simpson integrates all cubics exactly, with
the trapezium and the middle rule all affine functions, with the left and right rule all constants. -/
theorem C135_sampled (c0 c1 c2 c3 a b : ℝ) (steps : ℕ) (hs : 0 < steps) :
    integrateSampled (fun x => c0 + c1 * x + c2 * x ^ 2 + c3 * x ^ 3) a b steps .simpson =
      ∫ x in a..b, (c0 + c1 * x + c2 * x ^ 2 + c3 * x ^ 3) ∧
    integrateSampled (fun x => c0 + c1 * x) a b steps .trapezium = ∫ x in a..b, (c0 + c1 * x) ∧
    integrateSampled (fun x => c0 + c1 * x) a b steps .middle = ∫ x in a..b, (c0 + c1 * x) ∧
    integrateSampled (fun _ => c0) a b steps .left = ∫ _ in a..b, c0 ∧
    integrateSampled (fun _ => c0) a b steps .right = ∫ _ in a..b, c0 := by
  have haff : ∫ x in a..b, (c0 + c1 * x) = (c0 * b + c1 / 2 * b ^ 2) - (c0 * a + c1 / 2 * a ^ 2) := by
    have := integral_full_cubic c0 c1 0 0 a b
    simpa using this
  refine ⟨?_, ?_, ?_, ?_, ?_⟩
  · rw [integral_full_cubic]
    exact sampled_telescope _ (fun x => c0 * x + c1 / 2 * x ^ 2 + c2 / 3 * x ^ 3 + c3 / 4 * x ^ 4) _
      (by intro x w; simp only [PanelRule.apply]; ring) a b steps hs
  · rw [haff]
    exact sampled_telescope _ (fun x => c0 * x + c1 / 2 * x ^ 2) _ (by intro x w; simp only [PanelRule.apply]; ring) a b steps hs
  · rw [haff]
    exact sampled_telescope _ (fun x => c0 * x + c1 / 2 * x ^ 2) _ (by intro x w; simp only [PanelRule.apply]; ring) a b steps hs
  · rw [sampled_telescope _ (fun x => c0 * x) _ (by intro x w; simp only [PanelRule.apply]; ring) a b steps hs]
    simp; ring
  · rw [sampled_telescope _ (fun x => c0 * x) _ (by intro x w; simp only [PanelRule.apply]; ring) a b steps hs]
    simp; ring

/-! ## The trapezium rule and its cache -/

/-- The trapezium rule with `n` equidistant points. -/
noncomputable def trapRule (f : ℝ → ℝ) (a b : ℝ) (n : ℕ) : ℝ :=
  (b - a) / ((n : ℝ) - 1) * ((f a + f b) / 2 + ∑ i ∈ range (n - 2), f (a + (b - a) / ((n : ℝ) - 1) * ((i : ℝ) + 1)))

/-- All stored values are values of the function. -/
def CacheOk (f : ℝ → ℝ) (c : Option QCache) : Prop := ∀ d, c = some d → ∀ x v, d x = some v → v = f x

theorem evalCached_ok {f : ℝ → ℝ} {c : Option QCache} (h : CacheOk f c) (x : ℝ) :
    (evalCached f c x).1 = f x ∧ CacheOk f (evalCached f c x).2 := by
  cases c with
  | none => exact ⟨rfl, h⟩
  | some d =>
    cases hd : d x with
    | some v =>
      have e : evalCached f (some d) x = (v, some d) := by simp only [evalCached, hd]
      rw [e]
      exact ⟨h d rfl x v hd, h⟩
    | none =>
      have e : evalCached f (some d) x = (f x, some (Function.update d x (some (f x)))) := by simp only [evalCached, hd]
      rw [e]
      refine ⟨rfl, ?_⟩
      intro d' hd' y v hv
      injection hd' with hd'
      subst hd'
      by_cases hy : y = x
      · subst hy
        rw [Function.update_self] at hv
        injection hv with hv
        exact hv.symm
      · rw [Function.update_of_ne hy] at hv
        exact h d rfl y v hv

theorem trap_loop_ok {f : ℝ → ℝ} (a h : ℝ) (n : ℕ) (s : ℝ × Option QCache) (hs : CacheOk f s.2) :
    ((List.range' 1 n).foldl (trapStep f a h) s).1 = s.1 + ∑ i ∈ range n, f (a + h * ((i : ℝ) + 1)) ∧
    CacheOk f ((List.range' 1 n).foldl (trapStep f a h) s).2 := by
  induction n with
  | zero => simpa using hs
  | succ n ih =>
    rw [show List.range' 1 (n + 1) = List.range' 1 n ++ [1 + n] by simpa using List.range'_concat (s := 1) (n := n) (step := 1),
      List.foldl_append]
    simp only [List.foldl_cons, List.foldl_nil, trapStep]
    have e := evalCached_ok ih.2 (a + h * ((1 + n : ℕ) : ℝ))
    refine ⟨?_, e.2⟩
    rw [e.1, ih.1, sum_range_succ]
    push_cast
    rw [add_comm (1 : ℝ) (n : ℝ)]
    ring

/-- **C135 (cache).** With or without cache, and whatever the cache holds as long as its entries are values of the function,
`trapezium` returns the trapezium rule, and the entries stay values of the function. -/
theorem C135_trapezium (f : ℝ → ℝ) (a b : ℝ) (n : ℕ) (c : Option QCache) (h : CacheOk f c) :
    (cppTrapezium f a b n c).1 = trapRule f a b n ∧ CacheOk f (cppTrapezium f a b n c).2 := by
  have ha := evalCached_ok h a
  have hb := evalCached_ok ha.2 b
  have hl := trap_loop_ok a ((b - a) / ((n : ℝ) - 1)) (n - 2)
    (((evalCached f c a).1 + (evalCached f (evalCached f c a).2 b).1) / 2, (evalCached f (evalCached f c a).2 b).2) hb.2
  refine ⟨?_, hl.2⟩
  show (b - a) / ((n : ℝ) - 1) * _ = _
  rw [hl.1, ha.1, hb.1]
  rfl

/-- The rule is exact for affine functions. -/
theorem trapRule_affine (c0 c1 a b : ℝ) (n : ℕ) (hn : 2 ≤ n) :
    trapRule (fun x => c0 + c1 * x) a b n = ∫ x in a..b, (c0 + c1 * x) := by
  have haff : ∫ x in a..b, (c0 + c1 * x) = (c0 * b + c1 / 2 * b ^ 2) - (c0 * a + c1 / 2 * a ^ 2) := by
    simpa using integral_full_cubic c0 c1 0 0 a b
  obtain ⟨m, rfl⟩ : ∃ m, n = m + 2 := ⟨n - 2, by omega⟩
  have hne : (m : ℝ) + 1 ≠ 0 := by positivity
  have hsum : ∀ h : ℝ, ∑ i ∈ range m, (c0 + c1 * (a + h * ((i : ℝ) + 1))) = m * c0 + c1 * (m * a + h * (m * (m + 1) / 2)) := by
    intro h
    induction m with
    | zero => simp
    | succ m ih =>
      rw [sum_range_succ, ih (by omega) (by positivity)]
      push_cast
      ring
  rw [haff]
  unfold trapRule
  simp only [Nat.add_sub_cancel]
  rw [hsum]
  push_cast
  rw [show (m : ℝ) + 2 - 1 = m + 1 by ring]
  field_simp
  ring

/-! ## Bisection -/

/-- `l` is a chain of intervals from `a` to `b`. -/
inductive Tiles : ℝ → ℝ → List (ℝ × ℝ) → Prop
  | one (a b : ℝ) : Tiles a b [(a, b)]
  | append {a c b : ℝ} {l r : List (ℝ × ℝ)} : Tiles a c l → Tiles c b r → Tiles a b (l ++ r)

theorem adaptive_spec (f : ℝ → ℝ) (epsabs epsrel : ℝ) (k : ℕ) (a b : ℝ) (c : Option QCache) (hc : CacheOk f c) :
    CacheOk f (adaptiveTrap f epsabs epsrel k a b c).2 ∧
    ∃ l, Tiles a b l ∧ l.length ≤ 2 ^ k ∧
      (adaptiveTrap f epsabs epsrel k a b c).1.1 = (l.map fun q => trapRule f q.1 q.2 15).sum ∧
      (adaptiveTrap f epsabs epsrel k a b c).1.2 = (l.map fun q => trapRule f q.1 q.2 15 - trapRule f q.1 q.2 8).sum ∧
      ∀ q ∈ l, Converged epsabs epsrel (trapRule f q.1 q.2 15 - trapRule f q.1 q.2 8) (trapRule f q.1 q.2 15) ∨
        q.2 - q.1 = (b - a) / 2 ^ k := by
  induction k generalizing a b c with
  | zero =>
    have h1 := C135_trapezium f a b 8 c hc
    have h2 := C135_trapezium f a b 15 _ h1.2
    have e : adaptiveTrap f epsabs epsrel 0 a b c = ((trapRule f a b 15, trapRule f a b 15 - trapRule f a b 8),
        (cppTrapezium f a b 15 (cppTrapezium f a b 8 c).2).2) := by
      rw [adaptiveTrap]
      simp only [h1.1, h2.1, ite_self]
    rw [e]
    exact ⟨h2.2, [(a, b)], .one a b, by simp, by simp, by simp, by simp⟩
  | succ k ih =>
    have h1 := C135_trapezium f a b 8 c hc
    have h2 := C135_trapezium f a b 15 _ h1.2
    rw [adaptiveTrap]
    simp only [h1.1, h2.1]
    split_ifs with hcon
    · rw [h1.1, h2.1] at hcon
      exact ⟨h2.2, [(a, b)], .one a b, by simpa using Nat.one_le_two_pow, by simp, by simp, by simpa using Or.inl hcon⟩
    · obtain ⟨cl, l, tl, ll, rl, el, pl⟩ := ih a ((a + b) / 2) _ h2.2
      obtain ⟨cr, r, tr, lr, rr, er, pr⟩ := ih ((a + b) / 2) b _ cl
      refine ⟨cr, l ++ r, tl.append tr, ?_, ?_, ?_, ?_⟩
      · rw [List.length_append, pow_succ]; omega
      · rw [List.map_append, List.sum_append, ← rl, ← rr]
      · rw [List.map_append, List.sum_append, ← el, ← er]
      · intro q hq
        rcases List.mem_append.mp hq with h | h
        · refine (pl q h).imp_right fun e => ?_
          rw [e, pow_succ]; field_simp; ring
        · refine (pr q h).imp_right fun e => ?_
          rw [e, pow_succ]; field_simp; ring

/-- **C135 (bisection).** `adaptive_trapezium` returns the sum of the rule with 15 points over a chain of at most `2 ^ (limit - 1)`
intervals from `a` to `b`, each of which meets the tolerance or is a piece of the smallest size, and the (signed) sum of the
differences between 15 and 8 points. -/
theorem C135_adaptive (f : ℝ → ℝ) (a b epsabs epsrel : ℝ) (limit : ℕ) :
    ∃ l, Tiles a b l ∧ l.length ≤ 2 ^ (limit - 1) ∧
      adaptiveTrapezium f a b epsabs epsrel limit = ((l.map fun q => trapRule f q.1 q.2 15).sum,
        (l.map fun q => trapRule f q.1 q.2 15 - trapRule f q.1 q.2 8).sum) ∧
      ∀ q ∈ l, Converged epsabs epsrel (trapRule f q.1 q.2 15 - trapRule f q.1 q.2 8) (trapRule f q.1 q.2 15) ∨
        q.2 - q.1 = (b - a) / 2 ^ (limit - 1) := by
  obtain ⟨-, l, h1, h2, h3, h4, h5⟩ := adaptive_spec f epsabs epsrel (limit - 1) a b (some fun _ => none)
    (by intro d hd x v hv; injection hd with hd; subst hd; simp at hv)
  exact ⟨l, h1, h2, Prod.ext h3 h4, h5⟩

/-- **C135 (bisection).** Affine integrands: exact, with estimated error 0, for any tolerances. -/
theorem C135_adaptive_affine (c0 c1 a b epsabs epsrel : ℝ) (limit : ℕ) :
    adaptiveTrapezium (fun x => c0 + c1 * x) a b epsabs epsrel limit = (∫ x in a..b, (c0 + c1 * x), 0) := by
  obtain ⟨l, ht, -, he, -⟩ := C135_adaptive (fun x => c0 + c1 * x) a b epsabs epsrel limit
  rw [he]
  clear he
  refine Prod.ext ?_ ?_
  · show (l.map fun q => trapRule (fun x => c0 + c1 * x) q.1 q.2 15).sum = _
    induction ht with
    | one a b => simpa using trapRule_affine c0 c1 a b 15 (by norm_num)
    | @append a c b l r _ _ il ir =>
      rw [List.map_append, List.sum_append, il, ir]
      have hc : Continuous fun x : ℝ => c0 + c1 * x := by fun_prop
      exact intervalIntegral.integral_add_adjacent_intervals (hc.intervalIntegrable _ _) (hc.intervalIntegrable _ _)
  · show (l.map fun q => trapRule (fun x => c0 + c1 * x) q.1 q.2 15 - trapRule (fun x => c0 + c1 * x) q.1 q.2 8).sum = 0
    refine List.sum_eq_zero ?_
    intro v hv
    obtain ⟨q, -, rfl⟩ := List.mem_map.mp hv
    rw [trapRule_affine c0 c1 q.1 q.2 15 (by norm_num), trapRule_affine c0 c1 q.1 q.2 8 (by norm_num), sub_self]

/-! ## Doubling -/

theorem trapLoop_spec (f : ℝ → ℝ) (a b epsabs epsrel : ℝ) (limit : ℕ) (m : ℕ) (c : Option QCache) (out : Option (ℝ × ℝ))
    (hc : CacheOk f c) (j : ℕ) (hm : m + 2 = 19 * 2 ^ j + 1)
    (hout : out = if j = 0 then none else
      some (trapRule f a b (19 * 2 ^ j + 1), trapRule f a b (19 * 2 ^ j + 1) - trapRule f a b (19 * 2 ^ (j - 1) + 1))) :
    ∃ i, j ≤ i ∧
      ((trapLoop f a b epsabs epsrel limit m (trapRule f a b (m + 2)) c out = (0,
          some (trapRule f a b (19 * 2 ^ (i + 1) + 1), trapRule f a b (19 * 2 ^ (i + 1) + 1) - trapRule f a b (19 * 2 ^ i + 1))) ∧
        19 * 2 ^ (i + 1) + 1 ≤ limit ∧
        Converged epsabs epsrel (trapRule f a b (19 * 2 ^ (i + 1) + 1) - trapRule f a b (19 * 2 ^ i + 1))
          (trapRule f a b (19 * 2 ^ (i + 1) + 1))) ∨
      (trapLoop f a b epsabs epsrel limit m (trapRule f a b (m + 2)) c out = (19 * 2 ^ i + 1, if i = 0 then none else
          some (trapRule f a b (19 * 2 ^ i + 1), trapRule f a b (19 * 2 ^ i + 1) - trapRule f a b (19 * 2 ^ (i - 1) + 1))) ∧
        limit < 19 * 2 ^ (i + 1) + 1 ∧ (i = j ∨ 19 * 2 ^ i + 1 ≤ limit))) := by
  induction hk : limit - m using Nat.strong_induction_on generalizing m c out j with
  | _ k ih =>
    have hp : 19 * 2 ^ (j + 1) = 2 * (19 * 2 ^ j) := by rw [pow_succ]; ring
    have hpts : m + 2 + (m + 2 - 1) = 19 * 2 ^ (j + 1) + 1 := by omega
    rw [trapLoop]
    by_cases hlim : 2 * (m + 2) - 1 ≤ limit
    · rw [if_pos hlim]
      dsimp only
      have ht := C135_trapezium f a b (m + 2 + (m + 2 - 1)) c hc
      rw [ht.1, hpts, hm]
      by_cases hcon : Converged epsabs epsrel (trapRule f a b (19 * 2 ^ (j + 1) + 1) - trapRule f a b (19 * 2 ^ j + 1))
          (trapRule f a b (19 * 2 ^ (j + 1) + 1))
      · rw [if_pos hcon]
        exact ⟨j, le_rfl, Or.inl ⟨rfl, by omega, hcon⟩⟩
      · rw [if_neg hcon]
        have e : 2 * m + 1 + 2 = 19 * 2 ^ (j + 1) + 1 := by omega
        obtain ⟨i, hi, h⟩ := ih (limit - (2 * m + 1)) (by omega) (2 * m + 1) _
          (some (trapRule f a b (19 * 2 ^ (j + 1) + 1), trapRule f a b (19 * 2 ^ (j + 1) + 1) - trapRule f a b (19 * 2 ^ j + 1)))
          (hpts ▸ ht.2) (j + 1) e (by simp) rfl
        rw [e] at h
        refine ⟨i, by omega, h.imp_right ?_⟩
        rintro ⟨h1, h2, h3⟩
        refine ⟨h1, h2, Or.inr ?_⟩
        rcases h3 with rfl | h3
        · omega
        · exact h3
    · rw [if_neg hlim]
      exact ⟨j, le_rfl, Or.inr ⟨by rw [hout, hm], by omega, Or.inl rfl⟩⟩

/-- **C135 (doubling).** `nonadaptive_trapezium` evaluates the rule with `19 * 2 ^ i + 1` points.  Status 0: the last doubling stayed within
the limit and met the tolerance.  Otherwise the status is the number of points of the last rule, the next doubling would exceed
the limit, and the last rule is the result; if there was none (limit below 39), `result` and `error` are not assigned. -/
theorem C135_nonadaptive (f : ℝ → ℝ) (a b epsabs epsrel : ℝ) (limit : ℕ) :
    ∃ i, (nonadaptiveTrapezium f a b epsabs epsrel limit = (0,
          some (trapRule f a b (19 * 2 ^ (i + 1) + 1), trapRule f a b (19 * 2 ^ (i + 1) + 1) - trapRule f a b (19 * 2 ^ i + 1))) ∧
        19 * 2 ^ (i + 1) + 1 ≤ limit ∧
        Converged epsabs epsrel (trapRule f a b (19 * 2 ^ (i + 1) + 1) - trapRule f a b (19 * 2 ^ i + 1))
          (trapRule f a b (19 * 2 ^ (i + 1) + 1))) ∨
      (nonadaptiveTrapezium f a b epsabs epsrel limit = (19 * 2 ^ i + 1, if i = 0 then none else
          some (trapRule f a b (19 * 2 ^ i + 1), trapRule f a b (19 * 2 ^ i + 1) - trapRule f a b (19 * 2 ^ (i - 1) + 1))) ∧
        limit < 19 * 2 ^ (i + 1) + 1 ∧ (i = 0 ∨ 19 * 2 ^ i + 1 ≤ limit)) := by
  have h0 : CacheOk f (some fun _ => none) := by intro d hd x v hv; injection hd with hd; subst hd; simp at hv
  have ht := C135_trapezium f a b 20 _ h0
  obtain ⟨i, -, h⟩ := trapLoop_spec f a b epsabs epsrel limit 18 _ none ht.2 0 (by norm_num) (by simp)
  refine ⟨i, ?_⟩
  unfold nonadaptiveTrapezium
  dsimp only
  rw [ht.1]
  exact h

/-- **C135 (doubling): refuted for small limits.** With a limit below 39 nothing is assigned to `result`: the caller
`integrand_2nd_integration` (trapezoidal.cpp 96–114) returns an uninitialised number. -/
theorem C135_unassigned_refuted (f : ℝ → ℝ) (a b epsabs epsrel : ℝ) (limit : ℕ) :
    (nonadaptiveTrapezium f a b epsabs epsrel limit).2 = none ↔ limit < 39 := by
  obtain ⟨i, ⟨h, h1, -⟩ | ⟨h, h1, h2⟩⟩ := C135_nonadaptive f a b epsabs epsrel limit
  · have : 1 ≤ 2 ^ i := Nat.one_le_two_pow
    rw [pow_succ] at h1
    rw [h]
    simp
    omega
  · rw [h]
    rcases Nat.eq_zero_or_pos i with rfl | hi
    · simpa using h1
    · have hi' : i ≠ 0 := by omega
      have h2 := h2.resolve_left hi'
      obtain ⟨i, rfl⟩ : ∃ k, i = k + 1 := ⟨i - 1, by omega⟩
      have : 1 ≤ 2 ^ i := Nat.one_le_two_pow
      rw [pow_succ] at h2
      simp
      omega

/-! ## Cases -/

/-- The cube on `[0, 2]` with three panels. -/
example : integrateSampled (fun x => 0 + 0 * x + 0 * x ^ 2 + 1 * x ^ 3) 0 2 3 .simpson = 4 := by
  rw [(C135_sampled 0 0 0 1 0 2 3 (by norm_num)).1, integral_full_cubic]
  norm_num

/-- The square with two panels of the trapezium rule is not exact. -/
example : integrateSampled (fun x => x ^ 2) 0 2 2 .trapezium = 3 := by
  norm_num [integrateSampled, List.range_succ, PanelRule.apply]

/-- A cache which already holds a value. -/
example : (cppTrapezium (fun x => x ^ 2) 0 2 3 (some (Function.update (fun _ => none) 1 (some 1)))).1 = 3 := by
  rw [(C135_trapezium _ 0 2 3 _ ?_).1]
  · norm_num [trapRule]
  · intro d hd x v hv
    injection hd with hd
    subst hd
    by_cases hx : x = 1
    · subst hx
      simp at hv
      simp [← hv]
    · simp [Function.update_of_ne hx] at hv

/-- A wrong entry is used: the hypothesis on the cache is needed. -/
example : (cppTrapezium (fun x => x ^ 2) 0 2 3 (some (Function.update (fun _ => none) 1 (some 5)))).1 = 7 := by
  norm_num [cppTrapezium, evalCached, trapStep, Function.update, List.range'_succ]

example : adaptiveTrapezium (fun x => 1 + 2 * x) 0 3 0 0 4 = (12, 0) := by
  rw [C135_adaptive_affine]
  have h : ∫ x in (0 : ℝ)..3, (1 + 2 * x) = 12 := by
    rw [show (fun x : ℝ => 1 + 2 * x) = fun x => 1 + 2 * x + 0 * x ^ 2 + 0 * x ^ 3 by funext x; ring, integral_full_cubic]
    norm_num
  rw [h]

example : (nonadaptiveTrapezium (fun x => x ^ 2) 0 1 0 0 38).2 = none := (C135_unassigned_refuted _ _ _ _ _ _).mpr (by norm_num)

end PyBBN
