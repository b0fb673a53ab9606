import Verif.Model.Py
import Mathlib.Data.Real.Basic
import Mathlib.Tactic
/-!
# Sampling quadratures in C++ (interactions/four_particle/cpp/simpson.cpp, trapezoidal.cpp)

These files are kept as alternatives to the GSL routines which `integral.cpp` calls; they are not compiled in.  Numbers are real.
-/
namespace PyBBN

/-- Rules of a panel `[x, x + h]` (simpson.cpp 15–55). -/
inductive PanelRule
  | left | middle | right | trapezium | simpson

/-- `m(f, x, h)` (simpson.cpp 21–32, 41–44, 51–54). -/
noncomputable def PanelRule.apply (f : ℝ → ℝ) (x h : ℝ) : PanelRule → ℝ
  | left => f x
  | middle => f (x + h / 2)
  | right => f (x + h)
  | trapezium => (f x + f (x + h)) / 2
  | simpson => (f x + 4 * f (x + h / 2) + f (x + h)) / 6

/-- `integrate_sampled(f, a, b, steps, m)` (simpson.cpp 4–12). -/
noncomputable def integrateSampled (f : ℝ → ℝ) (a b : ℝ) (steps : ℕ) (m : PanelRule) : ℝ :=
  let h := (b - a) / steps
  h * (List.range steps).foldl (fun s (i : ℕ) => s + m.apply f (a + h * i) h) 0

/-- The `std::map` of values already computed: a partial function. -/
abbrev QCache := ℝ → Option ℝ

/-- `F(x)` (trapezoidal.cpp 5–18): with a cache the stored value if there is one, else the new value, which is stored. -/
noncomputable def evalCached (f : ℝ → ℝ) : Option QCache → ℝ → ℝ × Option QCache
  | none, x => (f x, none)
  | some c, x =>
    match c x with
    | some v => (v, some c)
    | none => (f x, some (Function.update c x (some (f x))))

/-- One pass of the loop (trapezoidal.cpp 22–24). -/
noncomputable def trapStep (f : ℝ → ℝ) (a h : ℝ) (s : ℝ × Option QCache) (i : ℕ) : ℝ × Option QCache :=
  (s.1 + (evalCached f s.2 (a + h * i)).1, (evalCached f s.2 (a + h * i)).2)

/-- `trapezium(f, a, b, n, cache)` (trapezoidal.cpp 3–26) for `n ≥ 2` (the callers use 8, 15, and 20 or more; for `n = 0` the unsigned
`n - 1` would wrap).  `F(a)` is evaluated before `F(b)`, an order C++ leaves open. -/
noncomputable def cppTrapezium (f : ℝ → ℝ) (a b : ℝ) (n : ℕ) (cache : Option QCache) : ℝ × Option QCache :=
  let h := (b - a) / ((n : ℝ) - 1)
  let va := evalCached f cache a
  let vb := evalCached f va.2 b
  let s := (List.range' 1 (n - 2)).foldl (trapStep f a h) ((va.1 + vb.1) / 2, vb.2)
  (h * s.1, s.2)

/-- `fabs(error) <= epsabs || fabs(error / result) <= epsrel`; a quotient by zero is infinite or nan, and the comparison false. -/
def Converged (epsabs epsrel error result : ℝ) : Prop :=
  |error| ≤ epsabs ∨ (result ≠ 0 ∧ |error / result| ≤ epsrel)

open Classical in
/-- `adaptive_trapezium_helper` (trapezoidal.cpp 29–50); the first argument is `limit - n`, zero if `n >= limit`.  The left half is
computed before the right one and they share the cache.  The message is left out. -/
noncomputable def adaptiveTrap (f : ℝ → ℝ) (epsabs epsrel : ℝ) :
    ℕ → ℝ → ℝ → Option QCache → (ℝ × ℝ) × Option QCache
  | k, a, b, cache =>
    let coarse := cppTrapezium f a b 8 cache
    let fine := cppTrapezium f a b 15 coarse.2
    let error := fine.1 - coarse.1
    if Converged epsabs epsrel error fine.1 then ((fine.1, error), fine.2)
    else
      match k with
      | 0 => ((fine.1, error), fine.2)
      | k + 1 =>
        let l := adaptiveTrap f epsabs epsrel k a ((a + b) / 2) fine.2
        let r := adaptiveTrap f epsabs epsrel k ((a + b) / 2) b l.2
        ((l.1.1 + r.1.1, l.1.2 + r.1.2), r.2)

/-- `adaptive_trapezium` (trapezoidal.cpp 53–59): `result` and `error`, with a fresh cache. -/
noncomputable def adaptiveTrapezium (f : ℝ → ℝ) (a b epsabs epsrel : ℝ) (limit : ℕ) : ℝ × ℝ :=
  (adaptiveTrap f epsabs epsrel (limit - 1) a b (some fun _ => none)).1

open Classical in
/-- The loop of `nonadaptive_trapezium` (trapezoidal.cpp 68–78) with `n = m + 2` points, the result `old` for them, and the values of
`result` and `error` so far (`none`: not assigned).  Returns the status (80–83) and these two. -/
noncomputable def trapLoop (f : ℝ → ℝ) (a b epsabs epsrel : ℝ) (limit m : ℕ) (old : ℝ) (cache : Option QCache)
    (out : Option (ℝ × ℝ)) : ℕ × Option (ℝ × ℝ) :=
  if 2 * (m + 2) - 1 ≤ limit then
    let r := cppTrapezium f a b (m + 2 + (m + 2 - 1)) cache
    let error := r.1 - old
    if Converged epsabs epsrel error r.1 then (0, some (r.1, error))
    else trapLoop f a b epsabs epsrel limit (2 * m + 1) r.1 r.2 (some (r.1, error))
  else (m + 2, out)
termination_by limit - m

/-- `nonadaptive_trapezium` (trapezoidal.cpp 62–84). -/
noncomputable def nonadaptiveTrapezium (f : ℝ → ℝ) (a b epsabs epsrel : ℝ) (limit : ℕ) : ℕ × Option (ℝ × ℝ) :=
  let r := cppTrapezium f a b 20 (some fun _ => none)
  trapLoop f a b epsabs epsrel limit 18 r.1 r.2 none

end PyBBN
