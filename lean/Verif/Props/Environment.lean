import Verif.Model.Environment
import Mathlib.Tactic.Linarith
import Mathlib.Tactic.Tauto
/-!
# C04, C05: settings
-/
namespace PyBBN
open Environment

/-! ## C04 -/

/-- Specification of the switches by documented name: default on. -/
def switchesOn : List String :=
  ["SPLIT_COLLISION_INTEGRAL", "FIXED_ORDER_1D_QUADRATURE", "LOGARITHMIC_TIMESTEP",
   "ADAMS_BASHFORTH_TEMPERATURE_CORRECTION", "NORMAL_HIERARCHY_NEUTRINOS",
   "SIMPSONS_NONEQ_PARTICLES", "LAGUERRE_GAUSS_FOR_MASSIVE_EQUILIBRIUM_PARTICLES"]

/-- Specification of the switches by documented name: default off. -/
def switchesOff : List String := ["ADAMS_MOULTON_DISTRIBUTION_CORRECTION", "SIMPSONS_INTEGRATION"]

/-- Documented integer settings with their default. -/
def intSettings : List (String × ℤ) :=
  [("GAUSS_LEGENDRE_ORDER", 100), ("GAUSS_LAGUERRE_ORDER", 100), ("MOMENTUM_SAMPLES", 401),
   ("MAX_MOMENTUM_MEV", 100), ("MAX_SCALE_FACTOR", 10)]

/-- Documented float settings with their default. -/
def floatSettings : List (String × ℤ × ℕ) :=
  [("FOUR_PARTICLE_GRID_RESOLUTION", 24999, 100000), ("REGIME_SWITCHING_FACTOR", 1000, 1)]

/-- **C04.** An unset variable yields the default, for every name. -/
theorem C04_unset (P : Parsers) (env : String → Option String) (name : String)
    (h : env name = none) : envGet P env name = .ok (defaults.lookup name) := by
  unfold envGet
  simp only [h]
  cases hd : defaults.lookup name with
  | none => rfl
  | some d =>
    have : convert P d d = .ok d ∨ ∃ b, d = .bool b := by
      cases d with
      | bool b => exact Or.inr ⟨b, rfl⟩
      | _ => exact Or.inl rfl
    rcases this with h1 | ⟨b, rfl⟩
    · simp only [h1]; split <;> rfl
    · cases b <;> rfl

/-- **C04.** Unset numeric settings have exactly the documented values and unset switches the
documented positions. -/
theorem C04_unset_documented (P : Parsers) (env : String → Option String) :
    (∀ p ∈ intSettings, env p.1 = none → envGet P env p.1 = .ok (some (.int p.2))) ∧
    (∀ p ∈ floatSettings, env p.1 = none → envGet P env p.1 = .ok (some (.float p.2.1 p.2.2))) ∧
    (∀ n ∈ switchesOn, env n = none → switch P env n = .ok true) ∧
    (∀ n ∈ switchesOff, env n = none → switch P env n = .ok false) := by
  refine ⟨?_, ?_, ?_, ?_⟩
  · intro p hp h
    rw [C04_unset P env _ h]
    simp only [intSettings, List.mem_cons, List.not_mem_nil, or_false] at hp
    rcases hp with rfl | rfl | rfl | rfl | rfl <;> rfl
  · intro p hp h
    rw [C04_unset P env _ h]
    simp only [floatSettings, List.mem_cons, List.not_mem_nil, or_false] at hp
    rcases hp with rfl | rfl <;> rfl
  · intro p hp h
    rw [switch, C04_unset P env _ h]
    simp only [switchesOn, List.mem_cons, List.not_mem_nil, or_false] at hp
    rcases hp with rfl | rfl | rfl | rfl | rfl | rfl | rfl <;> rfl
  · intro p hp h
    rw [switch, C04_unset P env _ h]
    simp only [switchesOff, List.mem_cons, List.not_mem_nil, or_false] at hp
    rcases hp with rfl | rfl <;> rfl

/-- **C04.** A numeric setting set to any string is the number written there, or a `ValueError` when
the string is not a numeral; the default is never used. -/
theorem C04_numeric_override (P : Parsers) (env : String → Option String) (s : String) :
    (∀ p ∈ intSettings, env p.1 = some s →
      (∀ i, P.parseInt s = some i → envGet P env p.1 = .ok (some (.int i))) ∧
      (P.parseInt s = none → envGet P env p.1 = .error .valueError)) ∧
    (∀ p ∈ floatSettings, env p.1 = some s →
      (∀ n d, P.parseFloat s = some (n, d) → envGet P env p.1 = .ok (some (.float n d))) ∧
      (P.parseFloat s = none → envGet P env p.1 = .error .valueError)) := by
  constructor
  · intro p hp h
    have hl : ∃ k, k ≠ 0 ∧ defaults.lookup p.1 = some (.int k) := by
      simp only [intSettings, List.mem_cons, List.not_mem_nil, or_false] at hp
      rcases hp with rfl | rfl | rfl | rfl | rfl
      · exact ⟨100, by decide, rfl⟩
      · exact ⟨100, by decide, rfl⟩
      · exact ⟨401, by decide, rfl⟩
      · exact ⟨100, by decide, rfl⟩
      · exact ⟨10, by decide, rfl⟩
    obtain ⟨k, hk, hl⟩ := hl
    constructor
    · intro i hi
      simp [envGet, h, hl, PyVal.truthy, hk, convert, hi]
    · intro hi
      simp [envGet, h, hl, PyVal.truthy, hk, convert, hi]
  · intro p hp h
    have hl : ∃ k d, k ≠ 0 ∧ defaults.lookup p.1 = some (.float k d) := by
      simp only [floatSettings, List.mem_cons, List.not_mem_nil, or_false] at hp
      rcases hp with rfl | rfl
      · exact ⟨24999, 100000, by decide, rfl⟩
      · exact ⟨1000, 1, by decide, rfl⟩
    obtain ⟨k, e, hk, hl⟩ := hl
    constructor
    · intro n d hi
      simp [envGet, h, hl, PyVal.truthy, hk, convert, hi]
    · intro hi
      simp [envGet, h, hl, PyVal.truthy, hk, convert, hi]

/-- What is true of switches set through the environment: only the empty string switches off. -/
theorem C04_switch_override_partial (P : Parsers) (env : String → Option String) (n s : String)
    (hn : n ∈ switchesOn ∨ n ∈ switchesOff) (h : env n = some s) :
    switch P env n = .ok (s != "") := by
  have hl : ∃ b, defaults.lookup n = some (.bool b) := by
    rcases hn with hn | hn
    · simp only [switchesOn, List.mem_cons, List.not_mem_nil, or_false] at hn
      rcases hn with rfl | rfl | rfl | rfl | rfl | rfl | rfl <;> exact ⟨true, rfl⟩
    · simp only [switchesOff, List.mem_cons, List.not_mem_nil, or_false] at hn
      rcases hn with rfl | rfl <;> exact ⟨false, rfl⟩
  obtain ⟨b, hl⟩ := hl
  cases b <;> simp [switch, envGet, h, hl, PyVal.truthy, convert]

/-- **C04 (refutation).** Setting any switch to "False" (or "0") switches it on, whatever its
default. -/
theorem C04_False_means_on (P : Parsers) (env : String → Option String) (n : String)
    (hn : n ∈ switchesOn ∨ n ∈ switchesOff) (h : env n = some "False" ∨ env n = some "0") :
    switch P env n = .ok true := by
  rcases h with h | h <;> rw [C04_switch_override_partial P env n _ hn h] <;> rfl

/-- A default-off switch that was set does not even have the type of its default: the raw string is
returned. -/
theorem C04_off_switch_returns_string (P : Parsers) (env : String → Option String) (n s : String)
    (hn : n ∈ switchesOff) (h : env n = some s) : envGet P env n = .ok (some (.str s)) := by
  simp only [switchesOff, List.mem_cons, List.not_mem_nil, or_false] at hn
  rcases hn with rfl | rfl <;> simp [envGet, h, defaults, List.lookup, PyVal.truthy]

/-- **C04.** Names without a default are passed through: raw string, or `None` if unset. -/
theorem C04_unknown (P : Parsers) (env : String → Option String) (n : String)
    (hn : ∀ p ∈ defaults, p.1 ≠ n) : envGet P env n = .ok ((env n).map .str) := by
  have hl : defaults.lookup n = none := by
    rw [List.lookup_eq_none_iff]
    intro p hp
    simpa using fun h => hn p hp h.symm
  cases h : env n <;> simp [envGet, hl, h]

/-- **C04.** A switch whose name is not documented is off until it is set, and then off only when it
is set to the empty string. -/
theorem C04_unknown_switch (P : Parsers) (env : String → Option String) (n : String)
    (h1 : ∀ p ∈ intSettings, p.1 ≠ n) (h2 : ∀ p ∈ floatSettings, p.1 ≠ n)
    (h3 : n ∉ switchesOn) (h4 : n ∉ switchesOff) :
    switch P env n = .ok (match env n with | none => false | some s => s != "") := by
  have hn : ∀ p ∈ defaults, p.1 ≠ n := by
    simp only [intSettings, floatSettings, switchesOn, switchesOff, List.mem_cons,
      List.not_mem_nil, or_false, not_or, forall_eq_or_imp, forall_eq] at h1 h2 h3 h4
    simp only [defaults, List.mem_cons, List.not_mem_nil, or_false, forall_eq_or_imp, forall_eq]
    obtain ⟨a1, a2, a3, a4, a5⟩ := h1
    obtain ⟨b1, b2⟩ := h2
    obtain ⟨c1, c2, c3, c4, c5, c6, c7⟩ := h3
    obtain ⟨d1, d2⟩ := h4
    exact ⟨Ne.symm c1, Ne.symm c2, a1, a2, Ne.symm c3, Ne.symm c4, Ne.symm d1, a3, a4, a5, b1,
      Ne.symm c5, b2, Ne.symm d2, Ne.symm c6, Ne.symm c7⟩
  rw [switch, C04_unknown P env n hn]
  cases env n <;> rfl

/-- **C04.** A setting depends on no other variable. -/
theorem C04_local (P : Parsers) (env env' : String → Option String) (n : String)
    (h : env n = env' n) : envGet P env n = envGet P env' n := by
  simp [envGet, h]

/-- A toy parser to exhibit the hypotheses. -/
def demoParsers : Parsers where
  parseInt s := if s = "25" then some 25 else none
  parseFloat _ := none

example : envGet demoParsers (fun n => if n = "MOMENTUM_SAMPLES" then some "25" else none)
    "MOMENTUM_SAMPLES" = .ok (some (.int 25)) :=
  ((C04_numeric_override demoParsers _ "25").1 ("MOMENTUM_SAMPLES", 401) (by decide) rfl).1 25 rfl

example : "SIMPSONS_INTEGRATION" ∈ switchesOff := by decide
example : ∀ p ∈ defaults, p.1 ≠ "Relativistic_decoupling" := by decide
example : switch demoParsers (fun _ => none) "Relativistic_decoupling" = .ok false :=
  C04_unknown_switch demoParsers _ "Relativistic_decoupling" (by decide) (by decide) (by decide)
    (by decide)

/-! ## C05 -/

/-- **C05.** `getboolenv` is false exactly when the effective value is absent, `False`, or one of the
four listed strings. -/
theorem C05_getboolenv (env : String → Option String) (var : String) (default : Option PyVal) :
    getboolenv env var default = false ↔
      ((∃ s, env var = some s ∧ (s = "false" ∨ s = "f" ∨ s = "0" ∨ s = "-1")) ∨
       (env var = none ∧ (default = none ∨ default = some (.bool false) ∨
          ∃ s, default = some (.str s) ∧ (s = "false" ∨ s = "f" ∨ s = "0" ∨ s = "-1")))) := by
  unfold getboolenv getenv
  cases h : env var with
  | some s => simp; tauto
  | none =>
    cases default with
    | none => simp
    | some v => cases v <;> simp <;> tauto

/-- **C05.** In particular capitalised, empty and other negative-looking strings count as true. -/
theorem C05_false_friends (env : String → Option String) (var : String) (default : Option PyVal)
    (s : String) (hs : s ∈ ["False", "FALSE", "no", "off", "", "00", " 0"])
    (h : env var = some s) : getboolenv env var default = true := by
  rw [← Bool.not_eq_false, C05_getboolenv]
  simp only [List.mem_cons, List.not_mem_nil, or_false] at hs
  rcases hs with rfl | rfl | rfl | rfl | rfl | rfl | rfl <;> simp [h]

end PyBBN
