import Verif.Model.Kawano
import Verif.Lemmas.Quad
import Mathlib.Analysis.SpecialFunctions.ExpDeriv
import Mathlib.Analysis.Calculus.Deriv.Inv
import Mathlib.Tactic.FieldSimp
import Mathlib.Tactic.Positivity
/-!
# C51, C55, C68: weak rates, the monitor, the table handed to the nuclear network
-/
namespace PyBBN
namespace KEnv

/-! ## C51 -/

theorem ye_nonneg (k : KEnv) (E : ℝ) : 0 ≤ k.ye E := Real.sqrt_nonneg _

/-- Six numbers, whatever the scale factor and grid. -/
theorem rates_six (k : KEnv) (Q : (ℝ → ℝ) → ℝ → ℝ → ℝ) (norm pa ymin ymax : ℝ) :
    (k.baryonicRates Q norm pa ymin ymax).length = 6 := rfl

/-- **C51 (empty ranges).** Rates 1, 2 vanish on an empty grid range; 3, 4 if the available energy
`(q - m_e) a` does not exceed the smallest momentum; 5, 6 if the threshold `(q + m_e) a` is not below
the largest momentum — without any evaluation of the integrand. -/
theorem C51_empty (k : KEnv) (Q : (ℝ → ℝ) → ℝ → ℝ → ℝ) (norm pa ymin ymax : ℝ) :
    (ymax ≤ ymin → (k.baryonicRates Q norm pa ymin ymax)[0]? = some 0 ∧
      (k.baryonicRates Q norm pa ymin ymax)[1]? = some 0) ∧
    ((k.q - k.me) * k.a ≤ ymin → (k.baryonicRates Q norm pa ymin ymax)[2]? = some 0 ∧
      (k.baryonicRates Q norm pa ymin ymax)[3]? = some 0) ∧
    (ymax ≤ (k.q + k.me) * k.a → (k.baryonicRates Q norm pa ymin ymax)[4]? = some 0 ∧
      (k.baryonicRates Q norm pa ymin ymax)[5]? = some 0) := by
  refine ⟨fun h => ?_, fun h => ?_, fun h => ?_⟩ <;>
    simp [baryonicRates, jobs, not_lt.mpr h]

/-- Occupations of the two species lie in `[0,1]`. -/
def Occ (k : KEnv) : Prop := (∀ y, 0 ≤ k.fe y ∧ k.fe y ≤ 1) ∧ ∀ y, 0 ≤ k.fnu y ∧ k.fnu y ≤ 1

theorem rate_nonneg (k : KEnv) (hm : 0 ≤ k.me * k.a) (h : k.Occ) (ymin ymax : ℝ)
    (j : (ℝ → ℝ) × (ℝ × ℝ)) (hj : j ∈ k.jobs ymin ymax) (y : ℝ) : 0 ≤ j.1 y := by
  have e := fun x => (h.1 x).1
  have e' : ∀ x, 0 ≤ 1 - k.fe x := fun x => sub_nonneg.mpr (h.1 x).2
  have n := fun x => (h.2 x).1
  have n' : ∀ x, 0 ≤ 1 - k.fnu x := fun x => sub_nonneg.mpr (h.2 x).2
  have aux : ∀ (E u v : ℝ), 0 ≤ u → 0 ≤ v →
      0 ≤ (open Classical in if E < k.me * k.a then 0 else y ^ 2 * k.ye E * E * u * v) := by
    intro E u v hu hv
    split_ifs with hE
    · exact le_rfl
    · have hE' : 0 ≤ E := hm.trans (not_lt.mp hE)
      have := k.ye_nonneg E
      positivity
  simp only [jobs, List.mem_cons, List.not_mem_nil, or_false] at hj
  rcases hj with r | r | r | r | r | r <;> subst r
  · exact aux _ _ _ (e' _) (n _)
  · exact aux _ _ _ (e _) (n' _)
  · exact aux _ _ _ (e' _) (n' _)
  · exact aux _ _ _ (e _) (n _)
  · exact aux _ _ _ (e _) (n' _)
  · exact aux _ _ _ (e' _) (n _)

/-- **C51 (sign).** Every rate is non-negative for occupations in `[0,1]`. -/
theorem C51_nonneg (k : KEnv) (Q : (ℝ → ℝ) → ℝ → ℝ → ℝ) (hQ : PosQuad Q) (norm pa ymin ymax : ℝ)
    (hn : 0 ≤ norm) (hpa : 0 ≤ pa) (hm : 0 ≤ k.me * k.a) (h : k.Occ) :
    ∀ r ∈ k.baryonicRates Q norm pa ymin ymax, 0 ≤ r := by
  intro r hr
  unfold baryonicRates at hr
  obtain ⟨j, hj, rfl⟩ := List.mem_map.mp hr
  split_ifs with hb
  · have := hQ.nonneg j.1 j.2.1 j.2.2 hb.le fun y _ _ => rate_nonneg k hm h ymin ymax j hj y
    positivity
  · exact le_rfl

/-- **C51 (support).** The integration ranges lose nothing: outside them the integrands of the last
four processes vanish, and the first two have no threshold since `q ≥ m_e`. -/
theorem C51_ranges_cover (k : KEnv) (y : ℝ) :
    ((k.q - k.me) * k.a < y → k.rate3 y = 0 ∧ k.rate4 y = 0) ∧
    (y < (k.q + k.me) * k.a → k.rate5 y = 0 ∧ k.rate6 y = 0) ∧
    (0 ≤ (k.q - k.me) * k.a → 0 ≤ y → ¬ k.q * k.a + y < k.me * k.a) := by
  refine ⟨fun h => ?_, fun h => ?_, fun h hy => ?_⟩
  · unfold rate3 rate4
    have : k.q * k.a - y < k.me * k.a := by nlinarith
    simp [this]
  · unfold rate5 rate6
    have : -k.q * k.a + y < k.me * k.a := by nlinarith
    constructor <;> · dsimp only; rw [if_pos this]
  · intro k'; nlinarith

/-- Thermal equilibrium at conformal temperature `aT`: Fermi occupations, the electron with its
conformal energy `√(y² + (m_e a)²)`. -/
def Thermal (k : KEnv) (aT : ℝ) : Prop :=
  (∀ y, k.fe y = 1 / (Real.exp (√(y ^ 2 + (k.me * k.a) ^ 2) / aT) + 1)) ∧
  (∀ y, k.fnu y = 1 / (Real.exp (y / aT) + 1))

theorem energy_ye (k : KEnv) (hm : 0 ≤ k.me * k.a) (E : ℝ) (hE : ¬ E < k.me * k.a) :
    √(k.ye E ^ 2 + (k.me * k.a) ^ 2) = E := by
  have h := not_lt.mp hE
  unfold ye
  rw [Real.sq_sqrt (by nlinarith)]
  rw [show E ^ 2 - (k.me * k.a) ^ 2 + (k.me * k.a) ^ 2 = E ^ 2 by ring]
  exact Real.sqrt_sq (hm.trans h)

theorem one_sub_fermi (x : ℝ) : 1 - 1 / (Real.exp x + 1) = Real.exp x * (1 / (Real.exp x + 1)) := by
  have : Real.exp x + 1 ≠ 0 := by positivity
  field_simp; ring

/-- **C51 (detailed balance).** In thermal equilibrium each neutron-destroying integrand is
`exp(q a / aT) = exp(q/T)` times the inverse one, at every momentum. -/
theorem C51_detailed_balance (k : KEnv) (aT : ℝ) (hm : 0 ≤ k.me * k.a) (h : k.Thermal aT) (y : ℝ) :
    k.rate1 y = Real.exp (k.q * k.a / aT) * k.rate2 y ∧
    k.rate3 y = Real.exp (k.q * k.a / aT) * k.rate4 y ∧
    k.rate5 y = Real.exp (k.q * k.a / aT) * k.rate6 y := by
  obtain ⟨he, hn⟩ := h
  refine ⟨?_, ?_, ?_⟩
  · unfold rate1 rate2
    dsimp only
    split_ifs with hE
    · simp
    · rw [he, hn, energy_ye k hm _ hE, one_sub_fermi, one_sub_fermi,
        show (k.q * k.a + y) / aT = k.q * k.a / aT + y / aT by ring, Real.exp_add]
      ring
  · unfold rate3 rate4
    dsimp only
    split_ifs with hE
    · simp
    · rw [he, hn, energy_ye k hm _ hE, one_sub_fermi, one_sub_fermi]
      have : Real.exp (k.q * k.a / aT) = Real.exp ((k.q * k.a - y) / aT) * Real.exp (y / aT) := by
        rw [← Real.exp_add]; congr 1; ring
      rw [this]; ring
  · unfold rate5 rate6
    dsimp only
    split_ifs with hE
    · simp
    · rw [he, hn, energy_ye k hm _ hE, one_sub_fermi, one_sub_fermi]
      have : Real.exp (y / aT) = Real.exp (k.q * k.a / aT) * Real.exp ((-k.q * k.a + y) / aT) := by
        rw [← Real.exp_add]; congr 1; ring
      rw [this]; ring

/-- **C51 (detailed balance of the rates).** The same for the six numbers returned: total
neutron→proton and proton→neutron rates have ratio `exp(q a / aT)`, process by process. -/
theorem C51_rates_balance (k : KEnv) (Q : (ℝ → ℝ) → ℝ → ℝ → ℝ) (hQ : PosQuad Q)
    (norm pa ymin ymax aT : ℝ) (hm : 0 ≤ k.me * k.a) (h : k.Thermal aT) :
    ∃ r2 r4 r6, k.baryonicRates Q norm pa ymin ymax =
      [Real.exp (k.q * k.a / aT) * r2, r2, Real.exp (k.q * k.a / aT) * r4, r4,
       Real.exp (k.q * k.a / aT) * r6, r6] := by
  classical
  have e1 : k.rate1 = fun y => Real.exp (k.q * k.a / aT) * k.rate2 y :=
    funext fun y => (C51_detailed_balance k aT hm h y).1
  have e3 : k.rate3 = fun y => Real.exp (k.q * k.a / aT) * k.rate4 y :=
    funext fun y => (C51_detailed_balance k aT hm h y).2.1
  have e5 : k.rate5 = fun y => Real.exp (k.q * k.a / aT) * k.rate6 y :=
    funext fun y => (C51_detailed_balance k aT hm h y).2.2
  have aux : ∀ (f : ℝ → ℝ) (a b : ℝ),
      (if a < b then norm / pa ^ 5 * Q (fun y => Real.exp (k.q * k.a / aT) * f y) a b else 0) =
      Real.exp (k.q * k.a / aT) * (if a < b then norm / pa ^ 5 * Q f a b else 0) := by
    intro f a b
    rw [hQ.smul]
    split_ifs <;> ring
  refine ⟨if ymin < ymax then norm / pa ^ 5 * Q k.rate2 ymin ymax else 0,
    if ymin < (k.q - k.me) * k.a then norm / pa ^ 5 * Q k.rate4 ymin ((k.q - k.me) * k.a) else 0,
    if (k.q + k.me) * k.a < ymax then norm / pa ^ 5 * Q k.rate6 ((k.q + k.me) * k.a) ymax else 0, ?_⟩
  unfold baryonicRates jobs
  rw [e1, e3, e5]
  simp only [List.map_cons, List.map_nil, aux]

/-- A thermal environment exists for all masses, so the hypotheses are met. -/
example (q me a aT : ℝ) : ∃ k : KEnv, k.q = q ∧ k.me = me ∧ k.a = a ∧ k.Thermal aT ∧ k.Occ := by
  refine ⟨⟨q, me, a, fun y => 1 / (Real.exp (√(y ^ 2 + (me * a) ^ 2) / aT) + 1),
    fun y => 1 / (Real.exp (y / aT) + 1)⟩, rfl, rfl, rfl, ⟨fun _ => rfl, fun _ => rfl⟩, ?_, ?_⟩
  · intro y
    have := Real.exp_pos (√(y ^ 2 + (me * a) ^ 2) / aT)
    exact ⟨by positivity, by rw [div_le_one (by positivity)]; linarith⟩
  · intro y
    have := Real.exp_pos (y / aT)
    exact ⟨by positivity, by rw [div_le_one (by positivity)]; linarith⟩

end KEnv

/-! ## C68 -/

/-- **C68 (temperature derivative).** If along a solution `a(t)`, `aT(t)` the scale factor obeys
`ȧ = H a` and the conformal temperature moves with the slope `fraction` per unit of the step variable
(`ln a` in logarithmic mode, `x = m a` otherwise), then the entry `dTg/dt` of the table is the time
derivative of the temperature `T = aT/a`. -/
theorem C68_dTdt (p : Params) (fraction t : ℝ) (a aT : ℝ → ℝ) (ha : a t = p.a) (haT : aT t = p.aT)
    (hpos : p.a ≠ 0) (hm : p.m ≠ 0) (hcons : p.T = p.aT / p.a)
    (da : HasDerivAt a (p.H * p.a) t)
    (daT : HasDerivAt aT (fraction * (if p.log then p.H else p.m * (p.H * p.a))) t) :
    HasDerivAt (fun s => aT s / a s) (kawanoDTdt p fraction) t := by
  refine (daT.fun_div da (by rw [ha]; exact hpos)).congr_deriv ?_
  symm
  unfold kawanoDTdt
  rw [ha, haT, hcons]
  cases p.log
  · simp only [Bool.false_eq_true, if_false]
    field_simp
  · simp only [if_true]
    field_simp

/-- **C68 (columns).** The row has the twelve columns of the heading, the rates being the last six, in
the order of `baryonic_rates`. -/
theorem C68_row (k : KEnv) (Q : (ℝ → ℝ) → ℝ → ℝ → ℝ) (norm pa ymin ymax : ℝ) (p : Params)
    (rho fraction : ℝ) :
    (kawanoRow p rho fraction (k.baryonicRates Q norm pa ymin ymax)).length = 12 ∧
    ratesIntended (kawanoRow p rho fraction (k.baryonicRates Q norm pa ymin ymax)) =
      .ok (k.baryonicRates Q norm pa ymin ymax) := ⟨rfl, rfl⟩

/-- The columns of the table handed to the nuclear network (kawano.py 156–169), by name. -/
noncomputable def columnOf (p : Params) (rho dTdt : ℝ) (rate : ℕ → ℝ) : List (String × ℝ) :=
  [("t", p.t), ("x", p.x), ("Tg", p.T), ("dTg/dt", dTdt), ("rho_tot", rho), ("H", p.H),
   ("n nue->p e", rate 0), ("p e->n nue", rate 1), ("n->p e nue", rate 2), ("p e nue->n", rate 3),
   ("n e->p nue", rate 4), ("p nue->n e", rate 5)]

/-- **C68 (columns by name).** Under each heading stands the quantity of that name. -/
theorem C68_columns (p : Params) (rho fraction : ℝ) (r0 r1 r2 r3 r4 r5 : ℝ) :
    kawanoRow p rho fraction [r0, r1, r2, r3, r4, r5] =
      (columnOf p rho (kawanoDTdt p fraction) fun i => [r0, r1, r2, r3, r4, r5].getD i 0).map Prod.snd := rfl

/-! ## C55 -/

section
variable {Row : Type*} (getRates : Row → Except Err (List ℝ)) (Tbbn q tau : ℝ)

/-- What one call can do to the recorded values: nothing recorded changes; a new record is the current
state; the estimate is computed from the two records. -/
theorem C55_step (last : Option Row) (p : Params) (m m' : Monitor)
    (h : stepMonitor getRates Tbbn q tau last p m = .ok m') :
    (∀ x, m.neutron = some x → m'.neutron = some x) ∧
    (∀ x, m.deuterium = some x → m'.deuterium = some x) ∧
    (∀ x, m.estimates = some x → m'.estimates = some x) ∧
    (m.neutron = none → ∀ x, m'.neutron = some x → x = p ∧
      ∃ row rates, last = some row ∧ getRates row = .ok rates ∧ equilibrationLost rates = true) ∧
    (m.deuterium = none → (m'.deuterium = if p.T ≤ Tbbn then some p else none)) ∧
    (m.estimates = none → ∀ e, m'.estimates = some e → ∃ np dp, m'.neutron = some np ∧
      m'.deuterium = some dp ∧ e = (dp.t - np.t,
        Real.exp (-q / np.T) * Real.exp (-(dp.t - np.t) / tau),
        2 * (Real.exp (-q / np.T) * Real.exp (-(dp.t - np.t) / tau)) /
          (1 + Real.exp (-q / np.T) * Real.exp (-(dp.t - np.t) / tau)))) ∧
    (m'.neutron ≠ none → m'.deuterium ≠ none → m'.estimates ≠ none) := by
  classical
  unfold stepMonitor at h
  cases h1 : monitorNeutron getRates last p m with
  | error er => rw [h1] at h; cases h
  | ok m1 =>
    rw [h1] at h
    cases h
    have k1 : m1.deuterium = m.deuterium ∧ m1.estimates = m.estimates ∧
        (∀ x, m.neutron = some x → m1.neutron = some x) ∧
        (m.neutron = none → ∀ x, m1.neutron = some x → x = p ∧
          ∃ row rates, last = some row ∧ getRates row = .ok rates ∧
            equilibrationLost rates = true) := by
      unfold monitorNeutron at h1
      obtain ⟨n, d, e⟩ := m
      cases n with
      | some x => cases h1; exact ⟨rfl, rfl, fun _ k => k, fun k => by cases k⟩
      | none =>
        cases last with
        | none => cases h1; exact ⟨rfl, rfl, fun _ k => k, fun _ x k => by cases k⟩
        | some row =>
          simp only at h1
          cases hr : getRates row with
          | error er => rw [hr] at h1; cases h1
          | ok rates =>
            rw [hr] at h1
            simp only [Except.ok.injEq] at h1
            by_cases hl : equilibrationLost rates = true
            · rw [if_pos hl] at h1
              subst h1
              refine ⟨rfl, rfl, fun _ k => (by cases k), fun _ x k => ?_⟩
              cases k
              exact ⟨rfl, row, rates, rfl, hr, hl⟩
            · rw [if_neg hl] at h1
              subst h1
              exact ⟨rfl, rfl, fun _ k => k, fun _ x k => by cases k⟩
    obtain ⟨a1, a2, a3, a4⟩ := k1
    have k2 : (monitorDeuterium Tbbn p m1).neutron = m1.neutron ∧
        (monitorDeuterium Tbbn p m1).estimates = m1.estimates ∧
        (∀ x, m1.deuterium = some x → (monitorDeuterium Tbbn p m1).deuterium = some x) ∧
        (m1.deuterium = none → (monitorDeuterium Tbbn p m1).deuterium =
          if p.T ≤ Tbbn then some p else none) := by
      obtain ⟨n, d, e⟩ := m1
      unfold monitorDeuterium
      cases d with
      | some x => exact ⟨rfl, rfl, fun _ k => k, fun k => by cases k⟩
      | none =>
        by_cases hT : p.T ≤ Tbbn
        · simp [hT]
        · simp [hT]
    obtain ⟨b1, b2, b3, b4⟩ := k2
    generalize monitorDeuterium Tbbn p m1 = m2 at b1 b2 b3 b4
    have k3 : (monitorEstimate q tau m2).neutron = m2.neutron ∧
        (monitorEstimate q tau m2).deuterium = m2.deuterium ∧
        (∀ x, m2.estimates = some x → (monitorEstimate q tau m2).estimates = some x) ∧
        (m2.estimates = none → ∀ e, (monitorEstimate q tau m2).estimates = some e →
          ∃ np dp, m2.neutron = some np ∧ m2.deuterium = some dp ∧ e = (dp.t - np.t,
            Real.exp (-q / np.T) * Real.exp (-(dp.t - np.t) / tau),
            2 * (Real.exp (-q / np.T) * Real.exp (-(dp.t - np.t) / tau)) /
              (1 + Real.exp (-q / np.T) * Real.exp (-(dp.t - np.t) / tau)))) ∧
        (m2.neutron ≠ none → m2.deuterium ≠ none →
          (monitorEstimate q tau m2).estimates ≠ none) := by
      obtain ⟨n, d, e⟩ := m2
      unfold monitorEstimate
      cases n with
      | none => exact ⟨rfl, rfl, fun _ k => k, fun k e k' => (by simp only at k k'; rw [k] at k'; cases k'),
          fun k => absurd rfl k⟩
      | some np =>
        cases d with
        | none => exact ⟨rfl, rfl, fun _ k => k, fun k e k' => (by simp only at k k'; rw [k] at k'; cases k'),
            fun _ k => absurd rfl k⟩
        | some dp =>
          cases e with
          | some x => exact ⟨rfl, rfl, fun _ k => k, fun k => (by cases k), fun _ _ => by simp⟩
          | none =>
            refine ⟨rfl, rfl, fun _ k => (by cases k), fun _ e k => ?_, fun _ _ => by simp⟩
            cases k
            exact ⟨np, dp, rfl, rfl, rfl⟩
    obtain ⟨c1, c2, c3, c4, c5⟩ := k3
    refine ⟨fun x k => ?_, fun x k => ?_, fun x k => ?_, fun k x k' => ?_, fun k => ?_,
      fun k e k' => ?_, fun k k' => ?_⟩
    · rw [c1, b1]; exact a3 x k
    · rw [c2]; exact b3 x (a1 ▸ k)
    · exact c3 x (by rw [b2, a2]; exact k)
    · exact a4 k x (by rw [← b1, ← c1]; exact k')
    · rw [c2]; exact b4 (a1 ▸ k)
    · obtain ⟨np, dp, h1, h2, h3⟩ := c4 (by rw [b2, a2]; exact k) e k'
      exact ⟨np, dp, by rw [c1]; exact h1, by rw [c2]; exact h2, h3⟩
    · exact c5 (c1 ▸ k) (c2 ▸ k')

/-- **C55 (latch).** Over any run nothing recorded is ever overwritten. -/
theorem C55_latched (steps : List (Option Row × Params)) (m m' : Monitor)
    (h : monitorRun getRates Tbbn q tau steps m = .ok m') :
    (∀ x, m.neutron = some x → m'.neutron = some x) ∧
    (∀ x, m.deuterium = some x → m'.deuterium = some x) ∧
    (∀ x, m.estimates = some x → m'.estimates = some x) := by
  induction steps generalizing m with
  | nil => cases h; exact ⟨fun _ k => k, fun _ k => k, fun _ k => k⟩
  | cons s ss ih =>
    rw [monitorRun] at h
    cases h1 : stepMonitor getRates Tbbn q tau s.1 s.2 m with
    | error e => rw [h1] at h; cases h
    | ok m1 =>
      rw [h1] at h
      obtain ⟨i1, i2, i3⟩ := ih m1 h
      obtain ⟨a1, a2, a3, _⟩ := C55_step getRates Tbbn q tau s.1 s.2 m m1 h1
      exact ⟨fun x k => i1 x (a1 x k), fun x k => i2 x (a2 x k), fun x k => i3 x (a3 x k)⟩

/-- Invariant: the records are states of the run and the estimate is computed from them. -/
def MonitorInv (ps : List Params) (m : Monitor) : Prop :=
  (∀ x, m.neutron = some x → x ∈ ps) ∧
  (∀ x, m.deuterium = some x → x ∈ ps ∧ x.T ≤ Tbbn) ∧
  (m.deuterium = none → ∀ p ∈ ps, Tbbn < p.T) ∧
  (m.estimates = none ↔ m.neutron = none ∨ m.deuterium = none) ∧
  (∀ e, m.estimates = some e → ∃ np dp, m.neutron = some np ∧ m.deuterium = some dp ∧
    e.1 = dp.t - np.t ∧
    e.2.1 = Real.exp (-q / np.T) * Real.exp (-(dp.t - np.t) / tau) ∧
    e.2.2 = 2 * e.2.1 / (1 + e.2.1))

theorem MonitorInv.step (ps : List Params) (last : Option Row) (p : Params) (m m' : Monitor)
    (inv : MonitorInv Tbbn q tau ps m) (h : stepMonitor getRates Tbbn q tau last p m = .ok m') :
    MonitorInv Tbbn q tau (ps ++ [p]) m' := by
  classical
  obtain ⟨s1, s2, s3, s4, s5, s6, s7⟩ := C55_step getRates Tbbn q tau last p m m' h
  obtain ⟨i1, i2, i3, i4, i5⟩ := inv
  refine ⟨fun x hx => ?_, fun x hx => ?_, fun hd y hy => ?_, ?_, fun e he => ?_⟩
  · cases hn : m.neutron with
    | none => rw [(s4 hn x hx).1]; simp
    | some z =>
      have := s1 z hn
      rw [hx] at this; cases this
      exact List.mem_append_left _ (i1 x hn)
  · cases hn : m.deuterium with
    | none =>
      have := s5 hn
      rw [hx] at this
      split_ifs at this with hT
      cases this
      exact ⟨by simp, hT⟩
    | some z =>
      have := s2 z hn
      rw [hx] at this; cases this
      exact ⟨List.mem_append_left _ (i2 x hn).1, (i2 x hn).2⟩
  · have hn : m.deuterium = none := by
      cases hn : m.deuterium with
      | none => rfl
      | some z => have := s2 z hn; rw [hd] at this; cases this
    rcases List.mem_append.mp hy with r | r
    · exact i3 hn y r
    · have := s5 hn
      rw [hd] at this
      split_ifs at this with hT
      rw [List.mem_singleton.mp r]
      exact not_le.mp hT
  · constructor
    · intro he
      by_contra hc
      push Not at hc
      exact s7 hc.1 hc.2 he
    · intro hnd
      by_contra hne
      obtain ⟨e, he⟩ := Option.ne_none_iff_exists'.mp hne
      cases hm : m.estimates with
      | none =>
        obtain ⟨np, dp, h1, h2, _⟩ := s6 hm e he
        rcases hnd with r | r
        · rw [h1] at r; cases r
        · rw [h2] at r; cases r
      | some e0 =>
        obtain ⟨np, dp, h1, h2, _⟩ := i5 e0 hm
        rcases hnd with r | r
        · rw [s1 np h1] at r; cases r
        · rw [s2 dp h2] at r; cases r
  · cases hm : m.estimates with
    | none =>
      obtain ⟨np, dp, h1, h2, h3⟩ := s6 hm e he
      subst h3
      exact ⟨np, dp, h1, h2, rfl, rfl, rfl⟩
    | some e0 =>
      have := s3 e0 hm
      rw [he] at this; cases this
      obtain ⟨np, dp, h1, h2, h3⟩ := i5 e hm
      exact ⟨np, dp, s1 np h1, s2 dp h2, h3⟩

theorem MonitorInv.run (steps : List (Option Row × Params)) (ps : List Params) (m m' : Monitor)
    (inv : MonitorInv Tbbn q tau ps m) (h : monitorRun getRates Tbbn q tau steps m = .ok m') :
    MonitorInv Tbbn q tau (ps ++ steps.map Prod.snd) m' := by
  induction steps generalizing m ps with
  | nil => cases h; simpa using inv
  | cons s ss ih =>
    rw [monitorRun] at h
    cases h1 : stepMonitor getRates Tbbn q tau s.1 s.2 m with
    | error e => rw [h1] at h; cases h
    | ok m1 =>
      rw [h1] at h
      have := ih (ps ++ [s.2]) m1 (MonitorInv.step getRates Tbbn q tau ps s.1 s.2 m m1 inv h1) h
      simpa using this

/-- **C55 (criterion).** For non-negative rates in the order of `baryonic_rates`, equilibrium between neutrons
and protons is declared lost exactly when the total rate of one direction exceeds ten times the other. -/
theorem C55_criterion (r0 r1 r2 r3 r4 r5 : ℝ) (h1 : 0 ≤ r1) (h3 : 0 ≤ r3) (h5 : 0 ≤ r5) (h0 : 0 ≤ r0)
    (h2 : 0 ≤ r2) (h4 : 0 ≤ r4) :
    equilibrationLost [r0, r1, r2, r3, r4, r5] = true ↔
      10 * (r1 + r3 + r5) < r0 + r2 + r4 ∨ 10 * (r0 + r2 + r4) < r1 + r3 + r5 := by
  have ef : (([r0, r1, r2, r3, r4, r5].zipIdx.filter fun x => x.2 % 2 = 0).map Prod.fst).sum =
      r0 + r2 + r4 := by
    simp [List.zipIdx]; ring
  have eb : (([r0, r1, r2, r3, r4, r5].zipIdx.filter fun x => x.2 % 2 = 1).map Prod.fst).sum =
      r1 + r3 + r5 := by
    simp [List.zipIdx]; ring
  unfold equilibrationLost
  simp only [ef, eb]
  by_cases hb : r1 + r3 + r5 = 0
  · rw [if_pos hb, decide_eq_true_iff, hb]
    constructor
    · intro h
      left
      rw [mul_zero]
      exact lt_of_le_of_ne (by positivity) (Ne.symm h)
    · rintro (h | h)
      · rw [mul_zero] at h; exact h.ne'
      · have : 0 ≤ r0 + r2 + r4 := by positivity
        linarith
  · have hbp : 0 < r1 + r3 + r5 := lt_of_le_of_ne (by positivity) (Ne.symm hb)
    rw [if_neg hb, Bool.or_eq_true, decide_eq_true_iff, decide_eq_true_iff, gt_iff_lt, lt_div_iff₀ hbp,
      div_lt_iff₀ hbp]
    constructor
    · rintro (h | h)
      · exact Or.inl h
      · right; norm_num at h; linarith
    · rintro (h | h)
      · exact Or.inl h
      · right; norm_num; linarith

/-- **C55 (decoupling is noticed).** While nothing is recorded and the rates of the last row are available, the
state is recorded in this call exactly when equilibrium is lost. -/
theorem C55_noticed (row : Row) (rates : List ℝ) (p : Params) (m m' : Monitor)
    (h : stepMonitor getRates Tbbn q tau (some row) p m = .ok m') (hm : m.neutron = none)
    (hr : getRates row = .ok rates) :
    m'.neutron = if equilibrationLost rates then some p else none := by
  have hn := C55_step getRates Tbbn q tau (some row) p m m' h
  obtain ⟨n, d, e⟩ := m
  simp only at hm
  subst hm
  unfold stepMonitor monitorNeutron at h
  simp only [hr] at h
  cases h
  have e1 : ∀ m1 : Monitor, (monitorEstimate q tau (monitorDeuterium Tbbn p m1)).neutron = m1.neutron := by
    intro m1
    unfold monitorEstimate monitorDeuterium
    obtain ⟨a, b, c⟩ := m1
    cases a <;> cases b <;> cases c <;> simp only <;> split_ifs <;> rfl
  rw [e1]
  split_ifs <;> rfl

/-- **C55 (whole run).** Starting with nothing recorded, after any run: a recorded decoupling or
deuterium state is a state of the run (the latter below the threshold, and recorded as soon as one was);
the estimate exists exactly when both are recorded, and is computed from them. -/
theorem C55_run (steps : List (Option Row × Params)) (m : Monitor)
    (h : monitorRun getRates Tbbn q tau steps {} = .ok m) :
    MonitorInv Tbbn q tau (steps.map Prod.snd) m := by
  have := MonitorInv.run getRates Tbbn q tau steps [] {} m
    ⟨by simp, by simp, by simp, by simp, by simp⟩ h
  simpa using this

/-- **C55 (bounds).** With positive temperatures, neutron heavier than proton (`q > 0`), positive
lifetime and deuterium production not before decoupling, the neutron-to-proton ratio and the helium
fraction lie strictly between 0 and 1. -/
theorem C55_fraction_bounds (steps : List (Option Row × Params)) (m : Monitor)
    (h : monitorRun getRates Tbbn q tau steps {} = .ok m) (hq : 0 < q) (htau : 0 < tau)
    (hT : ∀ s ∈ steps, 0 < s.2.T) (e : ℝ × ℝ × ℝ) (he : m.estimates = some e) (ht : 0 ≤ e.1) :
    0 < e.2.1 ∧ e.2.1 < 1 ∧ 0 < e.2.2 ∧ e.2.2 < 1 := by
  obtain ⟨i1, i2, i3, i4, i5⟩ := C55_run getRates Tbbn q tau steps m h
  obtain ⟨np, dp, h1, h2, h3, h4, h5⟩ := i5 e he
  have hmem := i1 np h1
  obtain ⟨s, hs, hs'⟩ := List.mem_map.mp hmem
  have hnT : 0 < np.T := hs' ▸ hT s hs
  have r1 : Real.exp (-q / np.T) < 1 := Real.exp_lt_one_iff.mpr (by
    rw [neg_div]; exact neg_lt_zero.mpr (div_pos hq hnT))
  have r2 : Real.exp (-(dp.t - np.t) / tau) ≤ 1 := Real.exp_le_one_iff.mpr (by
    rw [neg_div, ← h3]; exact neg_nonpos.mpr (div_nonneg ht htau.le))
  have p1 := Real.exp_pos (-q / np.T)
  have p2 := Real.exp_pos (-(dp.t - np.t) / tau)
  have q1 : 0 < e.2.1 := by rw [h4]; positivity
  have q2 : e.2.1 < 1 := by rw [h4]; nlinarith
  refine ⟨q1, q2, ?_, ?_⟩
  · rw [h5]; positivity
  · rw [h5, div_lt_one (by linarith)]; linarith

/-- **C55 (as written).** With numpy's `dtype` the expression for the rates raises, so as soon as the
table handed to the nuclear network has a row and neutron decoupling is not recorded, every call of the
monitor raises; no run ever records neutron decoupling or an estimate. -/
theorem C55_as_written_raises (row : Row) (p : Params) (m : Monitor) (hm : m.neutron = none) :
    stepMonitor ratesAsWritten Tbbn q tau (some row) p m = .error .typeError := by
  unfold stepMonitor monitorNeutron
  rw [hm]; rfl

theorem C55_as_written_never (steps : List (Option Row × Params)) (m : Monitor)
    (h : monitorRun (ratesAsWritten (Row := Row)) Tbbn q tau steps {} = .ok m) :
    m.neutron = none ∧ m.estimates = none ∧ ∀ s ∈ steps, s.1 = none := by
  have key : ∀ m0 : Monitor, m0.neutron = none →
      monitorRun (ratesAsWritten (Row := Row)) Tbbn q tau steps m0 = .ok m →
      m.neutron = none ∧ ∀ s ∈ steps, s.1 = none := by
    clear h
    induction steps with
    | nil => intro m0 h0 h; cases h; exact ⟨h0, by simp⟩
    | cons s ss ih =>
      intro m0 h0 h
      rw [monitorRun] at h
      cases hs : s.1 with
      | some row => rw [hs, C55_as_written_raises Tbbn q tau row s.2 m0 h0] at h; cases h
      | none =>
        cases h1 : stepMonitor (ratesAsWritten (Row := Row)) Tbbn q tau s.1 s.2 m0 with
        | error e => rw [h1] at h; cases h
        | ok m1 =>
          rw [h1] at h
          have hn1 : m1.neutron = none := by
            cases hn : m1.neutron with
            | none => rfl
            | some x =>
              obtain ⟨_, row, _, hrow, _⟩ := (C55_step _ Tbbn q tau s.1 s.2 m0 m1 h1).2.2.2.1 h0 x hn
              rw [hs] at hrow; cases hrow
          obtain ⟨k1, k2⟩ := ih m1 hn1 h
          refine ⟨k1, fun x hx => ?_⟩
          rcases List.mem_cons.mp hx with r | r
          · rw [r]; exact hs
          · exact k2 x r
  obtain ⟨k1, k2⟩ := key {} rfl h
  refine ⟨k1, ?_, k2⟩
  exact (C55_run _ Tbbn q tau steps m h).2.2.2.1.mpr (Or.inl k1)

end

/-- A run that records everything: first step above the threshold with unbalanced rates, second step
below it. -/
example (p1 p2 : Params) (h1 : p1.T = 2) (h2 : p2.T = 1) (t1 : p1.t = 0) (t2 : p2.t = 5) :
    ∃ m e, monitorRun ratesIntended 1 1 1
      [(some [0, 0, 0, 0, 0, 0, 1, 0, 0, 0, 0, 0], p1), (none, p2)] {} = .ok m ∧
    m.estimates = some e ∧ e.1 = 5 := by
  have hl : equilibrationLost [1, 0, 0, 0, 0, 0] = true := by
    simp [equilibrationLost, List.zipIdx]
  let r := Real.exp (-1 / p1.T) * Real.exp (-(p2.t - p1.t) / 1)
  refine ⟨⟨some p1, some p2, some (p2.t - p1.t, r, 2 * r / (1 + r))⟩,
    (p2.t - p1.t, r, 2 * r / (1 + r)), ?_, rfl, ?_⟩
  · simp [monitorRun, stepMonitor, monitorNeutron, ratesIntended, monitorDeuterium, monitorEstimate,
      h1, h2, hl, r]
  · rw [t1, t2]; norm_num

end PyBBN
