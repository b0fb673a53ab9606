import Verif.Model.Collision
import Verif.Props.Interpolation
import Mathlib.Tactic.LinearCombination
import Mathlib.Algebra.BigOperators.Group.List.Basic
import Mathlib.Algebra.Order.BigOperators.Ring.List
/-!
# C32–C34: the statistics functional of a collision

Specification: a reaction is a list of reactants with occupations; `side = -1` is the initial state.
The rate is gain minus loss, gain being the inverse process (`f` of the final state times the blocking
factors `1 - η f` of the initial state), loss the direct one.  All statements are for reactions with any
number of particles; the code has instances with three and four.
-/
namespace PyBBN

/-- Product of the occupations of the particles on a side. -/
noncomputable def occupied (s : ℤ) (l : List (Reactant × ℝ)) : ℝ :=
  ((l.filter fun x => x.1.side = s).map fun x => x.2).prod

/-- Product of the blocking factors of the particles on a side. -/
noncomputable def blocked (s : ℤ) (l : List (Reactant × ℝ)) : ℝ :=
  ((l.filter fun x => x.1.side = s).map fun x => 1 - (x.1.specie.eta : ℝ) * x.2).prod

/-- Inverse process. -/
noncomputable def gain (l : List (Reactant × ℝ)) : ℝ := occupied 1 l * blocked (-1) l
/-- Direct process. -/
noncomputable def loss (l : List (Reactant × ℝ)) : ℝ := occupied (-1) l * blocked 1 l

/-- Every reactant is on one of the two sides. -/
def TwoSided (l : List (Reactant × ℝ)) : Prop := ∀ x ∈ l, x.1.side = 1 ∨ x.1.side = -1

theorem occupied_cons (s : ℤ) (x : Reactant × ℝ) (l : List (Reactant × ℝ)) :
    occupied s (x :: l) = (if x.1.side = s then x.2 else 1) * occupied s l := by
  unfold occupied
  by_cases h : x.1.side = s <;> simp [h]

theorem blocked_cons (s : ℤ) (x : Reactant × ℝ) (l : List (Reactant × ℝ)) :
    blocked s (x :: l) = (if x.1.side = s then 1 - x.1.specie.eta * x.2 else 1) * blocked s l := by
  unfold blocked
  by_cases h : x.1.side = s <;> simp [h]

theorem fLoop_ok (s skip : ℤ) (hs : s = 1 ∨ s = -1) (l : List (Reactant × ℝ)) (h2 : TwoSided l)
    (hf : ∀ x ∈ l, 0 ≤ x.2) : ∀ (i : ℕ) (t : ℝ), skip < i →
    fLoop s skip i l t = .ok (t * (occupied s l * blocked (-s) l)) := by
  induction l with
  | nil => intro i t _; simp [fLoop, occupied, blocked]
  | cons x l ih =>
    intro i t hi
    obtain ⟨r, f⟩ := x
    have hx := hf (r, f) (by simp)
    have hside := h2 (r, f) (by simp)
    have ih' := ih (fun y hy => h2 y (by simp [hy])) (fun y hy => hf y (by simp [hy])) (i + 1)
    unfold fLoop
    rw [if_pos (show (i : ℤ) ≠ skip by omega), if_neg (not_lt.mpr hx), occupied_cons, blocked_cons]
    simp only at hside ⊢
    by_cases h : r.side = s
    · rw [if_pos h, if_pos h, ih' _ (by push_cast; omega), if_neg (by omega)]
      congr 1; ring
    · have : r.side = -s := by omega
      rw [if_neg h, if_neg h, if_pos this, ih' _ (by push_cast; omega)]
      congr 1; ring

theorem fLoop_error (s skip : ℤ) (l : List (Reactant × ℝ)) (hf : ∃ x ∈ l, x.2 < 0) :
    ∀ (i : ℕ) (t : ℝ), skip < i → fLoop s skip i l t = .error .runtimeError := by
  induction l with
  | nil => simp at hf
  | cons x l ih =>
    intro i t hi
    obtain ⟨r, f⟩ := x
    unfold fLoop
    rw [if_pos (show (i : ℤ) ≠ skip by omega)]
    by_cases h : f < 0
    · rw [if_pos h]
    · rw [if_neg h]
      have : ∃ x ∈ l, x.2 < 0 := by
        obtain ⟨x, hx, hx'⟩ := hf
        rcases List.mem_cons.mp hx with e | e
        · subst e; exact absurd hx' h
        · exact ⟨x, e, hx'⟩
      split_ifs <;> exact ih this _ _ (by push_cast; omega)

section
variable (r0 : Reactant) (rs : List Reactant) (f0 : ℝ) (fs : List ℝ)

theorem FA_skip_ok (h2 : TwoSided (rs.zip fs)) (hf : ∀ x ∈ rs.zip fs, 0 ≤ x.2) :
    F_A (r0 :: rs) (f0 :: fs) 0 = .ok (-loss (rs.zip fs)) := by
  unfold F_A loss
  rw [List.zip_cons_cons]
  unfold fLoop
  simp only [Nat.cast_zero, ne_eq, not_true_eq_false, if_false]
  rw [fLoop_ok (-1) 0 (by decide) _ h2 hf _ _ (by simp)]
  congr 1; ring_nf

theorem FB_skip_ok (h2 : TwoSided (rs.zip fs)) (hf : ∀ x ∈ rs.zip fs, 0 ≤ x.2) :
    F_B (r0 :: rs) (f0 :: fs) 0 = .ok (gain (rs.zip fs)) := by
  unfold F_B gain
  rw [List.zip_cons_cons]
  unfold fLoop
  simp only [Nat.cast_zero, ne_eq, not_true_eq_false, if_false]
  rw [fLoop_ok 1 0 (by decide) _ h2 hf _ _ (by simp)]
  congr 1; ring_nf

/-- **C32.** With the first particle in the initial state, the `Full` kind is exactly gain minus loss,
for all statistics, sides of the other particles and occupations (non-negative except that of the first
particle, which is not tested by the code). -/
theorem C32_full (_hlen : rs.length = fs.length) (h0 : r0.side = -1)
    (h2 : TwoSided (rs.zip fs)) (hf : ∀ f ∈ fs, 0 ≤ f) :
    kindFactor .full (r0 :: rs) (f0 :: fs) =
      .ok (gain ((r0, f0) :: rs.zip fs) - loss ((r0, f0) :: rs.zip fs)) := by
  have hf' : ∀ x ∈ rs.zip fs, 0 ≤ x.2 := fun x hx => hf _ (List.of_mem_zip hx).2
  unfold kindFactor F_1 F_f
  rw [FA_skip_ok r0 rs f0 fs h2 hf', FB_skip_ok r0 rs f0 fs h2 hf']
  have : (f0 :: fs).getLast? = some ((f0 :: fs).getLast (by simp)) := List.getLast?_eq_some_getLast _
  simp only [List.getElem?_cons_zero, this]
  simp only [bind, Except.bind]
  congr 1
  unfold gain loss
  rw [occupied_cons, occupied_cons, blocked_cons, blocked_cons]
  simp only [h0]
  norm_num
  ring

/-- **C32.** The separate kinds: `F_creation` is the gain; `f₀·F_decay` is minus the loss; so the two
half-integrals of a decaying/created species add up to the full one. -/
theorem C32_creation_decay (hlen : rs.length = fs.length) (h0 : r0.side = -1)
    (h2 : TwoSided (rs.zip fs)) (hf0 : 0 ≤ f0) (hf : ∀ f ∈ fs, 0 ≤ f) :
    ∃ c d, kindFactor .creation (r0 :: rs) (f0 :: fs) = .ok c ∧
      kindFactor .decay (r0 :: rs) (f0 :: fs) = .ok d ∧
      c = gain ((r0, f0) :: rs.zip fs) ∧ f0 * d = -loss ((r0, f0) :: rs.zip fs) ∧
      kindFactor .full (r0 :: rs) (f0 :: fs) = .ok (c + f0 * d) := by
  have hf' : ∀ x ∈ rs.zip fs, 0 ≤ x.2 := fun x hx => hf _ (List.of_mem_zip hx).2
  have hl : (f0 :: fs).getLast? = some ((f0 :: fs).getLast (by simp)) :=
    List.getLast?_eq_some_getLast _
  have hc : kindFactor .creation (r0 :: rs) (f0 :: fs) = .ok (gain ((r0, f0) :: rs.zip fs)) := by
    unfold kindFactor F_creation F_B
    simp only [List.getElem?_cons_zero, hl, List.zip_cons_cons]
    rw [fLoop_ok 1 (-1) (by decide) _ ?_ ?_ _ _ (by simp)]
    · unfold gain; congr 1; ring_nf
    · intro x hx
      rcases List.mem_cons.mp hx with rfl | hx
      · right; exact h0
      · exact h2 x hx
    · intro x hx
      rcases List.mem_cons.mp hx with rfl | hx
      · exact hf0
      · exact hf' x hx
  have hd : kindFactor .decay (r0 :: rs) (f0 :: fs) = .ok (-loss (rs.zip fs)) := by
    unfold kindFactor F_decay
    simp only [List.getElem?_cons_zero, hl]
    exact FA_skip_ok r0 rs f0 fs h2 hf'
  have hd' : f0 * -loss (rs.zip fs) = -loss ((r0, f0) :: rs.zip fs) := by
    unfold loss
    rw [occupied_cons, blocked_cons]
    simp only [h0]
    norm_num
    ring
  refine ⟨_, _, hc, hd, rfl, hd', ?_⟩
  rw [C32_full r0 rs f0 fs hlen h0 h2 hf, hd']
  congr 1

/-- **C32.** A negative occupation of any particle but the first raises, in each of the five
kinds that use the occupations of the partners. -/
theorem C32_negative_raises (k : Kind) (hk : k = .full ∨ k = .f1 ∨ k = .ff ∨ k = .decay ∨ k = .creation)
    (hlen : rs.length = fs.length) (hf : ∃ f ∈ fs, f < 0) :
    kindFactor k (r0 :: rs) (f0 :: fs) = .error .runtimeError := by
  have hex : ∃ x ∈ rs.zip fs, x.2 < 0 := by
    obtain ⟨f, hf, hneg⟩ := hf
    have : fs = (rs.zip fs).map Prod.snd := by rw [List.map_snd_zip]; omega
    rw [this] at hf
    obtain ⟨x, hx, rfl⟩ := List.mem_map.mp hf
    exact ⟨x, hx, hneg⟩
  have hl : (f0 :: fs).getLast? = some ((f0 :: fs).getLast (by simp)) :=
    List.getLast?_eq_some_getLast _
  have hA : F_A (r0 :: rs) (f0 :: fs) 0 = .error .runtimeError := by
    unfold F_A
    rw [List.zip_cons_cons]
    unfold fLoop
    simp only [Nat.cast_zero, ne_eq, not_true_eq_false, if_false]
    exact fLoop_error _ _ _ hex _ _ (by simp)
  have hB : F_B (r0 :: rs) (f0 :: fs) 0 = .error .runtimeError := by
    unfold F_B
    rw [List.zip_cons_cons]
    unfold fLoop
    simp only [Nat.cast_zero, ne_eq, not_true_eq_false, if_false]
    exact fLoop_error _ _ _ hex _ _ (by simp)
  have hC : F_B (r0 :: rs) (f0 :: fs) (-1) = .error .runtimeError := by
    unfold F_B
    refine fLoop_error _ _ _ ?_ _ _ (by simp)
    obtain ⟨x, hx, hn⟩ := hex
    exact ⟨x, by rw [List.zip_cons_cons]; simp [hx], hn⟩
  unfold kindFactor
  simp only [List.getElem?_cons_zero, hl]
  rcases hk with rfl | rfl | rfl | rfl | rfl
  · simp only [F_1, hB]; rfl
  · simp only [F_1, hB]
  · simp only [F_f, List.getElem?_cons_zero, hA]; rfl
  · simp only [F_decay, hA]
  · simp only [F_creation, hC]

/-- **C32, precondition exhibited.** A negative occupation of the *first* particle goes unnoticed in
the `Full` kind. -/
theorem C32_first_negative_unnoticed (hlen : rs.length = fs.length) (h0 : r0.side = -1)
    (h2 : TwoSided (rs.zip fs)) (_hf0 : f0 < 0) (hf : ∀ f ∈ fs, 0 ≤ f) :
    ∃ v, kindFactor .full (r0 :: rs) (f0 :: fs) = .ok v :=
  ⟨_, C32_full r0 rs f0 fs hlen h0 h2 hf⟩

end

/-! ## C33 -/

/-- Occupations in kinetic and chemical equilibrium: exponent `u` of each reactant. -/
def Equilibrium (l : List (Reactant × ℝ)) (u : List ℝ) : Prop :=
  List.Forall₂ (fun x e => Real.exp e + x.1.specie.eta ≠ 0 ∧
    x.2 = 1 / (Real.exp e + x.1.specie.eta)) l u

/-- Conservation: `Σ sideᵢ uᵢ = 0`. -/
def Conserved (l : List (Reactant × ℝ)) (u : List ℝ) : Prop :=
  ((l.zip u).map fun x => (x.1.1.side : ℝ) * x.2).sum = 0

theorem blocking_thermal {eta : ℤ} {e f : ℝ} (h : Real.exp e + eta ≠ 0)
    (hf : f = 1 / (Real.exp e + eta)) : 1 - eta * f = Real.exp e * f := by
  rw [hf]; field_simp; ring

/-- gain and loss differ by the exponential of the conserved sum. -/
theorem gain_eq_loss_exp (l : List (Reactant × ℝ)) (u : List ℝ) (h2 : TwoSided l)
    (he : Equilibrium l u) :
    loss l = gain l * Real.exp (((l.zip u).map fun x => (x.1.1.side : ℝ) * x.2).sum) := by
  unfold Equilibrium at he
  induction he with
  | nil => simp [loss, gain, occupied, blocked]
  | @cons x e l u hx hl ih =>
    have ih := ih (fun y hy => h2 y (by simp [hy]))
    have hb := blocking_thermal hx.1 hx.2
    unfold loss gain at ih ⊢
    rw [occupied_cons, occupied_cons, blocked_cons, blocked_cons, List.zip_cons_cons, List.map_cons,
      List.sum_cons, Real.exp_add]
    rcases h2 x (by simp) with h | h
    · rw [h]
      norm_num
      rw [hb]
      linear_combination x.2 * Real.exp e * ih
    · rw [h]
      norm_num
      rw [hb, Real.exp_neg]
      have := Real.exp_ne_zero e
      field_simp
      linear_combination x.2 * ih

/-- **C33.** Detailed balance: in kinetic and chemical equilibrium gain equals loss exactly, for any
number of particles, statistics and sides. -/
theorem C33_gain_eq_loss (l : List (Reactant × ℝ)) (u : List ℝ) (h2 : TwoSided l)
    (he : Equilibrium l u) (hc : Conserved l u) : gain l = loss l := by
  rw [gain_eq_loss_exp l u h2 he, hc]; simp

/-- **C33.** The functional computed by the code vanishes in equilibrium. -/
theorem C33_functional_zero (r0 : Reactant) (rs : List Reactant) (f0 : ℝ) (fs u : List ℝ)
    (hlen : rs.length = fs.length) (h0 : r0.side = -1) (h2 : TwoSided (rs.zip fs))
    (hf : ∀ f ∈ fs, 0 ≤ f) (he : Equilibrium ((r0, f0) :: rs.zip fs) u)
    (hc : Conserved ((r0, f0) :: rs.zip fs) u) :
    kindFactor .full (r0 :: rs) (f0 :: fs) = .ok 0 := by
  rw [C32_full r0 rs f0 fs hlen h0 h2 hf, C33_gain_eq_loss _ u ?_ he hc, sub_self]
  intro x hx
  rcases List.mem_cons.mp hx with rfl | hx
  · right; exact h0
  · exact h2 x hx

/-- A species is thermal at temperature `T` at momentum `p`: looking it up gives the equilibrium
value, finite and non-negative.  This holds for species flagged "in equilibrium" and, by C10, for
species whose stored values are the equilibrium ones. -/
def ThermalAt (s : CParticle) (T p : ℝ) : Prop :=
  0 < Real.exp (energy p s.m / T) + s.eta ∧
    occAt s p = .ok (1 / (Real.exp (energy p s.m / T) + s.eta))

theorem thermalAt_of_inEq (s : CParticle) (p : ℝ) (h : s.inEq = true)
    (hfin : 0 < Real.exp (energy p s.m / s.T) + s.eta) : ThermalAt s s.T p := by
  refine ⟨hfin, ?_⟩
  unfold occAt distributionInterpolation
  rw [h]; simp

/-- A species off equilibrium whose stored values are the equilibrium ones is thermal at every
momentum within its grid. -/
theorem thermalAt_of_stored (s : CParticle) (p : ℝ) (h : s.inEq = false) (hne : s.grid ≠ [])
    (hs : s.grid.Pairwise (· < ·)) (hlen : s.dist.length = s.grid.length)
    (h0 : 0 ≤ s.grid.head hne) (hT : 0 < s.T) (heta : s.eta = 1 ∨ s.eta = -1 ∧ 0 < s.m)
    (hth : ∀ i, (hi : i < s.grid.length) →
      s.dist[i]'(by omega) = 1 / (Real.exp (energy s.grid[i] s.m / s.T) + s.eta))
    (hp1 : s.grid.head hne ≤ p) (hp2 : p ≤ s.grid.getLast hne) : ThermalAt s s.T p := by
  constructor
  · rcases heta with h | ⟨h, hm⟩
    · rw [h]; push_cast; positivity
    · have hE : 0 < energy p s.m := by
        unfold energy; apply Real.sqrt_pos.mpr; nlinarith [mul_self_nonneg p]
      have : (0 : ℝ) < energy p s.m / s.T := by positivity
      have := Real.one_lt_exp_iff.mpr this
      rw [h]; push_cast; linarith
  · unfold occAt
    rw [h, C10_agrees_with_equilibrium s.grid s.dist p s.m s.T s.eta hne hs hlen h0 hT heta ?_ hp1 hp2]
    · simp [distributionInterpolation]
    · intro i hi
      rw [hth i hi]; simp [distributionInterpolation]

theorem energy_last {E m : ℝ} (hm : 0 ≤ m) (h : m ≤ E) : energy (√(E ^ 2 - m ^ 2)) m = E := by
  unfold energy
  rw [Real.mul_self_sqrt (by nlinarith), show E ^ 2 - m ^ 2 + m * m = E ^ 2 by ring,
    Real.sqrt_sq (hm.trans h)]

/-- **C33.** The four-particle collision integrand vanishes identically when all species are thermal
at a common temperature: at every momenta (the fourth fixed by energy conservation inside the code),
for all matrix elements, masses, statistics and sides. -/
theorem C33_integrand4_zero (p0 p1 p2 T : ℝ) (r : Fin 4 → Reactant) (Ms : List CM) (hMs : Ms ≠ [])
    (h0 : (r 0).side = -1) (hs : ∀ i, (r i).side = 1 ∨ (r i).side = -1)
    (hm : 0 ≤ (r 3).specie.m)
    (ht : ∀ i, ThermalAt (r i).specie T (momenta4 r p0 p1 p2 i)) :
    integrandFull4 p0 p1 p2 r Ms 0 = .ok 0 := by
  unfold integrandFull4
  by_cases hE : lastEnergy4 r p0 p1 p2 < (r 3).specie.m
  · rw [if_pos hE]
  rw [if_neg hE]
  simp only []
  by_cases hb : inBounds4 (momenta4 r p0 p1 p2) (energies4 r p0 p1 p2) fun i => (r i).specie.m
  swap
  · rw [if_pos hb]
  rw [if_neg (not_not.mpr hb)]
  by_cases hj : jacobian4 r (momenta4 r p0 p1 p2) (energies4 r p0 p1 p2) = 0
  · rw [if_pos hj]
  rw [if_neg hj]
  have hk : ∃ ds, kernel4 r Ms (momenta4 r p0 p1 p2) (energies4 r p0 p1 p2) = .ok ds := by
    unfold kernel4
    cases Ms with
    | nil => exact absurd rfl hMs
    | cons M0 Mt => simp only []; split_ifs <;> exact ⟨_, rfl⟩
  obtain ⟨ds, hds⟩ := hk
  rw [hds]
  simp only [bind, Except.bind]
  split_ifs with hz
  · rfl
  rw [(ht 0).2, (ht 1).2, (ht 2).2, (ht 3).2]
  simp only []
  have hF := C33_functional_zero (r 0) [r 1, r 2, r 3]
    (1 / (Real.exp (energy (momenta4 r p0 p1 p2 0) (r 0).specie.m / T) + (r 0).specie.eta))
    [1 / (Real.exp (energy (momenta4 r p0 p1 p2 1) (r 1).specie.m / T) + (r 1).specie.eta),
     1 / (Real.exp (energy (momenta4 r p0 p1 p2 2) (r 2).specie.m / T) + (r 2).specie.eta),
     1 / (Real.exp (energy (momenta4 r p0 p1 p2 3) (r 3).specie.m / T) + (r 3).specie.eta)]
    [energy (momenta4 r p0 p1 p2 0) (r 0).specie.m / T, energy (momenta4 r p0 p1 p2 1) (r 1).specie.m / T,
     energy (momenta4 r p0 p1 p2 2) (r 2).specie.m / T, energy (momenta4 r p0 p1 p2 3) (r 3).specie.m / T]
    rfl h0 ?_ ?_ ?_ ?_
  · rw [show Kind.ofInt 0 = .full from rfl, hF]
    simp
  · intro x hx
    simp only [List.zip_cons_cons, List.zip_nil_right, List.mem_cons, List.not_mem_nil, or_false] at hx
    rcases hx with rfl | rfl | rfl
    exacts [hs 1, hs 2, hs 3]
  · intro f hf
    simp only [List.mem_cons, List.not_mem_nil, or_false] at hf
    rcases hf with rfl | rfl | rfl
    exacts [(one_div_pos.mpr (ht 1).1).le, (one_div_pos.mpr (ht 2).1).le, (one_div_pos.mpr (ht 3).1).le]
  · unfold Equilibrium
    simp only [List.zip_cons_cons, List.zip_nil_right]
    refine .cons ⟨(ht 0).1.ne', rfl⟩ (.cons ⟨(ht 1).1.ne', rfl⟩ (.cons ⟨(ht 2).1.ne', rfl⟩
      (.cons ⟨(ht 3).1.ne', rfl⟩ .nil)))
  · unfold Conserved
    simp only [List.zip_cons_cons, List.zip_nil_right, List.map_cons, List.map_nil, List.sum_cons,
      List.sum_nil]
    have e3 : energy (momenta4 r p0 p1 p2 3) (r 3).specie.m = lastEnergy4 r p0 p1 p2 :=
      energy_last hm (not_lt.mp hE)
    rw [e3]
    change ((r 0).side : ℝ) * (energy p0 (r 0).specie.m / T) + (((r 1).side : ℝ) *
      (energy p1 (r 1).specie.m / T) + (((r 2).side : ℝ) * (energy p2 (r 2).specie.m / T) +
      (((r 3).side : ℝ) * (lastEnergy4 r p0 p1 p2 / T) + 0))) = 0
    have h3 : ((r 3).side : ℝ) * (r 3).side = 1 := by
      rcases hs 3 with h | h <;> rw [h] <;> norm_num
    unfold lastEnergy4
    linear_combination (-((r 0).side * energy p0 (r 0).specie.m + (r 1).side * energy p1 (r 1).specie.m
      + (r 2).side * energy p2 (r 2).specie.m) / T) * h3

/-- **C33.** The same for the three-particle integrand, including zero momentum. -/
theorem C33_integrand3_zero (p0 p1 T : ℝ) (r : Fin 3 → Reactant)
    (h0 : (r 0).side = -1) (hs : ∀ i, (r i).side = 1 ∨ (r i).side = -1)
    (hm : 0 ≤ (r 2).specie.m)
    (ht : ∀ i, ThermalAt (r i).specie T (momenta3 r p0 p1 i)) :
    integrandFull3 p0 p1 0 r = .ok 0 := by
  unfold integrandFull3
  by_cases hf : factor3 r p0 p1 = 0
  · rw [if_pos hf]
  rw [if_neg hf]
  have hE : ¬ lastEnergy3 r p0 p1 < (r 2).specie.m := by
    intro h; apply hf; unfold factor3; rw [if_pos h]
  simp only []
  rw [(ht 0).2, (ht 1).2, (ht 2).2]
  simp only [bind, Except.bind]
  have hF := C33_functional_zero (r 0) [r 1, r 2]
    (1 / (Real.exp (energy (momenta3 r p0 p1 0) (r 0).specie.m / T) + (r 0).specie.eta))
    [1 / (Real.exp (energy (momenta3 r p0 p1 1) (r 1).specie.m / T) + (r 1).specie.eta),
     1 / (Real.exp (energy (momenta3 r p0 p1 2) (r 2).specie.m / T) + (r 2).specie.eta)]
    [energy (momenta3 r p0 p1 0) (r 0).specie.m / T, energy (momenta3 r p0 p1 1) (r 1).specie.m / T,
     energy (momenta3 r p0 p1 2) (r 2).specie.m / T]
    rfl h0 ?_ ?_ ?_ ?_
  · rw [show Kind.ofInt 0 = .full from rfl, hF]
    simp
  · intro x hx
    simp only [List.zip_cons_cons, List.zip_nil_right, List.mem_cons, List.not_mem_nil, or_false] at hx
    rcases hx with rfl | rfl
    exacts [hs 1, hs 2]
  · intro f hf
    simp only [List.mem_cons, List.not_mem_nil, or_false] at hf
    rcases hf with rfl | rfl
    exacts [(one_div_pos.mpr (ht 1).1).le, (one_div_pos.mpr (ht 2).1).le]
  · unfold Equilibrium
    simp only [List.zip_cons_cons, List.zip_nil_right]
    refine .cons ⟨(ht 0).1.ne', rfl⟩ (.cons ⟨(ht 1).1.ne', rfl⟩ (.cons ⟨(ht 2).1.ne', rfl⟩ .nil))
  · unfold Conserved
    simp only [List.zip_cons_cons, List.zip_nil_right, List.map_cons, List.map_nil, List.sum_cons,
      List.sum_nil]
    have e3 : energy (momenta3 r p0 p1 2) (r 2).specie.m = lastEnergy3 r p0 p1 :=
      energy_last hm (not_lt.mp hE)
    rw [e3]
    change ((r 0).side : ℝ) * (energy p0 (r 0).specie.m / T) + (((r 1).side : ℝ) *
      (energy p1 (r 1).specie.m / T) +
      (((r 2).side : ℝ) * (lastEnergy3 r p0 p1 / T) + 0)) = 0
    have h3 : ((r 2).side : ℝ) * (r 2).side = 1 := by
      rcases hs 2 with h | h <;> rw [h] <;> norm_num
    unfold lastEnergy3
    linear_combination (-((r 0).side * energy p0 (r 0).specie.m + (r 1).side * energy p1 (r 1).specie.m)
      / T) * h3

/-! ## C34 -/

/-- Admissible occupation: `0 ≤ f`, and `f ≤ 1` for fermions. -/
def Admissible (x : Reactant × ℝ) : Prop := 0 ≤ x.2 ∧ (x.1.specie.eta : ℝ) * x.2 ≤ 1

theorem occupied_nonneg (s : ℤ) (l : List (Reactant × ℝ)) (h : ∀ x ∈ l, Admissible x) :
    0 ≤ occupied s l := by
  refine List.prod_nonneg fun y hy => ?_
  obtain ⟨x, hx, rfl⟩ := List.mem_map.mp hy
  exact (h x (List.mem_of_mem_filter hx)).1

theorem blocked_nonneg (s : ℤ) (l : List (Reactant × ℝ)) (h : ∀ x ∈ l, Admissible x) :
    0 ≤ blocked s l := by
  refine List.prod_nonneg fun y hy => ?_
  obtain ⟨x, hx, rfl⟩ := List.mem_map.mp hy
  have := (h x (List.mem_of_mem_filter hx)).2
  linarith

/-- **C34.** Signs: `F_1` (gain) is non-negative, `F_decay` (loss) non-positive; an empty state can only
be filled, a full fermion state can only be emptied; and for a fermion the functional is
non-increasing in its own occupation. -/
theorem C34_signs (r0 : Reactant) (rs : List Reactant) (fs : List ℝ)
    (hlen : rs.length = fs.length) (h0 : r0.side = -1) (h2 : TwoSided (rs.zip fs))
    (hf : ∀ f ∈ fs, 0 ≤ f) (ha : ∀ x ∈ rs.zip fs, Admissible x) :
    (∀ f0, ∃ v, kindFactor .f1 (r0 :: rs) (f0 :: fs) = .ok v ∧ 0 ≤ v) ∧
    (∀ f0, ∃ v, kindFactor .decay (r0 :: rs) (f0 :: fs) = .ok v ∧ v ≤ 0) ∧
    (∃ v, kindFactor .full (r0 :: rs) (0 :: fs) = .ok v ∧ 0 ≤ v) ∧
    (r0.specie.eta = 1 → ∃ v, kindFactor .full (r0 :: rs) (1 :: fs) = .ok v ∧ v ≤ 0) ∧
    (r0.specie.eta = 1 → ∀ f0 f0', f0 ≤ f0' → ∃ v v',
      kindFactor .full (r0 :: rs) (f0 :: fs) = .ok v ∧
      kindFactor .full (r0 :: rs) (f0' :: fs) = .ok v' ∧ v' ≤ v) := by
  have hf' : ∀ x ∈ rs.zip fs, 0 ≤ x.2 := fun x hx => hf _ (List.of_mem_zip hx).2
  have hg : 0 ≤ gain (rs.zip fs) :=
    mul_nonneg (occupied_nonneg _ _ ha) (blocked_nonneg _ _ ha)
  have hl : 0 ≤ loss (rs.zip fs) :=
    mul_nonneg (occupied_nonneg _ _ ha) (blocked_nonneg _ _ ha)
  have hlast : ∀ f0, (f0 :: fs).getLast? = some ((f0 :: fs).getLast (by simp)) := fun f0 =>
    List.getLast?_eq_some_getLast _
  have expand : ∀ f0, gain ((r0, f0) :: rs.zip fs) - loss ((r0, f0) :: rs.zip fs) =
      (1 - r0.specie.eta * f0) * gain (rs.zip fs) - f0 * loss (rs.zip fs) := by
    intro f0
    unfold gain loss
    rw [occupied_cons, occupied_cons, blocked_cons, blocked_cons]
    simp only [h0]
    norm_num
    ring
  refine ⟨fun f0 => ⟨_, ?_, hg⟩, fun f0 => ⟨_, ?_, neg_nonpos.mpr hl⟩, ?_, ?_, ?_⟩
  · unfold kindFactor F_1
    simp only [List.getElem?_cons_zero, hlast]
    exact FB_skip_ok r0 rs f0 fs h2 hf'
  · unfold kindFactor F_decay
    simp only [List.getElem?_cons_zero, hlast]
    exact FA_skip_ok r0 rs f0 fs h2 hf'
  · refine ⟨_, C32_full r0 rs 0 fs hlen h0 h2 hf, ?_⟩
    rw [expand]; simpa using hg
  · intro he
    refine ⟨_, C32_full r0 rs 1 fs hlen h0 h2 hf, ?_⟩
    rw [expand, he]; simpa using hl
  · intro he f0 f0' hle
    refine ⟨_, _, C32_full r0 rs f0 fs hlen h0 h2 hf, C32_full r0 rs f0' fs hlen h0 h2 hf, ?_⟩
    rw [expand, expand, he]
    push_cast
    nlinarith

/-! ### Concrete instances -/

/-- A species flagged as being in equilibrium. -/
def eqSpecies (eta : ℤ) (m T : ℝ) : CParticle := ⟨eta, m, [], [], true, T⟩

/-- `ν + e → ν + e` like kinematics: two on each side, mixed masses; the hypotheses of the
four-particle theorem hold at every momenta. -/
example (p0 p1 p2 : ℝ) (M : CM) :
    integrandFull4 p0 p1 p2 ![⟨eqSpecies 1 0 2, -1⟩, ⟨eqSpecies 1 3 2, -1⟩, ⟨eqSpecies 1 0 2, 1⟩,
      ⟨eqSpecies 1 3 2, 1⟩] [M] 0 = .ok 0 := by
  refine C33_integrand4_zero p0 p1 p2 2 _ [M] (by simp) rfl ?_ (by simp [eqSpecies]) ?_
  · intro i; fin_cases i <;> simp
  · intro i
    fin_cases i <;> exact thermalAt_of_inEq _ _ rfl (by simp [eqSpecies]; positivity)

/-- Out of equilibrium the functional is not zero: gain 0.06·…, computed by the code's loop. -/
example : kindFactor .full
    [⟨eqSpecies 1 0 2, -1⟩, ⟨eqSpecies 1 3 2, -1⟩, ⟨eqSpecies 1 0 2, 1⟩, ⟨eqSpecies 1 3 2, 1⟩]
    [1 / 2, 1 / 2, 1 / 3, 1 / 4] = .ok (-5 / 48) := by
  rw [C32_full _ _ _ _ rfl rfl (by simp [TwoSided]) (by norm_num)]
  norm_num [gain, loss, occupied, blocked, eqSpecies]

end PyBBN
