import Verif.Model.Kinematics
import Verif.Lemmas.Search
import Verif.Lemmas.TwoBody
import Verif.Props.Limits
/-!
# C46, C47, C48, C66, C67: kinematics helpers
-/
namespace PyBBN

/-! ## C46: two-body decay momentum -/

/-- **C46.** The formula does not depend on the order of the daughters. -/
theorem C46_symmetric (m1 m2 m3 : ℝ) : cmMomentum m1 m2 m3 = cmMomentum m1 m3 m2 := by
  unfold cmMomentum
  congr 2
  ring

/-- **C46.** Above threshold `cm_momentum` is the one non-negative momentum at which the energies of the
daughters add up to the mass of the parent. -/
theorem C46_unique (m1 m2 m3 : ℝ) (h1 : 0 < m1) (h2 : 0 ≤ m2) (h3 : 0 ≤ m3) (h : m2 + m3 ≤ m1)
    (p : ℝ) (hp : 0 ≤ p) :
    p = cmMomentum m1 m2 m3 ↔ energy p m2 + energy p m3 = m1 := by
  unfold cmMomentum
  have u1 := energy_sq p m2
  have u2 := energy_sq p m3
  have v1 := energy_nonneg p m2
  have v2 := energy_nonneg p m3
  generalize energy p m2 = E1 at *
  generalize energy p m3 = E2 at *
  have key : (m1 ^ 2 - m2 ^ 2 - m3 ^ 2) ^ 2 - (2 * m2 * m3) ^ 2 =
      (m1 ^ 2 - (m2 + m3) ^ 2) * (m1 ^ 2 - (m2 - m3) ^ 2) := by ring
  have hrad : 0 ≤ (m1 ^ 2 - m2 ^ 2 - m3 ^ 2) ^ 2 - (2 * m2 * m3) ^ 2 := by
    rw [key]
    apply mul_nonneg <;> nlinarith
  have hiff : p = √((m1 ^ 2 - m2 ^ 2 - m3 ^ 2) ^ 2 - (2 * m2 * m3) ^ 2) / (2 * m1) ↔
      (2 * m1 * E1) ^ 2 = (m1 ^ 2 + m2 ^ 2 - m3 ^ 2) ^ 2 := by
    rw [eq_div_iff (by positivity), eq_comm, Real.sqrt_eq_iff_mul_self_eq hrad (by positivity)]
    constructor <;> intro hh <;> linear_combination 4 * m1 ^ 2 * u1 - hh
  rw [hiff]
  constructor
  · intro hh
    have : 2 * m1 * E1 = m1 ^ 2 + m2 ^ 2 - m3 ^ 2 :=
      (sq_eq_sq₀ (by positivity) (by nlinarith)).mp hh
    have hpos : 0 ≤ m1 - E1 := by
      have : 0 ≤ 2 * m1 * (m1 - E1) := by nlinarith
      by_contra hc
      push Not at hc
      nlinarith
    have : m1 - E1 = E2 := by
      refine (sq_eq_sq₀ hpos v2).mp ?_
      linear_combination u1 - u2 - this
    linarith
  · intro hh
    have e : E2 = m1 - E1 := by linarith
    have : 2 * m1 * E1 = m1 ^ 2 + m2 ^ 2 - m3 ^ 2 := by
      rw [e] at u2
      linear_combination u1 - u2
    rw [this]

/-- **C46.** At threshold the daughters are at rest; above it they move. -/
theorem C46_threshold (m1 m2 m3 : ℝ) (h1 : 0 < m1) (h2 : 0 ≤ m2) (h3 : 0 ≤ m3) (h : m2 + m3 ≤ m1) :
    0 ≤ cmMomentum m1 m2 m3 ∧ (cmMomentum m1 m2 m3 = 0 ↔ m1 = m2 + m3) := by
  have hnn : 0 ≤ cmMomentum m1 m2 m3 := by unfold cmMomentum; positivity
  refine ⟨hnn, ?_⟩
  have := C46_unique m1 m2 m3 h1 h2 h3 h 0 le_rfl
  rw [energy_rest m2 h2, energy_rest m3 h3] at this
  rw [eq_comm, this, eq_comm]

/-- A muon-like example: parent 5, daughters 3 and 0 recoil with momentum 8/5. -/
example : cmMomentum 5 3 0 = 8 / 5 := by
  unfold cmMomentum
  rw [show ((5 : ℝ) ^ 2 - 3 ^ 2 - 0 ^ 2) ^ 2 - (2 * 3 * 0) ^ 2 = 16 ^ 2 by norm_num,
    Real.sqrt_sq (by norm_num)]
  norm_num

/-! ## C48: decoupling temperature -/

/-- **C48.** The estimate is never below the mass (for non-negative mass) and never below the relativistic
estimate it starts from, if that is relevant. -/
theorem C48_at_least_mass (mass theta muon lam Mp GF : ℝ) (hm : 0 ≤ mass) :
    mass ≤ (decouplingTemperature mass theta muon lam Mp GF).1 := by
  unfold decouplingTemperature decouplingOf
  split_ifs with h1 h2
  · dsimp only; linarith
  · dsimp only; linarith
  · exact le_rfl

/-- **C48.** It is monotone in the relativistic estimate. -/
theorem C48_monotone (mass T1 T2 : ℝ) (hm : 0 ≤ mass) (h : T1 ≤ T2) :
    (decouplingOf T1 mass).1 ≤ (decouplingOf T2 mass).1 := by
  unfold decouplingOf
  split_ifs with a b c d e f g <;> dsimp only <;>
    first
      | linarith
      | (exfalso; push Not at *; linarith)
      | skip
  all_goals (simp only [not_and_or, not_le] at *; rcases ‹_ ∨ _› with h | h <;> linarith)

/-- **C48.** The three regimes, and when the relativistic flag is raised. -/
theorem C48_regimes (Trel mass : ℝ) (hm : 0 ≤ mass) :
    (mass < Trel → decouplingOf Trel mass = (1.5 * Trel, true)) ∧
    (Trel ≤ mass → mass ≤ 1.5 * Trel → decouplingOf Trel mass = (1.5 * mass, false)) ∧
    (1.5 * Trel < mass → decouplingOf Trel mass = (mass, false)) := by
  unfold decouplingOf
  refine ⟨fun h => ?_, fun h1 h2 => ?_, fun h => ?_⟩
  · rw [if_pos (by linarith)]
  · rw [if_neg (by linarith), if_pos ⟨h2, by linarith⟩]
  · rw [if_neg (by linarith), if_neg (by rintro ⟨h', -⟩; linarith)]

/-- **C48 is wrong about the number of species above the QCD scale.** The value 61.75 never survives. -/
theorem C48_gstar (mass muon lam : ℝ) (h : muon < lam) :
    gStar mass muon lam = (if muon < mass ∧ mass < lam then 14.25 else 10.75) ∧
    gStar mass muon lam ≠ 61.75 ∧ (lam < mass → gStar mass muon lam = 10.75) := by
  have e : gStar mass muon lam = (if muon < mass ∧ mass < lam then 14.25 else 10.75) := by
    unfold gStar
    simp only [Id.run]
    split_ifs <;> rfl
  refine ⟨e, ?_, ?_⟩
  · rw [e]; split_ifs <;> norm_num
  · intro hl
    rw [e, if_neg (by rintro ⟨-, h'⟩; linarith)]

/-- **C48.** The relativistic estimate is the temperature at which the weak rate `G_F² θ² T⁵` equals the
expansion rate `1.66 √g T²/M_p`. -/
theorem C48_value (mass theta muon lam Mp GF : ℝ) (ht : theta ≠ 0) (hMp : 0 < Mp) (hG : 0 < GF) :
    let T := decouplingRel mass theta muon lam Mp GF
    0 < T ∧ GF ^ 2 * theta ^ 2 * T ^ 5 = 1.66 * √(gStar mass muon lam) * T ^ 2 / Mp := by
  intro T
  have hg : 0 < gStar mass muon lam := by
    unfold gStar
    simp only [Id.run]
    split_ifs <;> norm_num [pure]
  have hx : 0 < 1.66 * √(gStar mass muon lam) / (Mp * GF ^ 2 * theta ^ 2) := by positivity
  have hT : 0 < T := Real.rpow_pos_of_pos hx _
  have h3 : T ^ 3 = 1.66 * √(gStar mass muon lam) / (Mp * GF ^ 2 * theta ^ 2) := by
    change (_ ^ (1 / 3 : ℝ)) ^ 3 = _
    rw [← Real.rpow_natCast, ← Real.rpow_mul hx.le]
    norm_num
  refine ⟨hT, ?_⟩
  rw [show T ^ 5 = T ^ 3 * T ^ 2 by ring, h3]
  field_simp

/-- **C48.** A species for which the weak rate exceeds the expansion rate down to a temperature `T` above its mass decouples at
`1.5 T` and is called relativistic; one for which they are equal at two thirds of its mass or less decouples at its mass. -/
theorem C48_selected (mass theta muon lam Mp GF T : ℝ) (ht : theta ≠ 0) (hMp : 0 < Mp) (hG : 0 < GF) (hm : 0 ≤ mass)
    (hT : 0 < T) (hl : muon < lam)
    (hrate : GF ^ 2 * theta ^ 2 * T ^ 5 = 1.66 * √(if muon < mass ∧ mass < lam then 14.25 else 10.75) * T ^ 2 / Mp) :
    decouplingTemperature mass theta muon lam Mp GF =
      if mass < T then (1.5 * T, true) else if mass ≤ 1.5 * T then (1.5 * mass, false) else (mass, false) := by
  obtain ⟨h1, h2⟩ := C48_value mass theta muon lam Mp GF ht hMp hG
  rw [(C48_gstar mass muon lam hl).1] at h2
  have e : decouplingRel mass theta muon lam Mp GF = T := by
    set D := decouplingRel mass theta muon lam Mp GF
    set g := √(if muon < mass ∧ mass < lam then 14.25 else 10.75)
    have a1 : GF ^ 2 * theta ^ 2 * D ^ 3 = 1.66 * g / Mp := by
      have : D ^ 2 ≠ 0 := by positivity
      apply mul_right_cancel₀ this
      linear_combination h2
    have a2 : GF ^ 2 * theta ^ 2 * T ^ 3 = 1.66 * g / Mp := by
      have : T ^ 2 ≠ 0 := by positivity
      apply mul_right_cancel₀ this
      linear_combination hrate
    have h0 : GF ^ 2 * theta ^ 2 ≠ 0 := by positivity
    exact (pow_left_inj₀ h1.le hT.le (by norm_num)).mp (mul_left_cancel₀ h0 (a1.trans a2.symm))
  unfold decouplingTemperature
  rw [e]
  by_cases a : mass < T
  · rw [if_pos a]; exact (C48_regimes T mass hm).1 a
  · rw [if_neg a]
    by_cases b : mass ≤ 1.5 * T
    · rw [if_pos b]; exact (C48_regimes T mass hm).2.1 (not_lt.mp a) b
    · rw [if_neg b]; exact (C48_regimes T mass hm).2.2 (not_le.mp b)

/-- The rates are equal at temperature 2 for this angle; the species of mass 200 decouples when it is not relativistic. -/
example : decouplingTemperature 200 √(1.66 * √14.25 / 8) 105 300 1 1 = (200, false) := by
  rw [C48_selected 200 √(1.66 * √14.25 / 8) 105 300 1 1 2 (by positivity) one_pos one_pos (by norm_num) (by norm_num) (by norm_num)
    (by rw [if_pos (by norm_num), Real.sq_sqrt (by positivity)]; ring)]
  norm_num

/-- A mixing angle for which the estimate is 2. -/
example : decouplingRel 200 √(1.66 * √14.25 / 8) 105 300 1 1 = 2 := by
  obtain ⟨h1, h2⟩ := C48_value 200 √(1.66 * √14.25 / 8) 105 300 1 1 (by positivity) one_pos one_pos
  set T := decouplingRel 200 √(1.66 * √14.25 / 8) 105 300 1 1
  rw [(C48_gstar 200 105 300 (by norm_num)).1, if_pos (by norm_num), Real.sq_sqrt (by positivity)] at h2
  have hq : (0 : ℝ) < 1.66 * √14.25 := by positivity
  have h3 : T ^ 3 = 2 ^ 3 := by
    have : 1.66 * √14.25 * T ^ 2 * (T ^ 3 - 8) = 0 := by linear_combination 8 * h2
    rcases mul_eq_zero.mp this with h | h
    · exact absurd h (by positivity)
    · linarith
  exact (pow_left_inj₀ h1.le (by norm_num) (by norm_num)).mp h3

/-- Relativistic, intermediate and heavy cases. -/
example : decouplingOf 4 2 = (6, true) ∧ decouplingOf 2 2.5 = (3.75, false) ∧
    decouplingOf 1 2 = (2, false) := by
  refine ⟨?_, ?_, ?_⟩
  · rw [(C48_regimes 4 2 (by norm_num)).1 (by norm_num)]; norm_num
  · rw [(C48_regimes 2 2.5 (by norm_num)).2.1 (by norm_num) (by norm_num)]; norm_num
  · exact (C48_regimes 1 2 (by norm_num)).2.2 (by norm_num)

/-! ## C47: grid pieces -/

theorem takeWhile_lt_iff {α : Type*} (l : List α) (p : α → Bool)
    (h : l.Pairwise fun a b => p b = true → p a = true) (j : ℕ) (hj : j < l.length) :
    j < (l.takeWhile p).length ↔ p l[j] = true := by
  induction l generalizing j with
  | nil => simp at hj
  | cons a l ih =>
    rw [List.pairwise_cons] at h
    by_cases ha : p a = true
    · rw [List.takeWhile_cons_of_pos ha]
      cases j with
      | zero => simpa using ha
      | succ j =>
        simp only [List.length_cons, Nat.add_lt_add_iff_right, List.getElem_cons_succ]
        exact ih h.2 j (by simpa using hj)
    · rw [List.takeWhile_cons_of_neg ha]
      constructor
      · intro hh; simp at hh
      · intro hh
        exfalso
        cases j with
        | zero => exact ha hh
        | succ j => exact ha (h.1 _ (List.getElem_mem (by simpa using hj)) hh)

theorem lt_ssL_iff (grid : List ℝ) (hs : StrictInc grid) (x : ℝ) (j : ℕ) (hj : j < grid.length) :
    j < searchsortedLeft grid x ↔ grid[j] < x := by
  unfold searchsortedLeft
  rw [takeWhile_lt_iff _ _ _ j hj]
  · simp
  · exact hs.imp fun hab => by simpa using fun hb => lt_trans hab hb

theorem lt_ssR_iff (grid : List ℝ) (hs : StrictInc grid) (x : ℝ) (j : ℕ) (hj : j < grid.length) :
    j < searchsortedRight grid x ↔ grid[j] ≤ x := by
  unfold searchsortedRight
  rw [takeWhile_lt_iff _ _ _ j hj]
  · simp
  · exact hs.imp fun hab => by simpa using fun hb => (lt_of_lt_of_le hab hb).le

theorem ssL_le (grid : List ℝ) (x : ℝ) : searchsortedLeft grid x ≤ grid.length :=
  (List.takeWhile_sublist _).length_le

theorem ssR_le (grid : List ℝ) (x : ℝ) : searchsortedRight grid x ≤ grid.length :=
  (List.takeWhile_sublist _).length_le

/-- **C47, four particles.** The evaluated points are an initial piece of the grid, the zeros fill up exactly to
the length of the grid, and every grid point up to the bound is evaluated. -/
theorem C47_four (grid : List ℝ) (hne : grid ≠ []) (hs : StrictInc grid) (ub : ℝ) :
    ∃ k, 0 < k ∧ (gridCut4 grid ub).1 = grid.take k ∧
      (gridCut4 grid ub).1.length + (gridCut4 grid ub).2.length = grid.length ∧
      (∀ z ∈ (gridCut4 grid ub).2, z = 0) ∧
      (∀ j, (hj : j < grid.length) → grid[j] ≤ ub → j < k) ∧
      (∀ j, (hj : j < grid.length) → 0 < j → j < k → grid[j - 1] < ub) := by
  have hpos : 0 < grid.length := List.length_pos_iff.mpr hne
  have hle := ssL_le grid ub
  unfold gridCut4
  dsimp only
  set u := searchsortedLeft grid ub with hu
  have hup : min ((grid.length : ℤ) - 1) (u : ℤ) = ((min (grid.length - 1) u : ℕ) : ℤ) := by omega
  rw [hup]
  set w := min (grid.length - 1) u with hw
  have e1 : pySliceTo grid ((w : ℤ) + 1) = grid.take (w + 1) := by
    unfold pySliceTo
    rw [if_pos (by omega)]
    congr 1
  have e2 : pySliceFrom grid (w : ℤ) = grid.drop w := by
    unfold pySliceFrom
    rw [if_pos (by omega)]
    congr 1
  rw [e1, e2]
  refine ⟨w + 1, by omega, rfl, ?_, ?_, ?_, ?_⟩
  · rw [pyZeros, List.length_replicate, List.length_take, List.length_drop]
    omega
  · intro z hz
    exact List.eq_of_mem_replicate hz
  · intro j hj hg
    rcases Nat.lt_or_ge w j with h | h
    · exfalso
      have hwl : w < grid.length := by omega
      have hwu : ¬ w < u := by omega
      rw [hu, lt_ssL_iff grid hs ub w hwl] at hwu
      have := hs.lt h hj
      linarith
    · omega
  · intro j hj h0 hk
    have : j - 1 < u := by omega
    rwa [hu, lt_ssL_iff grid hs ub (j - 1) (by omega)] at this

/-- **C47, three particles.** For a non-empty increasing grid and ordered bounds: either the reaction is declared
empty, and then no grid point lies strictly between the bounds (of a grid with at least two points: a grid of
one point is always declared empty), and zeros of the length of `ps` are returned; or the zeros, the points and the zeros recombine to the length of the grid, the points are
a contiguous piece of the grid at the right offset, and every grid point between the bounds is evaluated. -/
theorem C47_three (grid : List ℝ) (hne : grid ≠ []) (hs : StrictInc grid) (lb ub : ℝ) (hb : lb ≤ ub)
    (hg0 : ∀ g ∈ grid, 0 ≤ g) :
    (∃ lo hi, lo < hi ∧ hi < grid.length ∧
      (gridBounds3 grid lb ub).zeros1.length = lo ∧
      (gridBounds3 grid lb ub).points = (grid.take (hi + 1)).drop lo ∧
      (gridBounds3 grid lb ub).zeros3.length = grid.length - 1 - hi ∧
      (∃ x ∈ (gridBounds3 grid lb ub).points, x ≠ 0) ∧
      (∀ z ∈ (gridBounds3 grid lb ub).zeros1, z = 0) ∧ (∀ z ∈ (gridBounds3 grid lb ub).zeros3, z = 0) ∧
      (∀ j, (hj : j < grid.length) → lb ≤ grid[j] → grid[j] ≤ ub → lo ≤ j ∧ j ≤ hi)) ∨
    ((gridBounds3 grid lb ub).points = [] ∧
      (2 ≤ grid.length → ∀ g ∈ grid, ¬ (lb < g ∧ g < ub))) := by
  have hpos : 0 < grid.length := List.length_pos_iff.mpr hne
  have hle := ssL_le grid ub
  have hre := ssR_le grid lb
  unfold gridBounds3
  dsimp only
  set u := searchsortedLeft grid ub with hu
  set v := searchsortedRight grid lb with hv
  have hup : min ((grid.length : ℤ) - 1) (u : ℤ) = ((min (grid.length - 1) u : ℕ) : ℤ) := by omega
  have hlo : max 0 ((v : ℤ) - 1) = ((v - 1 : ℕ) : ℤ) := by omega
  rw [hup, hlo]
  set w := min (grid.length - 1) u with hw
  set l := v - 1 with hl
  have hlw : l ≤ w := by
    rcases Nat.lt_or_ge w l with h | h
    · exfalso
      have hll : l < grid.length := by omega
      have h1 : l < v := by omega
      rw [hv, lt_ssR_iff grid hs lb l hll] at h1
      have h2 : ¬ w < u := by omega
      rw [hu, lt_ssL_iff grid hs ub w (by omega)] at h2
      have := hs.lt h hll
      linarith
    · exact h
  have e1 : pySliceTo grid ((w : ℤ) + 1) = grid.take (w + 1) := by
    unfold pySliceTo
    rw [if_pos (by omega)]
    congr 1
  have e2 : pySliceFrom grid (w : ℤ) = grid.drop w := by
    unfold pySliceFrom
    rw [if_pos (by omega)]
    congr 1
  have e3 : pySliceTo grid (l : ℤ) = grid.take l := by
    unfold pySliceTo
    rw [if_pos (by omega)]
    congr 1
  have e4 : ∀ L : List ℝ, pySliceFrom L (l : ℤ) = L.drop l := by
    intro L
    unfold pySliceFrom
    rw [if_pos (by omega)]
    congr 1
  rw [e1, e2, e3, e4]
  rcases Nat.eq_or_lt_of_le hlw with heq | hlt
  · right
    rw [if_pos (by omega)]
    refine ⟨rfl, ?_⟩
    rintro h2l g hg ⟨g1, g2⟩
    obtain ⟨j, hj, rfl⟩ := List.getElem_of_mem hg
    have a : j < u := (lt_ssL_iff grid hs ub j hj).mpr g2
    have b : ¬ j < v := fun h => absurd ((lt_ssR_iff grid hs lb j hj).mp h) (not_le.mpr g1)
    omega
  · left
    rw [if_neg (by omega)]
    refine ⟨l, w, hlt, by omega, ?_, rfl, ?_, ?_, ?_, ?_, ?_⟩
    · rw [pyZeros, List.length_replicate, List.length_take]; omega
    · rw [pyZeros, List.length_replicate, List.length_drop]; omega
    · have hmem : grid[w]'(by omega) ∈ (grid.take (w + 1)).drop l := by
        rw [List.mem_drop_iff_getElem]
        refine ⟨w - l, by rw [List.length_take]; omega, ?_⟩
        simp only [List.getElem_take]
        congr 1; omega
      refine ⟨_, hmem, ?_⟩
      have h1 := hs.lt hlt (by omega : w < grid.length)
      have h2 := hg0 _ (List.getElem_mem (by omega : l < grid.length))
      linarith
    · intro z hz; exact List.eq_of_mem_replicate hz
    · intro z hz; exact List.eq_of_mem_replicate hz
    · intro j hj g1 g2
      constructor
      · by_contra hc
        push Not at hc
        have h1 : l < v := by omega
        rw [hv, lt_ssR_iff grid hs lb l (by omega)] at h1
        have := hs.lt hc (by omega : l < grid.length)
        linarith
      · by_contra hc
        push Not at hc
        have h2 : ¬ w < u := by omega
        rw [hu, lt_ssL_iff grid hs ub w (by omega)] at h2
        have := hs.lt hc hj
        linarith

/-- **C47.** The array returned for a three-particle creation has the length of the grid (for a loop that returns
one number per momentum). -/
theorem C47_three_length (loop : List ℝ → List ℝ) (hloop : ∀ l, (loop l).length = l.length)
    (grid : List ℝ) (hne : grid ≠ []) (hs : StrictInc grid) (lb ub aT : ℝ) (hb : lb ≤ ub)
    (hg0 : ∀ g ∈ grid, 0 ≤ g) (ps : List ℝ) (hps : ps.length = grid.length) :
    (integrate3Array loop ps grid lb ub aT).length = grid.length := by
  unfold integrate3Array gridCutoff3
  dsimp only
  rcases C47_three grid hne hs lb ub hb hg0 with ⟨lo, hi, h1, h2, h3, h4, h5, h6, -⟩ | ⟨h1, -⟩
  · rw [if_pos h6]
    dsimp only
    rw [List.length_append, List.length_append, hloop, List.length_map, h3, h5, h4, List.length_drop,
      List.length_take]
    omega
  · rw [h1]
    simp [pyZeros, hps]

/-- **C47.** For a loop treating momenta one by one, entry `j` of the array is its value at `grid[j] / aT` for
every grid point strictly between the bounds, and that value or 0 elsewhere. -/
theorem C47_three_values (F : ℝ → ℝ) (grid : List ℝ) (h2 : 2 ≤ grid.length) (hs : StrictInc grid)
    (lb ub aT : ℝ) (hb : lb ≤ ub) (hg0 : ∀ g ∈ grid, 0 ≤ g) (ps : List ℝ) (hps : ps.length = grid.length)
    (j : ℕ) (hj : j < grid.length) :
    (lb < grid[j] → grid[j] < ub →
      (integrate3Array (·.map F) ps grid lb ub aT)[j]? = some (F (grid[j] / aT))) ∧
    ((integrate3Array (·.map F) ps grid lb ub aT)[j]? = some (F (grid[j] / aT)) ∨
      (integrate3Array (·.map F) ps grid lb ub aT)[j]? = some 0) := by
  have hne : grid ≠ [] := by intro h; rw [h] at h2; simp at h2
  unfold integrate3Array gridCutoff3
  dsimp only
  rcases C47_three grid hne hs lb ub hb hg0 with ⟨lo, hi, h1, h2', h3, h4, h5, h6, h7, h8, h9⟩ | ⟨h1, h9⟩
  · rw [if_pos h6]
    dsimp only
    have hz1 : (gridBounds3 grid lb ub).zeros1 = List.replicate lo 0 := by
      rw [← h3]; exact List.eq_replicate_of_mem h7
    have hz3 : (gridBounds3 grid lb ub).zeros3 = List.replicate (grid.length - 1 - hi) 0 := by
      rw [← h5]; exact List.eq_replicate_of_mem h8
    rw [hz1, hz3, h4, List.map_map]
    have hlen : ((List.drop lo (List.take (hi + 1) grid)).map (F ∘ (· / aT))).length = hi + 1 - lo := by
      rw [List.length_map, List.length_drop, List.length_take]; omega
    have inside : lo ≤ j → j ≤ hi → (List.replicate lo 0 ++ (List.drop lo (List.take (hi + 1) grid)).map
        (F ∘ (· / aT)) ++ List.replicate (grid.length - 1 - hi) 0)[j]? = some (F (grid[j] / aT)) := by
      intro a b
      rw [List.append_assoc, List.getElem?_append_right (by rw [List.length_replicate]; exact a),
        List.length_replicate, List.getElem?_append_left (by rw [hlen]; omega), List.getElem?_map,
        List.getElem?_drop, List.getElem?_take_of_lt (by omega), Nat.add_sub_cancel' a,
        List.getElem?_eq_getElem hj]
      rfl
    refine ⟨fun a b => ?_, ?_⟩
    · obtain ⟨c, d⟩ := h9 j hj a.le b.le
      exact inside c d
    · rcases Nat.lt_or_ge j lo with a | a
      · right
        rw [List.append_assoc, List.getElem?_append_left (by rw [List.length_replicate]; exact a),
          List.getElem?_replicate_of_lt a]
      · rcases Nat.lt_or_ge hi j with b | b
        · right
          rw [List.getElem?_append_right (by rw [List.length_append, hlen, List.length_replicate]; omega),
            List.getElem?_replicate_of_lt (by rw [List.length_append, hlen, List.length_replicate]; omega)]
        · exact Or.inl (inside a b)
  · rw [h1]
    have : (pyZeros ps.length)[j]? = some 0 := by
      unfold pyZeros
      rw [List.getElem?_replicate_of_lt (by simp [hps, hj])]
    simp only [List.not_mem_nil, false_and, exists_false, if_false]
    exact ⟨fun a b => absurd ⟨a, b⟩ (h9 h2 _ (List.getElem_mem hj)), Or.inr this⟩

/-- Grid 0..4, bounds 1.5 and 2.5, `aT = 2`: the point 2 is evaluated at 1. -/
example : (integrate3Array (·.map fun q => q + 10) [0, 1, 2, 3, 4] [0, 1, 2, 3, 4] 1.5 2.5 2)[2]? =
    some (2 / 2 + 10) :=
  (C47_three_values (fun q => q + 10) [0, 1, 2, 3, 4] (by simp)
    (by simp [StrictInc]; norm_num) 1.5 2.5 2 (by norm_num) (by simp)
    [0, 1, 2, 3, 4] rfl 2 (by simp)).1 (by norm_num) (by norm_num)

/-- Grid 0..4, bounds 1.5 and 2.5: one zero, three evaluated points, one zero. -/
example : (gridBounds3 [0, 1, 2, 3, 4] 1.5 2.5).points = [1, 2, 3] := by
  have h1 : searchsortedRight [0, 1, 2, 3, 4] (1.5 : ℝ) = 2 := by
    simp [searchsortedRight, List.takeWhile]; norm_num
  have h2 : searchsortedLeft [0, 1, 2, 3, 4] (2.5 : ℝ) = 3 := by
    simp [searchsortedLeft, List.takeWhile]; norm_num
  unfold gridBounds3
  simp [h1, h2, pySliceTo, pySliceFrom]

/-- A grid of one point is declared empty although the point is between the bounds. -/
theorem C47_single_point (g lb ub : ℝ) :
    (gridBounds3 [g] lb ub).points = [] := by
  unfold gridBounds3
  have h1 := ssR_le [g] lb
  have h2 := ssL_le [g] ub
  rw [List.length_singleton] at h1 h2
  dsimp only
  rw [if_pos]
  rw [List.length_singleton]
  omega

/-! ## C66: the cut-offs drop only what kinematics forbids -/

/-- Inverse boost to the rest frame of the parent: the energy bound. -/
theorem boost_bound {W P M E p m Es ps : ℝ} (hM : 0 < M) (hW0 : 0 ≤ W) (hP : 0 ≤ P) (hps : 0 ≤ ps)
    (hEs : 0 ≤ Es) (hW : W ^ 2 = P ^ 2 + M ^ 2)
    (hE0 : 0 ≤ E) (hp : 0 ≤ p) (hE : E ^ 2 = p ^ 2 + m ^ 2) (hs : Es ^ 2 = ps ^ 2 + m ^ 2)
    (h : W * E - P * p ≤ M * Es) : M * E ≤ W * Es + P * ps := by
  have hPW : P ≤ W := by
    apply (sq_le_sq₀ hP hW0).mp
    nlinarith [sq_nonneg M]
  have hpE : p ≤ E := by
    apply (sq_le_sq₀ hp hE0).mp
    nlinarith [sq_nonneg m]
  have hnn : 0 ≤ W * E - P * p := by
    have := mul_le_mul hPW hpE hp hW0
    linarith
  have inv : (W * E - P * p) ^ 2 - (W * p - P * E) ^ 2 = M ^ 2 * m ^ 2 := by
    have : (W * E - P * p) ^ 2 - (W * p - P * E) ^ 2 = (W ^ 2 - P ^ 2) * (E ^ 2 - p ^ 2) := by ring
    rw [this, hW, hE]; ring
  have hsq : (W * E - P * p) ^ 2 ≤ (M * Es) ^ 2 := pow_le_pow_left₀ hnn h 2
  have hp' : W * p - P * E ≤ M * ps := by
    apply le_of_sq_le_sq _ (by positivity)
    have : (M * Es) ^ 2 = (M * ps) ^ 2 + M ^ 2 * m ^ 2 := by rw [mul_pow, hs]; ring
    linarith
  have e : M * (M * E) = W * (W * E - P * p) + P * (W * p - P * E) := by
    have : M ^ 2 = W ^ 2 - P ^ 2 := by linarith
    linear_combination E * this
  have k1 := mul_le_mul_of_nonneg_left h hW0
  have k2 := mul_le_mul_of_nonneg_left hp' hP
  have : M * (M * E) ≤ M * (W * Es + P * ps) := by rw [e]; linarith
  exact le_of_mul_le_mul_left this hM

/-- The energy in the rest frame of the parent. -/
theorem rest_energy (M m m' : ℝ) (hM : 0 < M) (h1 : 0 ≤ m) (h2 : 0 ≤ m') (h : m' + m ≤ M) :
    2 * M * energy (cmMomentum M m' m) m = M ^ 2 + m ^ 2 - m' ^ 2 := by
  have hc := (C46_unique M m' m hM h2 h1 h (cmMomentum M m' m)
    (C46_threshold M m' m hM h2 h1 h).1).mp rfl
  have u1 := energy_sq (cmMomentum M m' m) m
  have u2 := energy_sq (cmMomentum M m' m) m'
  have e : energy (cmMomentum M m' m) m' = M - energy (cmMomentum M m' m) m := by linarith
  rw [e] at u2
  linear_combination u1 - u2

/-- The two code bounds, written with the boosted energies. -/
theorem bounds3_eq (s1 s2 s3 : KSpecie) (hM : 0 < s3.confMass) (hP : 0 ≤ s3.maxMom) :
    let ps := cmMomentum s3.confMass s2.confMass s1.confMass
    let W := energy s3.maxMom s3.confMass
    let Es := energy ps s1.confMass
    (bounds3Creation s1 s2 s3).2 = √(((W * Es + s3.maxMom * ps) / s3.confMass) ^ 2 - s1.confMass ^ 2) ∧
    (bounds3Creation s1 s2 s3).1 =
      if s1.massless then √(((W * Es - s3.maxMom * ps) / s3.confMass) ^ 2 - s1.confMass ^ 2) else 0 := by
  intro ps W Es
  have eW : √(s3.confMass ^ 2 + s3.maxMom ^ 2) = W := by
    simp only [W, energy]; congr 1; ring
  have eE : √(s1.confMass ^ 2 + ps ^ 2) = Es := by
    simp only [Es, energy]; congr 1; ring
  have hWpos : 0 < W := lt_of_lt_of_le hM (mass_le_energy _ _)
  have hg : 1 / √(1 - (s3.maxMom / W) ^ 2) = W / s3.confMass := by
    have : 1 - (s3.maxMom / W) ^ 2 = (s3.confMass / W) ^ 2 := by
      have := energy_sq s3.maxMom s3.confMass
      field_simp
      simp only [W]
      rw [this]; ring
    rw [this, Real.sqrt_sq (by positivity), one_div_div]
  unfold bounds3Creation
  dsimp only
  rw [show cmMomentum s3.confMass s2.confMass s1.confMass = ps from rfl, eW, eE, hg]
  refine ⟨?_, ?_⟩
  · congr 3; field_simp
  · split_ifs with hm
    · congr 3; field_simp
    · simp

/-- **C66, three particles.** In a decay `C → A + B` with the momentum of `C` within its grid, the momentum of `A` lies
within the bounds between which the collision integral of `A` is evaluated. -/
theorem C66_three (s1 s2 s3 : KSpecie) (hM : 0 < s3.confMass) (h1 : 0 ≤ s1.confMass) (h2 : 0 ≤ s2.confMass)
    (hth : s2.confMass + s1.confMass ≤ s3.confMass)
    (hm : s1.massless = true → s1.confMass = 0)
    (pA pB pC : ℝ) (hA : 0 ≤ pA) (hB : 0 ≤ pB) (hC : 0 ≤ pC) (hmax : pC ≤ s3.maxMom)
    (hen : energy pA s1.confMass + energy pB s2.confMass = energy pC s3.confMass)
    (t1 : pC ≤ pA + pB) (t2 : pA ≤ pC + pB) (t3 : pB ≤ pC + pA) :
    (bounds3Creation s1 s2 s3).1 ≤ pA ∧ pA ≤ (bounds3Creation s1 s2 s3).2 := by
  obtain ⟨eU, eL⟩ := bounds3_eq s1 s2 s3 hM (by linarith)
  rw [eU, eL]
  have hps := (C46_threshold s3.confMass s2.confMass s1.confMass hM h2 h1 hth).1
  have hre := rest_energy s3.confMass s1.confMass s2.confMass hM h1 h2 hth
  have uA := energy_sq pA s1.confMass
  have uB := energy_sq pB s2.confMass
  have uC := energy_sq pC s3.confMass
  have us := energy_sq (cmMomentum s3.confMass s2.confMass s1.confMass) s1.confMass
  have um := energy_sq s3.maxMom s3.confMass
  have hWW : energy pC s3.confMass ≤ energy s3.maxMom s3.confMass := by
    apply (sq_le_sq₀ (energy_nonneg _ _) (energy_nonneg _ _)).mp
    rw [uC, um]
    have := pow_le_pow_left₀ hC hmax 2
    linarith
  obtain ⟨c1, c2⟩ := cos_decay hen uA uB hB t1 t2 t3
  have hc : energy pC s3.confMass ^ 2 - pC ^ 2 + s1.confMass ^ 2 - s2.confMass ^ 2 =
      2 * s3.confMass * energy (cmMomentum s3.confMass s2.confMass s1.confMass) s1.confMass := by
    rw [hre, uC]; ring
  rw [hc] at c1 c2
  set ps := cmMomentum s3.confMass s2.confMass s1.confMass
  set Es := energy ps s1.confMass
  have hEs : 0 ≤ Es := energy_nonneg _ _
  constructor
  · split_ifs with hml
    · have hz := hm hml
      have eEs : Es = ps := by
        simp only [Es]; rw [hz]; exact energy_massless ps hps
      have eA : energy pA s1.confMass = pA := by rw [hz]; exact energy_massless pA hA
      rw [eEs, eA] at c2
      rw [hz, eEs]
      have hmx : s3.maxMom ≤ energy s3.maxMom s3.confMass := le_energy _ _
      have hnn : 0 ≤ (energy s3.maxMom s3.confMass * ps - s3.maxMom * ps) / s3.confMass := by
        apply div_nonneg _ hM.le
        have := mul_le_mul_of_nonneg_right hmx hps
        linarith
      rw [show ((energy s3.maxMom s3.confMass * ps - s3.maxMom * ps) / s3.confMass) ^ 2 - 0 ^ 2 =
        ((energy s3.maxMom s3.confMass * ps - s3.maxMom * ps) / s3.confMass) ^ 2 by ring,
        Real.sqrt_sq hnn, div_le_iff₀ hM]
      set Wm := energy s3.maxMom s3.confMass
      set W := energy pC s3.confMass
      have hWm : 0 < Wm := lt_of_lt_of_le hM (mass_le_energy _ _)
      have hsum : 0 < Wm + s3.maxMom := by linarith
      refine le_of_mul_le_mul_left ?_ hsum
      have l1 : (Wm + s3.maxMom) * (Wm * ps - s3.maxMom * ps) = s3.confMass * (s3.confMass * ps) := by
        have : Wm ^ 2 - s3.maxMom ^ 2 = s3.confMass ^ 2 := by linarith
        linear_combination ps * this
      rw [l1]
      have l2 : s3.confMass * ps ≤ (W + pC) * pA := by linarith
      have l3 : (W + pC) * pA ≤ (Wm + s3.maxMom) * pA :=
        mul_le_mul_of_nonneg_right (by linarith) hA
      have := mul_le_mul_of_nonneg_left (l2.trans l3) hM.le
      linarith
    · exact hA
  · apply le_sqrt_of_energy_le
    rw [le_div_iff₀ hM]
    have b := boost_bound hM (energy_nonneg _ _) hC hps hEs uC (energy_nonneg _ _) hA uA us (by linarith)
    have k1 := mul_le_mul_of_nonneg_right hWW hEs
    have k2 := mul_le_mul_of_nonneg_right hmax hps
    linarith

/-- **C66.** The upper bound is sharp: it is reached by a decay at the largest momentum of `C`. -/
theorem C66_three_sharp (s1 s2 s3 : KSpecie) (hM : 0 < s3.confMass) (h1 : 0 ≤ s1.confMass)
    (h2 : 0 ≤ s2.confMass) (hth : s2.confMass + s1.confMass ≤ s3.confMass) (hP : 0 ≤ s3.maxMom) :
    ∃ pB, 0 ≤ pB ∧
      energy (bounds3Creation s1 s2 s3).2 s1.confMass + energy pB s2.confMass =
        energy s3.maxMom s3.confMass ∧
      s3.maxMom ≤ (bounds3Creation s1 s2 s3).2 + pB ∧ (bounds3Creation s1 s2 s3).2 ≤ s3.maxMom + pB ∧
      pB ≤ s3.maxMom + (bounds3Creation s1 s2 s3).2 := by
  have eU := (bounds3_eq s1 s2 s3 hM hP).1
  have hps := (C46_threshold s3.confMass s2.confMass s1.confMass hM h2 h1 hth).1
  have hsum := (C46_unique s3.confMass s2.confMass s1.confMass hM h2 h1 hth _ hps).mp rfl
  have us1 := energy_sq (cmMomentum s3.confMass s2.confMass s1.confMass) s1.confMass
  have us2 := energy_sq (cmMomentum s3.confMass s2.confMass s1.confMass) s2.confMass
  have um := energy_sq s3.maxMom s3.confMass
  have hPW := le_energy s3.maxMom s3.confMass
  have hp2 := le_energy (cmMomentum s3.confMass s2.confMass s1.confMass) s2.confMass
  have nW := energy_nonneg s3.maxMom s3.confMass
  have n1 := energy_nonneg (cmMomentum s3.confMass s2.confMass s1.confMass) s1.confMass
  have n2 := energy_nonneg (cmMomentum s3.confMass s2.confMass s1.confMass) s2.confMass
  set ps := cmMomentum s3.confMass s2.confMass s1.confMass
  set E1 := energy ps s1.confMass
  set E2 := energy ps s2.confMass
  set W := energy s3.maxMom s3.confMass
  set M := s3.confMass
  set P := s3.maxMom
  have hid : W ^ 2 - P ^ 2 = M ^ 2 := by linarith
  have hM0 : M ≠ 0 := hM.ne'
  have hu : (bounds3Creation s1 s2 s3).2 = (P * E1 + W * ps) / M := by
    have : ((W * E1 + P * ps) / M) ^ 2 - s1.confMass ^ 2 = ((P * E1 + W * ps) / M) ^ 2 := by
      field_simp
      linear_combination (E1 ^ 2 - ps ^ 2) * hid + M ^ 2 * us1
    rw [eU, this, Real.sqrt_sq (by positivity)]
  have hEA : energy ((P * E1 + W * ps) / M) s1.confMass = (W * E1 + P * ps) / M := by
    refine (sq_eq_sq₀ (energy_nonneg _ _) (by positivity)).mp ?_
    rw [energy_sq]
    field_simp
    linear_combination (-(E1 ^ 2) + ps ^ 2) * hid - M ^ 2 * us1
  have hEB : energy |(P * E2 - W * ps) / M| s2.confMass = (W * E2 - P * ps) / M := by
    have hn : 0 ≤ (W * E2 - P * ps) / M := by
      apply div_nonneg _ hM.le
      have := mul_le_mul hPW hp2 hps nW
      linarith
    refine (sq_eq_sq₀ (energy_nonneg _ _) hn).mp ?_
    rw [energy_sq, sq_abs]
    field_simp
    linear_combination (-(E2 ^ 2) + ps ^ 2) * hid - M ^ 2 * us2
  have hadd : (P * E1 + W * ps) / M + (P * E2 - W * ps) / M = P := by
    field_simp
    linear_combination P * hsum
  have nU : 0 ≤ (P * E1 + W * ps) / M := by positivity
  refine ⟨|(P * E2 - W * ps) / M|, abs_nonneg _, ?_, ?_, ?_, ?_⟩ <;> rw [hu]
  · rw [hEA, hEB]
    field_simp
    linear_combination W * hsum
  · linarith [le_abs_self ((P * E2 - W * ps) / M)]
  · linarith [neg_le_abs ((P * E2 - W * ps) / M)]
  · apply abs_le.mpr; constructor <;> linarith

/-- **C66, four particles.** The cut-off of `A + B + C ← D` is above every momentum of `A` that a `D` on the
grid can produce. -/
theorem C66_four (s1 s2 s3 s4 : KSpecie) (dflt pA pB pC pD : ℝ) (hD : 0 ≤ pD) (hmax : pD ≤ s4.maxMom)
    (hen : energy pA s1.confMass + energy pB s2.confMass + energy pC s3.confMass =
      energy pD s4.confMass) :
    pA ≤ bounds4Creation s1 s2 s3 s4 dflt := by
  unfold bounds4Creation
  refine le_max_of_le_left (le_sqrt_of_energy_le ?_)
  have hW : energy pD s4.confMass ≤ √(s4.maxMom ^ 2 + s4.confMass ^ 2) := by
    unfold energy
    apply Real.sqrt_le_sqrt
    have := pow_le_pow_left₀ hD hmax 2
    nlinarith
  have b := mass_le_energy pB s2.confMass
  have c := mass_le_energy pC s3.confMass
  linarith

/-- Hence a grid point at which the three-particle integral is replaced by zero is not reachable. -/
theorem C66_zero_is_forbidden (s1 s2 s3 : KSpecie) (hM : 0 < s3.confMass) (h1 : 0 ≤ s1.confMass)
    (h2 : 0 ≤ s2.confMass) (hth : s2.confMass + s1.confMass ≤ s3.confMass)
    (hm : s1.massless = true → s1.confMass = 0)
    (hne : s1.grid ≠ []) (hs : StrictInc s1.grid) (hg0 : ∀ g ∈ s1.grid, 0 ≤ g)
    (j : ℕ) (hj : j < s1.grid.length) (pB pC : ℝ) (hB : 0 ≤ pB) (hC : 0 ≤ pC) (hmax : pC ≤ s3.maxMom)
    (hen : energy s1.grid[j] s1.confMass + energy pB s2.confMass = energy pC s3.confMass)
    (t1 : pC ≤ s1.grid[j] + pB) (t2 : s1.grid[j] ≤ pC + pB) (t3 : pB ≤ pC + s1.grid[j])
    (hpt : (gridBounds3 s1.grid (bounds3Creation s1 s2 s3).1 (bounds3Creation s1 s2 s3).2).points ≠ []) :
    s1.grid[j] ∈ (gridBounds3 s1.grid (bounds3Creation s1 s2 s3).1 (bounds3Creation s1 s2 s3).2).points := by
  obtain ⟨hl, hu⟩ := C66_three s1 s2 s3 hM h1 h2 hth hm _ pB pC (hg0 _ (List.getElem_mem hj)) hB hC hmax
    hen t1 t2 t3
  rcases C47_three s1.grid hne hs _ _ (hl.trans hu) hg0 with ⟨lo, hi, k1, k2, -, k4, -, -, -, -, k9⟩ | ⟨h, -⟩
  · obtain ⟨a, b⟩ := k9 j hj hl hu
    rw [k4, List.mem_drop_iff_getElem]
    refine ⟨j - lo, by rw [List.length_take]; omega, ?_⟩
    simp only [List.getElem_take]
    congr 1; omega
  · exact absurd h hpt

/-- A decay at rest of a particle of mass 5 into 3 and 0 (momentum 8/5): inside the bounds for any `maxMom`. -/
example (P : ℝ) (hP : 0 ≤ P) :
    let s1 : KSpecie := ⟨3, false, 20, []⟩
    let s2 : KSpecie := ⟨0, true, 20, []⟩
    let s3 : KSpecie := ⟨5, false, P, []⟩
    (8 / 5 : ℝ) ≤ (bounds3Creation s1 s2 s3).2 := by
  intro s1 s2 s3
  refine (C66_three s1 s2 s3 (by norm_num [s3]) (by norm_num [s1]) (by norm_num [s2])
    (by norm_num [s1, s2, s3]) (by simp [s1]) (8 / 5) (8 / 5) 0 (by norm_num) (by norm_num) le_rfl hP ?_
    (by norm_num) (by norm_num) (by norm_num)).2
  have e1 : energy (8 / 5) s1.confMass = 17 / 5 := by
    simp only [s1, energy]
    rw [Real.sqrt_eq_iff_mul_self_eq (by norm_num) (by norm_num)]; norm_num
  have e2 : energy (8 / 5) s2.confMass = 8 / 5 := energy_massless _ (by norm_num)
  have e3 : energy 0 s3.confMass = 5 := energy_rest 5 (by norm_num)
  rw [e1, e2, e3]; norm_num

/-! ## C67: the meson below a given mass -/

/-- **C67.** For a mass above the lightest meson the heaviest meson strictly lighter than the mass is picked. -/
theorem C67_heaviest_below (mesons : List ℝ) (hs : StrictInc mesons) (m0 mass : ℝ)
    (h0 : mesons.head? = some m0) (h : m0 < mass) :
    ∃ x ∈ mesons, mesonBelow mesons mass = .ok x ∧ x < mass ∧ ∀ y ∈ mesons, y < mass → y ≤ x := by
  have hpos : 0 < mesons.length := by cases mesons <;> simp_all
  have hg0 : mesons[0] = m0 := by
    cases mesons with
    | nil => simp at hpos
    | cons a l => simpa using h0
  have hk : 0 < searchsortedLeft mesons mass := by
    rw [lt_ssL_iff mesons hs mass 0 hpos, hg0]; exact h
  have hle := ssL_le mesons mass
  have hlt : searchsortedLeft mesons mass - 1 < mesons.length := by omega
  refine ⟨mesons[searchsortedLeft mesons mass - 1], List.getElem_mem hlt, ?_, ?_, ?_⟩
  · unfold mesonBelow
    rw [show ((searchsortedLeft mesons mass : ℤ) - 1) = ((searchsortedLeft mesons mass - 1 : ℕ) : ℤ) by omega]
    exact pyGet_nat _ _ hlt
  · exact (lt_ssL_iff mesons hs mass _ hlt).mp (by omega)
  · intro y hy hlt'
    obtain ⟨j, hj, rfl⟩ := List.getElem_of_mem hy
    have := (lt_ssL_iff mesons hs mass j hj).mpr hlt'
    exact hs.le (by omega) hlt

/-- **C67 is wrong at and below the lightest meson**: the index wraps around and the heaviest meson is picked. -/
theorem C67_wraps (mesons : List ℝ) (hs : StrictInc mesons) (m0 x mass : ℝ)
    (h0 : mesons.head? = some m0) (hx : mesons.getLast? = some x) (h : mass ≤ m0) :
    mesonBelow mesons mass = .ok x := by
  have hpos : 0 < mesons.length := by cases mesons <;> simp_all
  have hg0 : mesons[0] = m0 := by
    cases mesons with
    | nil => simp at hpos
    | cons a l => simpa using h0
  have hk : searchsortedLeft mesons mass = 0 := by
    by_contra hc
    have : 0 < searchsortedLeft mesons mass := by omega
    rw [lt_ssL_iff mesons hs mass 0 hpos, hg0] at this
    linarith
  unfold mesonBelow
  rw [hk]
  unfold pyGet pyIndex
  rw [List.getLast?_eq_getElem?] at hx
  rw [if_neg (by simp), if_pos (by constructor <;> simp; omega)]
  dsimp only
  rw [show ((mesons.length : ℤ) + ((0 : ℕ) - 1 : ℤ)).toNat = mesons.length - 1 by omega, hx]

theorem mesonsNeutrino_inc : StrictInc (mesonsNeutrino.map fun q : ℚ => (q : ℝ)) := by
  unfold StrictInc
  rw [List.pairwise_map]
  have : mesonsNeutrino.Pairwise (· < ·) := by unfold mesonsNeutrino; norm_num
  exact this.imp fun h => by exact_mod_cast h

/-- The table of the code: a 500 MeV particle is assigned the charged pion, a particle of exactly the
neutral-pion mass the heaviest meson. -/
example : mesonBelow (mesonsNeutrino.map fun q : ℚ => (q : ℝ)) ((134.98 : ℚ) : ℝ) = .ok ((1019.46 : ℚ) : ℝ) :=
  C67_wraps _ mesonsNeutrino_inc ((134.98 : ℚ) : ℝ) _ _ rfl rfl le_rfl

example : ∃ x ∈ mesonsNeutrino.map fun q : ℚ => (q : ℝ),
    mesonBelow (mesonsNeutrino.map fun q : ℚ => (q : ℝ)) 500 = .ok x ∧ x < 500 ∧
    ∀ y ∈ mesonsNeutrino.map fun q : ℚ => (q : ℝ), y < 500 → y ≤ x :=
  C67_heaviest_below _ mesonsNeutrino_inc ((134.98 : ℚ) : ℝ) _ rfl (by norm_num)

end PyBBN
