import Verif.Lemmas.Search
import Mathlib.Tactic.FieldSimp
import Mathlib.Tactic.Ring
import Mathlib.Tactic.NormNum
import Mathlib.Tactic.IntervalCases
/-!
# C08–C13: grid search and interpolation
-/
namespace PyBBN

/-! ## C08 -/

/-- **C08.** On every non-empty strictly increasing grid the search returns, without any
out-of-range read, the bracketing cell; the four cases are exhaustive. -/
theorem C08_binary_find {α : Type*} [LinearOrder α] (grid : List α) (x : α) (hne : grid ≠ [])
    (hs : grid.Pairwise (· < ·)) :
    ((∀ g ∈ grid, g < x) → binaryFind grid x = .ok ((grid.length : ℤ) - 1, -1)) ∧
    ((∀ g ∈ grid, x < g) → binaryFind grid x = .ok (-1, 0)) ∧
    (∀ i, (hi : i < grid.length) → grid[i] = x → binaryFind grid x = .ok ((i : ℤ), (i : ℤ))) ∧
    (∀ i, (hi : i + 1 < grid.length) → grid[i] < x → x < grid[i + 1] →
      binaryFind grid x = .ok ((i : ℤ), (i : ℤ) + 1)) ∧
    ((∀ g ∈ grid, g < x) ∨ (∀ g ∈ grid, x < g) ∨ (∃ i, ∃ hi : i < grid.length, grid[i] = x) ∨
      (∃ i, ∃ hi : i + 1 < grid.length, grid[i] < x ∧ x < grid[i + 1])) := by
  refine ⟨binaryFind_above grid x hne, binaryFind_below grid x hne, ?_, ?_, grid_cases grid x hne hs⟩
  · intro i hi he
    rw [← he]; exact binaryFind_at grid hs i hi
  · intro i hi h1 h2
    rw [binaryFind_between grid x hs i hi h1 h2]; push_cast; rfl

/-- **C08.** The Python and the C++ searches agree on every non-empty strictly increasing grid. -/
theorem C08_python_agrees {α : Type*} [LinearOrder α] (grid : List α) (x : α) (hne : grid ≠ [])
    (hs : grid.Pairwise (· < ·)) : binaryFindPy grid x = binaryFind grid x := by
  have hl : 0 < grid.length := List.length_pos_iff.mpr hne
  have hlast : grid.getLast? = some grid[grid.length - 1] := by
    rw [List.getLast?_eq_getElem?, List.getElem?_eq_getElem]
  have hhead : grid.head? = some grid[0] := by
    rw [List.head?_eq_getElem?, List.getElem?_eq_getElem]
  unfold binaryFindPy
  rw [hlast, hhead]
  simp only
  rcases grid_cases grid x hne hs with h | h | ⟨i, hi, rfl⟩ | ⟨i, hi, h1, h2⟩
  · rw [binaryFind_above grid x hne h, if_pos (h _ (List.getElem_mem _))]
  · rw [binaryFind_below grid x hne h,
      if_neg (not_lt.mpr (le_of_lt (h _ (List.getElem_mem _)))),
      if_pos (h _ (List.getElem_mem _))]
  · rw [binaryFind_at grid hs i hi, if_neg (not_lt.mpr (StrictInc.le hs (by omega) (by omega))),
      if_neg (not_lt.mpr (StrictInc.le hs (by omega) (by omega))),
      if_pos (List.getElem_mem _)]
    have hnd : grid.Nodup := List.Pairwise.imp (fun h => ne_of_lt h) hs
    rw [List.Nodup.idxOf_getElem hnd]
  · rw [binaryFind_between grid x hs i hi h1 h2, if_neg, if_neg, if_neg,
      searchsortedRight_between grid x hs i hi (le_of_lt h1) h2]
    · push_cast; simp
    · intro hx
      obtain ⟨j, hj, rfl⟩ := List.getElem_of_mem hx
      have a := (StrictInc.lt_iff hs (by omega) hj).mp h1
      have b := (StrictInc.lt_iff hs hj hi).mp h2
      omega
    · exact not_lt.mpr (le_trans (StrictInc.le hs (Nat.zero_le _) (by omega)) (le_of_lt h1))
    · exact not_lt.mpr (le_trans (le_of_lt h2) (StrictInc.le hs (by omega) (by omega)))

example : binaryFindPy ([1, 4, 9, 16, 25] : List ℤ) 10 = binaryFind ([1, 4, 9, 16, 25] : List ℤ) 10 :=
  C08_python_agrees _ _ (by simp) (by decide)

/-- An empty grid is an out-of-range read (undefined behaviour in C++, `IndexError` in Python). -/
theorem binaryFind_empty {α : Type*} [LinearOrder α] (x : α) :
    binaryFind ([] : List α) x = .error .indexError ∧
    binaryFindPy ([] : List α) x = .error .indexError := ⟨rfl, rfl⟩

example : ([1, 4, 9, 16, 25] : List ℤ).Pairwise (· < ·) ∧
    binaryFind ([1, 4, 9, 16, 25] : List ℤ) 10 = .ok (2, 3) := by
  have h : ([1, 4, 9, 16, 25] : List ℤ).Pairwise (· < ·) := by decide
  exact ⟨h, (C08_binary_find _ _ (by simp) h).2.2.2.1 2 (by decide) (by decide) (by decide)⟩

/-! ## C09 -/

theorem energy_strictMono {p q m : ℝ} (hp : 0 ≤ p) (h : p < q) : energy p m < energy q m := by
  unfold energy
  apply Real.sqrt_lt_sqrt
  · nlinarith [mul_self_nonneg p, mul_self_nonneg m]
  · nlinarith

theorem energy_mono {p q m : ℝ} (hp : 0 ≤ p) (h : p ≤ q) : energy p m ≤ energy q m := by
  rcases eq_or_lt_of_le h with h | h
  · rw [h]
  · exact le_of_lt (energy_strictMono hp h)

/-- **C09.** At a grid momentum the stored value is returned exactly. -/
theorem C09_exact_on_grid (grid dist : List ℝ) (m T : ℝ) (eta : ℤ) (hs : grid.Pairwise (· < ·))
    (hlen : dist.length = grid.length) (i : ℕ) (hi : i < grid.length) :
    distributionInterpolation grid dist grid[i] m eta T false =
      .ok (dist[i]'(by omega)) := by
  unfold distributionInterpolation lookupAt
  rw [binaryFind_at grid hs i hi]
  have h1 : ¬ ((i : ℤ) = -1) := by omega
  have h2 : i < dist.length := by omega
  simp [h1, h2]

example : distributionInterpolation [0, 1, 3] [0.5, 0.25, 0.125] 1 2 1 5 false = .ok 0.25 :=
  C09_exact_on_grid [0, 1, 3] [0.5, 0.25, 0.125] 2 5 1 (by norm_num) rfl 1 (by simp)

/-- **C09.** Below the grid the lookup raises. -/
theorem C09_below_raises (grid dist : List ℝ) (p m T : ℝ) (eta : ℤ) (hne : grid ≠ [])
    (h : ∀ g ∈ grid, p < g) :
    distributionInterpolation grid dist p m eta T false = .error .runtimeError := by
  unfold distributionInterpolation lookupAt
  rw [binaryFind_below grid p hne h]; simp

example : distributionInterpolation [1, 2] [0.5, 0.25] 0.5 0 1 1 false = .error .runtimeError :=
  C09_below_raises _ _ _ _ _ _ (by simp) (by norm_num)

/-- **C09.** Above the grid: last value times the Boltzmann tail. -/
theorem C09_above (grid dist : List ℝ) (p m T : ℝ) (eta : ℤ) (hne : grid ≠ [])
    (hlen : dist.length = grid.length) (h : ∀ g ∈ grid, g < p) (hd : dist ≠ []) :
    distributionInterpolation grid dist p m eta T false =
      .ok (dist.getLast hd * Real.exp ((energy (grid.getLast hne) m - energy p m) / T)) := by
  have hl : 0 < grid.length := List.length_pos_iff.mpr hne
  unfold distributionInterpolation lookupAt
  rw [binaryFind_above grid p hne h]
  have h1 : ¬ ((grid.length : ℤ) - 1 = -1) := by omega
  have e1 : dist[grid.length - 1]? = some (dist.getLast hd) := by
    rw [← hlen, ← List.getLast?_eq_getElem?, List.getLast?_eq_getLast_of_ne_nil hd]
  have e2 : grid[grid.length - 1]? = some (grid.getLast hne) := by
    rw [← List.getLast?_eq_getElem?, List.getLast?_eq_getLast_of_ne_nil hne]
  simp only [Bool.false_eq_true, if_false, h1, if_true, e1, e2]

/-- Massless, temperature 2: from momentum 3 to 5 the tail falls by `e⁻¹`. -/
example : distributionInterpolation [0, 1, 3] [0.5, 0.25, 0.125] 5 0 1 2 false = .ok (0.125 * Real.exp (-1)) := by
  rw [C09_above [0, 1, 3] [0.5, 0.25, 0.125] 5 0 2 1 (by simp) rfl (by norm_num) (by simp)]
  have h3 : energy 3 0 = 3 := by rw [energy, show ((3 : ℝ) * 3 + 0 * 0) = 3 ^ 2 by norm_num, Real.sqrt_sq (by norm_num)]
  have h5 : energy 5 0 = 5 := by rw [energy, show ((5 : ℝ) * 5 + 0 * 0) = 5 ^ 2 by norm_num, Real.sqrt_sq (by norm_num)]
  simp only [List.getLast_cons_cons, List.getLast_singleton, h3, h5]
  norm_num

/-- **C09.** The tail is continuous with the edge value, non-negative, non-increasing in momentum and
bounded by the edge value: for momenta `p ≤ q` above the grid the looked-up values satisfy
`0 ≤ f(q) ≤ f(p) ≤ f(last)`. -/
theorem C09_tail_decreasing (grid dist : List ℝ) (p q m T : ℝ) (eta : ℤ) (hne : grid ≠ [])
    (hd : dist ≠ []) (hlen : dist.length = grid.length) (h : ∀ g ∈ grid, g < p) (hpq : p ≤ q)
    (hT : 0 < T) (h0 : 0 ≤ grid.getLast hne) (hf : 0 ≤ dist.getLast hd) :
    ∃ fp fq, distributionInterpolation grid dist p m eta T false = .ok fp ∧
      distributionInterpolation grid dist q m eta T false = .ok fq ∧
      0 ≤ fq ∧ fq ≤ fp ∧ fp ≤ dist.getLast hd := by
  refine ⟨_, _, C09_above grid dist p m T eta hne hlen h hd,
    C09_above grid dist q m T eta hne hlen (fun g hg => lt_of_lt_of_le (h g hg) hpq) hd, ?_, ?_, ?_⟩
  · exact mul_nonneg hf (Real.exp_nonneg _)
  · apply mul_le_mul_of_nonneg_left _ hf
    apply Real.exp_le_exp.mpr
    apply div_le_div_of_nonneg_right _ hT.le
    have hlp := h _ (List.getLast_mem hne)
    linarith [energy_mono (m := m) (le_trans h0 hlp.le) hpq]
  · have hlp := h _ (List.getLast_mem hne)
    have : Real.exp ((energy (grid.getLast hne) m - energy p m) / T) ≤ 1 := by
      rw [Real.exp_le_one_iff]
      apply div_nonpos_of_nonpos_of_nonneg _ hT.le
      linarith [energy_mono (m := m) h0 hlp.le]
    nlinarith

example : ∃ fp fq, distributionInterpolation [0, 1, 3] [0.5, 0.25, 0.125] 5 1 1 2 false = .ok fp ∧
    distributionInterpolation [0, 1, 3] [0.5, 0.25, 0.125] 9 1 1 2 false = .ok fq ∧ 0 ≤ fq ∧ fq ≤ fp ∧ fp ≤ 0.125 :=
  C09_tail_decreasing [0, 1, 3] [0.5, 0.25, 0.125] 5 9 1 2 1 (by simp) (by simp) rfl (by norm_num) (by norm_num) (by norm_num)
    (by simp) (by norm_num)

/-- **C09.** The lookup is total: on a strictly increasing grid with as many values as points, every
momentum not below the first grid point gives a value (no exception, no out-of-range read). -/
theorem C09_total (grid dist : List ℝ) (p m T : ℝ) (eta : ℤ) (inEq : Bool) (hne : grid ≠ [])
    (hs : grid.Pairwise (· < ·)) (hlen : dist.length = grid.length) (hp : grid.head hne ≤ p) :
    ∃ v, distributionInterpolation grid dist p m eta T inEq = .ok v := by
  cases inEq with
  | true => exact ⟨_, rfl⟩
  | false =>
    have hd : dist ≠ [] := by
      intro h; apply hne; rw [h] at hlen; exact List.length_eq_zero_iff.mp hlen.symm
    rcases grid_cases grid p hne hs with h | h | ⟨i, hi, rfl⟩ | ⟨i, hi, h1, h2⟩
    · exact ⟨_, C09_above grid dist p m T eta hne hlen h hd⟩
    · exact absurd hp (not_le.mpr (h _ (List.head_mem hne)))
    · exact ⟨_, C09_exact_on_grid grid dist m T eta hs hlen i hi⟩
    · refine ⟨interpCell grid[i] grid[i + 1] (dist[i]'(by omega)) (dist[i + 1]'(by omega)) p m eta, ?_⟩
      unfold distributionInterpolation lookupAt
      rw [binaryFind_between grid p hs i hi h1 h2]
      have a : ¬ ((i : ℤ) = -1) := by omega
      have b : ¬ (((i + 1 : ℕ) : ℤ) = -1) := by omega
      have c : ¬ ((i : ℤ) = ((i + 1 : ℕ) : ℤ)) := by omega
      have d1 : i < grid.length := by omega
      have d2 : i < dist.length := by omega
      have d3 : i + 1 < dist.length := by omega
      simp only [Bool.false_eq_true, if_false, a, b, c, Int.toNat_natCast,
        List.getElem?_eq_getElem d1, List.getElem?_eq_getElem d2, List.getElem?_eq_getElem d3,
        List.getElem?_eq_getElem hi]

example : ∃ v, distributionInterpolation [0, 1, 3] [0.5, 0.25, 0.125] 1.7 1 1 2 false = .ok v :=
  C09_total _ _ _ _ _ _ _ (by simp) (by norm_num) rfl (by norm_num)

/-- **C09.** The Python `interp` and the C++ lookup agree on every valid grid and momentum. -/
theorem C09_python_agrees (grid dist : List ℝ) (p m T : ℝ) (eta : ℤ) (inEq : Bool) (hne : grid ≠ [])
    (hs : grid.Pairwise (· < ·)) :
    interpPy grid dist p m eta T inEq = distributionInterpolation grid dist p m eta T inEq := by
  unfold interpPy distributionInterpolation
  rw [C08_python_agrees grid p hne hs]

/-- Between two neighbouring grid points the lookup is the cell formula. -/
theorem lookup_between (grid dist : List ℝ) (p m T : ℝ) (eta : ℤ)
    (hs : grid.Pairwise (· < ·)) (hlen : dist.length = grid.length) (i : ℕ)
    (hi : i + 1 < grid.length) (h1 : grid[i] < p) (h2 : p < grid[i + 1]) :
    distributionInterpolation grid dist p m eta T false =
      .ok (interpCell grid[i] grid[i + 1] (dist[i]'(by omega)) (dist[i + 1]'(by omega)) p m eta) := by
  unfold distributionInterpolation lookupAt
  rw [binaryFind_between grid p hs i hi h1 h2]
  have a : ¬ ((i : ℤ) = -1) := by omega
  have b : ¬ (((i + 1 : ℕ) : ℤ) = -1) := by omega
  have c : ¬ ((i : ℤ) = ((i + 1 : ℕ) : ℤ)) := by omega
  have d1 : i < grid.length := by omega
  have d2 : i < dist.length := by omega
  have d3 : i + 1 < dist.length := by omega
  simp only [Bool.false_eq_true, if_false, a, b, c, Int.toNat_natCast,
    List.getElem?_eq_getElem d1, List.getElem?_eq_getElem d2, List.getElem?_eq_getElem d3,
    List.getElem?_eq_getElem hi]

example : ([0, 1, 2.5] : List ℝ).Pairwise (· < ·) := by
  simp; norm_num

/-! ## C10 -/

/-- Occupation number of a spectrum with `exp` argument `u`: `1/(e^u + eta)`; `eta = 1` Fermi–Dirac,
`eta = -1` Bose–Einstein. -/
noncomputable def occupation (eta : ℤ) (u : ℝ) : ℝ := 1 / (Real.exp u + eta)

theorem occupation_inv {eta : ℤ} {u : ℝ} (h : 0 < Real.exp u + eta) :
    occupation eta u ≠ 0 ∧ 1 / occupation eta u - eta = Real.exp u := by
  unfold occupation
  constructor
  · exact ne_of_gt (by positivity)
  · rw [one_div_one_div]; ring

theorem interpCell_spectrum (pLo pHi p m al be : ℝ) (eta : ℤ) (h0 : 0 ≤ pLo) (h1 : pLo < p)
    (h2 : p < pHi)
    (hlo : 0 < Real.exp (al + be * energy pLo m) + eta)
    (hhi : 0 < Real.exp (al + be * energy pHi m) + eta) :
    interpCell pLo pHi (occupation eta (al + be * energy pLo m))
      (occupation eta (al + be * energy pHi m)) p m eta =
      occupation eta (al + be * energy p m) := by
  obtain ⟨a1, a2⟩ := occupation_inv hlo
  obtain ⟨b1, b2⟩ := occupation_inv hhi
  unfold interpCell
  simp only [a1, b1, or_self, if_false, a2, b2, gt_iff_lt, Real.exp_pos, if_true, Real.log_exp]
  have hE : energy pLo m < energy pHi m := energy_strictMono h0 (lt_trans h1 h2)
  have hne : energy pHi m - energy pLo m ≠ 0 := by linarith
  unfold occupation
  congr 3
  field_simp
  ring

/-- **C10.** If the stored values are those of a thermal spectrum (Fermi–Dirac or Bose–Einstein, also
with a chemical potential: exponent `al + be·E`), the lookup at *every* momentum within the grid
returns the exact spectrum value. For bosons the exponent must be positive on the grid (the
occupation is finite); for fermions there is no condition. -/
theorem C10_thermal_reproduced (grid dist : List ℝ) (p m T al be : ℝ) (eta : ℤ) (hne : grid ≠ [])
    (hs : grid.Pairwise (· < ·)) (hlen : dist.length = grid.length) (h0 : 0 ≤ grid.head hne)
    (hfin : ∀ g ∈ grid, 0 < Real.exp (al + be * energy g m) + eta)
    (hth : ∀ i, (hi : i < grid.length) →
      dist[i]'(by omega) = 1 / (Real.exp (al + be * energy grid[i] m) + eta))
    (hp1 : grid.head hne ≤ p) (hp2 : p ≤ grid.getLast hne) :
    distributionInterpolation grid dist p m eta T false =
      .ok (1 / (Real.exp (al + be * energy p m) + eta)) := by
  rcases grid_cases grid p hne hs with h | h | ⟨i, hi, rfl⟩ | ⟨i, hi, h1, h2⟩
  · exact absurd (h _ (List.getLast_mem hne)) (not_lt.mpr hp2)
  · exact absurd (h _ (List.head_mem hne)) (not_lt.mpr hp1)
  · rw [C09_exact_on_grid grid dist m T eta hs hlen i hi, hth i hi]
  · rw [lookup_between grid dist p m T eta hs hlen i hi h1 h2, hth i (by omega), hth (i + 1) hi]
    have hhead : grid.head hne ≤ grid[i] := by
      rw [List.head_eq_getElem]; exact StrictInc.le hs (Nat.zero_le _) (by omega)
    have := interpCell_spectrum grid[i] grid[i + 1] p m al be eta (le_trans h0 hhead) h1 h2
      (hfin _ (List.getElem_mem _)) (hfin _ (List.getElem_mem _))
    unfold occupation at this
    rw [this]

/-- A spectrum at temperature 1 given at momenta 0, 1, 3 is reproduced at momentum 2, whatever temperature is passed. -/
example (T : ℝ) : distributionInterpolation [0, 1, 3] ([0, 1, 3].map fun g => 1 / (Real.exp (0 + 1 * energy g 2) + ((1 : ℤ) : ℝ)))
    2 2 1 T false = .ok (1 / (Real.exp (0 + 1 * energy 2 2) + ((1 : ℤ) : ℝ))) :=
  C10_thermal_reproduced [0, 1, 3] _ 2 2 T 0 1 1 (by simp) (by norm_num) (by simp) (by simp)
    (by intro g _; positivity) (by intro i hi; simp only [List.getElem_map]) (by norm_num) (by norm_num)

/-- **C10.** In particular a species whose stored values are the equilibrium ones at temperature `T`
looks up the same value as a species flagged "in equilibrium", at every momentum in the grid. -/
theorem C10_agrees_with_equilibrium (grid dist : List ℝ) (p m T : ℝ) (eta : ℤ) (hne : grid ≠ [])
    (hs : grid.Pairwise (· < ·)) (hlen : dist.length = grid.length) (h0 : 0 ≤ grid.head hne)
    (hT : 0 < T) (heta : eta = 1 ∨ eta = -1 ∧ 0 < m)
    (hth : ∀ i, (hi : i < grid.length) →
      distributionInterpolation grid dist grid[i] m eta T true = .ok (dist[i]'(by omega)))
    (hp1 : grid.head hne ≤ p) (hp2 : p ≤ grid.getLast hne) :
    distributionInterpolation grid dist p m eta T false =
      distributionInterpolation grid dist p m eta T true := by
  have h := C10_thermal_reproduced grid dist p m T 0 (1 / T) eta hne hs hlen h0 ?_ ?_ hp1 hp2
  · rw [h]; unfold distributionInterpolation
    simp only [if_true]; congr 4; ring
  · intro g hg
    rcases heta with rfl | ⟨rfl, hm⟩
    · push_cast; positivity
    · have hE : 0 < energy g m := by unfold energy; apply Real.sqrt_pos.mpr; nlinarith [mul_self_nonneg g]
      have : (0 : ℝ) < 0 + 1 / T * energy g m := by positivity
      have := Real.one_lt_exp_iff.mpr this
      push_cast; linarith
  · intro i hi
    have := hth i hi
    unfold distributionInterpolation at this
    simp only [if_true, Except.ok.injEq] at this
    rw [← this]; congr 3; ring

example : ∃ (grid dist : List ℝ) (hne : grid ≠ []), grid.Pairwise (· < ·) ∧
    dist.length = grid.length ∧ 0 ≤ grid.head hne ∧
    ∀ i, (hi : i < grid.length) → (hi' : i < dist.length) →
      dist[i] = 1 / (Real.exp (0 + 1 * energy grid[i] 2) + ((1 : ℤ) : ℝ)) := by
  refine ⟨[0, 1, 3], [0, 1, 3].map fun g => 1 / (Real.exp (0 + 1 * energy g 2) + ((1 : ℤ) : ℝ)),
    by simp, by simp, by simp, by simp, ?_⟩
  intro i hi hi'
  simp only [List.getElem_map]

/-! ## C11 -/

/-- **C11.** With stored values strictly between 0 and the statistical maximum (below 1 for fermions,
any positive value for bosons), the lookup strictly inside a cell lies between the two stored
neighbours. -/
theorem C11_between_neighbours (grid dist : List ℝ) (p m T : ℝ) (eta : ℤ)
    (hs : grid.Pairwise (· < ·)) (hlen : dist.length = grid.length) (i : ℕ)
    (hi : i + 1 < grid.length) (h0 : 0 ≤ grid[i]) (h1 : grid[i] < p) (h2 : p < grid[i + 1])
    (heta : eta = 1 ∨ eta = -1)
    (hf : ∀ k, (hk : k < dist.length) → 0 < dist[k] ∧ (eta = 1 → dist[k] < 1)) :
    ∃ v, distributionInterpolation grid dist p m eta T false = .ok v ∧
      min (dist[i]'(by omega)) (dist[i + 1]'(by omega)) ≤ v ∧
      v ≤ max (dist[i]'(by omega)) (dist[i + 1]'(by omega)) ∧ 0 < v ∧ (eta = 1 → v < 1) := by
  refine ⟨_, lookup_between grid dist p m T eta hs hlen i hi h1 h2, ?_⟩
  obtain ⟨a0, a1⟩ := hf i (by omega)
  obtain ⟨b0, b1⟩ := hf (i + 1) (by omega)
  set fl := dist[i]'(by omega) with hfl
  set fh := dist[i + 1]'(by omega) with hfh
  have key : ∀ f : ℝ, 0 < f → (eta = 1 → f < 1) → 0 < 1 / f - eta ∧
      (eta = -1 → 1 < 1 / f - eta) := by
    intro f hf0 hf1
    rcases heta with rfl | rfl
    · have := one_lt_one_div hf0 (hf1 rfl)
      push_cast
      exact ⟨by linarith, by intro h; norm_num at h⟩
    · have : 0 < 1 / f := by positivity
      push_cast
      exact ⟨by linarith, by intro _; linarith⟩
  obtain ⟨kl, kl'⟩ := key fl a0 a1
  obtain ⟨kh, kh'⟩ := key fh b0 b1
  have hcell : interpCell grid[i] grid[i + 1] fl fh p m eta =
      1 / (Real.exp (((energy p m - energy grid[i] m) * Real.log (1 / fh - eta) +
        (energy grid[i + 1] m - energy p m) * Real.log (1 / fl - eta)) /
        (energy grid[i + 1] m - energy grid[i] m)) + eta) := by
    unfold interpCell
    simp only [ne_of_gt a0, ne_of_gt b0, or_self, if_false, gt_iff_lt, kh, kl, if_true]
  rw [hcell]
  set Gl := Real.log (1 / fl - eta) with hGl
  set Gh := Real.log (1 / fh - eta) with hGh
  have e1 : energy grid[i] m < energy p m := energy_strictMono h0 h1
  have e2 : energy p m < energy grid[i + 1] m := energy_strictMono (le_trans h0 h1.le) h2
  set g := ((energy p m - energy grid[i] m) * Gh + (energy grid[i + 1] m - energy p m) * Gl) /
        (energy grid[i + 1] m - energy grid[i] m) with hg
  have hden : 0 < energy grid[i + 1] m - energy grid[i] m := by linarith
  have gle : g ≤ max Gl Gh := by
    rw [hg, div_le_iff₀ hden]
    nlinarith [le_max_left Gl Gh, le_max_right Gl Gh]
  have gge : min Gl Gh ≤ g := by
    rw [hg, le_div_iff₀ hden]
    nlinarith [min_le_left Gl Gh, min_le_right Gl Gh]
  have el : Real.exp Gl = 1 / fl - eta := Real.exp_log kl
  have eh : Real.exp Gh = 1 / fh - eta := Real.exp_log kh
  have fle : fl = 1 / (Real.exp Gl + eta) := by rw [el]; field_simp; ring
  have fhe : fh = 1 / (Real.exp Gh + eta) := by rw [eh]; field_simp; ring
  have pl : 0 < Real.exp Gl + eta := by rw [el]; have : 0 < 1 / fl := by positivity
                                        linarith
  have ph : 0 < Real.exp Gh + eta := by rw [eh]; have : 0 < 1 / fh := by positivity
                                        linarith
  have pmin : 0 < Real.exp (min Gl Gh) + eta := by
    rcases min_choice Gl Gh with h | h <;> rw [h] <;> assumption
  have pg : 0 < Real.exp g + eta := lt_of_lt_of_le pmin (by
    have := Real.exp_le_exp.mpr gge; linarith)
  have lower : min fl fh ≤ 1 / (Real.exp g + eta) := by
    have : 1 / (Real.exp (max Gl Gh) + eta) ≤ 1 / (Real.exp g + eta) := by
      apply one_div_le_one_div_of_le pg
      have := Real.exp_le_exp.mpr gle; linarith
    refine le_trans ?_ this
    rcases max_choice Gl Gh with h | h <;> rw [h]
    · rw [← fle]; exact min_le_left _ _
    · rw [← fhe]; exact min_le_right _ _
  have upper : 1 / (Real.exp g + eta) ≤ max fl fh := by
    have : 1 / (Real.exp g + eta) ≤ 1 / (Real.exp (min Gl Gh) + eta) := by
      apply one_div_le_one_div_of_le pmin
      have := Real.exp_le_exp.mpr gge; linarith
    refine le_trans this ?_
    rcases min_choice Gl Gh with h | h <;> rw [h]
    · rw [← fle]; exact le_max_left _ _
    · rw [← fhe]; exact le_max_right _ _
  refine ⟨lower, upper, by positivity, ?_⟩
  intro he
  refine lt_of_le_of_lt upper ?_
  exact max_lt (a1 he) (b1 he)

example : ∃ v, distributionInterpolation [0, 1, 3] [0.5, 0.25, 0.125] 2 0 1 1 false = .ok v ∧
    min (0.25 : ℝ) 0.125 ≤ v ∧ v ≤ max (0.25 : ℝ) 0.125 ∧ 0 < v ∧ ((1 : ℤ) = 1 → v < 1) := by
  have := C11_between_neighbours [0, 1, 3] [0.5, 0.25, 0.125] 2 0 1 1 (by simp) rfl 1
    (by simp) (by simp) (by simp) (by simp; norm_num) (Or.inl rfl) (by
      intro k hk
      simp at hk
      interval_cases k <;> norm_num)
  simpa using this

/-! ## C12 -/

/-- **C12.** Exact at every grid point. -/
theorem C12_exact_on_grid_partial (f grid : List ℝ) (hs : grid.Pairwise (· < ·))
    (hlen : f.length = grid.length) (i : ℕ) (hi : i < grid.length) :
    linearInterpolation f grid grid[i] = .ok (f[i]'(by omega)) := by
  unfold linearInterpolation
  rw [searchsortedLeft_at grid hs i hi]
  by_cases hc : (i : ℤ) ≥ (grid.length : ℤ) - 1
  · simp only [hc, if_true]
    have : ((grid.length : ℤ) - 1) = ((i : ℕ) : ℤ) := by omega
    rw [this, pyGet_nat _ _ (by omega)]
  · simp only [hc, if_false]
    have h2 : i + 1 < grid.length := by omega
    rw [List.getElem?_eq_getElem hi, List.getElem?_eq_getElem h2]
    simp only [if_true]
    rw [pyGet_nat _ _ (by omega)]

example : linearInterpolation [5, 7, 4] [0, 1, 3] 1 = .ok 7 :=
  C12_exact_on_grid_partial [5, 7, 4] [0, 1, 3] (by norm_num) rfl 1 (by simp)

/-- **C12.** What the code computes between grid points `i` and `i+1` (not the last cell): the line
through the *next* two samples `i+1`, `i+2`; in the last cell and above, the last sample; below the
grid, the line through the first two samples. -/
theorem C12_characterisation_partial (f grid : List ℝ) (hs : grid.Pairwise (· < ·))
    (hlen : f.length = grid.length) (x : ℝ) :
    (∀ i, (hi : i + 2 < grid.length) → grid[i] < x → x < grid[i + 1] →
      linearInterpolation f grid x = .ok (((f[i + 1]'(by omega)) * (grid[i + 2] - x) +
        (f[i + 2]'(by omega)) * (x - grid[i + 1])) / (grid[i + 2] - grid[i + 1]))) ∧
    (∀ hl : 2 ≤ grid.length, grid[grid.length - 2] < x →
      linearInterpolation f grid x = .ok (f[grid.length - 1]'(by omega))) ∧
    (∀ hl : 2 ≤ grid.length, x < grid[0] →
      linearInterpolation f grid x = .ok (((f[0]'(by omega)) * (grid[1] - x) +
        (f[1]'(by omega)) * (x - grid[0])) / (grid[1] - grid[0]))) := by
  refine ⟨?_, ?_, ?_⟩
  · intro i hi h1 h2
    unfold linearInterpolation
    rw [searchsortedLeft_between grid x hs i (by omega) h1 h2.le]
    have hc : ¬ (((i + 1 : ℕ) : ℤ) ≥ (grid.length : ℤ) - 1) := by omega
    simp only [hc, if_false]
    rw [List.getElem?_eq_getElem (by omega : i + 1 < grid.length),
      List.getElem?_eq_getElem (by omega : i + 1 + 1 < grid.length)]
    simp only [ne_of_lt h2, if_false]
    rw [pyGet_nat _ _ (by omega : i + 1 < f.length)]
    rw [show (((i + 1 : ℕ) : ℤ) + 1) = ((i + 2 : ℕ) : ℤ) by push_cast; ring,
      pyGet_nat _ _ (by omega : i + 2 < f.length)]
  · intro hl h1
    have hidx : grid.length - 1 ≤ searchsortedLeft grid x := by
      rcases lt_or_ge grid[grid.length - 1] x with h | h
      · rw [searchsortedLeft_above]
        · omega
        · intro g hg
          obtain ⟨i, hi, rfl⟩ := List.getElem_of_mem hg
          exact lt_of_le_of_lt (StrictInc.le hs (by omega) (by omega)) h
      · rw [searchsortedLeft_between grid x hs (grid.length - 2) (by omega) h1
          (by simpa [show grid.length - 2 + 1 = grid.length - 1 by omega] using h)]
        omega
    unfold linearInterpolation
    have hc : ((searchsortedLeft grid x : ℕ) : ℤ) ≥ (grid.length : ℤ) - 1 := by omega
    simp only [hc, if_true]
    rw [show ((grid.length : ℤ) - 1) = ((grid.length - 1 : ℕ) : ℤ) by omega,
      pyGet_nat _ _ (by omega)]
  · intro hl h1
    unfold linearInterpolation
    rw [searchsortedLeft_below grid x (by
      intro g hg
      obtain ⟨i, hi, rfl⟩ := List.getElem_of_mem hg
      exact lt_of_lt_of_le h1 (StrictInc.le hs (by omega) (by omega)))]
    have hc : ¬ (((0 : ℕ) : ℤ) ≥ (grid.length : ℤ) - 1) := by omega
    simp only [hc, if_false]
    rw [List.getElem?_eq_getElem (by omega : 0 < grid.length),
      List.getElem?_eq_getElem (by omega : 0 + 1 < grid.length)]
    simp only [ne_of_lt h1, if_false]
    rw [pyGet_nat _ _ (by omega : 0 < f.length),
      show (((0 : ℕ) : ℤ) + 1) = ((1 : ℕ) : ℤ) by rfl, pyGet_nat _ _ (by omega : 1 < f.length)]

/-- Between the first two points the line through the second and third is used: at 1/2 the value is 31/4, not 6. -/
example : linearInterpolation [5, 7, 4] [0, 1, 3] (1 / 2) = .ok (31 / 4) := by
  rw [(C12_characterisation_partial [5, 7, 4] [0, 1, 3] (by norm_num) rfl (1 / 2)).1 0 (by simp) (by norm_num) (by norm_num)]
  norm_num

/-- **C12.** Samples of an affine function are reproduced at every point up to the second to last
grid point (also below the grid). -/
theorem C12_affine_partial (f grid : List ℝ) (hs : grid.Pairwise (· < ·))
    (hlen : f.length = grid.length) (hl : 2 ≤ grid.length) (x al be : ℝ)
    (haff : ∀ i, (hi : i < grid.length) → f[i]'(by omega) = al + be * grid[i])
    (hx : x ≤ grid[grid.length - 2]) :
    linearInterpolation f grid x = .ok (al + be * x) := by
  have hne : grid ≠ [] := by intro h; rw [h] at hl; simp at hl
  obtain ⟨c1, _, c3⟩ := C12_characterisation_partial f grid hs hlen x
  rcases grid_cases grid x hne hs with h | h | ⟨i, hi, rfl⟩ | ⟨i, hi, h1, h2⟩
  · exact absurd (h _ (List.getElem_mem (by omega : grid.length - 2 < grid.length)))
      (not_lt.mpr hx)
  · rw [c3 hl (h _ (List.getElem_mem _)), haff 0 (by omega), haff 1 (by omega)]
    have := StrictInc.lt hs (by omega : 0 < 1) (by omega)
    congr 1
    rw [div_eq_iff (by linarith)]; ring
  · rw [C12_exact_on_grid_partial f grid hs hlen i hi, haff i hi]
  · have hi2 : i + 2 < grid.length := by
      have := (StrictInc.lt_iff hs (by omega) (by omega)).mp (lt_of_lt_of_le h1 hx)
      omega
    rw [c1 i hi2 h1 h2, haff (i + 1) (by omega), haff (i + 2) hi2]
    have := StrictInc.lt hs (by omega : i + 1 < i + 2) hi2
    congr 1
    rw [div_eq_iff (by linarith)]; ring

example : linearInterpolation [1, 3, 7] [0, 1, 3] (1 / 2) = .ok (1 + 2 * (1 / 2)) :=
  C12_affine_partial [1, 3, 7] [0, 1, 3] (by norm_num) rfl (by simp) (1 / 2) 1 2
    (by intro i hi; simp at hi; interval_cases i <;> norm_num) (by norm_num)

/-- **C12 (refutation).** Inside a cell the result need not be the weighted mean of the two
neighbouring samples: on the grid 0,1,2,3 with samples 0,1,0,0 the value at 1/2 is 3/2, outside the
range of all samples. -/
theorem C12_wrong_cell :
    linearInterpolation [0, 1, 0, 0] [0, 1, 2, 3] (1 / 2) = .ok (3 / 2) := by
  have := (C12_characterisation_partial [0, 1, 0, 0] [0, 1, 2, 3] (by simp; norm_num) rfl
    (1 / 2)).1 0 (by simp) (by norm_num) (by norm_num)
  rw [this]; norm_num

/-! ## C13 -/

/-- **C13.** Exact at every grid point. -/
theorem C13_exact_on_grid (f grid : List ℝ) (hs : grid.Pairwise (· < ·))
    (hlen : f.length = grid.length) (i : ℕ) (hi : i < grid.length) :
    cubicInterpolation f grid grid[i] = .ok (f[i]'(by omega)) := by
  unfold cubicInterpolation
  rw [searchsortedLeft_at grid hs i hi]
  by_cases hc : (i : ℤ) ≥ (grid.length : ℤ) - 1
  · simp only [hc, if_true]
    have : ((grid.length : ℤ) - 1) = ((i : ℕ) : ℤ) := by omega
    rw [this, pyGet_nat _ _ (by omega)]
  · simp only [hc, if_false]
    have h2 : i + 1 < grid.length := by omega
    rw [List.getElem?_eq_getElem hi, List.getElem?_eq_getElem h2]
    simp only [if_true]
    rw [pyGet_nat _ _ (by omega)]

example : cubicInterpolation [5, 7, 4] [0, 1, 3] 1 = .ok 7 :=
  C13_exact_on_grid [5, 7, 4] [0, 1, 3] (by norm_num) rfl 1 (by simp)

/-- **C13.** Above the second to last grid point: last sample. -/
theorem C13_above (f grid : List ℝ) (hs : grid.Pairwise (· < ·))
    (hlen : f.length = grid.length) (hl : 2 ≤ grid.length) (x : ℝ) (hx : grid[grid.length - 2] < x) :
    cubicInterpolation f grid x = .ok (f[grid.length - 1]'(by omega)) := by
  have h := (C12_characterisation_partial f grid hs hlen x).2.1 hl hx
  have hidx : grid.length - 1 ≤ searchsortedLeft grid x := by
    rcases lt_or_ge grid[grid.length - 1] x with h | h
    · rw [searchsortedLeft_above]
      · omega
      · intro g hg
        obtain ⟨i, hi, rfl⟩ := List.getElem_of_mem hg
        exact lt_of_le_of_lt (StrictInc.le hs (by omega) (by omega)) h
    · rw [searchsortedLeft_between grid x hs (grid.length - 2) (by omega) hx
        (by simpa [show grid.length - 2 + 1 = grid.length - 1 by omega] using h)]
      omega
  unfold cubicInterpolation
  have hc : ((searchsortedLeft grid x : ℕ) : ℤ) ≥ (grid.length : ℤ) - 1 := by omega
  simp only [hc, if_true]
  rw [show ((grid.length : ℤ) - 1) = ((grid.length - 1 : ℕ) : ℤ) by omega,
    pyGet_nat _ _ (by omega)]

example : cubicInterpolation [5, 7, 4] [0, 1, 3] 2 = .ok 4 :=
  C13_above [5, 7, 4] [0, 1, 3] (by norm_num) rfl (by simp) 2 (by norm_num)

/-- The value computed strictly between grid points `i` and `i+1`, `i + 3 < len`: the cubic through
samples `i … i+3` evaluated relative to cell `(i+1, i+2)`. -/
theorem cubic_mid (f grid : List ℝ) (hs : grid.Pairwise (· < ·))
    (hlen : f.length = grid.length) (x : ℝ) (i : ℕ) (hi : i + 3 < grid.length)
    (h1 : grid[i] < x) (h2 : x < grid[i + 1]) :
    cubicInterpolation f grid x = .ok (cubicCell (f[i]'(by omega)) (f[i + 1]'(by omega))
      (f[i + 2]'(by omega)) (f[i + 3]'(by omega))
      ((x - grid[i + 1]) / (grid[i + 2] - grid[i + 1]))) := by
  unfold cubicInterpolation
  rw [searchsortedLeft_between grid x hs i (by omega) h1 h2.le]
  have hc : ¬ (((i + 1 : ℕ) : ℤ) ≥ (grid.length : ℤ) - 1) := by omega
  have hc2 : ¬ (i + 1 = 0 ∨ ((i + 1 : ℕ) : ℤ) = (grid.length : ℤ) - 2) := by omega
  simp only [hc, if_false]
  rw [List.getElem?_eq_getElem (by omega : i + 1 < grid.length),
    List.getElem?_eq_getElem (by omega : i + 1 + 1 < grid.length)]
  simp only [ne_of_lt h2, if_false, hc2]
  rw [show (((i + 1 : ℕ) : ℤ) - 1) = ((i : ℕ) : ℤ) by push_cast; ring,
    show (((i + 1 : ℕ) : ℤ) + 1) = ((i + 2 : ℕ) : ℤ) by push_cast; ring,
    show (((i + 1 : ℕ) : ℤ) + 2) = ((i + 3 : ℕ) : ℤ) by push_cast; ring,
    pyGet_nat _ _ (by omega : i < f.length), pyGet_nat _ _ (by omega : i + 1 < f.length),
    pyGet_nat _ _ (by omega : i + 2 < f.length), pyGet_nat _ _ (by omega : i + 3 < f.length)]

/-- In the two border cells (index 0, i.e. below the grid, and the second to last cell) the line
through the next two samples is used. -/
theorem cubic_border (f grid : List ℝ) (hs : grid.Pairwise (· < ·))
    (hlen : f.length = grid.length) (x : ℝ) (k : ℕ) (hk : k + 1 < grid.length)
    (hidx : searchsortedLeft grid x = k) (hx : x < grid[k]) (hb : k = 0 ∨ k + 2 = grid.length) :
    cubicInterpolation f grid x = .ok (((f[k]'(by omega)) * (grid[k + 1] - x) +
      (f[k + 1]'(by omega)) * (x - grid[k])) / (grid[k + 1] - grid[k])) := by
  unfold cubicInterpolation
  rw [hidx]
  have hc : ¬ ((k : ℤ) ≥ (grid.length : ℤ) - 1) := by omega
  have hc2 : (k = 0 ∨ (k : ℤ) = (grid.length : ℤ) - 2) := by omega
  simp only [hc, if_false]
  rw [List.getElem?_eq_getElem (by omega : k < grid.length),
    List.getElem?_eq_getElem (by omega : k + 1 < grid.length)]
  simp only [ne_of_lt hx, if_false, hc2, if_true]
  rw [show ((k : ℤ) + 1) = ((k + 1 : ℕ) : ℤ) by push_cast; ring,
    pyGet_nat _ _ (by omega : k < f.length), pyGet_nat _ _ (by omega : k + 1 < f.length)]

/-- **C13.** On a uniform grid, samples of an affine function are reproduced at every point up to
the second to last grid point. -/
theorem C13_affine (f grid : List ℝ) (x0 d : ℝ) (hd : 0 < d)
    (hgrid : ∀ i, (hi : i < grid.length) → grid[i] = x0 + i * d)
    (hlen : f.length = grid.length) (hl : 2 ≤ grid.length) (x al be : ℝ)
    (haff : ∀ i, (hi : i < grid.length) → f[i]'(by omega) = al + be * grid[i])
    (hx : x ≤ grid[grid.length - 2]) :
    cubicInterpolation f grid x = .ok (al + be * x) := by
  have hs : grid.Pairwise (· < ·) := by
    rw [List.pairwise_iff_getElem]
    intro i j hi hj hij
    rw [hgrid i hi, hgrid j hj]
    have : (i : ℝ) < j := by exact_mod_cast hij
    nlinarith
  have hne : grid ≠ [] := by intro h; rw [h] at hl; simp at hl
  rcases grid_cases grid x hne hs with h | h | ⟨i, hi, rfl⟩ | ⟨i, hi, h1, h2⟩
  · exact absurd (h _ (List.getElem_mem (by omega : grid.length - 2 < grid.length)))
      (not_lt.mpr hx)
  · rw [cubic_border f grid hs hlen x 0 (by omega) (searchsortedLeft_below grid x h)
      (h _ (List.getElem_mem _)) (Or.inl rfl), haff 0 (by omega), haff 1 (by omega)]
    have := StrictInc.lt hs (by omega : 0 < 1) (by omega)
    congr 1
    rw [div_eq_iff (by linarith)]; ring
  · rw [C13_exact_on_grid f grid hs hlen i hi, haff i hi]
  · have hi2 : i + 2 < grid.length := by
      have := (StrictInc.lt_iff hs (by omega) (by omega)).mp (lt_of_lt_of_le h1 hx)
      omega
    by_cases hi3 : i + 3 < grid.length
    · rw [cubic_mid f grid hs hlen x i hi3 h1 h2, haff i (by omega), haff (i + 1) (by omega),
        haff (i + 2) (by omega), haff (i + 3) hi3, hgrid i (by omega), hgrid (i + 1) (by omega),
        hgrid (i + 2) (by omega), hgrid (i + 3) hi3]
      congr 1
      push_cast
      have hden : x0 + ((i : ℝ) + 2) * d - (x0 + ((i : ℝ) + 1) * d) = d := by ring
      rw [hden]
      unfold cubicCell
      field_simp
      ring
    · rw [cubic_border f grid hs hlen x (i + 1) (by omega)
        (searchsortedLeft_between grid x hs i (by omega) h1 h2.le) h2 (Or.inr (by omega)),
        haff (i + 1) (by omega), haff (i + 1 + 1) (by omega)]
      have := StrictInc.lt hs (by omega : i + 1 < i + 1 + 1) (by omega)
      congr 1
      rw [div_eq_iff (by linarith)]; ring

example : cubicInterpolation [1, 3, 5, 7] [0, 1, 2, 3] (3 / 2) = .ok (1 + 2 * (3 / 2)) :=
  C13_affine [1, 3, 5, 7] [0, 1, 2, 3] 0 1 one_pos (by intro i hi; simp at hi; interval_cases i <;> norm_num) rfl (by simp)
    (3 / 2) 1 2 (by intro i hi; simp at hi; interval_cases i <;> norm_num) (by norm_num)

/-- **C13.** On a uniform grid, samples of every quadratic polynomial are reproduced in the inner
cells. -/
theorem C13_quadratic (f grid : List ℝ) (x0 d : ℝ) (hd : 0 < d)
    (hgrid : ∀ i, (hi : i < grid.length) → grid[i] = x0 + i * d)
    (hlen : f.length = grid.length) (x al be ga : ℝ)
    (hq : ∀ i, (hi : i < grid.length) → f[i]'(by omega) = al + be * grid[i] + ga * grid[i] ^ 2)
    (i : ℕ) (hi : i + 3 < grid.length) (h1 : grid[i] < x) (h2 : x < grid[i + 1]) :
    cubicInterpolation f grid x = .ok (al + be * x + ga * x ^ 2) := by
  have hs : grid.Pairwise (· < ·) := by
    rw [List.pairwise_iff_getElem]
    intro i j hi hj hij
    rw [hgrid i hi, hgrid j hj]
    have : (i : ℝ) < j := by exact_mod_cast hij
    nlinarith
  rw [cubic_mid f grid hs hlen x i hi h1 h2, hq i (by omega), hq (i + 1) (by omega),
    hq (i + 2) (by omega), hq (i + 3) hi, hgrid i (by omega), hgrid (i + 1) (by omega),
    hgrid (i + 2) (by omega), hgrid (i + 3) hi]
  congr 1
  push_cast
  have hden : x0 + ((i : ℝ) + 2) * d - (x0 + ((i : ℝ) + 1) * d) = d := by ring
  rw [hden]
  unfold cubicCell
  field_simp
  ring

example : cubicInterpolation [0, 1, 4, 9, 16] [0, 1, 2, 3, 4] (1 / 2) = .ok (1 / 4) := by
  have := C13_quadratic [0, 1, 4, 9, 16] [0, 1, 2, 3, 4] 0 1 one_pos
    (by intro i hi; simp at hi; interval_cases i <;> norm_num) rfl (1 / 2) 0 0 1
    (by intro i hi; simp at hi; interval_cases i <;> norm_num) 0 (by simp) (by norm_num)
    (by norm_num)
  rw [this]; norm_num

end PyBBN
