import Verif.Model.Interpolation
import Mathlib.Tactic.Linarith
/-! Helper lemmas on the grid search. -/
namespace PyBBN
variable {α : Type*} [LinearOrder α]

/-- Strictly increasing grid. -/
abbrev StrictInc (grid : List α) : Prop := grid.Pairwise (· < ·)

theorem StrictInc.lt {grid : List α} (h : StrictInc grid) {i j : ℕ} (hij : i < j)
    (hj : j < grid.length) : grid[i] < grid[j] :=
  List.pairwise_iff_getElem.mp h i j _ hj hij

theorem StrictInc.le {grid : List α} (h : StrictInc grid) {i j : ℕ} (hij : i ≤ j)
    (hj : j < grid.length) : grid[i] ≤ grid[j] := by
  rcases Nat.lt_or_ge i j with h1 | h1
  · exact le_of_lt (h.lt h1 hj)
  · have : i = j := by omega
    subst this; exact le_rfl

theorem StrictInc.lt_iff {grid : List α} (h : StrictInc grid) {i j : ℕ} (hi : i < grid.length)
    (hj : j < grid.length) : grid[i] < grid[j] ↔ i < j := by
  constructor
  · intro hlt
    by_contra hn
    exact absurd (h.le (Nat.le_of_not_lt hn) hi) (not_le.mpr hlt)
  · intro hlt; exact h.lt hlt hj

theorem StrictInc.inj {grid : List α} (h : StrictInc grid) {i j : ℕ} (hi : i < grid.length)
    (hj : j < grid.length) (he : grid[i] = grid[j]) : i = j := by
  rcases Nat.lt_trichotomy i j with h1 | h1 | h1
  · exact absurd he (ne_of_lt (h.lt h1 hj))
  · exact h1
  · exact absurd he.symm (ne_of_lt (h.lt h1 hi))

/-- Invariant of the bisection: it ends in adjacent indices bracketing `x`. -/
theorem bfLoop_spec (grid : List α) (x : α) (head tail : ℕ)
    (ht : tail < grid.length) (hlt : head < tail) (h1 : grid[head] ≤ x) (h2 : x ≤ grid[tail]) :
    ∃ k, ∃ hk : k + 1 < grid.length, head ≤ k ∧ k + 1 ≤ tail ∧
      bfLoop grid x head tail = .ok (k, k + 1) ∧ grid[k] ≤ x ∧ x ≤ grid[k + 1] := by
  induction hn : tail - head using Nat.strong_induction_on generalizing head tail with
  | _ n ih =>
    unfold bfLoop
    by_cases hgt : tail - head > 1
    · simp only [hgt, dif_pos]
      have hm : (tail + head) / 2 < grid.length := by omega
      rw [List.getElem?_eq_getElem hm]
      simp only
      by_cases hc : grid[(tail + head) / 2] > x
      · simp only [hc, if_true]
        obtain ⟨k, hk, a, b, c, d, e⟩ := ih ((tail + head) / 2 - head) (by omega) head _ hm
          (by omega) h1 (le_of_lt hc) rfl
        exact ⟨k, hk, a, by omega, c, d, e⟩
      · simp only [hc, if_false]
        obtain ⟨k, hk, a, b, c, d, e⟩ := ih (tail - (tail + head) / 2) (by omega) _ tail ht
          (by omega) (not_lt.mp hc) h2 rfl
        exact ⟨k, hk, by omega, b, c, d, e⟩
    · have : tail = head + 1 := by omega
      subst this
      exact ⟨head, ht, le_rfl, le_rfl, by simp, h1, h2⟩

theorem binaryFind_above (grid : List α) (x : α) (hne : grid ≠ []) (h : ∀ g ∈ grid, g < x) :
    binaryFind grid x = .ok ((grid.length : ℤ) - 1, -1) := by
  have hl : 0 < grid.length := List.length_pos_iff.mpr hne
  unfold binaryFind
  rw [List.getElem?_eq_getElem (by omega : grid.length - 1 < grid.length),
    List.getElem?_eq_getElem hl]
  simp [h _ (List.getElem_mem (by omega : grid.length - 1 < grid.length))]

theorem binaryFind_below (grid : List α) (x : α) (hne : grid ≠ []) (h : ∀ g ∈ grid, x < g) :
    binaryFind grid x = .ok (-1, 0) := by
  have hl : 0 < grid.length := List.length_pos_iff.mpr hne
  unfold binaryFind
  rw [List.getElem?_eq_getElem (by omega : grid.length - 1 < grid.length),
    List.getElem?_eq_getElem hl]
  simp [h _ (List.getElem_mem (by omega : grid.length - 1 < grid.length)),
    not_lt.mpr (le_of_lt (h _ (List.getElem_mem (by omega : grid.length - 1 < grid.length)))),
    h _ (List.getElem_mem hl)]

theorem binaryFind_mid (grid : List α) (x : α) (hs : StrictInc grid) (hl : 2 ≤ grid.length)
    (h1 : grid[0] ≤ x) (h2 : x ≤ grid[grid.length - 1]) :
    ∃ k, ∃ hk : k + 1 < grid.length, grid[k] ≤ x ∧ x ≤ grid[k + 1] ∧
      binaryFind grid x = (if grid[k + 1] = x then .ok (((k + 1 : ℕ) : ℤ), ((k + 1 : ℕ) : ℤ))
        else if grid[k] = x then .ok ((k : ℤ), (k : ℤ)) else .ok ((k : ℤ), ((k + 1 : ℕ) : ℤ))) := by
  obtain ⟨k, hk, a, b, c, d, e⟩ := bfLoop_spec grid x 0 (grid.length - 1) (by omega) (by omega) h1 h2
  refine ⟨k, hk, d, e, ?_⟩
  unfold binaryFind
  rw [List.getElem?_eq_getElem (by omega : grid.length - 1 < grid.length),
    List.getElem?_eq_getElem (by omega : 0 < grid.length)]
  simp only [not_lt.mpr h2, if_false, gt_iff_lt, not_lt.mpr h1, c]
  rw [List.getElem?_eq_getElem hk, List.getElem?_eq_getElem (by omega : k < grid.length)]

theorem binaryFind_at (grid : List α) (hs : StrictInc grid) (i : ℕ) (hi : i < grid.length) :
    binaryFind grid grid[i] = .ok ((i : ℤ), (i : ℤ)) := by
  by_cases hl : 2 ≤ grid.length
  · obtain ⟨k, hk, a, b, c⟩ := binaryFind_mid grid grid[i] hs hl (hs.le (Nat.zero_le _) hi)
      (hs.le (by omega) (by omega))
    rw [c]
    by_cases h1 : grid[k + 1] = grid[i]
    · have := hs.inj hk hi h1
      subst this; simp
    · rw [if_neg h1]
      have hki : k ≤ i := by
        by_contra hn
        exact absurd (hs.lt (Nat.lt_of_not_le hn) (by omega : k < grid.length)) (not_lt.mpr a)
      have hik : i ≤ k + 1 := by
        by_contra hn
        exact absurd (hs.lt (Nat.lt_of_not_le hn) hi) (not_lt.mpr b)
      have : i ≠ k + 1 := fun he => h1 (by subst he; rfl)
      have : i = k := by omega
      subst this; simp
  · have hl1 : grid.length = 1 := by omega
    have : i = 0 := by omega
    subst this
    match grid, hl1 with
    | [g], _ =>
      unfold binaryFind bfLoop
      simp

theorem binaryFind_between (grid : List α) (x : α) (hs : StrictInc grid) (i : ℕ)
    (hi : i + 1 < grid.length) (h1 : grid[i] < x) (h2 : x < grid[i + 1]) :
    binaryFind grid x = .ok ((i : ℤ), ((i + 1 : ℕ) : ℤ)) := by
  obtain ⟨k, hk, a, b, c⟩ := binaryFind_mid grid x hs (by omega)
    (le_trans (hs.le (Nat.zero_le _) (by omega)) (le_of_lt h1))
    (le_trans (le_of_lt h2) (hs.le (by omega) (by omega)))
  have hki : k ≤ i := by
    have : grid[k] < grid[i + 1] := lt_of_le_of_lt a h2
    have := (hs.lt_iff (by omega) hi).mp this
    omega
  have hik : i ≤ k := by
    have : grid[i] < grid[k + 1] := lt_of_lt_of_le h1 b
    have := (hs.lt_iff (by omega) hk).mp this
    omega
  have : k = i := by omega
  subst this
  rw [c, if_neg (ne_of_gt h2), if_neg (ne_of_lt h1)]

/-- Every point is above, below, on, or strictly between two neighbours of the grid. -/
theorem grid_cases (grid : List α) (x : α) (hne : grid ≠ []) (hs : StrictInc grid) :
    (∀ g ∈ grid, g < x) ∨ (∀ g ∈ grid, x < g) ∨ (∃ i, ∃ hi : i < grid.length, grid[i] = x) ∨
    (∃ i, ∃ hi : i + 1 < grid.length, grid[i] < x ∧ x < grid[i + 1]) := by
  have hl : 0 < grid.length := List.length_pos_iff.mpr hne
  by_cases ha : grid[grid.length - 1] < x
  · left
    intro g hg
    obtain ⟨i, hi, rfl⟩ := List.getElem_of_mem hg
    exact lt_of_le_of_lt (hs.le (by omega) (by omega)) ha
  · by_cases hb : x < grid[0]
    · right; left
      intro g hg
      obtain ⟨i, hi, rfl⟩ := List.getElem_of_mem hg
      exact lt_of_lt_of_le hb (hs.le (by omega) (by omega))
    · right; right
      by_cases h2 : 2 ≤ grid.length
      · obtain ⟨k, hk, a, b, _⟩ := binaryFind_mid grid x hs h2 (not_lt.mp hb) (not_lt.mp ha)
        rcases eq_or_lt_of_le a with e | e
        · exact Or.inl ⟨k, by omega, e⟩
        · rcases eq_or_lt_of_le b with e' | e'
          · exact Or.inl ⟨k + 1, hk, e'.symm⟩
          · exact Or.inr ⟨k, hk, e, e'⟩
      · have h1 : grid.length - 1 = 0 := by omega
        left
        refine ⟨0, hl, ?_⟩
        simp only [h1] at ha
        exact le_antisymm (not_lt.mp hb) (not_lt.mp ha)

/-! ## searchsorted -/

theorem takeWhile_length_eq (grid : List α) (p : α → Bool) (i : ℕ) (hi : i ≤ grid.length)
    (h1 : ∀ j, (hj : j < i) → p (grid[j]'(by omega)) = true)
    (h2 : ∀ hi' : i < grid.length, p grid[i] = false) : (grid.takeWhile p).length = i := by
  induction grid generalizing i with
  | nil => simp at hi; subst hi; rfl
  | cons g gs ih =>
    cases i with
    | zero =>
      have := h2 (by simp)
      simp at this
      simp [this]
    | succ i =>
      have h0 := h1 0 (by omega)
      simp at h0
      rw [List.takeWhile_cons_of_pos h0]
      simp only [List.length_cons, Nat.add_right_cancel_iff]
      apply ih i (by simpa using hi)
      · intro j hj
        have := h1 (j + 1) (by omega)
        simpa using this
      · intro hi'
        have := h2 (by simpa using hi')
        simpa using this

theorem searchsortedLeft_at (grid : List α) (hs : StrictInc grid) (i : ℕ) (hi : i < grid.length) :
    searchsortedLeft grid grid[i] = i := by
  apply takeWhile_length_eq _ _ _ (by omega)
  · intro j hj; simpa using hs.lt hj hi
  · intro _; simp

theorem searchsortedLeft_between (grid : List α) (x : α) (hs : StrictInc grid) (i : ℕ)
    (hi : i + 1 < grid.length) (h1 : grid[i] < x) (h2 : x ≤ grid[i + 1]) :
    searchsortedLeft grid x = i + 1 := by
  apply takeWhile_length_eq _ _ _ (by omega)
  · intro j hj
    simpa using lt_of_le_of_lt (hs.le (by omega) (by omega)) h1
  · intro _; simpa using h2

theorem searchsortedLeft_above (grid : List α) (x : α) (h : ∀ g ∈ grid, g < x) :
    searchsortedLeft grid x = grid.length := by
  apply takeWhile_length_eq _ _ _ le_rfl
  · intro j hj; simpa using h _ (List.getElem_mem _)
  · intro h; omega

theorem searchsortedLeft_below (grid : List α) (x : α) (h : ∀ g ∈ grid, x < g) :
    searchsortedLeft grid x = 0 := by
  apply takeWhile_length_eq _ _ _ (by omega)
  · intro j hj; omega
  · intro h'; simpa using le_of_lt (h _ (List.getElem_mem h'))

theorem searchsortedRight_between (grid : List α) (x : α) (hs : StrictInc grid) (i : ℕ)
    (hi : i + 1 < grid.length) (h1 : grid[i] ≤ x) (h2 : x < grid[i + 1]) :
    searchsortedRight grid x = i + 1 := by
  apply takeWhile_length_eq _ _ _ (by omega)
  · intro j hj
    simpa using le_trans (hs.le (by omega) (by omega)) h1
  · intro _; simpa using h2

theorem pyGet_nat {β : Type*} (l : List β) (k : ℕ) (hk : k < l.length) :
    pyGet l (k : ℤ) = .ok l[k] := by
  unfold pyGet pyIndex
  simp [hk]

end PyBBN
