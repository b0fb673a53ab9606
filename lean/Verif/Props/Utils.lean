import Verif.Model.Utils
import Mathlib.Data.Rat.Defs
import Mathlib.Algebra.Order.Field.Rat
import Mathlib.Order.Lattice
import Mathlib.Algebra.Order.Field.Basic
import Mathlib.Tactic.Linarith
import Mathlib.Tactic.Ring
/-!
# C06 (ring buffer), C07 (throttler)
-/
namespace PyBBN

/-! ## C06 -/
namespace RingDeque
variable {α : Type*} [LinearOrder α]

/-- The last `k` elements of a list (all, if there are fewer). -/
def lastN (k : ℕ) (l : List α) : List α := l.drop (l.length - k)

theorem inv (s : RingDeque α) (all : List α) (C : ℕ) (hf : s.first = false)
    (hl : s.length ≤ C) (hC : s.length < s.items.length → s.items.length = C + 1)
    (hle : s.items.length ≤ C + 1) (hs : s.length = C ∨ s.items.length = C + 1)
    (hit : s.items = lastN (C + 1) all) (hlen : s.items.length = min all.length (C + 1))
    (xs : List α) : (s.appends xs).items = lastN (C + 1) (all ++ xs) := by
  induction xs generalizing s all with
  | nil => simpa [appends] using hit
  | cons x xs ih =>
    have : s.appends (x :: xs) = (s.append x).appends xs := rfl
    rw [this, show all ++ x :: xs = (all ++ [x]) ++ xs by simp]
    have happ : s.append x = s.appendMore x := by simp [append, hf]
    by_cases hgt : s.items.length > s.length
    · have hCC := hC hgt
      have hal : C + 1 ≤ all.length := by omega
      have hitems : (s.append x).items = s.items.tail ++ [x] := by
        rw [happ]; simp [appendMore, hgt]
      apply ih
      · rw [happ]; exact hf
      · rw [happ]; exact hl
      · intro _; rw [hitems]; simp; omega
      · rw [hitems]; simp; omega
      · right; rw [hitems]; simp; omega
      · rw [hitems, hit]
        unfold lastN
        rw [List.tail_drop, List.length_append, List.length_singleton,
          show all.length + 1 - (C + 1) = all.length - (C + 1) + 1 by omega,
          List.drop_append_of_le_length (by omega)]
      · rw [hitems]; simp; omega
    · have hle' : s.items.length ≤ s.length := by omega
      have hlC : s.length = C := by omega
      have hall : all.length = s.items.length := by omega
      have hia : s.items = all := by
        rw [hit]; unfold lastN
        rw [show all.length - (C + 1) = 0 by omega]; rfl
      have hitems : (s.append x).items = s.items ++ [x] := by
        rw [happ]; simp [appendMore]; omega
      have hlength : (s.append x).length = s.length := by rw [happ]; rfl
      apply ih
      · rw [happ]; exact hf
      · rw [happ]; exact hl
      · rw [hitems, hlength]; simp; omega
      · rw [hitems]; simp; omega
      · left; rw [hlength]; exact hlC
      · rw [hitems, hia]
        unfold lastN
        simp only [List.length_append, List.length_singleton]
        rw [show all.length + 1 - (C + 1) = 0 by omega]; rfl
      · rw [hitems]; simp; omega

theorem extremes (s : RingDeque α) (hf : s.first = false) (xs : List α) :
    (s.appends xs).mx = xs.foldl max s.mx ∧ (s.appends xs).mn = xs.foldl min s.mn := by
  induction xs generalizing s with
  | nil => exact ⟨rfl, rfl⟩
  | cons x xs ih =>
    have happ : s.append x = s.appendMore x := by simp [append, hf]
    have h := ih (s.append x) (by rw [happ]; exact hf)
    have hx : (s.append x).mx = max s.mx x := by rw [happ]; exact max_comm _ _
    have hn : (s.append x).mn = min s.mn x := by rw [happ]; exact min_comm _ _
    rw [hx, hn] at h
    exact h

end RingDeque

open RingDeque

/-- **C06 (contents).** A ring created on `data` with capacity `L` holds, after appending the
non-empty sequence `xs`, exactly the last `max L |data| + 1` of all values, in order. -/
theorem C06_contents {α : Type*} [LinearOrder α] (zero : α) (data : List α) (L : ℕ) (xs : List α)
    (hxs : xs ≠ []) :
    ((RingDeque.new zero data L).appends xs).items =
      (data ++ xs).drop ((data ++ xs).length - (max L data.length + 1)) := by
  obtain ⟨x, xs, rfl⟩ := List.exists_cons_of_ne_nil hxs
  have h := RingDeque.inv ((RingDeque.new zero data L).append x) (data ++ [x])
    (max L data.length) rfl (le_max_left _ _)
  have hi : ((RingDeque.new zero data L).append x).items = data ++ [x] := rfl
  have hl : ((RingDeque.new zero data L).append x).length = L := rfl
  rw [hi, hl] at h
  have h' := h (by simp; omega) (by simp) (by simp; omega)
    (by unfold lastN; simp) (by simp) xs
  rw [show data ++ x :: xs = data ++ [x] ++ xs by simp]
  exact h'

/-- **C06.** Created empty with declared capacity `L`, the ring holds the last `min n (L+1)` values:
one more than declared. -/
theorem C06_capacity {α : Type*} [LinearOrder α] (zero : α) (L : ℕ) (xs : List α) :
    ((RingDeque.new zero [] L).appends xs).items = xs.drop (xs.length - (L + 1)) ∧
    ((RingDeque.new zero [] L).appends xs).items.length = min xs.length (L + 1) := by
  have h : ((RingDeque.new zero [] L).appends xs).items = xs.drop (xs.length - (L + 1)) := by
    by_cases hxs : xs = []
    · subst hxs; simp [appends, RingDeque.new]
    · simpa using C06_contents zero [] L xs hxs
  refine ⟨h, ?_⟩
  rw [h, List.length_drop]; omega

/-- **C06 (extremes).** `max`/`min` are the extremes of all values ever appended: attained, and
bounding all of them (including those no longer in the window). -/
theorem C06_extremes {α : Type*} [LinearOrder α] (zero : α) (data : List α) (L : ℕ) (xs : List α)
    (hxs : xs ≠ []) :
    let s := (RingDeque.new zero data L).appends xs
    s.mx ∈ xs ∧ s.mn ∈ xs ∧ (∀ x ∈ xs, x ≤ s.mx ∧ s.mn ≤ x) := by
  obtain ⟨x, xs, rfl⟩ := List.exists_cons_of_ne_nil hxs
  intro s
  have h := RingDeque.extremes ((RingDeque.new zero data L).append x) rfl xs
  have h1 : s.mx = xs.foldl max x := h.1
  have h2 : s.mn = xs.foldl min x := h.2
  rw [h1, h2]
  clear h1 h2 h s hxs
  induction xs generalizing x with
  | nil => simp
  | cons y ys ih =>
    have hmx := ih (max x y)
    have hmn := ih (min x y)
    simp only [List.foldl_cons]
    refine ⟨?_, ?_, ?_⟩
    · have := hmx.1
      rcases List.mem_cons.mp this with e | e
      · rw [e]; rcases max_choice x y with h | h <;> simp [h]
      · simp [e]
    · have := hmn.2.1
      rcases List.mem_cons.mp this with e | e
      · rw [e]; rcases min_choice x y with h | h <;> simp [h]
      · simp [e]
    · have b1 := hmx.2.2
      have b2 := hmn.2.2
      have c1 := (b1 _ List.mem_cons_self).1
      have c2 := (b2 _ List.mem_cons_self).2
      intro z hz
      rcases List.mem_cons.mp hz with rfl | hz
      · exact ⟨le_trans (le_max_left _ _) c1, le_trans c2 (min_le_left _ _)⟩
      · rcases List.mem_cons.mp hz with rfl | hz
        · exact ⟨le_trans (le_max_right _ _) c1, le_trans c2 (min_le_right _ _)⟩
        · exact ⟨(b1 z (List.mem_cons_of_mem _ hz)).1, (b2 z (List.mem_cons_of_mem _ hz)).2⟩

example : ((RingDeque.new 0 [] 2).appends [9, 1, 5, 3, 4]).items = [5, 3, 4] ∧
    ((RingDeque.new 0 [] 2).appends [9, 1, 5, 3, 4]).mx = 9 := by decide

/-! ## C07 -/

/-- Time of the last emission in a log, or the creation time. -/
def lastEmission {α : Type*} (t0 : α) (log : List (α × Bool × Bool)) : α :=
  match (log.filter (·.2.1)).getLast? with
  | some e => e.1
  | none => t0

theorem lastEmission_cons {α : Type*} (t0 t : α) (b o : Bool) (log : List (α × Bool × Bool)) :
    lastEmission t0 ((t, b, o) :: log) = lastEmission (if b then t else t0) log := by
  unfold lastEmission
  cases b
  · simp
  · simp only [List.filter_cons_of_pos, if_true]
    cases h : (log.filter (·.2.1)) with
    | nil => simp
    | cons x xs => simp [List.getLast?_cons]

/-- **C07.** At every update in every run, the update emits exactly when at least `rate` elapsed
since the last emission (or creation), and `output` equals the returned value. -/
theorem C07_throttle {α : Type*} [AddCommGroup α] [LinearOrder α] (t0 rate : α) (ts : List α)
    (pre post : List (α × Bool × Bool)) (t : α) (b o : Bool)
    (h : (Throttler.new t0 rate).run ts = pre ++ (t, b, o) :: post) :
    (b = true ↔ rate ≤ t - lastEmission t0 pre) ∧ o = b := by
  suffices H : ∀ (s : Throttler α) (ts : List α) (pre : List (α × Bool × Bool)),
      s.run ts = pre ++ (t, b, o) :: post →
      (b = true ↔ s.rate ≤ t - lastEmission s.clock pre) ∧ o = b from
    H (Throttler.new t0 rate) ts pre h
  clear h ts pre
  intro s ts
  induction ts generalizing s with
  | nil => intro pre h; simp [Throttler.run] at h
  | cons u us ih =>
    intro pre h
    cases pre with
    | nil =>
      simp only [Throttler.run, List.nil_append, List.cons.injEq, Prod.mk.injEq] at h
      obtain ⟨⟨rfl, rfl, rfl⟩, _⟩ := h
      unfold Throttler.update lastEmission
      by_cases hc : u - s.clock < s.rate
      · simp [hc]
      · simp only [hc, if_false]; simpa using hc
    | cons p pre =>
      simp only [Throttler.run, List.cons_append, List.cons.injEq] at h
      obtain ⟨rfl, h⟩ := h
      have := ih _ pre h
      rw [lastEmission_cons]
      unfold Throttler.update at this ⊢
      by_cases hc : u - s.clock < s.rate
      · simpa [hc] using this
      · simpa [hc] using this

/-- **C07.** After any updates `output` is the value last returned; before the first update it is true, so that a new
throttler lets the first message through. -/
theorem C07_output {α : Type*} [AddCommGroup α] [LinearOrder α] (t0 rate : α) (ts : List α) :
    (ts.foldl (fun s t => (s.update t).1) (Throttler.new t0 rate)).output =
      match ((Throttler.new t0 rate).run ts).getLast? with
      | some e => e.2.1
      | none => true := by
  suffices H : ∀ (ts : List α) (s : Throttler α), (ts.foldl (fun s t => (s.update t).1) s).output =
      match (s.run ts).getLast? with
      | some e => e.2.1
      | none => s.output from H ts _
  intro ts
  induction ts with
  | nil => intro s; rfl
  | cons u us ih =>
    intro s
    rw [List.foldl_cons, ih, Throttler.run, List.getLast?_cons]
    have hu : (s.update u).1.output = (s.update u).2 := by
      unfold Throttler.update
      split_ifs <;> rfl
    cases (Throttler.run (s.update u).1 us).getLast? with
    | none => exact hu
    | some e => rfl

example : (([12, 25] : List ℤ).foldl (fun s t => (s.update t).1) (Throttler.new 0 10)).output = true ∧
    (([12, 25, 30] : List ℤ).foldl (fun s t => (s.update t).1) (Throttler.new 0 10)).output = false := by
  constructor <;> rw [C07_output] <;> decide

/-- **C07.** Rate bound: `n` emissions need at least `n·rate` of clock time between creation and the
last emission, for arbitrary (also non-monotone) clocks. -/
theorem C07_rate_bound {α : Type*} [AddCommGroup α] [LinearOrder α] [IsOrderedAddMonoid α]
    (t0 rate : α) (ts : List α) :
    (((Throttler.new t0 rate).run ts).filter (·.2.1)).length • rate ≤
      lastEmission t0 ((Throttler.new t0 rate).run ts) - t0 := by
  suffices H : ∀ (s : Throttler α) (ts : List α),
      ((s.run ts).filter (·.2.1)).length • s.rate ≤ lastEmission s.clock (s.run ts) - s.clock from
    H (Throttler.new t0 rate) ts
  clear ts
  intro s ts
  induction ts generalizing s with
  | nil => simp [Throttler.run, lastEmission]
  | cons u us ih =>
    have := ih (s.update u).1
    simp only [Throttler.run]
    rw [lastEmission_cons]
    unfold Throttler.update at this ⊢
    by_cases hc : u - s.clock < s.rate
    · simpa [hc] using this
    · simp only [hc, if_false] at this ⊢
      simp only [List.filter_cons_of_pos, List.length_cons, if_true, succ_nsmul]
      have h2 := add_le_add this (not_lt.mp hc)
      rwa [sub_add_sub_cancel] at h2

example : (Throttler.new (0 : ℚ) 10).run [3, 11, 15, 21] =
    [(3, false, false), (11, true, true), (15, false, false), (21, true, true)] := by
  norm_num [Throttler.run, Throttler.update, Throttler.new]

end PyBBN
