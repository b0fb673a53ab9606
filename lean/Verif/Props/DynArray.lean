import Verif.Model.DynArray
import Mathlib.Tactic.Linarith
import Mathlib.Tactic.Ring
/-!
# C01, C02: history tables

Specification: a table is a list of rows; `append` pushes at the end, `truncate` pops the last row.
-/
namespace PyBBN
namespace DynArr
variable {α : Type*}

/-! ## Independent specification: a plain list log -/

/-- Meaning of one operation on a plain list; `none` when `truncate` is applied to an empty log. -/
def specStep (l : List α) : Op α → Option (List α)
  | .append r => some (l ++ [r])
  | .extend rs => some (l ++ rs)
  | .truncate => if l = [] then none else some l.dropLast

/-- Meaning of a sequence of operations on a plain list. -/
def specRun (l : List α) (ops : List (Op α)) : Option (List α) :=
  ops.foldlM specStep l

/-! ## Representation invariant -/

/-- Reachable tables: at least two spare rows, buffer not larger than `size`, `size ≥ 10`, and the
visible rows are the log `l`. -/
structure Rep (s : DynArr α) (l : List α) : Prop where
  len : s.length = l.length
  spare : l.length + 2 ≤ s.buf.length
  le_size : s.buf.length ≤ s.size
  size : 10 ≤ s.size
  pre : s.buf.take l.length = l

theorem Rep.data {s : DynArr α} {l : List α} (h : Rep s l) : s.data = l := by
  unfold DynArr.data pySliceTo
  rw [h.len]; simpa using h.pre

theorem rep_empty (zero : α) : Rep (empty zero) ([] : List α) := by
  constructor <;> simp [empty]

theorem npResize_take (zero : α) (l : List α) (n k : ℕ) (hk : k ≤ l.length) (hn : l.length ≤ n) :
    (npResize zero l n).take k = l.take k := by
  apply List.ext_getElem?
  intro i
  rw [List.getElem?_take, List.getElem?_take]
  split
  · next hi =>
    have h1 : i < l.length := by omega
    have h2 : i < n := by omega
    simp [npResize, h2, Nat.mod_eq_of_lt h1, h1]
  · rfl

theorem npResize_length (zero : α) (l : List α) (n : ℕ) : (npResize zero l n).length = n := by
  simp [npResize]

theorem pySet_nat (l : List α) (k : ℕ) (hk : k < l.length) (x : α) :
    pySet l (k : ℤ) x = .ok (l.set k x) := by
  unfold pySet pyIndex
  have : (0 : ℤ) ≤ k ∧ (k : ℤ) < l.length := by omega
  simp [hk]

theorem npDelete_nat (l : List α) (k : ℕ) (hk : k < l.length) :
    npDelete l (k : ℤ) = .ok (l.eraseIdx k) := by
  unfold npDelete pyIndex
  simp [hk]

theorem take_set_succ (l : List α) (k : ℕ) (hk : k < l.length) (x : α) :
    (l.set k x).take (k + 1) = l.take k ++ [x] := by
  rw [List.take_succ_eq_append_getElem (by simpa using hk)]
  simp [List.take_set_of_le]

theorem rep_append (zero : α) {s : DynArr α} {l : List α} (h : Rep s l) (r : α) :
    ∃ s', s.append zero r = .ok s' ∧ Rep s' (l ++ [r]) := by
  obtain ⟨len, spare, le_size, size, pre⟩ := h
  unfold append
  by_cases hc : s.length = s.size ∨ s.length = (s.buf.length : ℤ) - 2
  · simp only [hc, if_true]
    have hl : l.length < (npResize zero s.buf (3 * s.size / 2)).length := by
      rw [npResize_length]; omega
    rw [len, pySet_nat _ _ hl]
    refine ⟨_, rfl, ?_⟩
    constructor
    · simp
    · simp [npResize_length]; omega
    · simp [npResize_length]
    · simp only; omega
    · simp only [List.length_append, List.length_singleton]
      rw [take_set_succ _ _ hl, npResize_take _ _ _ _ (by omega) (by omega), pre]
  · simp only [hc, if_false]
    have hl : l.length < s.buf.length := by omega
    rw [len, pySet_nat _ _ hl]
    refine ⟨_, rfl, ?_⟩
    constructor
    · simp
    · simp; omega
    · simpa using le_size
    · exact size
    · simp only [List.length_append, List.length_singleton]
      rw [take_set_succ _ _ hl, pre]

theorem rep_extend (zero : α) {s : DynArr α} {l : List α} (h : Rep s l) (rs : List α) :
    ∃ s', s.extend zero rs = .ok s' ∧ Rep s' (l ++ rs) := by
  induction rs generalizing s l with
  | nil => exact ⟨s, rfl, by simpa using h⟩
  | cons r rs ih =>
    obtain ⟨s1, h1, r1⟩ := rep_append zero h r
    obtain ⟨s2, h2, r2⟩ := ih r1
    refine ⟨s2, ?_, by simpa using r2⟩
    unfold extend at h2 ⊢
    rw [List.foldlM_cons, h1]
    exact h2

theorem rep_truncate {s : DynArr α} {l : List α} (h : Rep s l) (hl : l ≠ []) :
    ∃ s', s.truncate = .ok s' ∧ Rep s' l.dropLast := by
  obtain ⟨len, spare, le_size, size, pre⟩ := h
  have hpos : 0 < l.length := List.length_pos_iff.mpr hl
  unfold truncate
  have : s.length + 1 = ((l.length + 1 : ℕ) : ℤ) := by rw [len]; push_cast; ring
  rw [this, npDelete_nat _ _ (by omega)]
  refine ⟨_, rfl, ?_⟩
  have hlen : (s.buf.eraseIdx (l.length + 1)).length = s.buf.length - 1 :=
    List.length_eraseIdx_of_lt (by omega)
  constructor
  · simp only [List.length_dropLast]; omega
  · simp only [List.length_dropLast, hlen]; omega
  · simp only [hlen]; omega
  · exact size
  · simp only [List.length_dropLast]
    rw [show (s.buf.eraseIdx (l.length + 1)).take (l.length - 1) = s.buf.take (l.length - 1) from by
      apply List.ext_getElem?
      intro i
      rw [List.getElem?_take, List.getElem?_take]
      split
      · rw [List.getElem?_eraseIdx_of_lt (by omega)]
      · rfl]
    conv_rhs => rw [← pre]
    rw [List.dropLast_take (by omega)]

theorem rep_step (zero : α) {s : DynArr α} {l l' : List α} (h : Rep s l) (o : Op α)
    (ho : specStep l o = some l') : ∃ s', s.step zero o = .ok s' ∧ Rep s' l' := by
  cases o with
  | append r =>
    simp only [specStep, Option.some.injEq] at ho; subst ho
    exact rep_append zero h r
  | extend rs =>
    simp only [specStep, Option.some.injEq] at ho; subst ho
    exact rep_extend zero h rs
  | truncate =>
    simp only [specStep] at ho
    split at ho
    · simp at ho
    · next hne =>
      simp only [Option.some.injEq] at ho; subst ho
      exact rep_truncate h hne

theorem rep_run (zero : α) {s : DynArr α} {l l' : List α} (h : Rep s l) (ops : List (Op α))
    (ho : specRun l ops = some l') : ∃ s', s.run zero ops = .ok s' ∧ Rep s' l' := by
  induction ops generalizing s l with
  | nil =>
    simp only [specRun, List.foldlM_nil, Option.pure_def, Option.some.injEq] at ho; subst ho
    exact ⟨s, rfl, h⟩
  | cons o os ih =>
    simp only [specRun, List.foldlM_cons, Option.bind_eq_bind, Option.bind_eq_some_iff] at ho
    obtain ⟨l1, h1, h2⟩ := ho
    obtain ⟨s1, e1, r1⟩ := rep_step zero h o h1
    obtain ⟨s2, e2, r2⟩ := ih r1 h2
    refine ⟨s2, ?_, r2⟩
    unfold run at e2 ⊢
    rw [List.foldlM_cons, e1]; exact e2

end DynArr

open DynArr

/-! ## C01 -/

/-- **C01.** Any sequence of append / extend / truncate on a fresh table for which the plain-list log
is defined (never pops an empty log) runs without exception and the visible rows, the reported
length and every column are exactly those of the log. -/
theorem C01_history_is_log {α β : Type*} (zero : α) (ops : List (Op α)) (l : List α)
    (h : specRun [] ops = some l) :
    ∃ s, (DynArr.empty zero).run zero ops = .ok s ∧ s.data = l ∧ s.len = l.length ∧
      ∀ col : α → β, s.column col = l.map col := by
  obtain ⟨s, e, r⟩ := rep_run zero (rep_empty zero) ops h
  refine ⟨s, e, r.data, r.len, fun col => ?_⟩
  unfold DynArr.column pySliceTo
  rw [r.len]
  simp only [Int.natCast_nonneg, if_true, Int.toNat_natCast, ← List.map_take, r.pre]

/-- **C01.** An append never changes an earlier row and adds exactly the new row, on every table
reachable from a fresh one; in particular buffer growth preserves the history. -/
theorem C01_append_preserves_history {α : Type*} (zero : α) (ops : List (Op α)) (l : List α) (r : α)
    (h : specRun [] ops = some l) :
    ∃ s s', (DynArr.empty zero).run zero ops = .ok s ∧ s.append zero r = .ok s' ∧
      s'.data = s.data ++ [r] := by
  obtain ⟨s, e, rp⟩ := rep_run zero (rep_empty zero) ops h
  obtain ⟨s', e', rp'⟩ := rep_append zero rp r
  exact ⟨s, s', e, e', by rw [rp'.data, rp.data]⟩

/-- **C01.** A dictionary row with a missing column raises and leaves the table as it was (the
exception is raised before any write); a complete one appends the tuple. -/
theorem C01_appendDict {α κ β : Type*} (zero : α) (cols : List κ) (mk : List β → α)
    (ops : List (Op α)) (l : List α) (d : κ → Option β) (h : specRun [] ops = some l) :
    ∃ s, (DynArr.empty zero).run zero ops = .ok s ∧
      ((∃ c ∈ cols, d c = none) → s.appendDict zero cols mk d = .error .keyError) ∧
      (∀ v : κ → β, (∀ c ∈ cols, d c = some (v c)) →
        ∃ s', s.appendDict zero cols mk d = .ok s' ∧ s'.data = l ++ [mk (cols.map v)]) := by
  obtain ⟨s, e, rp⟩ := rep_run zero (rep_empty zero) ops h
  refine ⟨s, e, ?_, ?_⟩
  · rintro ⟨c, hc, hd⟩
    have : cols.mapM d = none := by
      induction cols with
      | nil => simp at hc
      | cons x xs ih =>
        simp only [List.mapM_cons, Option.pure_def, Option.bind_eq_bind]
        rcases List.mem_cons.mp hc with rfl | hc
        · simp [hd]
        · cases d x with
          | none => simp
          | some y => simp [ih hc]
    simp [appendDict, this]
  · intro v hv
    have : cols.mapM d = some (cols.map v) := by
      clear h
      induction cols with
      | nil => simp
      | cons x xs ih =>
        have h1 := hv x (by simp)
        have h2 := ih (fun c hc => hv c (by simp [hc]))
        simp [h1, h2]
    obtain ⟨s', e', rp'⟩ := rep_append zero rp (mk (cols.map v))
    exact ⟨s', by simp [appendDict, this, e'], rp'.data⟩

/-- Popping an empty table is not caught: the reported length becomes `-1` and the next append is
lost (it leaves an empty table).  This is why C01 excludes it. -/
theorem C01_truncate_empty_loses_row {α : Type*} (zero r : α) :
    ∃ s s', (DynArr.empty zero).truncate = .ok s ∧ s.len = -1 ∧ s.append zero r = .ok s' ∧
      s'.data = [] ∧ s'.len = 0 := by
  refine ⟨_, _, rfl, rfl, rfl, ?_, ?_⟩ <;> rfl

/-- **C01, refuted for an empty history.** After removing the last row of an empty history eight rows of zeros can be read. -/
theorem C01_truncate_empty_shows_rows {α : Type*} (zero : α) :
    ∃ s, (DynArr.empty zero).truncate = .ok s ∧ s.data = List.replicate 8 zero :=
  ⟨_, rfl, rfl⟩

example : specRun ([] : List ℕ) [.append 3, .extend [4, 5, 6], .truncate, .append 7] =
    some [3, 4, 5, 7] := by decide

/-! ## C02 -/

/-- **C02 (positive part).** Non-negative indices below the length return the corresponding row. -/
theorem C02_nonneg_index_partial {α : Type*} (zero : α) (ops : List (Op α)) (l : List α)
    (h : specRun [] ops = some l) (i : ℕ) (hi : i < l.length) :
    ∃ s, (DynArr.empty zero).run zero ops = .ok s ∧ s.getInt i = .ok l[i] := by
  obtain ⟨s, e, rp⟩ := rep_run zero (rep_empty zero) ops h
  refine ⟨s, e, ?_⟩
  have h1 : i < s.buf.length := by have := rp.spare; omega
  have h2 : s.buf[i]? = some l[i] := by
    have := congrArg (·[i]?) rp.pre
    simpa [List.getElem?_take, hi] using this
  have hneg : ¬ ((i : ℤ) < 0) := by omega
  have h3 : s.buf[i] = l[i] := by
    rw [List.getElem?_eq_getElem h1] at h2; exact Option.some.inj h2
  simp only [getInt, hneg, if_false, pyGet, pyIndex]
  simp [h1, h3]

/-- **C02 (Dynamic2DArray).** For the two-dimensional table, which slices before indexing, both
non-negative and negative Python indices are right. -/
theorem C02_two_dimensional_index {α : Type*} (zero : α) (ops : List (Op α)) (l : List α)
    (h : specRun [] ops = some l) (i : ℤ) :
    ∃ s, (DynArr.empty zero).run zero ops = .ok s ∧ s.get2D i = pyGet l i := by
  obtain ⟨s, e, rp⟩ := rep_run zero (rep_empty zero) ops h
  exact ⟨s, e, by rw [get2D, rp.data]⟩

/-- **C02 (negative part).** `table[-1]` never reads one of the recorded rows through their own cell:
on every reachable non-empty table it is the cell two past the end of the data, or an
`IndexError`. -/
theorem C02_last_index_reads_past_end {α : Type*} (zero : α) (ops : List (Op α)) (l : List α)
    (h : specRun [] ops = some l) :
    ∃ s, (DynArr.empty zero).run zero ops = .ok s ∧
      s.getInt (-1) = (match s.buf[l.length + 2]? with
        | some x => .ok x
        | none => .error .indexError) := by
  obtain ⟨s, e, rp⟩ := rep_run zero (rep_empty zero) ops h
  refine ⟨s, e, ?_⟩
  have hlen := rp.len
  have e1 : ((l.length : ℤ) + 1 - -1) = ((l.length + 2 : ℕ) : ℤ) := by push_cast; ring
  simp only [getInt, show (-1 : ℤ) < 0 by omega, if_true, pyGet, pyIndex, hlen, e1]
  by_cases hb : l.length + 2 < s.buf.length
  · have hb' : (0 : ℤ) ≤ ((l.length + 2 : ℕ) : ℤ) ∧
        ((l.length + 2 : ℕ) : ℤ) < (s.buf.length : ℤ) := by omega
    rw [if_pos hb']
    simp only [Int.toNat_natCast]
    cases s.buf[l.length + 2]? <;> rfl
  · have hb' : ¬ ((0 : ℤ) ≤ ((l.length + 2 : ℕ) : ℤ) ∧
        ((l.length + 2 : ℕ) : ℤ) < (s.buf.length : ℤ)) := by omega
    have hb'' : ¬ (-(s.buf.length : ℤ) ≤ ((l.length + 2 : ℕ) : ℤ) ∧
        ((l.length + 2 : ℕ) : ℤ) < 0) := by omega
    rw [if_neg hb', if_neg hb'']
    have : s.buf[l.length + 2]? = none := by simp; omega
    rw [this]

/-- **C02 (refutation).** After a single append of any row `r`, `table[-1]` is the zero row, not
`r`. -/
theorem C02_last_index_wrong {α : Type*} (zero r : α) :
    ∃ s, (DynArr.empty zero).append zero r = .ok s ∧ s.data = [r] ∧ s.getInt (-1) = .ok zero := by
  exact ⟨_, rfl, rfl, rfl⟩

end PyBBN
