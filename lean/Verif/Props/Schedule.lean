import Verif.Model.Integration
import Mathlib.Data.List.Perm.Basic
import Mathlib.Data.List.GetD
import Mathlib.Data.List.OfFn
import Mathlib.Tactic.Linarith
/-!
# C40: independence of thread scheduling

A schedule is any distribution of the loop iterations over any number of threads with any order within a
thread.
-/
namespace PyBBN

theorem lookup_of_unique {β : Type*} (outs : List (ℕ × β)) (i : ℕ) (v : β)
    (hm : i ∈ outs.map Prod.fst) (hu : ∀ x ∈ outs, x.1 = i → x.2 = v) : outs.lookup i = some v := by
  induction outs with
  | nil => simp at hm
  | cons x l ih =>
    obtain ⟨j, w⟩ := x
    by_cases h : j = i
    · subst h
      have := hu (j, w) (by simp) rfl
      simp only at this
      subst this
      simp [List.lookup]
    · have hm' : i ∈ l.map Prod.fst := by
        simp only [List.map_cons, List.mem_cons] at hm
        rcases hm with e | e
        · exact absurd e.symm h
        · exact e
      rw [List.lookup_cons]
      have : (i == j) = false := by simpa using Ne.symm h
      rw [this]
      exact ih hm' (fun x hx => hu x (by simp [hx]))

section
variable {limits : ℝ → ℝ × ℝ → (ℝ × ℝ) × Bool} {quad : ℝ → ℝ → ℝ → Except Err ℝ} {ps : List ℝ}

theorem runThread_keys (l : List ℕ) : ∀ st, (runThread limits quad ps st l).map Prod.fst = l := by
  induction l with
  | nil => intro st; rfl
  | cons i l ih =>
    intro st
    unfold runThread
    split
    · simp [ih]
    · simp [ih]

/-- If, on the states a thread can be in, an iteration's output does not depend on the state, then
every output is the value of its own momentum. -/
theorem runThread_local (inv : ℝ × ℝ → Prop) (val : ℝ → Except Err ℝ)
    (hpres : ∀ p ∈ ps, ∀ st, inv st → inv (limits p st).1)
    (hval : ∀ p ∈ ps, ∀ st, inv st →
      (if (limits p st).2 then quad p (limits p st).1.1 (limits p st).1.2 else .ok 0) = val p)
    (l : List ℕ) : ∀ st, inv st → ∀ x ∈ runThread limits quad ps st l, ∀ p, ps[x.1]? = some p →
      x.2 = val p := by
  induction l with
  | nil => intro st _ x hx; simp [runThread] at hx
  | cons i l ih =>
    intro st hst x hx p hp
    unfold runThread at hx
    split at hx
    · rename_i hnone
      rcases List.mem_cons.mp hx with rfl | hx
      · rw [hnone] at hp; exact absurd hp (by simp)
      · exact ih st hst x hx p hp
    · rename_i p0 hsome
      have hmem : p0 ∈ ps := List.mem_of_getElem? hsome
      rcases List.mem_cons.mp hx with rfl | hx
      · rw [hsome] at hp
        obtain rfl := Option.some.inj hp
        exact hval p0 hmem st hst
      · exact ih _ (hpres p0 hmem st hst) x hx p hp

theorem parallel_local (inv : ℝ × ℝ → Prop) (val : ℝ → Except Err ℝ) (init : ℝ × ℝ)
    (hinit : inv init) (hpres : ∀ p ∈ ps, ∀ st, inv st → inv (limits p st).1)
    (hval : ∀ p ∈ ps, ∀ st, inv st →
      (if (limits p st).2 then quad p (limits p st).1.1 (limits p st).1.2 else .ok 0) = val p)
    (sched : List (List ℕ)) (hs : ValidSchedule ps.length sched) :
    parallelLoop limits quad ps init sched = ps.map val := by
  unfold parallelLoop
  simp only []
  apply List.ext_getElem?
  intro i
  rw [List.getElem?_map, List.getElem?_map]
  by_cases hi : i < ps.length
  · rw [List.getElem?_range hi, List.getElem?_eq_getElem hi]
    simp only [Option.map_some, Option.some.injEq]
    rw [lookup_of_unique _ i (val ps[i])]
    · rfl
    · rw [List.map_flatten, List.map_map]
      have : (List.map Prod.fst ∘ fun t => runThread limits quad ps init t) = id := by
        funext t; exact runThread_keys t init
      rw [this, List.map_id]
      exact (hs.mem_iff).mpr (List.mem_range.mpr hi)
    · intro x hx hxi
      rw [List.mem_flatten] at hx
      obtain ⟨t, ht, hx⟩ := hx
      obtain ⟨l, -, rfl⟩ := List.mem_map.mp ht
      exact runThread_local inv val hpres hval l init hinit x hx ps[i]
        (by rw [hxi]; exact List.getElem?_eq_getElem hi)
  · rw [List.getElem?_eq_none (by simpa using hi), List.getElem?_eq_none (by simpa using hi)]
    rfl

end

/-- Sequential reference: each momentum integrated on its own, starting from the limits passed by the
caller. -/
noncomputable def alone (c : LoopCtx) (quad : ℝ → ℝ → ℝ → Except Err ℝ) (init : ℝ × ℝ) (p0 : ℝ) :
    Except Err ℝ :=
  let r := outerLimits c p0 init
  if r.2 then quad p0 r.1.1 r.1.2 else .ok 0

/-- **C40.** Four-particle decays, creations and unclassified reactions: the result is the same for every
schedule, namely each momentum integrated on its own. -/
theorem C40_four_not_scattering (c : LoopCtx) (hc : c.type ≠ 0) (quad : ℝ → ℝ → ℝ → Except Err ℝ)
    (ps : List ℝ) (min1 max1 : ℝ) (sched : List (List ℕ)) (hs : ValidSchedule ps.length sched) :
    integration4 c quad ps min1 max1 sched = ps.map (alone c quad (min1, max1)) := by
  unfold integration4
  by_cases h2 : c.type = 2
  · refine parallel_local (fun st => st.1 = min1) _ _ rfl ?_ ?_ sched hs
    · intro p _ st hst
      simp only [outerLimits, if_pos h2]; exact hst
    · intro p _ st hst
      simp only [alone, outerLimits, if_pos h2, hst]
  · by_cases hm : c.type = -2
    · refine parallel_local (fun _ => True) _ _ trivial (fun _ _ _ _ => trivial) ?_ sched hs
      intro p _ st _
      simp only [alone, outerLimits, if_neg h2, if_neg hc, if_pos hm]
      split_ifs <;> first | rfl | (exfalso; simp_all)
    · refine parallel_local (fun st => st = (min1, max1)) _ _ rfl ?_ ?_ sched hs
      · intro p _ st hst
        simp only [outerLimits, if_neg h2, if_neg hc, if_neg hm]; exact hst
      · intro p _ st hst
        simp only [alone, outerLimits, if_neg h2, if_neg hc, if_neg hm, hst]

open Classical in
/-- **C40.** Three-particle reactions: every entry is computed from the limits passed by the caller as if it
were the only one, whatever the schedule; at rest the value `atRest` is stored. -/
theorem C40_three_value (c : LoopCtx3) (quad : ℝ → ℝ → ℝ → Except Err ℝ) (atRest : Except Err ℝ)
    (ps : List ℝ) (min1 max1 : ℝ) (sched : List (List ℕ)) (hs : ValidSchedule ps.length sched) :
    integration3 c quad atRest ps min1 max1 sched = ps.map fun p => if p = 0 then atRest else
      if (outerLimits3 c p (min1, max1)).2 then
        quad p (outerLimits3 c p (min1, max1)).1.1 (outerLimits3 c p (min1, max1)).1.2 else .ok 0 := by
  unfold integration3
  refine parallel_local (fun _ => True) _ _ trivial (fun _ _ _ _ => trivial) ?_ sched hs
  intro p _ st _
  by_cases hp : p = 0
  · simp [hp]
  · simp only [if_neg hp]
    unfold outerLimits3
    by_cases h1 : c.type = -1 <;> by_cases h0 : c.m0 = 0 <;> simp only [h1, h0, if_true, if_false]
    · split_ifs <;> first | rfl | (exfalso; simp_all)
    · split_ifs <;> first | rfl | (exfalso; simp_all)

/-- **C40.** Three-particle reactions: independent of the schedule in all cases. -/
theorem C40_three (c : LoopCtx3) (quad : ℝ → ℝ → ℝ → Except Err ℝ) (atRest : Except Err ℝ)
    (ps : List ℝ) (min1 max1 : ℝ) :
    ∃ val : ℝ → Except Err ℝ, (val 0 = atRest) ∧ ∀ sched : List (List ℕ),
      ValidSchedule ps.length sched →
      integration3 c quad atRest ps min1 max1 sched = ps.map val := by
  classical
  exact ⟨_, by simp, fun sched hs => C40_three_value c quad atRest ps min1 max1 sched hs⟩

/-- **C40, scattering (partial).** If the upper limit passed by the caller is at least three times every
lower limit, scattering is schedule independent too.  What is missing from the full claim is false, see
`C40_scattering_depends`. -/
theorem C40_scattering_partial (c : LoopCtx) (hc : c.type = 0) (quad : ℝ → ℝ → ℝ → Except Err ℝ)
    (ps : List ℝ) (min1 max1 : ℝ) (hbig : ∀ p ∈ ps, 3 * scatMin1 c p ≤ max1)
    (sched : List (List ℕ)) (hs : ValidSchedule ps.length sched) :
    integration4 c quad ps min1 max1 sched = ps.map fun p => quad p (scatMin1 c p) max1 := by
  unfold integration4
  have key : ∀ p ∈ ps, ∀ st : ℝ × ℝ, st.2 = max1 → (outerLimits c p st) = ((scatMin1 c p, max1), true) := by
    intro p hp st hst
    unfold outerLimits
    rw [if_neg (show ¬ c.type = 2 by omega), if_pos hc]
    simp only [hst]
    have := hbig p hp
    congr 2
    split_ifs with h
    · rfl
    · exact le_antisymm this (not_lt.mp h)
  refine parallel_local (fun st => st.2 = max1) _ _ rfl ?_ ?_ sched hs
  · intro p hp st hst
    rw [key p hp st hst]
  · intro p hp st hst
    rw [key p hp st hst]; simp

/-- Exact upper limit used in scattering: the caller's limit raised by all iterations the same thread
has executed before. -/
theorem C40_scattering_limit (c : LoopCtx) (hc : c.type = 0) (quad : ℝ → ℝ → ℝ → Except Err ℝ)
    (ps : List ℝ) (l : List ℕ) : ∀ (st : ℝ × ℝ), (∀ i ∈ l, i < ps.length) →
    runThread (outerLimits c) quad ps st l = (List.range l.length).map fun k : ℕ =>
      (l.getD k 0, quad (ps.getD (l.getD k 0) 0) (scatMin1 c (ps.getD (l.getD k 0) 0))
        ((l.take (k + 1)).foldl (fun u i => max u (3 * scatMin1 c (ps.getD i 0))) st.2)) := by
  induction l with
  | nil => intro st _; rfl
  | cons i l ih =>
    intro st hl
    have hi : i < ps.length := hl i (by simp)
    have hlim : ∀ p st, outerLimits c p st =
        ((scatMin1 c p, max st.2 (3 * scatMin1 c p)), true) := by
      intro p st
      unfold outerLimits
      rw [if_neg (show ¬ c.type = 2 by omega), if_pos hc]
      simp only []
      congr 2
      split_ifs with h
      · exact (max_eq_left h.le).symm
      · exact (max_eq_right (not_lt.mp h)).symm
    unfold runThread
    rw [List.getElem?_eq_getElem hi]
    simp only [hlim, if_true, List.length_cons]
    rw [ih _ (fun j hj => hl j (by simp [hj])), List.range_succ_eq_map, List.map_cons, List.map_map]
    have hg : ps.getD i 0 = ps[i] := by simp [hi]
    congr 1
    · simp [hi]
    · refine List.map_congr_left fun k _ => ?_
      simp [hi]

/-- **C40 is false for scattering.** Two massless particles producing two particles of mass 1: the same call
gives different results on one thread and on two, for an integrator that is exact on constants. -/
theorem C40_scattering_depends :
    ∃ (c : LoopCtx) (ps : List ℝ) (s1 s2 : List (List ℕ)), c.type = 0 ∧
      ValidSchedule ps.length s1 ∧ ValidSchedule ps.length s2 ∧
      integration4 c (fun _ a b => .ok (b - a)) ps 0 1 s1 ≠
        integration4 c (fun _ a b => .ok (b - a)) ps 0 1 s2 := by
  refine ⟨⟨0, 0, 0, 1, 1, 1⟩, [1, 2], [[0, 1]], [[0], [1]], rfl, ?_, ?_, ?_⟩
  · exact List.Perm.refl _
  · exact List.Perm.refl _
  · have e1 : energy 1 0 = 1 := by simp [energy]
    have e2 : energy 2 0 = 2 := by
      unfold energy
      rw [show (2:ℝ) * 2 + 0 * 0 = 2 ^ 2 by norm_num, Real.sqrt_sq (by norm_num)]
    have s1 : scatMin1 ⟨0, 0, 0, 1, 1, 1⟩ 1 = 1 := by
      unfold scatMin1
      norm_num [e1]
    have s2 : scatMin1 ⟨0, 0, 0, 1, 1, 1⟩ 2 = 0 := by
      unfold scatMin1
      norm_num [e2]
    intro h
    have := congrArg (fun l => l[1]?) h
    simp [integration4, parallelLoop, runThread, outerLimits, s1, s2, List.range_succ,
      List.lookup] at this

/-- A decay reaction over three momenta on two threads (second thread in reverse order). -/
example : integration4 ⟨2, 5, 1, 1, 1, 9⟩ (fun p a b => .ok (p * (b - a))) [0, 1, 2] 0 7 [[1], [2, 0]]
    = [0, 1, 2].map (alone ⟨2, 5, 1, 1, 1, 9⟩ (fun p a b => .ok (p * (b - a))) (0, 7)) :=
  C40_four_not_scattering _ (by decide) _ _ _ _ _ (by
    show List.Perm [1, 2, 0] [0, 1, 2]
    decide)

end PyBBN
