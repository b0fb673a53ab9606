import Verif.Model.Process
import Verif.Props.Evolution
/-!
# C03: universes in one process share their history
-/
namespace PyBBN

variable {W : Type*}

/-- The calls made on universe `i` only. -/
def ownOps (i : ℕ) (ops : List UOp) : List UOp := ops.filter (fun o => o.owner = i)

theorem saveParams_data {data d : List Row} {u : Uni W} (h : saveParams data u = .ok d)
    (data' : List Row) : ∃ r, d = data ++ [r] ∧ saveParams data' u = .ok (data' ++ [r]) := by
  unfold saveParams at h ⊢
  split at h
  · rename_i S rho hS hr
    injection h with h
    exact ⟨_, h.symm, rfl⟩
  · simp at h
  · simp at h

/-- **C03 (partial: Euler mode).** With the Adams–Bashforth correction switched off, every interleaving
of calls on any number of universes leaves each universe in the state it would reach alone, and the
rows it saves alone appear, in order, in the shared table.  Missing: the default Adams–Bashforth mode
and the identity of the histories, both false (`C03_history_shared`, `C03_step_depends_on_other`). -/
theorem C03_euler_independent_partial (ph : ℕ → Physics W) (c : Consts) (P P' : Process W)
    (ops : List UOp) (i : ℕ) (h : P.run ph c false ops = .ok P') (d : List Row)
    (hd : d.Sublist P.data) :
    ∃ Q, Process.run ph c false ⟨P.us, d⟩ (ownOps i ops) = .ok Q ∧ Q.us i = P'.us i ∧
      Q.data.Sublist P'.data := by
  suffices H : ∀ (us : ℕ → Uni W), us i = P.us i →
      ∃ Q, Process.run ph c false ⟨us, d⟩ (ownOps i ops) = .ok Q ∧ Q.us i = P'.us i ∧
        Q.data.Sublist P'.data from H P.us rfl
  induction ops generalizing P d with
  | nil =>
    intro us hus
    simp only [Process.run] at h
    injection h with h
    subst h
    exact ⟨_, rfl, hus, hd⟩
  | cons o os ih =>
    intro us hus
    simp only [Process.run] at h
    split at h
    · simp at h
    rename_i P1 h1
    cases o with
    | step j =>
      simp only [Process.apply] at h1
      split at h1
      · simp at h1
      rename_i u hu
      injection h1 with h1
      subst h1
      by_cases hj : j = i
      · subst hj
        have hf : ownOps j (UOp.step j :: os) = UOp.step j :: ownOps j os := by
          simp [ownOps, UOp.owner]
        have hu' : makeStep (ph j) c false d (us j) = .ok u := by
          rw [hus, ← hu]
          unfold makeStep
          simp
        rw [hf]
        simp only [Process.run, Process.apply, hu']
        exact ih _ h d hd (Function.update us j u) (by simp)
      · have hf : ownOps i (UOp.step j :: os) = ownOps i os := by
          simp [ownOps, UOp.owner, hj]
        rw [hf]
        exact ih _ h d hd us (by simp [Function.update_of_ne (Ne.symm hj), hus])
    | save j =>
      simp only [Process.apply] at h1
      split at h1
      · simp at h1
      rename_i dd hdd
      injection h1 with h1
      subst h1
      obtain ⟨r, hr, hs⟩ := saveParams_data hdd d
      by_cases hj : j = i
      · subst hj
        have hf : ownOps j (UOp.save j :: os) = UOp.save j :: ownOps j os := by
          simp [ownOps, UOp.owner]
        rw [hf]
        simp only [Process.run, Process.apply, hus, hs]
        exact ih _ h (d ++ [r]) (by rw [hr]; exact hd.append (List.Sublist.refl _)) us hus
      · have hf : ownOps i (UOp.save j :: os) = ownOps i os := by
          simp [ownOps, UOp.owner, hj]
        rw [hf]
        refine ih _ h d ?_ us hus
        rw [hr]; exact hd.trans (List.sublist_append_left _ _)

/-- **C03 (failure: history).** Whenever universe 0 saves a row, universe 1, which has made no call at
all, sees one more row in its history. -/
theorem C03_history_shared (ph : ℕ → Physics W) (c : Consts) (ab : Bool) (P P' : Process W)
    (h : P.run ph c ab [.save 0] = .ok P') :
    P'.data.length = P.data.length + 1 ∧ P'.us 1 = P.us 1 := by
  simp only [Process.run, Process.apply] at h
  split at h
  · simp at h
  rename_i P1 h1
  injection h with h
  subst h
  split at h1
  · simp at h1
  rename_i d hd
  injection h1 with h1
  subst h1
  obtain ⟨r, hr, _⟩ := saveParams_data hd []
  simp [hr]

/-- Parameters after a first update, ready to be saved. -/
noncomputable def savedDemo : Params := { demoParams with rho := some 1, S := some 1 }

/-- **C03 (failure: dynamics).** In the default Adams–Bashforth mode a save made by universe 0 changes
the temperature that universe 1 reaches in its next step: alone it gains `h`, after the foreign save it
gains `1.5 h`. -/
theorem C03_step_depends_on_other :
    ∃ (P P1 P2 : Process Unit),
      P.run (fun _ => unitSlopePhysics) ⟨1, 1⟩ true [.step 1] = .ok P1 ∧
      P.run (fun _ => unitSlopePhysics) ⟨1, 1⟩ true [.save 0, .step 1] = .ok P2 ∧
      (P1.us 1).params.aT = 1 + 0.05 ∧ (P2.us 1).params.aT = 1 + 1.5 * 0.05 := by
  refine ⟨⟨fun _ => ⟨(), savedDemo, 0, 1⟩, []⟩, ?_⟩
  have e1 : adamsBashforth [1] 0.05 none = .ok 0.05 := by
    simp [adamsBashforth, pyLast, maxAB, abCoefficients, dotZip]
  have e2 : adamsBashforth [0, 1] 0.05 none = .ok (1.5 * 0.05) := by
    simp [adamsBashforth, pyLast, maxAB, abCoefficients, dotZip]; norm_num
  have s1 : ∀ (data : List Row) (d : ℝ),
      adamsBashforth (pyLast (data.map Row.fraction) maxAB ++ [1]) 0.05 none = .ok d →
      ∃ u, makeStep unitSlopePhysics ⟨1, 1⟩ true data ⟨(), savedDemo, 0, 1⟩ = .ok u ∧
        u.params.aT = 1 + d := by
    intro data d hd
    have hi : integrand unitSlopePhysics ⟨(), savedDemo, 0, 1⟩ = .ok ⟨(), savedDemo, 1, 1⟩ := by
      simp [integrand, unitSlopePhysics, savedDemo, demoParams]
    have hd' : adamsBashforth (pyLast (data.map Row.fraction) maxAB ++ [1]) savedDemo.h none =
        .ok d := hd
    refine ⟨_, by simp only [makeStep, hi, if_true, hd']; rfl, ?_⟩
    simp [Params.update, savedDemo, demoParams]
  obtain ⟨u1, h1, a1⟩ := s1 [] 0.05 (by simpa [pyLast] using e1)
  have hsave : saveParams (W := Unit) [] ⟨(), savedDemo, 0, 1⟩ =
      .ok [⟨1, 10, 1 / 10, 1 / 10, 0, 1, 0, 0, 1⟩] := by
    simp [saveParams, savedDemo, demoParams]
  obtain ⟨u2, h2, a2⟩ := s1 [⟨1, 10, 1 / 10, 1 / 10, 0, 1, 0, 0, 1⟩] (1.5 * 0.05)
    (by simpa [pyLast, maxAB] using e2)
  refine ⟨⟨Function.update (fun _ => ⟨(), savedDemo, 0, 1⟩) 1 u1, []⟩,
    ⟨Function.update (fun _ => ⟨(), savedDemo, 0, 1⟩) 1 u2,
      [⟨1, 10, 1 / 10, 1 / 10, 0, 1, 0, 0, 1⟩]⟩, ?_, ?_, ?_, ?_⟩
  · simp [Process.run, Process.apply, h1]
  · simp only [Process.run, Process.apply, hsave, h2]
  · simpa using a1
  · simpa using a2

end PyBBN
