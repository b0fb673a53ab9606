import Verif.Props.Process
import Verif.Props.Kinematics
import Verif.Props.Kawano
import Verif.Props.Selection
import Verif.Props.Amplitude
import Verif.Props.Limits
import Verif.Props.Entropy
import Verif.Props.Decouple
import Mathlib.Tactic
/-!
# Concrete cases of theorems whose own files only show that the hypotheses can be met
-/
namespace PyBBN

/-- C03: two universes which step and save in turn; the second is where it would be alone, and its row is in the table. -/
example : ∃ (P P' Q : Process Unit), P.run (fun _ => unitSlopePhysics) ⟨1, 1⟩ false
      [.save 0, .step 1, .step 0, .save 1] = .ok P' ∧ P'.data.length = 2 ∧
    P.run (fun _ => unitSlopePhysics) ⟨1, 1⟩ false [.step 1, .save 1] = .ok Q ∧ Q.us 1 = P'.us 1 ∧
    Q.data.Sublist P'.data ∧ (P'.us 1).params.aT = 1 + 0.05 := by
  have hi : integrand unitSlopePhysics ⟨(), savedDemo, 0, 1⟩ = .ok ⟨(), savedDemo, 1, 1⟩ := by
    simp [integrand, unitSlopePhysics, savedDemo, demoParams]
  obtain ⟨u, hu, ha, hs⟩ : ∃ u, (∀ data, makeStep unitSlopePhysics ⟨1, 1⟩ false data ⟨(), savedDemo, 0, 1⟩ = .ok u) ∧
      u.params.aT = 1 + 0.05 ∧ ∀ data, ∃ r, saveParams (W := Unit) data u = .ok (data ++ [r]) := by
    refine ⟨_, fun data => by simp only [makeStep, hi]; rfl, ?_, ?_⟩
    · simp [Params.update, savedDemo, demoParams]
    · intro data
      simp [saveParams, Params.update, savedDemo, demoParams, unitSlopePhysics]
  have hsave : ∃ r, saveParams (W := Unit) [] ⟨(), savedDemo, 0, 1⟩ = .ok [r] := by
    simp [saveParams, savedDemo, demoParams]
  obtain ⟨r, hr⟩ := hsave
  obtain ⟨r', hr'⟩ := hs [r]
  let P : Process Unit := ⟨fun _ => ⟨(), savedDemo, 0, 1⟩, []⟩
  let P' : Process Unit := ⟨Function.update (Function.update (fun _ => ⟨(), savedDemo, 0, 1⟩) 1 u) 0 u, [r] ++ [r']⟩
  have h : P.run (fun _ => unitSlopePhysics) ⟨1, 1⟩ false [.save 0, .step 1, .step 0, .save 1] = .ok P' := by
    simp only [P, P', Process.run, Process.apply, hr, hu]
    rw [Function.update_of_ne (by norm_num)]
    simp only [hu]
    rw [Function.update_of_ne (by norm_num), Function.update_self]
    simp only [hr']
  obtain ⟨Q, q1, q2, q3⟩ := C03_euler_independent_partial (fun _ => unitSlopePhysics) ⟨1, 1⟩ P P' _ 1 h [] (List.Sublist.refl _)
  refine ⟨P, P', Q, h, rfl, ?_, q2, q3, ?_⟩
  · simpa [ownOps, UOp.owner, P] using q1
  · simp [P', ha]

/-- C46: masses 5, 0, 3 give the momentum 8/5 with energies 8/5 and 17/5. -/
example : cmMomentum 5 0 3 = 8 / 5 := by
  refine ((C46_unique 5 0 3 (by norm_num) le_rfl (by norm_num) (by norm_num) (8 / 5) (by norm_num)).mpr ?_).symm
  have h1 : energy (8 / 5) 0 = 8 / 5 := by
    unfold energy
    rw [show ((8 : ℝ) / 5 * (8 / 5) + 0 * 0) = (8 / 5) ^ 2 by norm_num, Real.sqrt_sq (by norm_num)]
  have h2 : energy (8 / 5) 3 = 17 / 5 := by
    unfold energy
    rw [show ((8 : ℝ) / 5 * (8 / 5) + 3 * 3) = (17 / 5) ^ 2 by norm_num, Real.sqrt_sq (by norm_num)]
  rw [h1, h2]
  norm_num

/-- C57: `1 → 2 + 3 + 4` is a decay for the Python and the C++ code. -/
example : pyDecay ([-1, 1, 1, 1] : List ℤ).sum = true ∧ kin4 [-1, 1, 1, 1] = .decay := by
  have h := C57_four [-1, 1, 1, 1] (by decide) rfl (by decide) (by decide)
  have h1 := h.1.mpr (by decide)
  exact ⟨h1, h.2.2.2.1.mpr h1⟩

/-- C57: `1 + 2 → 3` is a creation of particle 3. -/
example : pyCreation ([-1, -1, 1] : List ℤ).sum = true ∧ kin3 [-1, -1, 1] = .creation := by
  have h := C57_three [-1, -1, 1] (by decide) rfl (by decide) (by decide)
  have h1 := h.2.2.1.mpr (by decide)
  exact ⟨h1, h.2.2.2.2.1.mpr h1⟩

/-- C63: four massless particles of momentum 1, `1 + 2 → 3 + 4`. -/
example : 0 ≤ D (fun _ => 1) (fun _ => 1) (fun _ => 0) 2 3 (Equiv.swap 1 2) ![-1, -1, 1, 1] :=
  C63_nonneg _ _ _ _ _ _ _ (by intro i; fin_cases i <;> simp) (by simp) (by simp) (by simp) (by norm_num) (by norm_num)

/-- C63: a momentum larger than the sum of the others. -/
example (p : Fin 4 → ℝ) (h0 : p 0 = 7) (h1 : p 1 = 1) (h2 : p 2 = 2) (h3 : p 3 = 3) :
    D p p (fun _ => 0) 2 3 (1 : Equiv.Perm (Fin 4)) ![-1, -1, 1, 1] = 0 := by
  refine C63_support p p _ 2 3 1 _ ?_ ?_
  · intro i
    fin_cases i
    · exact h0.symm ▸ by norm_num
    · exact h1.symm ▸ by norm_num
    · exact h2.symm ▸ by norm_num
    · exact h3.symm ▸ by norm_num
  · rw [h0, h1, h2, h3]
    norm_num [Forbidden]

/-- C65: at rest the neutral product of a two-body decay with masses 5 → 0 + 3 carries `p1Bounds1 5 0 3`. -/
example (p1 : ℝ) (h1 : 0 ≤ p1) :
    p1 = p1Bounds1 5 0 3 ↔
      lastEnergy3 ![⟨eqSpecies 1 5 1, -1⟩, ⟨eqSpecies 1 0 1, 1⟩, ⟨eqSpecies 1 3 1, 1⟩] 0 p1 = energy p1 3 :=
  C65_rest ![⟨eqSpecies 1 5 1, -1⟩, ⟨eqSpecies 1 0 1, 1⟩, ⟨eqSpecies 1 3 1, 1⟩] rfl rfl (by simp [eqSpecies]) (by simp [eqSpecies])
    (by simp [eqSpecies]) (Or.inl ⟨rfl, by simp [eqSpecies]; norm_num⟩) p1 h1

/-- C35: a triangle, a degenerate one and none. -/
example : inBounds3 ![3, 4, 5] = 2 ∧ inBounds3 ![1, 2, 3] = 1 ∧ inBounds3 ![1, 2, 4] = 0 := by
  have a := C35_three ![3, 4, 5] (by intro i; fin_cases i <;> norm_num)
  have b := C35_three ![1, 2, 3] (by intro i; fin_cases i <;> norm_num)
  have c := C35_three ![1, 2, 4] (by intro i; fin_cases i <;> norm_num)
  simp only [Matrix.cons_val] at a b c
  refine ⟨a.2.1.mpr (by norm_num), b.2.2.1.mpr (by norm_num), ?_⟩
  rcases c.1 with h | h | h
  · exact absurd (c.2.1.mp h) (by norm_num)
  · exact absurd (c.2.2.1.mp h) (by norm_num)
  · exact h

/-- C51: thermal leptons at `aT = 2`; the rates of the three pairs of reactions are in the ratio `exp(q a / aT)`. -/
example (Q : (ℝ → ℝ) → ℝ → ℝ → ℝ) (hQ : PosQuad Q) : ∃ r2 r4 r6,
    KEnv.baryonicRates ⟨3, 1, 2, fun y => 1 / (Real.exp (√(y ^ 2 + (1 * 2) ^ 2) / 2) + 1),
      fun y => 1 / (Real.exp (y / 2) + 1)⟩ Q 1 1 0 10 =
      [Real.exp (3 * 2 / 2) * r2, r2, Real.exp (3 * 2 / 2) * r4, r4, Real.exp (3 * 2 / 2) * r6, r6] :=
  KEnv.C51_rates_balance ⟨3, 1, 2, fun y => 1 / (Real.exp (√(y ^ 2 + (1 * 2) ^ 2) / 2) + 1),
    fun y => 1 / (Real.exp (y / 2) + 1)⟩ Q hQ 1 1 0 10 2 (by norm_num) ⟨fun _ => rfl, fun _ => rfl⟩

/-- C73: the entropy of a thermal fermion mode at `E / T = 2`. -/
example : modeEntropy 1 (1 / (Real.exp 2 + (1 : ℤ))) =
    2 * (1 / (Real.exp 2 + (1 : ℤ))) + (1 : ℤ) * Real.log (1 + (1 : ℤ) * Real.exp (-2)) :=
  C73_equilibrium 1 2 (Or.inl rfl) (by norm_num)

end PyBBN
