import Verif.Model.Oscillations
import Mathlib.Tactic.Linarith
import Mathlib.Tactic.Ring
import Mathlib.Tactic.NormNum
import Mathlib.Tactic.FinCases
import Mathlib.Algebra.BigOperators.Fin
/-!
# C30, C31: oscillations

Specification: the real mixing matrix for `θ₂₃ = 0` and vanishing phase, and the averaged transition
probability `P(α → β) = Σᵢ U_{αi}² U_{βi}²` of vacuum oscillations.
-/
namespace PyBBN

/-- Mixing matrix `U = R₁₃ R₁₂` (rows: flavours, columns: mass states). -/
noncomputable def mixing (θ12 θ13 : ℝ) : Flavour → Fin 3 → ℝ
  | .electron, 0 => Real.cos θ12 * Real.cos θ13
  | .electron, 1 => Real.sin θ12 * Real.cos θ13
  | .electron, 2 => Real.sin θ13
  | .muon, 0 => -Real.sin θ12
  | .muon, 1 => Real.cos θ12
  | .muon, 2 => 0
  | .tau, 0 => -Real.cos θ12 * Real.sin θ13
  | .tau, 1 => -Real.sin θ12 * Real.sin θ13
  | .tau, 2 => Real.cos θ13

/-- The mixing matrix of the specification is orthogonal. -/
theorem mixing_orthogonal (θ12 θ13 : ℝ) (α β : Flavour) :
    ∑ i, mixing θ12 θ13 α i * mixing θ12 θ13 β i = if α = β then 1 else 0 := by
  have h1 := Real.sin_sq_add_cos_sq θ12
  have h2 := Real.sin_sq_add_cos_sq θ13
  have e1 : Real.sin θ12 ^ 2 = 1 - Real.cos θ12 ^ 2 := by linarith
  have e2 : Real.sin θ13 ^ 2 = 1 - Real.cos θ13 ^ 2 := by linarith
  cases α <;> cases β <;> simp only [Fin.sum_univ_three, mixing] <;> simp <;> ring_nf <;>
    simp only [e1, e2] <;> ring

/-- **C30.** The table is the averaged oscillation probability of the mixing matrix, for all angles. -/
theorem C30_is_averaged_probability (θ12 θ13 : ℝ) (α β : Flavour) :
    oscillationTable θ12 θ13 α β =
      ∑ i, mixing θ12 θ13 α i ^ 2 * mixing θ12 θ13 β i ^ 2 := by
  have h1 := Real.sin_sq_add_cos_sq θ12
  have h2 := Real.sin_sq_add_cos_sq θ13
  have e1 : Real.sin θ12 ^ 2 = 1 - Real.cos θ12 ^ 2 := by linarith
  have e2 : Real.sin θ13 ^ 2 = 1 - Real.cos θ13 ^ 2 := by linarith
  have e3 : Real.sin θ12 ^ 4 = (1 - Real.cos θ12 ^ 2) ^ 2 := by rw [← e1]; ring
  have e4 : Real.sin θ13 ^ 4 = (1 - Real.cos θ13 ^ 2) ^ 2 := by rw [← e2]; ring
  cases α <;> cases β <;>
    simp only [Fin.sum_univ_three, mixing, oscillationTable, Real.sin_two_mul] <;>
    norm_num <;> ring_nf <;> simp only [e1, e2, e3, e4] <;> ring

theorem mixing_col (θ12 θ13 : ℝ) (i : Fin 3) :
    mixing θ12 θ13 .electron i ^ 2 + mixing θ12 θ13 .muon i ^ 2 + mixing θ12 θ13 .tau i ^ 2 = 1 := by
  have h1 := Real.sin_sq_add_cos_sq θ12
  have h2 := Real.sin_sq_add_cos_sq θ13
  have e1 : Real.sin θ12 ^ 2 = 1 - Real.cos θ12 ^ 2 := by linarith
  have e2 : Real.sin θ13 ^ 2 = 1 - Real.cos θ13 ^ 2 := by linarith
  fin_cases i <;> simp only [mixing] <;> simp <;> ring_nf <;> simp only [e1, e2] <;> ring

/-- **C30.** Symmetry. -/
theorem C30_symmetric (θ12 θ13 : ℝ) (α β : Flavour) :
    oscillationTable θ12 θ13 α β = oscillationTable θ12 θ13 β α := by
  cases α <;> cases β <;> rfl

/-- **C30.** Each row sums to one. -/
theorem C30_row_sum (θ12 θ13 : ℝ) (α : Flavour) :
    oscillationTable θ12 θ13 α .electron + oscillationTable θ12 θ13 α .muon +
      oscillationTable θ12 θ13 α .tau = 1 := by
  rw [C30_is_averaged_probability, C30_is_averaged_probability, C30_is_averaged_probability,
    ← Finset.sum_add_distrib, ← Finset.sum_add_distrib]
  have : ∀ i, mixing θ12 θ13 α i ^ 2 * mixing θ12 θ13 .electron i ^ 2 +
      mixing θ12 θ13 α i ^ 2 * mixing θ12 θ13 .muon i ^ 2 +
      mixing θ12 θ13 α i ^ 2 * mixing θ12 θ13 .tau i ^ 2 = mixing θ12 θ13 α i * mixing θ12 θ13 α i := by
    intro i
    linear_combination mixing θ12 θ13 α i ^ 2 * mixing_col θ12 θ13 i
  simp only [this]
  simpa using mixing_orthogonal θ12 θ13 α α

/-- **C30.** Entries are probabilities. -/
theorem C30_entry_bounds (θ12 θ13 : ℝ) (α β : Flavour) :
    0 ≤ oscillationTable θ12 θ13 α β ∧ oscillationTable θ12 θ13 α β ≤ 1 := by
  have hnn : ∀ α β, 0 ≤ oscillationTable θ12 θ13 α β := by
    intro α β
    rw [C30_is_averaged_probability]
    exact Finset.sum_nonneg fun i _ => by positivity
  refine ⟨hnn α β, ?_⟩
  have := C30_row_sum θ12 θ13 α
  have h1 := hnn α .electron
  have h2 := hnn α .muon
  have h3 := hnn α .tau
  cases β <;> linarith

/-- **C30.** Survival is at least one third on each diagonal entry: averaging never depletes a
flavour below equipartition. -/
theorem C30_survival_third (θ12 θ13 : ℝ) (α : Flavour) :
    1 / 3 ≤ oscillationTable θ12 θ13 α α := by
  rw [C30_is_averaged_probability]
  have h := mixing_orthogonal θ12 θ13 α α
  simp only [Fin.sum_univ_three, if_true] at h ⊢
  generalize mixing θ12 θ13 α 0 = a at *
  generalize mixing θ12 θ13 α 1 = b at *
  generalize mixing θ12 θ13 α 2 = c at *
  nlinarith [sq_nonneg (a ^ 2 - b ^ 2), sq_nonneg (b ^ 2 - c ^ 2), sq_nonneg (a ^ 2 - c ^ 2),
    sq_nonneg (a ^ 2 + b ^ 2 + c ^ 2 - 1)]

/-- What C30 promises of a table. -/
structure Stochastic (P : Flavour → Flavour → ℝ) : Prop where
  symm : ∀ α β, P α β = P β α
  nonneg : ∀ α β, 0 ≤ P α β
  le_one : ∀ α β, P α β ≤ 1
  row : ∀ α, P α .electron + P α .muon + P α .tau = 1

theorem oscillationTable_stochastic (θ12 θ13 : ℝ) : Stochastic (oscillationTable θ12 θ13) :=
  ⟨C30_symmetric _ _, fun α β => (C30_entry_bounds _ _ α β).1,
    fun α β => (C30_entry_bounds _ _ α β).2, C30_row_sum _ _⟩

/-- **C30.** The table the Universe uses in a step is symmetric and stochastic at every momentum,
temperature, scale factor, with and without matter effects and for both hierarchies. -/
theorem C30_used_table (c : OscConsts) (matter normal : Bool) (p : Params) (y : ℝ) :
    Stochastic (oscillationParameters c matter normal p y) := by
  unfold oscillationParameters oscillationsMap
  split <;> simp only [if_true] <;> exact oscillationTable_stochastic _ _

/-- The hypothesis-free claims are about a non-trivial table: maximal 12 mixing moves half of the
electron neutrinos. -/
example : oscillationTable (Real.pi / 4) 0 .electron .muon = 1 / 2 := by
  have : 2 * (Real.pi / 4) = Real.pi / 2 := by ring
  simp only [oscillationTable, this]
  norm_num

/-! ## C31 -/

/-- Total collision term of a list of species at grid index `k`. -/
noncomputable def totalColl (l : List Osc) (k : ℕ) : ℝ := (l.map fun o => o.coll k).sum

theorem collOf_of_nodup {l : List Osc} (h : (l.map (·.flavour)).Nodup) {o : Osc} (ho : o ∈ l) :
    collOf l o.flavour = some o.coll := by
  have : l.filter (fun x => x.flavour = o.flavour) = [o] := by
    induction l with
    | nil => cases ho
    | cons a l ih =>
      simp only [List.map_cons, List.nodup_cons] at h
      rcases List.mem_cons.mp ho with rfl | ho'
      · have : l.filter (fun x => x.flavour = o.flavour) = [] := by
          rw [List.filter_eq_nil_iff]
          intro x hx hxo
          exact h.1 (List.mem_map.mpr ⟨x, hx, by simpa using hxo⟩)
        simp [List.filter_cons, this]
      · have hne : ¬ a.flavour = o.flavour := fun e =>
          h.1 (e ▸ List.mem_map.mpr ⟨o, ho', rfl⟩)
        simp [List.filter_cons, hne, ih h.2 ho']
  simp [collOf, this]

theorem sum_map_comm {α β : Type*} (l : List α) (m : List β) (f : α → β → ℝ) :
    (l.map fun a => (m.map fun b => f a b).sum).sum =
      (m.map fun b => (l.map fun a => f a b).sum).sum := by
  induction l with
  | nil => simp
  | cons a l ih =>
    simp only [List.map_cons, List.sum_cons, ih]
    rw [← List.sum_map_add]

/-- Listing the three flavours once each, in any order. -/
def AllFlavours (l : List Osc) : Prop :=
  (l.map (·.flavour)).Perm [.electron, .muon, .tau]

theorem sum_over_flavours {l : List Osc} (h : AllFlavours l) (g : Flavour → ℝ) :
    (l.map fun o => g o.flavour).sum = g .electron + g .muon + g .tau := by
  have h1 : (l.map fun o => g o.flavour) = (l.map (·.flavour)).map g := by simp
  rw [h1, (h.map g).sum_eq]
  simp; ring

/-- **C31.** With the three flavours present once each, mixing preserves the total collision term at
every momentum, for any symmetric stochastic table. -/
theorem C31_total_conserved (pattern : ℕ → Flavour → Flavour → ℝ) (T : ℝ) (l : List Osc)
    (hp : ∀ k, Stochastic (pattern k)) (hl : AllFlavours l) (k : ℕ) :
    totalColl (mixCollisions pattern T l) k = totalColl l k := by
  have hnd : (l.map (·.flavour)).Nodup := hl.nodup_iff.mpr (by decide)
  unfold mixCollisions
  split_ifs
  · unfold totalColl
    simp only [List.map_map, Function.comp_def]
    rw [sum_map_comm]
    congr 1
    apply List.map_congr_left
    intro B hB
    rw [collOf_of_nodup hnd hB]
    simp only [Option.getD_some]
    rw [sum_over_flavours hl fun f => pattern k f B.flavour * B.coll k]
    have := (hp k).row B.flavour
    rw [(hp k).symm .electron, (hp k).symm .muon, (hp k).symm .tau]
    linear_combination B.coll k * this
  · rfl

/-- **C31.** Hence for the tables the Universe builds. -/
theorem C31_universe_conserves (c : OscConsts) (matter normal : Bool) (p : Params) (grid : ℕ → ℝ)
    (l : List Osc) (hl : AllFlavours l) (k : ℕ) :
    totalColl (mixCollisions (fun k => oscillationParameters c matter normal p (grid k)) p.T l) k =
      totalColl l k :=
  C31_total_conserved _ _ _ (fun _ => C30_used_table _ _ _ _ _) hl k

/-- **C31.** The mixing is a weighted mean: each mixed term lies between the smallest and the largest
of the three terms, so equal terms are left as they are and positive terms stay positive. -/
theorem C31_between (pattern : ℕ → Flavour → Flavour → ℝ) (T lo hi : ℝ) (l : List Osc) (k : ℕ)
    (hp : ∀ k, Stochastic (pattern k)) (hl : AllFlavours l)
    (hlo : ∀ o ∈ l, lo ≤ o.coll k) (hhi : ∀ o ∈ l, o.coll k ≤ hi) :
    ∀ o ∈ mixCollisions pattern T l, lo ≤ o.coll k ∧ o.coll k ≤ hi := by
  have hnd : (l.map (·.flavour)).Nodup := hl.nodup_iff.mpr (by decide)
  unfold mixCollisions
  split_ifs
  · intro o ho
    simp only [List.mem_map] at ho
    obtain ⟨A, hA, rfl⟩ := ho
    have e : (l.map fun B => pattern k A.flavour B.flavour *
        ((collOf l B.flavour).getD fun _ => 0) k) =
        l.map fun B => pattern k A.flavour B.flavour * B.coll k := by
      apply List.map_congr_left
      intro B hB
      rw [collOf_of_nodup hnd hB]; rfl
    simp only [e]
    have hs : ∀ c : ℝ, (l.map fun B => pattern k A.flavour B.flavour * c).sum = c := by
      intro c
      rw [sum_over_flavours hl fun f => pattern k A.flavour f * c]
      linear_combination c * (hp k).row A.flavour
    constructor
    · rw [← hs lo]
      apply List.sum_le_sum
      intro B hB
      exact mul_le_mul_of_nonneg_left (hlo B hB) ((hp k).nonneg _ _)
    · conv_rhs => rw [← hs hi]
      apply List.sum_le_sum
      intro B hB
      exact mul_le_mul_of_nonneg_left (hhi B hB) ((hp k).nonneg _ _)
  · intro o ho; exact ⟨hlo o ho, hhi o ho⟩

/-- **C31.** Above all decoupling temperatures nothing is mixed. -/
theorem C31_inactive (pattern : ℕ → Flavour → Flavour → ℝ) (T : ℝ) (l : List Osc)
    (h : ∀ o ∈ l, o.Tdec ≤ T) : mixCollisions pattern T l = l := by
  unfold mixCollisions
  rw [if_neg]
  rintro ⟨o, ho, hlt⟩
  exact absurd (h o ho) (not_le.mpr hlt)

/-- **C31, refutation for a subset.** If only one flavour is listed and it mixes at all, its term is
reduced by the transition probability: the total is not conserved. -/
theorem C31_subset_loses (pattern : ℕ → Flavour → Flavour → ℝ) (T : ℝ) (o : Osc) (k : ℕ)
    (hT : T < o.Tdec) :
    totalColl (mixCollisions pattern T [o]) k = pattern k o.flavour o.flavour * o.coll k := by
  unfold mixCollisions
  rw [if_pos ⟨o, by simp, hT⟩]
  simp [totalColl, collOf]

/-- A concrete loss: only the electron flavour with maximal mixing; half of the term disappears. -/
example : ∃ l : List Osc, totalColl l 0 = 1 ∧
    totalColl (mixCollisions (fun _ => oscillationTable (Real.pi / 4) 0) 1 l) 0 = 1 / 2 := by
  refine ⟨[⟨.electron, 2, fun _ => 1⟩], by simp [totalColl], ?_⟩
  rw [C31_subset_loses _ _ _ _ (by norm_num)]
  have : 2 * (Real.pi / 4) = Real.pi / 2 := by ring
  simp only [oscillationTable, this]
  norm_num

/-- **C31, refutation for repeated flavours.** If a flavour is listed twice (for instance left- and
right-handed states kept apart), one of the two terms is forgotten. -/
theorem C31_duplicate_flavour_loses :
    ∃ l : List Osc, totalColl l 0 = 1 ∧
      ∀ θ12 θ13, totalColl (mixCollisions (fun _ => oscillationTable θ12 θ13) 1 l) 0 = 0 := by
  refine ⟨[⟨.electron, 2, fun _ => 1⟩, ⟨.electron, 2, fun _ => 0⟩], by simp [totalColl], ?_⟩
  intro θ12 θ13
  unfold mixCollisions
  rw [if_pos ⟨⟨.electron, 2, fun _ => 1⟩, by simp, by norm_num⟩]
  simp [totalColl, collOf]

/-- The hypotheses of the conservation theorem are met by three neutrinos in the order used by the
library, below their decoupling temperature. -/
example (c : OscConsts) (p : Params) (hT : p.T < 5) (k : ℕ) :
    totalColl (mixCollisions (fun k => oscillationParameters c true true p k) p.T
      [⟨.electron, 5, fun _ => 1⟩, ⟨.muon, 5, fun _ => 3⟩, ⟨.tau, 5, fun k => k⟩]) k = 4 + k := by
  have := C31_universe_conserves c true true p (fun k => k)
    [⟨.electron, 5, fun _ => 1⟩, ⟨.muon, 5, fun _ => 3⟩, ⟨.tau, 5, fun k => k⟩]
    (List.Perm.refl _) k
  rw [this]
  simp [totalColl]; ring

end PyBBN
