import Verif.Model.Assembly
import Verif.Lemmas.DSymm
import Mathlib.Data.Sym.Sym2
/-!
# Matrix elements which the C++ code does not distinguish

The pairs of `order` may be exchanged and so may the particles of a pair, if the mass term `K2` is absent.
-/
namespace PyBBN

/-- The kernel of `integrand_full` does not distinguish the lists. -/
def SameKernel (Ms Ms' : List CM) : Prop := ∀ (r : Fin 4 → Reactant) (p E : Fin 4 → ℝ), kernel4 r Ms p E = kernel4 r Ms' p E

theorem SameKernel.refl (Ms : List CM) : SameKernel Ms Ms := fun _ _ _ => rfl
theorem SameKernel.symm {Ms Ms' : List CM} (h : SameKernel Ms Ms') : SameKernel Ms' Ms := fun r p E => (h r p E).symm
theorem SameKernel.trans {Ms Ms' Ms'' : List CM} (h : SameKernel Ms Ms') (h' : SameKernel Ms' Ms'') : SameKernel Ms Ms'' :=
  fun r p E => (h r p E).trans (h' r p E)

theorem SameKernel.integrand {Ms Ms' : List CM} (h : SameKernel Ms Ms') (p0 p1 p2 : ℝ) (r : Fin 4 → Reactant) (k : ℤ) :
    integrandFull4 p0 p1 p2 r Ms k = integrandFull4 p0 p1 p2 r Ms' k := by
  unfold integrandFull4
  dsimp only
  rw [h]

theorem SameKernel.integration {Ms Ms' : List CM} (h : SameKernel Ms Ms') (r : Fin 4 → Reactant) (kind : ℤ) (ps : List ℝ)
    (min1 max1 min2 max2 max3 : ℝ) (sched : List (List ℕ)) :
    integration4Exact r Ms kind ps min1 max1 min2 max2 max3 sched =
      integration4Exact r Ms' kind ps min1 max1 min2 max2 max3 sched := by
  have e : exactQuad4 r Ms kind max3 (min2, max2) = exactQuad4 r Ms' kind max3 (min2, max2) := by
    funext p0 lo hi
    unfold exactQuad4
    simp only [h.integrand]
  unfold integration4Exact
  rw [e]

/-- The same two pairs of particles. -/
def SamePairs (o o' : Fin 4 → Fin 4) : Prop :=
  (s(o 0, o 1) = s(o' 0, o' 1) ∧ s(o 2, o 3) = s(o' 2, o' 3)) ∨
    (s(o 0, o 1) = s(o' 2, o' 3) ∧ s(o 2, o 3) = s(o' 0, o' 1))

theorem Db2_swap (a b c : ℝ) : Db2 a b c = Db2 a c b := by
  unfold Db2 ordMax ordMin
  rcases lt_trichotomy b c with h | h | h
  · simp [h, not_lt.mpr h.le]
  · rw [h]
  · simp [h, not_lt.mpr h.le]

theorem D_within (p E m : Fin 4 → ℝ) (K1 : ℝ) (s : Fin 4 → ℤ) (o o' : Fin 4 → Fin 4) (h1 : s(o 0, o 1) = s(o' 0, o' 1))
    (h2 : s(o 2, o 3) = s(o' 2, o' 3)) : D p E m K1 0 o s = D p E m K1 0 o' s := by
  have z : ¬ ((0 : ℝ) ≠ 0) := not_not.mpr rfl
  unfold D
  dsimp only
  simp only [if_neg z]
  rcases Sym2.eq_iff.mp h1 with ⟨a, b⟩ | ⟨a, b⟩ <;> rcases Sym2.eq_iff.mp h2 with ⟨c, d⟩ | ⟨c, d⟩ <;> rw [a, b, c, d]
  · rw [D2_swap34 (p (o' 0)), D2_swap12 (p (o' 3))]
    congr 1; split_ifs <;> [ring1; rfl]
  · rw [D2_swap12 (p (o' 1)), D2_swap34 (p (o' 2)) (p (o' 3)) (p (o' 1))]
    congr 1; split_ifs <;> [ring1; rfl]
  · rw [D2_swap12 (p (o' 1)), D2_swap34 (p (o' 0)), D2_swap12 (p (o' 3)), D2_swap34 (p (o' 2)) (p (o' 3)) (p (o' 1))]
    congr 1; split_ifs <;> [ring1; rfl]

theorem D_across (p E m : Fin 4 → ℝ) (K1 : ℝ) (s : Fin 4 → ℤ) (o o' : Fin 4 → Fin 4) (h0 : o 0 = o' 2) (h1 : o 1 = o' 3)
    (h2 : o 2 = o' 0) (h3 : o 3 = o' 1) : D p E m K1 0 o s = D p E m K1 0 o' s := by
  have z : ¬ ((0 : ℝ) ≠ 0) := not_not.mpr rfl
  unfold D
  dsimp only
  simp only [if_neg z]
  rw [h0, h1, h2, h3]
  congr 1; split_ifs <;> [ring1; rfl]

theorem Db_within (p E m : Fin 4 → ℝ) (K1 : ℝ) (s : Fin 4 → ℤ) (o o' : Fin 4 → Fin 4) (h1 : s(o 0, o 1) = s(o' 0, o' 1))
    (h2 : s(o 2, o 3) = s(o' 2, o' 3)) : Db p E m K1 0 o s = Db p E m K1 0 o' s := by
  unfold Db
  dsimp only
  rw [if_neg (not_not.mpr rfl), if_neg (not_not.mpr rfl)]
  rcases Sym2.eq_iff.mp h1 with ⟨a, b⟩ | ⟨a, b⟩ <;> rcases Sym2.eq_iff.mp h2 with ⟨c, d⟩ | ⟨c, d⟩ <;> rw [a, b, c, d]
  · rw [Db2_swap _ (p (o' 3)) (p (o' 2)), mul_comm (s (o' 3) : ℝ), add_comm (o' 3), mul_comm (o' 3).val]
  · rw [Db2_swap _ (p (o' 1)) (p (o' 0)), mul_comm (s (o' 1) : ℝ), add_comm (o' 1), mul_comm (o' 1).val]
  · rw [Db2_swap _ (p (o' 3)) (p (o' 2)), mul_comm (s (o' 3) : ℝ), add_comm (o' 3), mul_comm (o' 3).val,
      Db2_swap _ (p (o' 1)) (p (o' 0)), mul_comm (s (o' 1) : ℝ), add_comm (o' 1), mul_comm (o' 1).val]

theorem Db_across (p E m : Fin 4 → ℝ) (K1 : ℝ) (s : Fin 4 → ℤ) (o o' : Fin 4 → Fin 4) (hb : o.Bijective) (h0 : o 0 = o' 2)
    (h1 : o 1 = o' 3) (h2 : o 2 = o' 0) (h3 : o 3 = o' 1) : Db p E m K1 0 o s = Db p E m K1 0 o' s := by
  unfold Db
  dsimp only
  rw [← h0, ← h1, ← h2, ← h3]
  rw [if_neg (not_not.mpr rfl), if_neg (not_not.mpr rfl)]
  have hz : ∀ i : Fin 4, i.val = 0 ↔ i = 0 := by decide
  have one : ¬ ((o 0).val * (o 1).val = 0 ∧ (o 2).val * (o 3).val = 0) := by
    rintro ⟨a, b⟩
    have n : ∀ i j, o i = 0 → o j = 0 → i = j := fun i j hi hj => hb.1 (hi.trans hj.symm)
    rw [mul_eq_zero, hz, hz] at a b
    rcases a with a | a <;> rcases b with b | b <;> exact absurd (n _ _ a b) (by decide)
  by_cases c1 : (o 0).val * (o 1).val = 0
  · have c2 : ¬ (o 2).val * (o 3).val = 0 := fun h => one ⟨c1, h⟩
    rw [if_pos c1, if_neg c2, if_pos c1]
  · by_cases c2 : (o 2).val * (o 3).val = 0
    · rw [if_neg c1, if_pos c2, if_pos c2]
    · rw [if_neg c1, if_neg c2, if_neg c2, if_neg c1]

/-- Elements without mass terms that differ in the order of the pairs or within them. -/
structure SameElement (M M' : CM) : Prop where
  K : M.K = 0
  K' : M'.K = 0
  K1 : M.K1 = M'.K1
  K2 : M.K2 = 0
  K2' : M'.K2 = 0
  order : M.order.Bijective
  pairs : SamePairs M.order M'.order

theorem SameElement.D_eq {M M' : CM} (h : SameElement M M') (p E m : Fin 4 → ℝ) (s : Fin 4 → ℤ) :
    D p E m M.K1 M.K2 M.order s = D p E m M'.K1 M'.K2 M'.order s := by
  rw [h.K2, h.K2', h.K1]
  rcases h.pairs with ⟨a, b⟩ | ⟨a, b⟩
  · exact D_within _ _ _ _ _ _ _ a b
  · rw [D_across p E m M'.K1 s M'.order ![M'.order 2, M'.order 3, M'.order 0, M'.order 1] rfl rfl rfl rfl]
    exact D_within _ _ _ _ _ _ _ a b

theorem SameElement.Db_eq {M M' : CM} (h : SameElement M M') (p E m : Fin 4 → ℝ) (s : Fin 4 → ℤ) :
    Db p E m M.K1 M.K2 M.order s = Db p E m M'.K1 M'.K2 M'.order s := by
  rw [h.K2, h.K2', h.K1]
  rcases h.pairs with ⟨a, b⟩ | ⟨a, b⟩
  · exact Db_within _ _ _ _ _ _ _ a b
  · rw [Db_across p E m M'.K1 s M.order ![M.order 2, M.order 3, M.order 0, M.order 1] h.order rfl rfl rfl rfl]
    exact Db_within _ _ _ _ _ _ _ b a

theorem sameKernel_of {Ms Ms' : List CM} (h : List.Forall₂ SameElement Ms Ms') : SameKernel Ms Ms' := by
  intro r p E
  have hD : ∀ {Ms Ms' : List CM}, List.Forall₂ SameElement Ms Ms' → ∀ (m : Fin 4 → ℝ) (s : Fin 4 → ℤ),
      (Ms.map fun M => D p E m M.K1 M.K2 M.order s).sum = (Ms'.map fun M => D p E m M.K1 M.K2 M.order s).sum ∧
      (Ms.map fun M => Db p E m M.K1 M.K2 M.order s).sum = (Ms'.map fun M => Db p E m M.K1 M.K2 M.order s).sum := by
    intro Ms Ms' h m s
    induction h with
    | nil => exact ⟨rfl, rfl⟩
    | cons h _ ih =>
      simp only [List.map_cons, List.sum_cons]
      rw [h.D_eq, h.Db_eq, ih.1, ih.2]
      exact ⟨rfl, rfl⟩
  have h' := h
  cases h with
  | nil => rfl
  | cons h1 h2 =>
    unfold kernel4
    dsimp only
    rw [(hD h' _ _).1, (hD h' _ _).2, h1.K, h1.K']

end PyBBN
