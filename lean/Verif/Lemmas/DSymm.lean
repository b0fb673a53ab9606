import Verif.Lemmas.DFunctions
import Mathlib.GroupTheory.Perm.Basic
import Mathlib.GroupTheory.Perm.Sign
import Mathlib.Topology.Algebra.Order.Field
import Mathlib.Topology.Algebra.Polynomial
import Mathlib.Topology.Order.Lattice
/-! Helper lemmas: permutation symmetry and continuity of the kernels. -/
namespace PyBBN

/-- A property of four numbers that is invariant under neighbour swaps and holds for descending
arguments holds always. -/
theorem sort4 (P : ℝ → ℝ → ℝ → ℝ → Prop) (s12 : ∀ a b c d, P a b c d → P b a c d)
    (s23 : ∀ a b c d, P a b c d → P a c b d) (s34 : ∀ a b c d, P a b c d → P a b d c)
    (hs : ∀ a b c d, b ≤ a → c ≤ b → d ≤ c → P a b c d) (a b c d : ℝ) : P a b c d := by
  have l3 : ∀ a b c d, b ≤ a → c ≤ b → P a b c d := by
    intro a b c d h1 h2
    rcases le_total d c with h | h
    · exact hs a b c d h1 h2 h
    · rcases le_total d b with h' | h'
      · exact s34 _ _ _ _ (hs a b d c h1 h' h)
      · rcases le_total d a with h'' | h''
        · exact s34 _ _ _ _ (s23 _ _ _ _ (hs a d b c h'' h' h2))
        · exact s34 _ _ _ _ (s23 _ _ _ _ (s12 _ _ _ _ (hs d a b c h'' h1 h2)))
  have l2 : ∀ a b c d, b ≤ a → P a b c d := by
    intro a b c d h1
    rcases le_total c b with h | h
    · exact l3 a b c d h1 h
    · rcases le_total c a with h' | h'
      · exact s23 _ _ _ _ (l3 a c b d h' h)
      · exact s23 _ _ _ _ (s12 _ _ _ _ (l3 c a b d h' h1))
  rcases le_total b a with h | h
  · exact l2 a b c d h
  · exact s12 _ _ _ _ (l2 b a c d h)

/-- Invariance under the three neighbour swaps gives invariance under all 24 permutations. -/
theorem symm4 (S : ℝ → Prop) (f : ℝ → ℝ → ℝ → ℝ → ℝ)
    (h12 : ∀ a b c d, S a → S b → S c → S d → f a b c d = f b a c d)
    (h23 : ∀ a b c d, S a → S b → S c → S d → f a b c d = f a c b d)
    (h34 : ∀ a b c d, S a → S b → S c → S d → f a b c d = f a b d c)
    (σ : Equiv.Perm (Fin 4)) (q : Fin 4 → ℝ) (hq : ∀ i, S (q i)) :
    f (q (σ 0)) (q (σ 1)) (q (σ 2)) (q (σ 3)) = f (q 0) (q 1) (q 2) (q 3) := by
  revert q
  refine Equiv.Perm.swap_induction_on σ (fun q _ => rfl) ?_
  intro g x y hxy ih q hq
  have h := ih (q ∘ Equiv.swap x y) (fun i => hq _)
  simp only [Function.comp_apply] at h
  simp only [Equiv.Perm.mul_apply]
  rw [h]
  clear h ih
  generalize hA : q 0 = A
  generalize hB : q 1 = B
  generalize hC : q 2 = C
  generalize hD : q 3 = D
  have sA : S A := hA ▸ hq 0
  have sB : S B := hB ▸ hq 1
  have sC : S C := hC ▸ hq 2
  have sD : S D := hD ▸ hq 3
  have h13 : f C B A D = f A B C D := by
    rw [h12 C B A D sC sB sA sD, h23 B C A D sB sC sA sD, h12 B A C D sB sA sC sD]
  have h24 : f A D C B = f A B C D := by
    rw [h23 A D C B sA sD sC sB, h34 A C D B sA sC sD sB, h23 A C B D sA sC sB sD]
  have h14 : f D B C A = f A B C D := by
    rw [h34 D B C A sD sB sC sA]
    rw [h12 D B A C sD sB sA sC, h23 B D A C sB sD sA sC, h12 B A D C sB sA sD sC,
      h34 A B D C sA sB sD sC]
  have h12' := h12 B A C D sB sA sC sD
  have h23' := h23 A C B D sA sC sB sD
  have h34' := h34 A B D C sA sB sD sC
  fin_cases x <;> fin_cases y <;>
    first
    | exact absurd rfl hxy
    | (simp only [Fin.zero_eta, Fin.mk_one, Fin.reduceFinMk, Equiv.swap_apply_left,
        Equiv.swap_apply_right]
       simp only [Equiv.swap_apply_def, Fin.isValue, Fin.reduceEq, if_true, if_false, zero_ne_one,
        one_ne_zero, hA, hB, hC, hD]
       assumption)

theorem exLo_pairs (a b c d : ℝ) : exLo c d a b = exLo a b c d := by unfold exLo; rw [max_comm]
theorem exHi_pairs (a b c d : ℝ) : exHi c d a b = exHi a b c d := by
  unfold exHi; rw [exLo_pairs, min_comm]
theorem exLo_swap (a b c d : ℝ) : exLo b a c d = exLo a b c d := by unfold exLo; rw [abs_sub_comm]
theorem exHi_swap (a b c d : ℝ) : exHi b a c d = exHi a b c d := by
  unfold exHi; rw [exLo_swap, add_comm b a]
theorem exLo_swap' (a b c d : ℝ) : exLo a b d c = exLo a b c d := by
  unfold exLo; rw [abs_sub_comm d]
theorem exHi_swap' (a b c d : ℝ) : exHi a b d c = exHi a b c d := by
  unfold exHi; rw [exLo_swap', add_comm d c]

theorem ordMax_comm (a b : ℝ) : ordMax a b = ordMax b a := by rw [ordMax_eq, ordMax_eq, max_comm]
theorem ordMin_comm (a b : ℝ) : ordMin a b = ordMin b a := by rw [ordMin_eq, ordMin_eq, min_comm]

theorem D2_swap12 (a b c d : ℝ) : D2 a b c d = D2 b a c d := by
  unfold D2; rw [ordMax_comm a b, ordMin_comm a b]
theorem D2_swap34 (a b c d : ℝ) : D2 a b c d = D2 a b d c := by
  unfold D2; rw [ordMax_comm c d, ordMin_comm c d]
theorem D3_swap12 (a b c d : ℝ) : D3 a b c d = D3 b a c d := by
  unfold D3; rw [ordMax_comm a b, ordMin_comm a b]
theorem D3_swap34 (a b c d : ℝ) : D3 a b c d = D3 a b d c := by
  unfold D3; rw [ordMax_comm c d, ordMin_comm c d]
theorem D3_pairs {a b c d : ℝ} (ha : 0 ≤ a) (hb : 0 ≤ b) (hc : 0 ≤ c) (hd : 0 ≤ d) :
    D3 c d a b = D3 a b c d := by
  rw [D3_overlap ha hb hc hd, D3_overlap hc hd ha hb, exLo_pairs, exHi_pairs]; ring

theorem ord_of_le {a b : ℝ} (h : b ≤ a) : ordMax a b = a ∧ ordMin a b = b := by
  rw [ordMax_eq, ordMin_eq]; exact ⟨max_eq_left h, min_eq_right h⟩

/-- For descending arguments the three pairings give the same value. -/
theorem D3_pairings_sorted {a b c d : ℝ} (h1 : b ≤ a) (h2 : c ≤ b) (h3 : d ≤ c) (h0 : 0 ≤ d) :
    D3 a b c d = D3 a c b d ∧ D3 a b c d = D3 a d b c := by
  unfold D3
  rw [(ord_of_le h1).1, (ord_of_le h1).2, (ord_of_le h3).1, (ord_of_le h3).2,
    (ord_of_le (h2.trans h1)).1, (ord_of_le (h2.trans h1)).2, (ord_of_le (h3.trans h2)).1,
    (ord_of_le (h3.trans h2)).2, (ord_of_le (h3.trans (h2.trans h1))).1,
    (ord_of_le (h3.trans (h2.trans h1))).2, (ord_of_le h2).1, (ord_of_le h2).2]
  unfold D3core
  by_cases hc : a > b + c + d
  · rw [if_pos (Or.inl hc), if_pos (Or.inl (by linarith)), if_pos (Or.inl (by linarith))]
    exact ⟨rfl, rfl⟩
  · rw [if_neg (by push Not; constructor <;> linarith : ¬ (a > b + c + d ∨ c > b + a + d)),
      if_neg (by push Not; constructor <;> linarith : ¬ (a > c + b + d ∨ b > c + a + d)),
      if_neg (by push Not; constructor <;> linarith : ¬ (a > d + b + c ∨ b > d + a + c))]
    rw [if_pos (by linarith : a + b ≥ c + d), if_pos (by linarith : a + c ≥ b + d)]
    by_cases hp : a + d ≥ b + c
    · rw [if_pos hp, if_pos (by linarith : a + d ≥ c + b), if_pos hp,
        if_pos (by linarith : a + c ≥ d + b)]
      constructor <;> ring
    · rw [if_neg hp, if_neg (by linarith : ¬ a + d ≥ c + b), if_neg hp,
        if_pos (by linarith : a + c ≥ d + b)]
      constructor <;> ring

theorem D3_pairings (a b c d : ℝ) : 0 ≤ a → 0 ≤ b → 0 ≤ c → 0 ≤ d →
    D3 a b c d = D3 a c b d ∧ D3 a b c d = D3 a d b c := by
  refine sort4 (fun a b c d => 0 ≤ a → 0 ≤ b → 0 ≤ c → 0 ≤ d →
    D3 a b c d = D3 a c b d ∧ D3 a b c d = D3 a d b c) ?_ ?_ ?_ ?_ a b c d
  · intro a b c d h hb ha hc hd
    obtain ⟨e1, e2⟩ := h ha hb hc hd
    rw [D3_swap12 b a c d, D3_swap34 b c a d, ← D3_pairs hb hc hd ha, D3_swap12 d a b c,
      ← D3_pairs hb hd ha hc]
    exact ⟨e2, e1⟩
  · intro a b c d h ha hc hb hd
    obtain ⟨e1, e2⟩ := h ha hb hc hd
    rw [D3_swap34 a d c b]
    exact ⟨e1.symm, e1.symm.trans e2⟩
  · intro a b c d h ha hb hd hc
    obtain ⟨e1, e2⟩ := h ha hb hc hd
    rw [D3_swap34 a b d c]
    exact ⟨e2, e1⟩
  · intro a b c d h1 h2 h3 ha hb hc hd
    exact D3_pairings_sorted h1 h2 h3 hd

end PyBBN
