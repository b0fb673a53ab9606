import Verif.Props.Crossing
import Mathlib.Tactic.Ring
import Mathlib.Tactic.LinearCombination
import Mathlib.Algebra.BigOperators.Group.List.Lemmas
import Mathlib.Data.List.Perm.Subperm
/-!
# C43, C44, C45: matrix elements and the merging of integrals
-/
namespace PyBBN

set_option linter.unusedSectionVars false

/-! ## Specification -/

/-- Product of four-vectors. -/
def mink (u v : Fin 4 → ℝ) : ℝ := u 0 * v 0 - u 1 * v 1 - u 2 * v 2 - u 3 * v 3

theorem mink_comm (u v : Fin 4 → ℝ) : mink u v = mink v u := by unfold mink; ring

theorem mink_smul (a b : ℝ) (u v : Fin 4 → ℝ) : mink (a • u) (b • v) = a * b * mink u v := by
  unfold mink; simp only [Pi.smul_apply, smul_eq_mul]; ring

/-- `K + K1 (Qᵢ·Qⱼ)(Qₖ·Qₗ) + K2 mᵢ mⱼ (Qₖ·Qₗ)` for given indices. -/
noncomputable def ampAt (K1 K2 K : ℝ) (o : Ord4) (Q : ℕ → Fin 4 → ℝ) (m : ℕ → ℝ) : ℝ :=
  K + K1 * mink (Q o.a) (Q o.b) * mink (Q o.c) (Q o.d) + K2 * m o.a * m o.b * mink (Q o.c) (Q o.d)

/-- The squared amplitude described by a matrix element, as a function of the momenta and masses. -/
noncomputable def M4.amp (x : M4) (Q : ℕ → Fin 4 → ℝ) (m : ℕ → ℝ) : ℝ := ampAt x.K1 x.K2 x.K x.order Q m

/-! ## C43 -/

theorem ampAt_norm (K1 K2 K : ℝ) (o : Ord4) (Q : ℕ → Fin 4 → ℝ) (m : ℕ → ℝ) :
    ampAt K1 K2 K (normOrder o) Q m = ampAt K1 K2 K o Q m := by
  unfold ampAt normOrder
  dsimp only
  rcases le_total o.a o.b with h1 | h1 <;> rcases le_total o.c o.d with h2 | h2 <;>
    simp only [min_eq_left h1, max_eq_right h1, min_eq_right h1, max_eq_left h1,
      min_eq_left h2, max_eq_right h2, min_eq_right h2, max_eq_left h2]
  · rw [mink_comm (Q o.d)]
  · rw [mink_comm (Q o.b)]; ring
  · rw [mink_comm (Q o.b), mink_comm (Q o.d)]; ring

/-- **C43 (construction).** An element is built iff its four indices are distinct, and it describes the amplitude with
the indices in the order in which they were given. -/
theorem C43_construct (K1 K2 K : ℝ) (o : Ord4) :
    ([o.a, o.b, o.c, o.d].Nodup → ∃ x, mkM4 K1 K2 K o = .ok x ∧
      ∀ Q m, x.amp Q m = K + K1 * mink (Q o.a) (Q o.b) * mink (Q o.c) (Q o.d)
        + K2 * m o.a * m o.b * mink (Q o.c) (Q o.d)) ∧
    (¬ [o.a, o.b, o.c, o.d].Nodup → mkM4 K1 K2 K o = .error .generic) := by
  have hiff : [(normOrder o).a, (normOrder o).b, (normOrder o).c, (normOrder o).d].Nodup ↔
      [o.a, o.b, o.c, o.d].Nodup := by
    apply List.Perm.nodup_iff
    unfold normOrder
    dsimp only
    have p : ∀ a b : ℕ, [min a b, max a b].Perm [a, b] := by
      intro a b
      rcases le_total a b with h | h
      · rw [min_eq_left h, max_eq_right h]
      · rw [min_eq_right h, max_eq_left h]; exact List.Perm.swap ..
    exact (p o.a o.b).append (p o.c o.d)
  constructor
  · intro h
    refine ⟨⟨K1, K2, K, normOrder o⟩, ?_, ?_⟩
    · unfold mkM4
      dsimp only
      rw [if_pos (hiff.mpr h)]
    · intro Q m
      exact ampAt_norm K1 K2 K o Q m
  · intro h
    unfold mkM4
    dsimp only
    rw [if_neg (fun hc => h (hiff.mp hc))]

/-- **C43 (stacking).** If two elements are stackable, the merged one has the sum of the amplitudes, except that the
constant of the second is lost. -/
theorem C43_stack (x y : M4) (h : x.stackable y = true) (Q : ℕ → Fin 4 → ℝ) (m : ℕ → ℝ) :
    (x.iadd y).amp Q m = x.amp Q m + y.amp Q m - y.K := by
  unfold M4.stackable at h
  rw [decide_eq_true_eq] at h
  obtain ⟨a1, a2, a3, oa⟩ := x
  obtain ⟨b1, b2, b3, ob⟩ := y
  unfold M4.amp M4.iadd ampAt
  dsimp only at h ⊢
  rcases h with rfl | ⟨rfl, h1, h2⟩
  · ring
  · dsimp only
    rw [h1, h2]; ring

/-- Elements with a mass term on different pairs are not stackable: adding them would change the amplitude. -/
theorem C43_not_stackable (x y : M4)
    (hswap : (⟨x.order.c, x.order.d, x.order.a, x.order.b⟩ : Ord4) = y.order)
    (hne : x.order.a ≠ x.order.c) (hK : y.K2 ≠ 0) : x.stackable y = false := by
  unfold M4.stackable
  rw [decide_eq_false_iff_not]
  rintro (h | ⟨-, -, h⟩)
  · rw [← hswap] at h
    exact hne (congrArg Ord4.a h)
  · exact hK h

section
variable {S : Type*} [DecidableEq S]

theorem posOf_spec (r : List (Item S)) (v : ℕ) (hv : v ∈ r.map (·.index)) :
    ∃ j x, posOf r v = .ok j ∧ r[j]? = some x ∧ x.index = v := by
  unfold posOf
  cases h : ((r.mapIdx fun i x => (x.index, i)).reverse.find? fun q => q.1 = v) with
  | none =>
    exfalso
    rw [List.find?_eq_none] at h
    obtain ⟨x, hx, hxv⟩ := List.mem_map.mp hv
    obtain ⟨j, hj, rfl⟩ := List.getElem_of_mem hx
    refine h (r[j].index, j) ?_ (by simpa using hxv)
    rw [List.mem_reverse, List.mem_mapIdx]
    exact ⟨j, hj, rfl⟩
  | some q =>
    have h1 := List.find?_some h
    have h2 := List.mem_of_find?_eq_some h
    rw [List.mem_reverse, List.mem_mapIdx] at h2
    obtain ⟨j, hj, rfl⟩ := h2
    exact ⟨j, r[j], rfl, List.getElem?_eq_getElem hj, by simpa using h1⟩

/-- **C43 (relabelling).** Take an element whose four indices are the leg numbers of a reaction with crossed legs.
`init_integrals` succeeds, keeps `K1` and `K`, and the relabelled element, evaluated on the momenta and masses in the
order of the reaction, is the original element at the momenta with the sign of each crossed leg
reversed, times `(-1)` to the number of crossed legs. -/
theorem C43_relabel (r : List (Item S)) (x : M4)
    (hp : (r.map (·.index)).Perm [x.order.a, x.order.b, x.order.c, x.order.d])
    (s : ℕ → ℝ) (hs : ∀ it ∈ r, s it.index = if it.crossed then -1 else 1)
    (Q : ℕ → Fin 4 → ℝ) (m : ℕ → ℝ)
    (Q' : ℕ → Fin 4 → ℝ) (m' : ℕ → ℝ)
    (hQ : ∀ j it, r[j]? = some it → Q' j = Q it.index ∧ m' j = m it.index) :
    ∃ x', relabel r x = .ok x' ∧ x'.K = x.K ∧ x'.K1 = x.K1 ∧
      x'.amp Q' m' - x'.K =
        (-1) ^ (r.countP (·.crossed)) * (x.amp (fun v => s v • Q v) m - x.K) := by
  have mem : ∀ v ∈ [x.order.a, x.order.b, x.order.c, x.order.d], v ∈ r.map (·.index) :=
    fun v hv => hp.mem_iff.mpr hv
  obtain ⟨ja, xa, pa, ga, ia⟩ := posOf_spec r x.order.a (mem _ (by simp))
  obtain ⟨jb, xb, pb, gb, ib⟩ := posOf_spec r x.order.b (mem _ (by simp))
  obtain ⟨jc, xc, pc, gc, ic⟩ := posOf_spec r x.order.c (mem _ (by simp))
  obtain ⟨jd, xd, pd, gd, id⟩ := posOf_spec r x.order.d (mem _ (by simp))
  refine ⟨{ x with order := normOrder ⟨ja, jb, jc, jd⟩,
                   K2 := if xor xa.crossed xb.crossed then x.K2 * (-1) else x.K2 }, ?_, rfl, rfl, ?_⟩
  · unfold relabel
    rw [pa, pb, pc, pd]
    show M4.applyOrder x ⟨ja, jb, jc, jd⟩ r = _
    unfold M4.applyOrder
    dsimp only
    rw [ga, gb]
  · have hprod : ((-1 : ℝ)) ^ (r.countP (·.crossed)) =
        s x.order.a * s x.order.b * s x.order.c * s x.order.d := by
      have h1 : ((r.map (·.index)).map s).prod = s x.order.a * s x.order.b * s x.order.c * s x.order.d := by
        rw [(hp.map s).prod_eq]
        simp [mul_assoc]
      rw [← h1]
      have : ∀ l : List (Item S), (∀ it ∈ l, s it.index = if it.crossed then -1 else 1) →
          ((l.map (·.index)).map s).prod = (-1 : ℝ) ^ (l.countP (·.crossed)) := by
        intro l hl
        induction l with
        | nil => simp
        | cons y l ih =>
          rw [List.map_cons, List.map_cons, List.prod_cons,
            ih (fun it hit => hl it (List.mem_cons_of_mem _ hit)), hl y (List.mem_cons_self ..),
            List.countP_cons]
          cases y.crossed <;> simp [pow_succ]
      rw [this r hs]
    have sa := hs xa (List.mem_of_getElem? ga)
    have sb := hs xb (List.mem_of_getElem? gb)
    have sq : ∀ it ∈ r, s it.index * s it.index = 1 := by
      intro it hit
      rw [hs it hit]
      split_ifs <;> norm_num
    have sc := sq xc (List.mem_of_getElem? gc)
    have sd := sq xd (List.mem_of_getElem? gd)
    have sa' := sq xa (List.mem_of_getElem? ga)
    have sb' := sq xb (List.mem_of_getElem? gb)
    rw [hprod]
    unfold M4.amp
    dsimp only
    rw [ampAt_norm]
    unfold ampAt
    dsimp only
    rw [(hQ _ _ ga).1, (hQ _ _ ga).2, (hQ _ _ gb).1, (hQ _ _ gb).2, (hQ _ _ gc).1, (hQ _ _ gd).1,
      mink_smul, mink_smul, ← ia, ← ib, ← ic, ← id]
    have hK2 : (if xor xa.crossed xb.crossed then x.K2 * (-1) else x.K2) =
        x.K2 * (s xa.index * s xb.index) := by
      rw [sa, sb]
      cases xa.crossed <;> cases xb.crossed <;> simp
    rw [hK2]
    generalize mink (Q xa.index) (Q xb.index) = u
    generalize mink (Q xc.index) (Q xd.index) = w
    generalize s xa.index = A at *
    generalize s xb.index = B at *
    generalize s xc.index = C at *
    generalize s xd.index = D at *
    have e1 : A * B * C * D * (A * B) * (C * D) = 1 := by
      calc A * B * C * D * (A * B) * (C * D) = (A * A) * (B * B) * (C * C) * (D * D) := by ring
        _ = 1 := by rw [sa', sb', sc, sd]; norm_num
    have e2 : A * B * C * D * (C * D) = A * B := by
      calc A * B * C * D * (C * D) = A * B * (C * C) * (D * D) := by ring
        _ = A * B := by rw [sc, sd]; ring
    linear_combination (-(x.K1 * u * w)) * e1 - (x.K2 * m xa.index * m xb.index * w) * e2

end

/-- An `e ν → e ν`-like element: the four legs in the order 0, 2, 1, 3 of a crossed reaction. -/
example : ∃ x', relabel (S := Fin 3) [⟨-1, 0, false, 0, false⟩, ⟨-1, 1, true, 2, true⟩, ⟨1, 1, true, 1, true⟩,
      ⟨1, 2, false, 3, false⟩] ⟨1, 1, 0, ⟨0, 1, 2, 3⟩⟩ = .ok x' ∧ x'.order = ⟨0, 2, 1, 3⟩ ∧ x'.K2 = -1 := by
  refine ⟨⟨1, -1, 0, ⟨0, 2, 1, 3⟩⟩, ?_, rfl, rfl⟩
  simp [relabel, posOf, M4.applyOrder, normOrder, bind, Except.bind]

end PyBBN
