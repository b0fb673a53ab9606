import Verif.Lemmas.Boost
import Verif.Props.RestWidth
/-!
# C114: decays of moving particles into three products with mass

Specification: the width at rest of `RestWidth`, times the factor `m / E` of time dilation.
-/
namespace PyBBN

open MeasureTheory Set

/-! ## The kernel -/

/-- The products other than `j`. -/
def otherA (j : Fin 4) : Fin 4 := if j = 1 then 2 else 1
def otherB (j : Fin 4) : Fin 4 := if j = 3 then 2 else 3

theorem others_of (j k l : Fin 4) (hj : j ≠ 0) (hk : k ≠ 0) (hl : l ≠ 0) (h1 : j ≠ k) (h2 : k ≠ l) (h3 : j ≠ l) :
    (k = otherA j ∧ l = otherB j) ∨ (k = otherB j ∧ l = otherA j) := by
  rcases three_labels j k l hj hk hl h1 h2 h3 with ⟨rfl, rfl, rfl⟩ | ⟨rfl, rfl, rfl⟩ | ⟨rfl, rfl, rfl⟩ |
      ⟨rfl, rfl, rfl⟩ | ⟨rfl, rfl, rfl⟩ | ⟨rfl, rfl, rfl⟩ <;> decide

/-- Scalar products of four-momenta in the frame where the particle moves are those of the rest frame. -/
theorem moving_dots {m p e : Fin 4 → ℝ} (hm0 : 0 < m 0) (hsh : ∀ i, e i ^ 2 = p i ^ 2 + m i ^ 2)
    (hcons : e 0 = e 1 + e 2 + e 3) {s : Fin 4 → ℤ} (hs0 : s 0 = -1) (hs : ∀ i, i ≠ 0 → s i = 1) {j k l : Fin 4} (hj : j ≠ 0)
    (hk : k ≠ 0) (hl : l ≠ 0) (hjk : j ≠ k) (hkl : k ≠ l) (hjl : j ≠ l) (d : ℝ) :
    fourProduct e p s 0 j d = m 0 * restEnergy (e 0) (m 0) (m j) (e j) d ∧
    fourProduct e p s j 0 d = m 0 * restEnergy (e 0) (m 0) (m j) (e j) d ∧
    fourProduct e p s k l d = restDot m j (restEnergy (e 0) (m 0) (m j) (e j) d) k l := by
  have hsi : ∀ i, i ≠ 0 → ((s i : ℤ) : ℝ) = 1 := fun i h => by rw [hs i h]; norm_num
  have hs0' : ((s 0 : ℤ) : ℝ) = -1 := by rw [hs0]; norm_num
  have hM : m 0 * restEnergy (e 0) (m 0) (m j) (e j) d = (m 0 ^ 2 + m j ^ 2 - (e 0 - e j) ^ 2 + d ^ 2) / 2 := by
    unfold restEnergy; field_simp
  have hc : e 0 = e j + e k + e l := by
    rcases three_labels j k l hj hk hl hjk hkl hjl with ⟨rfl, rfl, rfl⟩ | ⟨rfl, rfl, rfl⟩ | ⟨rfl, rfl, rfl⟩ |
      ⟨rfl, rfl, rfl⟩ | ⟨rfl, rfl, rfl⟩ | ⟨rfl, rfl, rfl⟩ <;> rw [hcons] <;> ring
  refine ⟨?_, ?_, ?_⟩
  · rw [hM]; unfold fourProduct dot
    rw [hs0', hsi j hj]
    linear_combination (hsh 0) / 2 + (hsh j) / 2
  · rw [hM]; unfold fourProduct dot
    rw [hs0', hsi j hj]
    linear_combination (hsh 0) / 2 + (hsh j) / 2
  · unfold restDot
    rw [if_neg (by tauto), mul_assoc, hM]
    unfold fourProduct dot
    rw [hsi k hk, hsi l hl, hc]
    linear_combination -(hsh k) / 2 - (hsh l) / 2

/-- Moving: the kernel of one matrix element. -/
theorem D_moving {m p e : Fin 4 → ℝ} (hm0 : 0 < m 0) (hsh : ∀ i, e i ^ 2 = p i ^ 2 + m i ^ 2)
    (hcons : e 0 = e 1 + e 2 + e 3) (hpn : ∀ i, 0 ≤ p i) (s : Fin 4 → ℤ) (hs0 : s 0 = -1) (hs : ∀ i, i ≠ 0 → s i = 1) (M : CM)
    (ho : M.order.Bijective) :
    D p e m M.K1 M.K2 M.order s = pairAverage (p 0) (p (partner M.order)) (p (otherA (partner M.order)))
      (p (otherB (partner M.order)))
      (fun d => restAmplitude m M (restEnergy (e 0) (m 0) (m (partner M.order)) (e (partner M.order)) d)) := by
  obtain ⟨σ, hσ⟩ : ∃ σ : Equiv.Perm (Fin 4), M.order = σ := ⟨Equiv.ofBijective M.order ho, rfl⟩
  unfold restAmplitude
  rw [hσ, C63_average p e m M.K1 M.K2 σ s hpn]
  dsimp only
  have hne : ∀ i j : Fin 4, i ≠ j → σ i ≠ σ j := fun i j h h' => h (σ.injective h')
  have h01 := hne 0 1 (by decide); have h02 := hne 0 2 (by decide); have h03 := hne 0 3 (by decide)
  have h12 := hne 1 2 (by decide); have h13 := hne 1 3 (by decide); have h23 := hne 2 3 (by decide)
  have d0 : ∀ (j : Fin 4) (E : ℝ) (b : Fin 4), restDot m j E 0 b = m 0 * E := fun j E b => by unfold restDot; rw [if_pos (Or.inl rfl)]
  have d1 : ∀ (j : Fin 4) (E : ℝ) (b : Fin 4), restDot m j E b 0 = m 0 * E := fun j E b => by unfold restDot; rw [if_pos (Or.inr rfl)]
  have oth : ∀ {j k l : Fin 4} (f : ℝ → ℝ), j ≠ 0 → k ≠ 0 → l ≠ 0 → j ≠ k → k ≠ l → j ≠ l →
      pairAverage (p 0) (p j) (p k) (p l) f = pairAverage (p 0) (p j) (p (otherA j)) (p (otherB j)) f := by
    intro j k l f hj hk hl h1 h2 h3
    rcases others_of j k l hj hk hl h1 h2 h3 with ⟨rfl, rfl⟩ | ⟨rfl, rfl⟩
    · rfl
    · exact pairAverage_swap' _ _ _ _ _
  rcases order_cases σ with ⟨z, n1, n2, n3⟩ | ⟨z, n1, n2, n3⟩ | ⟨z, n1, n2, n3⟩ | ⟨z, n1, n2, n3⟩
  · have hpart : partner σ = σ 1 := by unfold partner; rw [if_pos z]
    rw [hpart, z, oth _ n1 n2 n3 h12 h23 h13]
    congr 1
    funext d
    obtain ⟨v1, -, v3⟩ := moving_dots hm0 hsh hcons hs0 hs n1 n2 n3 h12 h23 h13 d
    unfold amplitude
    rw [v1, v3, d0]
    ring
  · have hpart : partner σ = σ 0 := by unfold partner; rw [if_neg n1, if_pos z]
    rw [hpart, z, pairAverage_swap, oth _ n1 n2 n3 h02 h23 h03]
    congr 1
    funext d
    obtain ⟨-, v2, v3⟩ := moving_dots hm0 hsh hcons hs0 hs n1 n2 n3 h02 h23 h03 d
    unfold amplitude
    rw [v2, v3, d1]
    ring
  · have hpart : partner σ = σ 3 := by unfold partner; rw [if_neg n1, if_neg n2, if_pos z]
    rw [hpart, z, pairAverage_pairs, oth _ n3 n1 n2 h03.symm h01 h13.symm]
    congr 1
    funext d
    obtain ⟨v1, -, v3⟩ := moving_dots hm0 hsh hcons hs0 hs n3 n1 n2 h03.symm h01 h13.symm d
    unfold amplitude
    rw [v1, v3, d0]
    ring
  · have hpart : partner σ = σ 2 := by unfold partner; rw [if_neg n1, if_neg n2, if_neg n3]
    rw [hpart, z, pairAverage_pairs, pairAverage_swap, oth _ n3 n1 n2 h02.symm h01 h12.symm]
    congr 1
    funext d
    obtain ⟨-, v2, v3⟩ := moving_dots hm0 hsh hcons hs0 hs n3 n1 n2 h02.symm h01 h12.symm d
    unfold amplitude
    rw [v2, v3, d1]
    ring

/-- No average where momentum cannot be conserved. -/
theorem pairAverage_closed {q x y z : ℝ} (f : ℝ → ℝ) (h : ¬ (q ≤ x + y + z ∧ x ≤ q + y + z ∧ y ≤ q + x + z ∧ z ≤ q + x + y)) :
    pairAverage q x y z f = 0 := by
  unfold pairAverage
  rw [if_neg]
  intro hc
  have h1 := (le_max_left _ _).trans (hc.trans (min_le_right _ _))
  have h2 := (le_max_right _ _).trans (hc.trans (min_le_left _ _))
  obtain ⟨a, b⟩ := abs_le.mp h1
  obtain ⟨a', b'⟩ := abs_le.mp h2
  exact h ⟨by linarith, by linarith, by linarith, by linarith⟩

/-! ## The integrand and its integral -/

/-- The average of a matrix element as a function of the energies of two products. -/
noncomputable def movingW (m : Fin 4 → ℝ) (E q : ℝ) (M : CM) (x y : ℝ) : ℝ :=
  let j := partner M.order
  let P : Fin 4 → ℝ := fun i => momOf (m i) (prodEn E x y i)
  pairAverage q (P j) (P (otherA j)) (P (otherB j)) fun d => restAmplitude m M (restEnergy E (m 0) (m j) (prodEn E x y j) d)

section
variable {r : Fin 4 → Reactant} (h : RestDecay r) {Ms : List CM} (hMs : Ms ≠ [])
  (hK : ∀ M ∈ Ms, M.K = 0) (ho : ∀ M ∈ Ms, M.order.Bijective)
include h

theorem moving_onShell {q a b : ℝ} (hq : 0 ≤ q) (ha : 0 ≤ a) (hb : 0 ≤ b)
    (hab : energyOf (r 1).specie.m a + energyOf (r 2).specie.m b + (r 3).specie.m ≤ energyOf (r 0).specie.m q) :
    OnShell r ![q, a, b, momOf (r 3).specie.m (energyOf (r 0).specie.m q - energyOf (r 1).specie.m a - energyOf (r 2).specie.m b)]
      ![energyOf (r 0).specie.m q, energyOf (r 1).specie.m a, energyOf (r 2).specie.m b,
        energyOf (r 0).specie.m q - energyOf (r 1).specie.m a - energyOf (r 2).specie.m b] where
  sides i := by
    by_cases hi : i = 0
    · right; rw [hi]; exact h.side0
    · left; exact h.side i hi
  mass i := h.mass i
  mom i := by
    fin_cases i
    · exact hq
    · exact ha
    · exact hb
    · exact momOf_nonneg _ _
  energy i := by
    fin_cases i
    · rfl
    · rfl
    · rfl
    · have : (r 3).specie.m ≤ energyOf (r 0).specie.m q - energyOf (r 1).specie.m a - energyOf (r 2).specie.m b := by linarith
      exact (energyOf_momOf _ _ (h.mass 3) this).symm
  conserved := by
    rw [Fin.sum_univ_four, h.side0, h.side 1 (by decide), h.side 2 (by decide), h.side 3 (by decide)]
    simp

include hMs hK ho

theorem moving_kernel {q a b : ℝ} (hq : 0 < q) (ha : 0 ≤ a) (hb : 0 ≤ b)
    (hab : energyOf (r 1).specie.m a + energyOf (r 2).specie.m b + (r 3).specie.m ≤ energyOf (r 0).specie.m q) :
    kernel4 r Ms ![q, a, b, momOf (r 3).specie.m (energyOf (r 0).specie.m q - energyOf (r 1).specie.m a - energyOf (r 2).specie.m b)]
      ![energyOf (r 0).specie.m q, energyOf (r 1).specie.m a, energyOf (r 2).specie.m b,
        energyOf (r 0).specie.m q - energyOf (r 1).specie.m a - energyOf (r 2).specie.m b]
      = .ok ((Ms.map fun M => movingW (fun i => (r i).specie.m) (energyOf (r 0).specie.m q) q M
          (energyOf (r 1).specie.m a) (energyOf (r 2).specie.m b)).sum / (q * energyOf (r 0).specie.m q)) := by
  have hsh := moving_onShell h hq.le ha hb hab
  set m := fun i => (r i).specie.m with hm
  set E := energyOf (r 0).specie.m q with hE
  set p : Fin 4 → ℝ := ![q, a, b, momOf (r 3).specie.m (E - energyOf (r 1).specie.m a - energyOf (r 2).specie.m b)] with hp
  set e : Fin 4 → ℝ := ![E, energyOf (r 1).specie.m a, energyOf (r 2).specie.m b,
        E - energyOf (r 1).specie.m a - energyOf (r 2).specie.m b] with he
  have hval : ∀ M ∈ Ms, D p e m M.K1 M.K2 M.order (fun i => (r i).side) =
      movingW m E q M (energyOf (r 1).specie.m a) (energyOf (r 2).specie.m b) := by
    intro M hM
    have q1 : ∀ i, e i ^ 2 = p i ^ 2 + m i ^ 2 := by
      intro i
      rw [hsh.energy i]
      unfold energyOf
      exact Real.sq_sqrt (by positivity)
    have q2 : e 0 = e 1 + e 2 + e 3 := by
      change E = energyOf (r 1).specie.m a + energyOf (r 2).specie.m b +
        (E - energyOf (r 1).specie.m a - energyOf (r 2).specie.m b)
      ring
    rw [D_moving (m := m) (p := p) (e := e) h.mass0 q1 q2 hsh.mom _ h.side0 h.side M (ho M hM)]
    have hP : ∀ i, i ≠ 0 → momOf (m i) (prodEn E (energyOf (r 1).specie.m a) (energyOf (r 2).specie.m b) i) = p i := by
      intro i hi
      fin_cases i
      · exact absurd rfl hi
      · exact momOf_energyOf _ _ ha
      · exact momOf_energyOf _ _ hb
      · rfl
    have hEn : ∀ i, i ≠ 0 → prodEn E (energyOf (r 1).specie.m a) (energyOf (r 2).specie.m b) i = e i := by
      intro i hi
      fin_cases i
      · exact absurd rfl hi
      · rfl
      · rfl
      · rfl
    have hne := partner_ne _ (ho M hM)
    unfold movingW
    dsimp only
    have oa : otherA (partner M.order) ≠ 0 := by unfold otherA; split_ifs <;> decide
    have ob : otherB (partner M.order) ≠ 0 := by unfold otherB; split_ifs <;> decide
    rw [hP _ hne, hP _ oa, hP _ ob, hEn _ hne]
    rfl
  obtain ⟨M0, Ms', rfl⟩ := List.exists_cons_of_ne_nil hMs
  unfold kernel4
  simp only [hK M0 (by simp), ne_eq, not_true_eq_false, if_false]
  have : ¬ p 0 = 0 := hq.ne'
  rw [if_pos this]
  have e0 : p 0 * e 0 = q * E := rfl
  rw [e0]
  congr 3
  exact List.map_congr_left hval

theorem moving_integrand {q a b : ℝ} (hq : 0 < q) (ha : 0 < a) (hb : 0 < b)
    (hab : energyOf (r 1).specie.m a + energyOf (r 2).specie.m b + (r 3).specie.m < energyOf (r 0).specie.m q) {kind : ℤ} {F : ℝ}
    (hF : ∀ f0, kindFactor (Kind.ofInt kind) [r 0, r 1, r 2, r 3] [f0, 0, 0, 0] = .ok F) :
    integrandFull4 q a b r Ms kind
      = .ok (b / energyOf (r 2).specie.m b * (F / (q * energyOf (r 0).specie.m q) * (a / energyOf (r 1).specie.m a) *
          (Ms.map fun M => movingW (fun i => (r i).specie.m) (energyOf (r 0).specie.m q) q M
          (energyOf (r 1).specie.m a) (energyOf (r 2).specie.m b)).sum)) := by
  have hsh := moving_onShell h hq.le ha.le hb.le hab.le
  obtain ⟨f0, hf0⟩ := h.readable q hq.le
  have hker := moving_kernel h hMs hK ho hq ha.le hb.le hab.le
  set E := energyOf (r 0).specie.m q with hE
  set p : Fin 4 → ℝ := ![q, a, b, momOf (r 3).specie.m (E - energyOf (r 1).specie.m a - energyOf (r 2).specie.m b)] with hp
  set e : Fin 4 → ℝ := ![E, energyOf (r 1).specie.m a, energyOf (r 2).specie.m b,
        E - energyOf (r 1).specie.m a - energyOf (r 2).specie.m b] with he
  have hocc : ∀ i, occAt (r i).specie (p i) = .ok ((![f0, 0, 0, 0] : Fin 4 → ℝ) i) := by
    intro i
    fin_cases i
    · exact hf0
    · exact h.empty 1 (by decide) a ha.le
    · exact h.empty 2 (by decide) b hb.le
    · exact h.empty 3 (by decide) _ (hsh.mom 3)
  have hi := integrand4_value hsh hocc (hF f0) hker
  have hj : jacobian4 r p e = a / energyOf (r 1).specie.m a * (b / energyOf (r 2).specie.m b) := by
    have one : ∀ (m q : ℝ), 0 < q → (if m ≠ 0 then q / energyOf m q else 1) = q / energyOf m q := by
      intro m q hq
      split_ifs with h0
      · rfl
      · rw [not_not.mp h0]
        unfold energyOf
        rw [show q ^ 2 + (0:ℝ) ^ 2 = q ^ 2 by ring, Real.sqrt_sq hq.le, div_self hq.ne']
    unfold jacobian4
    rw [one_mul]
    exact congrArg₂ (· * ·) (one (r 1).specie.m a ha) (one (r 2).specie.m b hb)
  refine hi.trans ?_
  rw [hj]
  split_ifs with hc
  · congr 1; ring
  · congr 1
    rw [canClose4_iff _ hsh.mom] at hc
    have hz : (Ms.map fun M => movingW (fun i => (r i).specie.m) E q M
          (energyOf (r 1).specie.m a) (energyOf (r 2).specie.m b)) = Ms.map fun _ => 0 := by
      refine List.map_congr_left fun M hM => ?_
      have hne := partner_ne _ (ho M hM)
      unfold movingW
      dsimp only
      apply pairAverage_closed
      have hP : ∀ i, i ≠ 0 → momOf (r i).specie.m (prodEn E (energyOf (r 1).specie.m a) (energyOf (r 2).specie.m b) i) = p i := by
        intro i hi
        fin_cases i
        · exact absurd rfl hi
        · exact momOf_energyOf _ _ ha.le
        · exact momOf_energyOf _ _ hb.le
        · rfl
      have oa : otherA (partner M.order) ≠ 0 := by unfold otherA; split_ifs <;> decide
      have ob : otherB (partner M.order) ≠ 0 := by unfold otherB; split_ifs <;> decide
      rw [hP _ hne, hP _ oa, hP _ ob]
      intro hn
      apply hc
      change q ≤ p 1 + p 2 + p 3 ∧ p 1 ≤ q + p 2 + p 3 ∧ p 2 ≤ q + p 1 + p 3 ∧ p 3 ≤ q + p 1 + p 2
      generalize partner M.order = j at hn hne
      fin_cases j
      · exact absurd rfl hne
      · change q ≤ p 1 + p 2 + p 3 ∧ p 1 ≤ q + p 2 + p 3 ∧ p 2 ≤ q + p 1 + p 3 ∧ p 3 ≤ q + p 1 + p 2 at hn
        exact hn
      · change q ≤ p 2 + p 1 + p 3 ∧ p 2 ≤ q + p 1 + p 3 ∧ p 1 ≤ q + p 2 + p 3 ∧ p 3 ≤ q + p 2 + p 1 at hn
        exact ⟨by linarith [hn.1], hn.2.2.1, hn.2.1, by linarith [hn.2.2.2]⟩
      · change q ≤ p 3 + p 1 + p 2 ∧ p 3 ≤ q + p 1 + p 2 ∧ p 1 ≤ q + p 3 + p 2 ∧ p 2 ≤ q + p 3 + p 1 at hn
        exact ⟨by linarith [hn.1], by linarith [hn.2.2.1], by linarith [hn.2.2.2], hn.2.1⟩
    rw [hz]
    simp

omit h hMs hK ho in
theorem movingW_continuous (m : Fin 4 → ℝ) (E q : ℝ) (M : CM) : Continuous fun z : ℝ × ℝ => movingW m E q M z.1 z.2 := by
  have hp : ∀ j, Continuous fun z : ℝ × ℝ => prodEn E z.1 z.2 j := by
    intro j; unfold prodEn; split_ifs <;> fun_prop
  have hP : ∀ j, Continuous fun z : ℝ × ℝ => momOf (m j) (prodEn E z.1 z.2 j) := fun j => (momOf_continuous _).comp (hp j)
  unfold movingW
  refine pairAverage_cont (q1 := fun _ => q) (f := fun (z : ℝ × ℝ) d => restAmplitude m M
    (restEnergy E (m 0) (m (partner M.order)) (prodEn E z.1 z.2 (partner M.order)) d)) continuous_const (hP _) (hP _) (hP _) ?_
  refine (restAmplitude_continuous m M).comp ?_
  unfold restEnergy
  have := hp (partner M.order)
  have h2 : Continuous fun w : (ℝ × ℝ) × ℝ => prodEn E w.1.1 w.1.2 (partner M.order) := this.comp continuous_fst
  fun_prop

omit hMs hK in
/-- The double integral over the energies of one matrix element. -/
theorem moving_value {q : ℝ} (hq : 0 < q) (M : CM) (hM : M ∈ Ms) :
    let m : Fin 4 → ℝ := fun i => (r i).specie.m
    let E := energyOf (m 0) q
    ∫ x in (m 1)..(E - m 2 - m 3), ∫ y in (m 2)..(E - m 3 - x), movingW m E q M x y
      = q * (64 * Real.pi ^ 3 * m 0 * restWidth m M) := by
  intro m E
  have h0 : 0 < m 0 := h.mass0
  have hE0 : 0 < E := by simp only [E]; unfold energyOf; positivity
  have hE2 : E ^ 2 = q ^ 2 + m 0 ^ 2 := by simp only [E]; unfold energyOf; rw [Real.sq_sqrt (by positivity)]
  have hpi := Real.pi_ne_zero
  obtain ⟨v1, v2, v3⟩ := boost_all hE2 hE0 h0 hq (h.mass 1) (h.mass 2) (h.mass 3) h.opened (restAmplitude_continuous m M)
  have hne := partner_ne _ (ho M hM)
  have hd : ∀ x : ℝ, 64 * Real.pi ^ 3 * m 0 * (x / (64 * Real.pi ^ 3 * m 0)) = x := fun x => by
    have := h0.ne'
    field_simp
  unfold restWidth
  rw [hd]
  by_cases j1 : partner M.order = 1
  · rw [if_pos j1, ← v1]
    unfold movingW
    rw [j1]
    rfl
  · rw [if_neg j1]
    by_cases j2 : partner M.order = 2
    · rw [if_pos j2, ← v2]
      unfold movingW
      rw [j2]
      rfl
    · have j3 : partner M.order = 3 := by omega
      rw [if_neg j2, ← v3]
      unfold movingW
      rw [j3]
      rfl

/-- **The double integral of `integration` at any momentum.** -/
theorem moving_quad {q : ℝ} (hq : 0 ≤ q) (max3 : ℝ) (dflt : ℝ × ℝ) {kind : ℤ} {F : ℝ}
    (hF : ∀ f0, kindFactor (Kind.ofInt kind) [r 0, r 1, r 2, r 3] [f0, 0, 0, 0] = .ok F) :
    exactQuad4 r Ms kind max3 dflt q 0 (momOf (r 1).specie.m (energyOf (r 0).specie.m q - (r 2).specie.m - (r 3).specie.m))
      = .ok (F * (64 * Real.pi ^ 3 * (Ms.map (restWidth fun i => (r i).specie.m)).sum *
          ((r 0).specie.m / energyOf (r 0).specie.m q))) := by
  set m : Fin 4 → ℝ := fun i => (r i).specie.m with hm
  have h0 : 0 < m 0 := h.mass0
  rcases hq.eq_or_lt with rfl | hq
  · have : energyOf (r 0).specie.m 0 = (r 0).specie.m := by
      unfold energyOf
      rw [show (0 : ℝ) ^ 2 + (r 0).specie.m ^ 2 = (r 0).specie.m ^ 2 by ring, Real.sqrt_sq (h.mass 0)]
    rw [this, rest_quad h hMs hK ho max3 dflt hF, div_self h.mass0.ne', mul_one]
  have h1 : 0 ≤ m 1 := h.mass 1
  have h2 : 0 ≤ m 2 := h.mass 2
  have h3 : 0 ≤ m 3 := h.mass 3
  have hop : m 1 + m 2 + m 3 ≤ m 0 := h.opened
  set E := energyOf (m 0) q with hE
  have hEe : energyOf (r 0).specie.m q = E := rfl
  have hE0 : 0 < E := by rw [hE]; unfold energyOf; positivity
  have hEM : m 0 ≤ E := by rw [hE]; exact (energyOf_gt _ _ h0.le hq).le
  obtain ⟨-, hsum⟩ := tri_sum (show m 1 + m 2 + m 3 ≤ E by linarith) (movingW m E q)
    (fun M => q * (64 * Real.pi ^ 3 * m 0 * restWidth m M)) Ms (fun M _ => cont_nice _ _ _ _ (movingW_continuous m E q M))
    (fun M hM => moving_value h ho hq M hM)
  unfold exactQuad4
  congr 1
  have htype : reactionTypeSum [r 0, r 1, r 2, r 3] = 2 := by
    simp [reactionTypeSum, h.side0, h.side 1 (by decide), h.side 2 (by decide), h.side 3 (by decide)]
  have hP : energyOf (m 1) (momOf (m 1) (E - m 2 - m 3)) = E - m 2 - m 3 := energyOf_momOf _ _ h1 (by linarith)
  have step : ∀ a ∈ Ioo 0 (momOf (m 1) (E - m 2 - m 3)),
      (match innerLimits (reactionTypeSum [r 0, r 1, r 2, r 3]) (r 0).specie.m (r 1).specie.m
        (r 2).specie.m (r 3).specie.m max3 q a dflt with
      | none => 0
      | some (lo, hi) => ∫ p2 in lo..hi, match integrandFull4 q a p2 r Ms kind with | .ok v => v | .error _ => 0) =
      a / energyOf (m 1) a * ((fun x => F / (q * E) * ∫ y in (m 2)..(E - m 3 - x), (Ms.map fun M => movingW m E q M x y).sum)
        (energyOf (m 1) a)) := by
    intro a ha
    have hE1 : energyOf (m 1) a < E - m 2 - m 3 := by
      rw [← hP]
      exact energyOf_lt_of (m 1) ha.1.le ha.2
    have hlim : innerLimits (reactionTypeSum [r 0, r 1, r 2, r 3]) (r 0).specie.m (r 1).specie.m (r 2).specie.m
        (r 3).specie.m max3 q a dflt = some (0, momOf (m 2) (E - m 3 - energyOf (m 1) a)) := by
      unfold innerLimits
      rw [htype, if_pos rfl]
      congr 2
      unfold p2MaxDec momOf
      rw [← energyOf_eq, ← energyOf_eq, hEe]
      congr 2
      simp only [hm]
      ring
    simp only [hlim]
    have hP2 : energyOf (m 2) (momOf (m 2) (E - m 3 - energyOf (m 1) a)) = E - m 3 - energyOf (m 1) a :=
      energyOf_momOf _ _ h2 (by linarith)
    have := integral_energy_upto (m 2) h2 (momOf_nonneg _ _) hP2
      (fun y => F / (q * E) * (a / energyOf (m 1) a) * (Ms.map fun M => movingW m E q M (energyOf (m 1) a) y).sum)
    rw [intervalIntegral.integral_const_mul] at this
    rw [show a / energyOf (m 1) a * (F / (q * E) * ∫ y in (m 2)..(E - m 3 - energyOf (m 1) a), (Ms.map fun M => movingW m E q M (energyOf (m 1) a) y).sum)
      = F / (q * E) * (a / energyOf (m 1) a) * ∫ y in (m 2)..(E - m 3 - energyOf (m 1) a), (Ms.map fun M => movingW m E q M (energyOf (m 1) a) y).sum by ring,
      ← this]
    refine intervalIntegral.integral_congr_Ioo_of_le (momOf_nonneg _ _) fun b hb => ?_
    have hE2 : energyOf (m 2) b < E - m 3 - energyOf (m 1) a := by
      rw [← hP2]
      exact energyOf_lt_of (m 2) hb.1.le hb.2
    simp only [moving_integrand h hMs hK ho hq ha.1 hb.1 (show energyOf (m 1) a + energyOf (m 2) b + m 3 < E by linarith) hF]
    rfl
  refine (intervalIntegral.integral_congr_Ioo_of_le (momOf_nonneg _ _) step).trans ?_
  have e1 := integral_energy_upto (m 1) h1 (momOf_nonneg _ _) hP
    (fun x => F / (q * E) * ∫ y in (m 2)..(E - m 3 - x), (Ms.map fun M => movingW m E q M x y).sum)
  rw [e1, intervalIntegral.integral_const_mul, hsum, List.sum_map_mul_left, List.sum_map_mul_left]
  change _ = F * (64 * Real.pi ^ 3 * (Ms.map (restWidth m)).sum * (m 0 / E))
  have hq' := hq.ne'
  have hE' := hE0.ne'
  field_simp

/-- The loop of `integration` for such a decay. -/
theorem moving_loop {kind : ℤ} {F : ℝ}
    (hF : ∀ f0, kindFactor (Kind.ofInt kind) [r 0, r 1, r 2, r 3] [f0, 0, 0, 0] = .ok F)
    (ps : List ℝ) (hps : ∀ q ∈ ps, 0 ≤ q) (max1 min2 max2 max3 : ℝ) (sched : List (List ℕ))
    (hsch : ValidSchedule ps.length sched) :
    integration4Exact r Ms kind ps 0 max1 min2 max2 max3 sched = .ok (ps.map fun q =>
      F * (64 * Real.pi ^ 3 * (Ms.map (restWidth fun i => (r i).specie.m)).sum *
          ((r 0).specie.m / energyOf (r 0).specie.m q))) := by
  have htype : reactionTypeSum [r 0, r 1, r 2, r 3] = 2 := by
    simp [reactionTypeSum, h.side0, h.side 1 (by decide), h.side 2 (by decide), h.side 3 (by decide)]
  unfold integration4Exact
  rw [C40_four_not_scattering _ (by change reactionTypeSum [r 0, r 1, r 2, r 3] ≠ 0; rw [htype]; decide) _ _ _ _ _ hsch]
  refine mapM_ok_map _ _ _ fun q hq => ?_
  unfold alone outerLimits
  have e : √((energy q (loopCtx4 r max3).m0 - (loopCtx4 r max3).m2 - (loopCtx4 r max3).m3) ^ 2
      - (loopCtx4 r max3).m1 ^ 2) = momOf (r 1).specie.m (energyOf (r 0).specie.m q - (r 2).specie.m - (r 3).specie.m) := by
    change √((energy q (r 0).specie.m - (r 2).specie.m - (r 3).specie.m) ^ 2 - (r 1).specie.m ^ 2) = _
    rw [← energyOf_eq]
    rfl
  have ht : (loopCtx4 r max3).type = 2 := htype
  simp only [ht, if_true, e]
  exact moving_quad h hMs hK ho (hps q hq) max3 _ hF

end

variable {ι : Type*}

/-- **C114.** `integrate` of a decay into three empty states of any masses, converged quadrature: the two arrays are
`-Γ (m/E) f / H` and `-Γ (m/E) / H` per unit of `ln a` (divided by `x` in linear mode) at every momentum kept by the grid cut,
with the textbook width `Γ`, for any list of matrix elements with `K1` and `K2` in any index orders. -/
theorem C114_moving (c : Int4 ι) (p : Params) (sched : List (List ℕ))
    (hsch : ValidSchedule (gridCut4 (c.sp 0).grid c.ub).1.length sched)
    (hside0 : c.side 0 = -1) (hside : ∀ i, i ≠ 0 → c.side i = 1) (hkind : c.kind = .full)
    (hfast : (c.sp 0).fastDecay = false) (hn : c.neglect = false) (hGF : c.GF ≠ 0) (ha : 0 < p.a)
    (haT : 0 < p.aT) (hmin : c.min1 = 0) (hMs : c.Ms ≠ []) (hK : ∀ M ∈ c.Ms, M.K = 0)
    (ho : ∀ M ∈ c.Ms, M.order.Bijective) (hm : 0 < (c.sp 0).mass) (hin : inEq (c.sp 0) (c.st 0) = false)
    (ys : List ℝ) (hgrid : (c.sp 0).grid = 0 :: ys) (hinc : (c.sp 0).grid.Pairwise (· < ·))
    (hlen : (c.st 0).dist.length = (c.sp 0).grid.length)
    (hprod : ∀ i, i ≠ 0 → EmptyMassive (c.sp i) (c.st i))
    (hopen : (c.sp 1).mass + (c.sp 2).mass + (c.sp 3).mass ≤ (c.sp 0).mass) :
    let width := (c.Ms.map (restWidth fun i => (c.sp i).mass)).sum / dofFactor c.majorana (c.sp 0).dof
    let rate := fun y => width * ((c.sp 0).mass / energyOf (c.sp 0).mass (y / p.a)) * c.mult / p.H / (if p.log then 1 else p.x)
    integrate4 c p sched = .ok (.two
      (List.zipWith (fun y f => -(rate y * f)) (gridCut4 (c.sp 0).grid c.ub).1 (c.st 0).dist
        ++ (gridCut4 (c.sp 0).grid c.ub).2)
      ((gridCut4 (c.sp 0).grid c.ub).1.map (fun y => -rate y) ++ (gridCut4 (c.sp 0).grid c.ub).2)) := by
  intro width rate
  set pts := (gridCut4 (c.sp 0).grid c.ub).1 with hpts
  have hne : (c.sp 0).grid ≠ [] := by rw [hgrid]; simp
  obtain ⟨k, hk0, hk, -⟩ := C47_four (c.sp 0).grid hne hinc c.ub
  have hfd : RestDecay (physicalReaction c p.a) := by
    refine ⟨hside0, hside, hm, fun i => ?_, hopen, ?_, ?_⟩
    · by_cases hi : i = 0
      · rw [hi]; exact hm.le
      · exact (hprod i hi).mass
    · have := readable_toC (c.sp 0) (c.st 0) { p with aT := p.a } ha ys hgrid hinc hlen
      intro q hq
      obtain ⟨f, hf⟩ := this q hq
      refine ⟨f, ?_⟩
      rw [← hf]
      have e : toC (c.sp 0) (c.st 0) { p with aT := p.a } = (physicalReaction c p.a 0).specie := by
        simp only [toC, physicalReaction]
        rw [mul_div_cancel_right₀ _ ha.ne']
      rw [e]
    · intro i hi q hq
      obtain ⟨-, hq1, ⟨g, hq2⟩, hq3, hq4, hq5⟩ := hprod i hi
      refine occAt_empty (physicalReaction c p.a i).specie (g := g.map (· / p.a)) hq1 ?_ ?_ ?_ hq5 hq
      · change (c.sp i).grid.map (· / p.a) = _
        rw [hq2]; simp
      · change ((c.sp i).grid.map (· / p.a)).Pairwise (· < ·)
        rw [List.pairwise_map]
        exact hq3.imp fun h => div_lt_div_of_pos_right h ha
      · change (c.st i).dist.length = ((c.sp i).grid.map (· / p.a)).length
        rw [hq4, List.length_map]
  have hnn : ∀ q ∈ pts.map (· / p.a), 0 ≤ q := by
    intro q hq
    obtain ⟨y, hy, rfl⟩ := List.mem_map.1 hq
    have hy' : y ∈ (c.sp 0).grid := by rw [hpts, hk] at hy; exact List.mem_of_mem_take hy
    have : 0 ≤ y := by
      rw [hgrid] at hy' hinc
      rcases List.mem_cons.1 hy' with rfl | h
      · exact le_rfl
      · exact (List.rel_of_pairwise_cons hinc h).le
    positivity
  have hs1 : ∀ i, i ≠ 0 → (physicalReaction c p.a i).side = 1 := hside
  have hF := empty_factors (physicalReaction c p.a) (hs1 1 (by decide)) (hs1 2 (by decide)) (hs1 3 (by decide))
  have hsch' : ValidSchedule (pts.map (· / p.a)).length sched := by rwa [List.length_map]
  have hA := moving_loop hfd hMs hK ho (kind := 1) (F := 0) (fun f0 => (hF f0).1) _ hnn (c.max1 / p.a) (c.min2 / p.a)
    (c.max2 / p.a) (c.max3 / p.a) sched hsch'
  have hB := moving_loop hfd hMs hK ho (kind := 2) (F := -1) (fun f0 => (hF f0).2) _ hnn (c.max1 / p.a) (c.min2 / p.a)
    (c.max2 / p.a) (c.max3 / p.a) sched hsch'
  have hf : pts.mapM (particleDistribution (c.sp 0) p (c.st 0)) = .ok ((c.st 0).dist.take pts.length) := by
    rw [hpts, hk]
    refine mapM_getElem _ _ _ ?_ fun i hi hi' => ?_
    · simp only [List.length_take, hlen]; omega
    · have hi2 : i < (c.sp 0).grid.length := by
        rw [List.length_take] at hi; omega
      rw [List.getElem_take, List.getElem_take]
      unfold particleDistribution
      rw [if_neg (by rw [hin]; simp), C09_exact_on_grid _ _ _ _ _ hinc hlen i hi2]
  rw [← zero_div p.a, ← hmin] at hA hB
  rw [C88_physical c p sched hGF ha haT hK hn hkind hfast hA hB hf]
  have hz : ∀ k : ℝ, (gridCut4 (c.sp 0).grid c.ub).2.map (k * ·) = (gridCut4 (c.sp 0).grid c.ub).2 := fun k =>
    (cutZeros_map _ _ k).symm
  simp only [List.map_append, hz, List.map_map, Function.comp_def]
  have hm0 : (fun i => (physicalReaction c p.a i).specie.m) = fun i => (c.sp i).mass := rfl
  have hm1 : (physicalReaction c p.a 0).specie.m = (c.sp 0).mass := rfl
  have hr : ∀ y : ℝ, c.mult / (64 * Real.pi ^ 3 * p.H * (if c.majorana then (c.sp 0).dof else (c.sp 0).dof / 2))
      / (if p.log then 1 else p.x) * (-1 * (64 * Real.pi ^ 3 * (c.Ms.map (restWidth fun i => (c.sp i).mass)).sum *
        ((c.sp 0).mass / energyOf (c.sp 0).mass (y / p.a)))) = -rate y := by
    intro y
    have hpi : (64 * Real.pi ^ 3) ≠ 0 := by positivity
    simp only [rate, width, dofFactor]
    generalize (if c.majorana then (c.sp 0).dof else (c.sp 0).dof / 2) = g
    generalize (if p.log then 1 else p.x) = x
    generalize (c.Ms.map (restWidth fun i => (c.sp i).mass)).sum = R
    generalize (c.sp 0).mass / energyOf (c.sp 0).mass (y / p.a) = v
    rw [show c.mult / (64 * Real.pi ^ 3 * p.H * g) = c.mult / (p.H * g) / (64 * Real.pi ^ 3) by
      rw [div_div]; congr 1; ring]
    simp only [div_eq_mul_inv, mul_inv]
    field_simp
  congr 2
  · congr 1
    refine zip_rate _ _ rate _ (fun y => by simp [hmin]) (fun y => ?_) pts (c.st 0).dist
    rw [hm0, hm1]; exact hr y
  · congr 1
    refine List.map_congr_left fun y _ => ?_
    rw [hm0, hm1]; exact hr y

end PyBBN
