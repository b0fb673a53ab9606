import Verif.Lemmas.Dalitz
import Verif.Props.FermiRate
/-!
# C114: decays at rest into three products with mass

Specification: the width of a three-body decay as one integral over the energy of the product that shares a scalar product with
the decaying particle, with the phase space of the two others given by Källén's function.
-/
namespace PyBBN

open MeasureTheory Set

/-! ## Specification -/

/-- Scalar product of the four-momenta `a`, `b` when a particle of mass `m 0` at rest decays and product `j` has energy `E`; at
most one of the two pairs `{0, j}` and the remaining products. -/
noncomputable def restDot (m : Fin 4 → ℝ) (j : Fin 4) (E : ℝ) (a b : Fin 4) : ℝ :=
  if a = 0 ∨ b = 0 then m 0 * E else (m 0 ^ 2 + m j ^ 2 - 2 * m 0 * E - m a ^ 2 - m b ^ 2) / 2

/-- The squared matrix element `K1 (Q·Q)(Q·Q) + K2 m m (Q·Q)` at energy `E` of the product paired with the decaying particle. -/
noncomputable def restAmplitude (m : Fin 4 → ℝ) (M : CM) (E : ℝ) : ℝ :=
  let d := restDot m (partner M.order) E
  M.K1 * (d (M.order 0) (M.order 1) * d (M.order 2) (M.order 3)) +
    M.K2 * (m (M.order 0) * m (M.order 1) * d (M.order 2) (M.order 3))

/-- Textbook width of the decay at rest, times the number of spin states: `1/(64 π³ m) ∫ dE p √λ/s |M|²`. -/
noncomputable def restWidth (m : Fin 4 → ℝ) (M : CM) : ℝ :=
  (if partner M.order = 1 then dalitz (m 0) (m 1) (m 2) (m 3) (restAmplitude m M)
    else if partner M.order = 2 then dalitz (m 0) (m 2) (m 1) (m 3) (restAmplitude m M)
    else dalitz (m 0) (m 3) (m 1) (m 2) (restAmplitude m M)) / (64 * Real.pi ^ 3 * m 0)

/-! ## The kernel -/

theorem energyOf_lt_of (m : ℝ) {p q : ℝ} (hp : 0 ≤ p) (h : p < q) : energyOf m p < energyOf m q := by
  unfold energyOf
  exact Real.sqrt_lt_sqrt (by positivity) (by nlinarith)


/-- Energy of a product. -/
def prodEn (E x y : ℝ) (j : Fin 4) : ℝ := if j = 1 then x else if j = 2 then y else E - x - y

theorem rest_value {m p e : Fin 4 → ℝ} (h0 : e 0 = m 0) (hsh : ∀ i, i ≠ 0 → e i ^ 2 = p i ^ 2 + m i ^ 2)
    (hcons : e 0 = e 1 + e 2 + e 3) (hpn : ∀ i, 0 ≤ p i) {j k l : Fin 4} (hj : j ≠ 0) (hk : k ≠ 0) (hl : l ≠ 0)
    (hjk : j ≠ k) (hkl : k ≠ l) (hjl : j ≠ l) :
    e 1 * e 2 * e 3 * Db1 (p 1) (p 2) (p 3) + e j * Db2 (p j) (p k) (p l)
      = Db1 (p 1) (p 2) (p 3) * (e j * restDot m j (e j) k l) ∧
    e k * e l * Db1 (p 1) (p 2) (p 3) + Db2 (p j) (p k) (p l) = Db1 (p 1) (p 2) (p 3) * restDot m j (e j) k l := by
  have hD : Db1 (p j) (p k) (p l) = Db1 (p 1) (p 2) (p 3) ∧ e 1 * e 2 * e 3 = e j * (e k * e l) ∧ e 0 = e j + e k + e l := by
    have s1 := Db1_swap23
    have s2 := Db1_swap12
    rcases three_labels j k l hj hk hl hjk hkl hjl with ⟨rfl, rfl, rfl⟩ | ⟨rfl, rfl, rfl⟩ | ⟨rfl, rfl, rfl⟩ |
      ⟨rfl, rfl, rfl⟩ | ⟨rfl, rfl, rfl⟩ | ⟨rfl, rfl, rfl⟩
    · exact ⟨rfl, by ring, hcons⟩
    · exact ⟨by rw [s1], by ring, by rw [hcons]; ring⟩
    · exact ⟨by rw [s2], by ring, by rw [hcons]; ring⟩
    · exact ⟨by rw [s1, s2], by ring, by rw [hcons]; ring⟩
    · exact ⟨by rw [s2, s1], by ring, by rw [hcons]; ring⟩
    · exact ⟨by rw [s2, s1, s2], by ring, by rw [hcons]; ring⟩
  obtain ⟨d1, d2, d3⟩ := hD
  have key : e k * e l + (p k ^ 2 + p l ^ 2 - p j ^ 2) / 2 = restDot m j (e j) k l := by
    unfold restDot
    rw [if_neg (by tauto), ← h0]
    rw [d3]
    linear_combination (hsh j hj) / 2 - (hsh k hk) / 2 - (hsh l hl) / 2
  rw [Db2_eq (hpn _) (hpn _) (hpn _), d1, d2, ← key]
  exact ⟨by ring, by ring⟩

/-- At rest: the kernel of one matrix element. -/
theorem Db_rest {m p e : Fin 4 → ℝ} (hm0 : 0 < m 0) (h0 : e 0 = m 0) (hsh : ∀ i, i ≠ 0 → e i ^ 2 = p i ^ 2 + m i ^ 2)
    (hcons : e 0 = e 1 + e 2 + e 3) (hpn : ∀ i, 0 ≤ p i) (s : Fin 4 → ℤ) (hs : ∀ i, i ≠ 0 → s i = 1) (M : CM)
    (ho : M.order.Bijective) :
    Db p e m M.K1 M.K2 M.order s = Db1 (p 1) (p 2) (p 3) * (restAmplitude m M (e (partner M.order)) / m 0) := by
  obtain ⟨σ, hσ⟩ : ∃ σ : Equiv.Perm (Fin 4), M.order = σ := ⟨Equiv.ofBijective M.order ho, rfl⟩
  unfold restAmplitude
  rw [hσ]
  dsimp only
  have hne : ∀ i j : Fin 4, i ≠ j → σ i ≠ σ j := fun i j h h' => h (σ.injective h')
  have h01 := hne 0 1 (by decide); have h02 := hne 0 2 (by decide); have h03 := hne 0 3 (by decide)
  have h12 := hne 1 2 (by decide); have h13 := hne 1 3 (by decide); have h23 := hne 2 3 (by decide)
  have hsi : ∀ i, i ≠ 0 → ((s i : ℤ) : ℝ) = 1 := fun i h => by rw [hs i h]; norm_num
  have v : ∀ i : Fin 4, i ≠ 0 → i.val ≠ 0 := fun i h h' => h (Fin.ext h')
  have d0 : ∀ (j : Fin 4) (E : ℝ) (b : Fin 4), restDot m j E 0 b = m 0 * E := fun j E b => by unfold restDot; rw [if_pos (Or.inl rfl)]
  have d1 : ∀ (j : Fin 4) (E : ℝ) (b : Fin 4), restDot m j E b 0 = m 0 * E := fun j E b => by unfold restDot; rw [if_pos (Or.inr rfl)]
  have hM0 := hm0.ne'
  rcases order_cases σ with ⟨z, n1, n2, n3⟩ | ⟨z, n1, n2, n3⟩ | ⟨z, n1, n2, n3⟩ | ⟨z, n1, n2, n3⟩
  · have hpart : partner σ = σ 1 := by unfold partner; rw [if_pos z]
    obtain ⟨v1, v2⟩ := rest_value h0 hsh hcons hpn n1 n2 n3 h12 h23 h13
    rw [hpart, Db_eq_fst _ _ _ _ _ _ _ (by rw [z]; simp), z, zero_add, hsi _ n2, hsi _ n3, one_mul, one_mul, one_mul, v1, v2, d0]
    field_simp
  · have hpart : partner σ = σ 0 := by unfold partner; rw [if_neg n1, if_pos z]
    obtain ⟨v1, v2⟩ := rest_value h0 hsh hcons hpn n1 n2 n3 h02 h23 h03
    rw [hpart, Db_eq_fst _ _ _ _ _ _ _ (by rw [z]; simp), z, add_zero, hsi _ n2, hsi _ n3, one_mul, one_mul, one_mul, v1, v2, d1]
    field_simp
  · have hpart : partner σ = σ 3 := by unfold partner; rw [if_neg n1, if_neg n2, if_pos z]
    obtain ⟨v1, -⟩ := rest_value h0 hsh hcons hpn n3 n1 n2 h03.symm h01 h13.symm
    rw [hpart, Db_eq_snd _ _ _ _ _ _ _ (mul_ne_zero (v _ n1) (v _ n2)) (by rw [z]; simp), z, zero_add,
      hsi _ n1, hsi _ n2, one_mul, one_mul, v1, d0]
    field_simp
  · have hpart : partner σ = σ 2 := by unfold partner; rw [if_neg n1, if_neg n2, if_neg n3]
    obtain ⟨v1, -⟩ := rest_value h0 hsh hcons hpn n3 n1 n2 h02.symm h01 h12.symm
    rw [hpart, Db_eq_snd _ _ _ _ _ _ _ (mul_ne_zero (v _ n1) (v _ n2)) (by rw [z]; simp), z, add_zero,
      hsi _ n1, hsi _ n2, one_mul, one_mul, v1, d1]
    field_simp

/-! ## The integrand and its integral -/

/-- A particle with products that are empty, all masses allowed. -/
structure RestDecay (r : Fin 4 → Reactant) : Prop where
  side0 : (r 0).side = -1
  side : ∀ i, i ≠ 0 → (r i).side = 1
  mass0 : 0 < (r 0).specie.m
  mass : ∀ i, 0 ≤ (r i).specie.m
  opened : (r 1).specie.m + (r 2).specie.m + (r 3).specie.m ≤ (r 0).specie.m
  readable : Readable (r 0).specie
  empty : ∀ i, i ≠ 0 → ∀ p, 0 ≤ p → occAt (r i).specie p = .ok 0

section
variable {r : Fin 4 → Reactant} (h : RestDecay r) {Ms : List CM} (hMs : Ms ≠ [])
  (hK : ∀ M ∈ Ms, M.K = 0) (ho : ∀ M ∈ Ms, M.order.Bijective)
include h

theorem rest_onShell {a b : ℝ} (ha : 0 ≤ a) (hb : 0 ≤ b)
    (hab : energyOf (r 1).specie.m a + energyOf (r 2).specie.m b + (r 3).specie.m ≤ (r 0).specie.m) :
    OnShell r ![0, a, b, momOf (r 3).specie.m ((r 0).specie.m - energyOf (r 1).specie.m a - energyOf (r 2).specie.m b)]
      ![(r 0).specie.m, energyOf (r 1).specie.m a, energyOf (r 2).specie.m b,
        (r 0).specie.m - energyOf (r 1).specie.m a - energyOf (r 2).specie.m b] where
  sides i := by
    by_cases hi : i = 0
    · right; rw [hi]; exact h.side0
    · left; exact h.side i hi
  mass i := h.mass i
  mom i := by
    fin_cases i
    · exact le_rfl
    · exact ha
    · exact hb
    · exact momOf_nonneg _ _
  energy i := by
    fin_cases i
    · change (r 0).specie.m = energyOf (r 0).specie.m 0
      unfold energyOf
      rw [show (0 : ℝ) ^ 2 + (r 0).specie.m ^ 2 = (r 0).specie.m ^ 2 by ring, Real.sqrt_sq (h.mass 0)]
    · rfl
    · rfl
    · have : (r 3).specie.m ≤ (r 0).specie.m - energyOf (r 1).specie.m a - energyOf (r 2).specie.m b := by linarith
      exact (energyOf_momOf _ _ (h.mass 3) this).symm
  conserved := by
    rw [Fin.sum_univ_four, h.side0, h.side 1 (by decide), h.side 2 (by decide), h.side 3 (by decide)]
    simp

include hMs hK ho

theorem rest_kernel {a b : ℝ} (ha : 0 ≤ a) (hb : 0 ≤ b)
    (hab : energyOf (r 1).specie.m a + energyOf (r 2).specie.m b + (r 3).specie.m ≤ (r 0).specie.m) :
    kernel4 r Ms ![0, a, b, momOf (r 3).specie.m ((r 0).specie.m - energyOf (r 1).specie.m a - energyOf (r 2).specie.m b)]
      ![(r 0).specie.m, energyOf (r 1).specie.m a, energyOf (r 2).specie.m b,
        (r 0).specie.m - energyOf (r 1).specie.m a - energyOf (r 2).specie.m b]
      = .ok ((Ms.map fun M => closes (r 0).specie.m (r 1).specie.m (r 2).specie.m (r 3).specie.m
          (energyOf (r 1).specie.m a) (energyOf (r 2).specie.m b) * restAmplitude (fun i => (r i).specie.m) M
          (prodEn (r 0).specie.m (energyOf (r 1).specie.m a) (energyOf (r 2).specie.m b) (partner M.order))).sum /
            (r 0).specie.m) := by
  have hsh := rest_onShell h ha hb hab
  set m := fun i => (r i).specie.m with hm
  set p : Fin 4 → ℝ := ![0, a, b, momOf (r 3).specie.m ((r 0).specie.m - energyOf (r 1).specie.m a - energyOf (r 2).specie.m b)] with hp
  set e : Fin 4 → ℝ := ![(r 0).specie.m, energyOf (r 1).specie.m a, energyOf (r 2).specie.m b,
        (r 0).specie.m - energyOf (r 1).specie.m a - energyOf (r 2).specie.m b] with he
  have hdiv : ∀ (l : List CM) (g : CM → ℝ) (c : ℝ), (l.map g).sum / c = (l.map fun M => g M / c).sum := by
    intro l g c
    induction l with
    | nil => simp
    | cons M l ih => simp [← ih, add_div]
  have hval : ∀ M ∈ Ms, Db p e m M.K1 M.K2 M.order (fun i => (r i).side) =
      closes (r 0).specie.m (r 1).specie.m (r 2).specie.m (r 3).specie.m
          (energyOf (r 1).specie.m a) (energyOf (r 2).specie.m b) * restAmplitude m M
          (prodEn (r 0).specie.m (energyOf (r 1).specie.m a) (energyOf (r 2).specie.m b) (partner M.order)) / (r 0).specie.m := by
    intro M hM
    have q1 : ∀ i, i ≠ 0 → e i ^ 2 = p i ^ 2 + m i ^ 2 := by
      intro i _
      rw [hsh.energy i]
      unfold energyOf
      exact Real.sq_sqrt (by positivity)
    have q2 : e 0 = e 1 + e 2 + e 3 := by
      change (r 0).specie.m = energyOf (r 1).specie.m a + energyOf (r 2).specie.m b +
        ((r 0).specie.m - energyOf (r 1).specie.m a - energyOf (r 2).specie.m b)
      ring
    rw [Db_rest (m := m) (p := p) (e := e) h.mass0 rfl q1 q2 hsh.mom _ h.side M (ho M hM)]
    have e1 : closes (r 0).specie.m (r 1).specie.m (r 2).specie.m (r 3).specie.m
          (energyOf (r 1).specie.m a) (energyOf (r 2).specie.m b) = Db1 (p 1) (p 2) (p 3) := by
      unfold closes
      rw [momOf_energyOf _ _ ha, momOf_energyOf _ _ hb]
      rfl
    have e2 : prodEn (r 0).specie.m (energyOf (r 1).specie.m a) (energyOf (r 2).specie.m b) (partner M.order)
        = e (partner M.order) := by
      have hne := partner_ne _ (ho M hM)
      generalize partner M.order = j at hne
      fin_cases j
      · exact absurd rfl hne
      · rfl
      · rfl
      · rfl
    rw [e1, e2, mul_div_assoc]
  obtain ⟨M0, Ms', rfl⟩ := List.exists_cons_of_ne_nil hMs
  unfold kernel4
  simp only [hK M0 (by simp), ne_eq, not_true_eq_false, if_false]
  have : ¬ ¬ p 0 = 0 := not_not.mpr rfl
  rw [if_neg this, hdiv]
  congr 2
  exact List.map_congr_left hval

theorem rest_integrand {a b : ℝ} (ha : 0 < a) (hb : 0 < b)
    (hab : energyOf (r 1).specie.m a + energyOf (r 2).specie.m b + (r 3).specie.m < (r 0).specie.m) {kind : ℤ} {F : ℝ}
    (hF : ∀ f0, kindFactor (Kind.ofInt kind) [r 0, r 1, r 2, r 3] [f0, 0, 0, 0] = .ok F) :
    integrandFull4 0 a b r Ms kind
      = .ok (b / energyOf (r 2).specie.m b * (F / (r 0).specie.m * (a / energyOf (r 1).specie.m a) *
          (Ms.map fun M => closes (r 0).specie.m (r 1).specie.m (r 2).specie.m (r 3).specie.m
          (energyOf (r 1).specie.m a) (energyOf (r 2).specie.m b) * restAmplitude (fun i => (r i).specie.m) M
          (prodEn (r 0).specie.m (energyOf (r 1).specie.m a) (energyOf (r 2).specie.m b) (partner M.order))).sum)) := by
  have hsh := rest_onShell h ha.le hb.le hab.le
  obtain ⟨f0, hf0⟩ := h.readable 0 le_rfl
  have hker := rest_kernel h hMs hK ho ha.le hb.le hab.le
  set p : Fin 4 → ℝ := ![0, a, b, momOf (r 3).specie.m ((r 0).specie.m - energyOf (r 1).specie.m a - energyOf (r 2).specie.m b)] with hp
  set e : Fin 4 → ℝ := ![(r 0).specie.m, energyOf (r 1).specie.m a, energyOf (r 2).specie.m b,
        (r 0).specie.m - energyOf (r 1).specie.m a - energyOf (r 2).specie.m b] with he
  have hocc : ∀ i, occAt (r i).specie (p i) = .ok ((![f0, 0, 0, 0] : Fin 4 → ℝ) i) := by
    intro i
    fin_cases i
    · exact hf0
    · exact h.empty 1 (by decide) a ha.le
    · exact h.empty 2 (by decide) b hb.le
    · exact h.empty 3 (by decide) _ (hsh.mom 3)
  have hi := integrand4_value hsh hocc (hF f0) hker
  have hj : jacobian4 r p e = a / energyOf (r 1).specie.m a * (b / energyOf (r 2).specie.m b) := by
    have one : ∀ (m q : ℝ), 0 < q → (if m ≠ 0 then q / energyOf m q else 1) = q / energyOf m q := by
      intro m q hq
      split_ifs with h0
      · rfl
      · rw [not_not.mp h0]
        unfold energyOf
        rw [show q ^ 2 + (0:ℝ) ^ 2 = q ^ 2 by ring, Real.sqrt_sq hq.le, div_self hq.ne']
    unfold jacobian4
    have := one (r 1).specie.m a ha
    have := one (r 2).specie.m b hb
    rw [one_mul]
    exact congrArg₂ (· * ·) (one (r 1).specie.m a ha) (one (r 2).specie.m b hb)
  refine hi.trans ?_
  rw [hj]
  split_ifs with hc
  · congr 1; ring
  · congr 1
    have hp3 : 0 < p 3 := momOf_pos _ _ (h.mass 3) (by linarith)
    have hz : closes (r 0).specie.m (r 1).specie.m (r 2).specie.m (r 3).specie.m
          (energyOf (r 1).specie.m a) (energyOf (r 2).specie.m b) = 0 := by
      unfold closes
      rw [momOf_energyOf _ _ ha.le, momOf_energyOf _ _ hb.le]
      rw [canClose4_iff _ hsh.mom] at hc
      change Db1 a b (p 3) = 0
      change ¬ (0 ≤ a + b + p 3 ∧ a ≤ 0 + b + p 3 ∧ b ≤ 0 + a + p 3 ∧ p 3 ≤ 0 + a + b) at hc
      apply Db1_out ha hb hp3
      by_contra hn
      push Not at hn
      exact hc ⟨by linarith, by linarith, by linarith, by linarith⟩
    simp [hz]

omit h hMs hK ho in
theorem restAmplitude_continuous (m : Fin 4 → ℝ) (M : CM) : Continuous (restAmplitude m M) := by
  unfold restAmplitude restDot
  dsimp only
  split_ifs <;> fun_prop

/-- **The double integral of `integration` at zero momentum.** -/
theorem rest_quad (max3 : ℝ) (dflt : ℝ × ℝ) {kind : ℤ} {F : ℝ}
    (hF : ∀ f0, kindFactor (Kind.ofInt kind) [r 0, r 1, r 2, r 3] [f0, 0, 0, 0] = .ok F) :
    exactQuad4 r Ms kind max3 dflt 0 0 (momOf (r 1).specie.m ((r 0).specie.m - (r 2).specie.m - (r 3).specie.m))
      = .ok (F * (64 * Real.pi ^ 3 * (Ms.map (restWidth fun i => (r i).specie.m)).sum)) := by
  set m : Fin 4 → ℝ := fun i => (r i).specie.m with hm
  have h0 : 0 < m 0 := h.mass0
  have h1 : 0 ≤ m 1 := h.mass 1
  have h2 : 0 ≤ m 2 := h.mass 2
  have h3 : 0 ≤ m 3 := h.mass 3
  have hop : m 1 + m 2 + m 3 ≤ m 0 := h.opened
  set w : CM → ℝ → ℝ → ℝ := fun M x y => closes (m 0) (m 1) (m 2) (m 3) x y *
    restAmplitude m M (prodEn (m 0) x y (partner M.order)) with hw
  have hnice : ∀ M ∈ Ms, TriNice (m 0) (m 1) (m 2) (m 3) (w M) := by
    intro M _
    refine closes_nice _ _ _ _ (g := fun x y => restAmplitude m M (prodEn (m 0) x y (partner M.order))) ?_
    refine (restAmplitude_continuous m M).comp ?_
    unfold prodEn
    split_ifs <;> fun_prop
  have hpi := Real.pi_ne_zero
  have hval : ∀ M ∈ Ms, ∫ x in (m 1)..(m 0 - m 2 - m 3), ∫ y in (m 2)..(m 0 - m 3 - x), w M x y =
      64 * Real.pi ^ 3 * m 0 * restWidth m M := by
    intro M hM
    obtain ⟨v1, v2, v3⟩ := dalitz_all h0 h1 h2 h3 hop (restAmplitude_continuous m M)
    have hne := partner_ne _ (ho M hM)
    have hd : ∀ x : ℝ, 64 * Real.pi ^ 3 * m 0 * (x / (64 * Real.pi ^ 3 * m 0)) = x := fun x => by
      have := h0.ne'
      field_simp
    simp only [hw]
    unfold restWidth prodEn
    rw [hd]
    by_cases j1 : partner M.order = 1
    · simp only [j1, if_true]; exact v1
    · by_cases j2 : partner M.order = 2
      · simp only [j2, if_true, if_neg (show ¬ (2 : Fin 4) = 1 by decide)]; exact v2
      · simp only [if_neg j1, if_neg j2]; exact v3
  obtain ⟨-, hsum⟩ := tri_sum hop w (fun M => 64 * Real.pi ^ 3 * m 0 * restWidth m M) Ms hnice hval
  unfold exactQuad4
  congr 1
  have htype : reactionTypeSum [r 0, r 1, r 2, r 3] = 2 := by
    simp [reactionTypeSum, h.side0, h.side 1 (by decide), h.side 2 (by decide), h.side 3 (by decide)]
  have hP : energyOf (m 1) (momOf (m 1) (m 0 - m 2 - m 3)) = m 0 - m 2 - m 3 := energyOf_momOf _ _ h1 (by linarith)
  have step : ∀ a ∈ Ioo 0 (momOf (m 1) (m 0 - m 2 - m 3)),
      (match innerLimits (reactionTypeSum [r 0, r 1, r 2, r 3]) (r 0).specie.m (r 1).specie.m
        (r 2).specie.m (r 3).specie.m max3 0 a dflt with
      | none => 0
      | some (lo, hi) => ∫ p2 in lo..hi, match integrandFull4 0 a p2 r Ms kind with | .ok v => v | .error _ => 0) =
      a / energyOf (m 1) a * ((fun x => F / m 0 * ∫ y in (m 2)..(m 0 - m 3 - x), (Ms.map fun M => w M x y).sum)
        (energyOf (m 1) a)) := by
    intro a ha
    have hE1 : energyOf (m 1) a < m 0 - m 2 - m 3 := by
      rw [← hP]
      exact energyOf_lt_of (m 1) ha.1.le ha.2
    have hlim : innerLimits (reactionTypeSum [r 0, r 1, r 2, r 3]) (r 0).specie.m (r 1).specie.m (r 2).specie.m
        (r 3).specie.m max3 0 a dflt = some (0, momOf (m 2) (m 0 - m 3 - energyOf (m 1) a)) := by
      unfold innerLimits
      rw [htype, if_pos rfl]
      congr 2
      unfold p2MaxDec momOf
      rw [← energyOf_eq, ← energyOf_eq]
      have : energyOf (r 0).specie.m 0 = m 0 := by
        unfold energyOf
        rw [show (0 : ℝ) ^ 2 + (r 0).specie.m ^ 2 = (r 0).specie.m ^ 2 by ring, Real.sqrt_sq (h.mass 0)]
      rw [this]
      congr 2
      simp only [hm]
      ring
    simp only [hlim]
    have hP2 : energyOf (m 2) (momOf (m 2) (m 0 - m 3 - energyOf (m 1) a)) = m 0 - m 3 - energyOf (m 1) a :=
      energyOf_momOf _ _ h2 (by linarith)
    have := integral_energy_upto (m 2) h2 (momOf_nonneg _ _) hP2
      (fun y => F / m 0 * (a / energyOf (m 1) a) * (Ms.map fun M => w M (energyOf (m 1) a) y).sum)
    rw [intervalIntegral.integral_const_mul] at this
    rw [show a / energyOf (m 1) a * (F / m 0 * ∫ y in (m 2)..(m 0 - m 3 - energyOf (m 1) a), (Ms.map fun M => w M (energyOf (m 1) a) y).sum)
      = F / m 0 * (a / energyOf (m 1) a) * ∫ y in (m 2)..(m 0 - m 3 - energyOf (m 1) a), (Ms.map fun M => w M (energyOf (m 1) a) y).sum by ring,
      ← this]
    refine intervalIntegral.integral_congr_Ioo_of_le (momOf_nonneg _ _) fun b hb => ?_
    have hE2 : energyOf (m 2) b < m 0 - m 3 - energyOf (m 1) a := by
      rw [← hP2]
      exact energyOf_lt_of (m 2) hb.1.le hb.2
    simp only [rest_integrand h hMs hK ho ha.1 hb.1 (show energyOf (m 1) a + energyOf (m 2) b + m 3 < m 0 by linarith) hF]
    rfl
  refine (intervalIntegral.integral_congr_Ioo_of_le (momOf_nonneg _ _) step).trans ?_
  have e1 := integral_energy_upto (m 1) h1 (momOf_nonneg _ _) hP
    (fun x => F / m 0 * ∫ y in (m 2)..(m 0 - m 3 - x), (Ms.map fun M => w M x y).sum)
  rw [e1, intervalIntegral.integral_const_mul, hsum, List.sum_map_mul_left]
  have := h0.ne'
  field_simp

/-- The loop of `integration` for such a decay: the value at zero momentum. -/
theorem rest_loop {kind : ℤ} {F : ℝ}
    (hF : ∀ f0, kindFactor (Kind.ofInt kind) [r 0, r 1, r 2, r 3] [f0, 0, 0, 0] = .ok F)
    (ps : List ℝ) (max1 min2 max2 max3 : ℝ) (sched : List (List ℕ))
    (hsch : ValidSchedule (0 :: ps).length sched) :
    ∃ vs, vs.length = ps.length ∧ integration4Exact r Ms kind (0 :: ps) 0 max1 min2 max2 max3 sched =
      .ok (F * (64 * Real.pi ^ 3 * (Ms.map (restWidth fun i => (r i).specie.m)).sum) :: vs) := by
  have htype : reactionTypeSum [r 0, r 1, r 2, r 3] = 2 := by
    simp [reactionTypeSum, h.side0, h.side 1 (by decide), h.side 2 (by decide), h.side 3 (by decide)]
  unfold integration4Exact
  rw [C40_four_not_scattering _ (by change reactionTypeSum [r 0, r 1, r 2, r 3] ≠ 0; rw [htype]; decide) _ _ _ _ _ hsch]
  have ht : (loopCtx4 r max3).type = 2 := htype
  have hg : ∀ q : ℝ, ∃ v, alone (loopCtx4 r max3) (exactQuad4 r Ms kind max3 (min2, max2)) (0, max1) q = .ok v := by
    intro q
    unfold alone outerLimits
    simp only [ht, if_true]
    exact ⟨_, rfl⟩
  choose g hg using hg
  have h0 : g 0 = F * (64 * Real.pi ^ 3 * (Ms.map (restWidth fun i => (r i).specie.m)).sum) := by
    have := hg 0
    unfold alone outerLimits at this
    simp only [ht, if_true] at this
    have e : √((energy 0 (loopCtx4 r max3).m0 - (loopCtx4 r max3).m2 - (loopCtx4 r max3).m3) ^ 2
        - (loopCtx4 r max3).m1 ^ 2) = momOf (r 1).specie.m ((r 0).specie.m - (r 2).specie.m - (r 3).specie.m) := by
      change √((energy 0 (r 0).specie.m - (r 2).specie.m - (r 3).specie.m) ^ 2 - (r 1).specie.m ^ 2) = _
      rw [← energyOf_eq]
      unfold momOf energyOf
      rw [show (0 : ℝ) ^ 2 + (r 0).specie.m ^ 2 = (r 0).specie.m ^ 2 by ring, Real.sqrt_sq (h.mass 0)]
    rw [e, rest_quad h hMs hK ho max3 _ hF] at this
    exact (Except.ok.inj this).symm
  refine ⟨ps.map g, by simp, ?_⟩
  rw [← h0]
  exact mapM_ok_map (0 :: ps) (alone (loopCtx4 r max3) (exactQuad4 r Ms kind max3 (min2, max2)) (0, max1)) g fun q _ => hg q

end

variable {ι : Type*}

/-- An empty product out of equilibrium on a grid that starts at 0. -/
structure EmptyMassive (sp : Species) (s : PState ι) : Prop where
  mass : 0 ≤ sp.mass
  noneq : inEq sp s = false
  grid : ∃ g, sp.grid = 0 :: g
  inc : sp.grid.Pairwise (· < ·)
  len : s.dist.length = sp.grid.length
  empty : ∀ d ∈ s.dist, d = 0

/-- **C114.** `integrate` of a decay into three empty states of any masses, converged quadrature: at zero momentum the two arrays
are `-Γ f / H` and `-Γ / H` per unit of `ln a` (divided by `x` in linear mode), with the textbook width `Γ`, for any list of
matrix elements with `K1` and `K2` in any index orders. -/
theorem C114_rest (c : Int4 ι) (p : Params) (sched : List (List ℕ))
    (hsch : ValidSchedule (gridCut4 (c.sp 0).grid c.ub).1.length sched)
    (hside0 : c.side 0 = -1) (hside : ∀ i, i ≠ 0 → c.side i = 1) (hkind : c.kind = .full)
    (hfast : (c.sp 0).fastDecay = false) (hn : c.neglect = false) (hGF : c.GF ≠ 0) (ha : 0 < p.a)
    (haT : 0 < p.aT) (hmin : c.min1 = 0) (hMs : c.Ms ≠ []) (hK : ∀ M ∈ c.Ms, M.K = 0)
    (ho : ∀ M ∈ c.Ms, M.order.Bijective) (hm : 0 < (c.sp 0).mass) (hin : inEq (c.sp 0) (c.st 0) = false)
    (ys : List ℝ) (hgrid : (c.sp 0).grid = 0 :: ys) (hinc : (c.sp 0).grid.Pairwise (· < ·))
    (f0 : ℝ) (fs : List ℝ) (hdist : (c.st 0).dist = f0 :: fs) (hlen : (c.st 0).dist.length = (c.sp 0).grid.length)
    (hprod : ∀ i, i ≠ 0 → EmptyMassive (c.sp i) (c.st i))
    (hopen : (c.sp 1).mass + (c.sp 2).mass + (c.sp 3).mass ≤ (c.sp 0).mass) :
    let width := (c.Ms.map (restWidth fun i => (c.sp i).mass)).sum / dofFactor c.majorana (c.sp 0).dof
    let rate := width * c.mult / p.H / (if p.log then 1 else p.x)
    ∃ G L, integrate4 c p sched = .ok (.two (-(rate * f0) :: G) (-rate :: L)) := by
  intro width rate
  have hne : (c.sp 0).grid ≠ [] := by rw [hgrid]; simp
  obtain ⟨k, hk0, hk, -⟩ := C47_four (c.sp 0).grid hne hinc c.ub
  obtain ⟨k, rfl⟩ : ∃ k', k = k' + 1 := ⟨k - 1, by omega⟩
  have hpts : (gridCut4 (c.sp 0).grid c.ub).1 = 0 :: ys.take k := by rw [hk, hgrid]; rfl
  have hfd : RestDecay (physicalReaction c p.a) := by
    refine ⟨hside0, hside, hm, fun i => ?_, hopen, ?_, ?_⟩
    · by_cases hi : i = 0
      · rw [hi]; exact hm.le
      · exact (hprod i hi).mass
    · have := readable_toC (c.sp 0) (c.st 0) { p with aT := p.a } ha ys hgrid hinc hlen
      intro q hq
      obtain ⟨f, hf⟩ := this q hq
      refine ⟨f, ?_⟩
      rw [← hf]
      have e : toC (c.sp 0) (c.st 0) { p with aT := p.a } = (physicalReaction c p.a 0).specie := by
        simp only [toC, physicalReaction]
        rw [mul_div_cancel_right₀ _ ha.ne']
      rw [e]
    · intro i hi q hq
      obtain ⟨-, hq1, ⟨g, hq2⟩, hq3, hq4, hq5⟩ := hprod i hi
      refine occAt_empty (physicalReaction c p.a i).specie (g := g.map (· / p.a)) hq1 ?_ ?_ ?_ hq5 hq
      · change (c.sp i).grid.map (· / p.a) = _
        rw [hq2]; simp
      · change ((c.sp i).grid.map (· / p.a)).Pairwise (· < ·)
        rw [List.pairwise_map]
        exact hq3.imp fun h => div_lt_div_of_pos_right h ha
      · change (c.st i).dist.length = ((c.sp i).grid.map (· / p.a)).length
        rw [hq4, List.length_map]
  have hs1 : ∀ i, i ≠ 0 → (physicalReaction c p.a i).side = 1 := hside
  have hF := empty_factors (physicalReaction c p.a) (hs1 1 (by decide)) (hs1 2 (by decide)) (hs1 3 (by decide))
  have hps : (gridCut4 (c.sp 0).grid c.ub).1.map (· / p.a) = 0 :: (ys.take k).map (· / p.a) := by
    rw [hpts, List.map_cons, zero_div]
  have hsch' : ValidSchedule (0 :: (ys.take k).map (· / p.a)).length sched := by
    rw [hpts] at hsch; simpa using hsch
  obtain ⟨va, la, hA⟩ := rest_loop hfd hMs hK ho (kind := 1) (F := 0) (fun f0 => (hF f0).1) _ (c.max1 / p.a) (c.min2 / p.a)
    (c.max2 / p.a) (c.max3 / p.a) sched hsch'
  obtain ⟨vb, lb, hB⟩ := rest_loop hfd hMs hK ho (kind := 2) (F := -1) (fun f0 => (hF f0).2) _ (c.max1 / p.a) (c.min2 / p.a)
    (c.max2 / p.a) (c.max3 / p.a) sched hsch'
  have hf : (gridCut4 (c.sp 0).grid c.ub).1.mapM (particleDistribution (c.sp 0) p (c.st 0)) =
      .ok ((c.st 0).dist.take (gridCut4 (c.sp 0).grid c.ub).1.length) := by
    rw [hk]
    refine mapM_getElem _ _ _ ?_ fun i hi hi' => ?_
    · simp only [List.length_take, hlen]; omega
    · have hi2 : i < (c.sp 0).grid.length := by
        rw [List.length_take] at hi; omega
      rw [List.getElem_take, List.getElem_take]
      unfold particleDistribution
      rw [if_neg (by rw [hin]; simp), C09_exact_on_grid _ _ _ _ _ hinc hlen i hi2]
  rw [← hps, ← zero_div p.a, ← hmin] at hA hB
  rw [C88_physical c p sched hGF ha haT hK hn hkind hfast hA hB hf]
  have hr : c.mult / (64 * Real.pi ^ 3 * p.H * (if c.majorana then (c.sp 0).dof else (c.sp 0).dof / 2))
      / (if p.log then 1 else p.x) * (-1 * (64 * Real.pi ^ 3 * (c.Ms.map (restWidth fun i => (c.sp i).mass)).sum)) = -rate := by
    have hpi : (64 * Real.pi ^ 3) ≠ 0 := by positivity
    simp only [rate, width, dofFactor]
    generalize (if c.majorana then (c.sp 0).dof else (c.sp 0).dof / 2) = g
    generalize (if p.log then 1 else p.x) = x
    generalize (c.Ms.map (restWidth fun i => (c.sp i).mass)).sum = R
    rw [show c.mult / (64 * Real.pi ^ 3 * p.H * g) = c.mult / (p.H * g) / (64 * Real.pi ^ 3) by
      rw [div_div]; congr 1; ring]
    simp only [div_eq_mul_inv, mul_inv]
    field_simp
  have hlen1 : (gridCut4 (c.sp 0).grid c.ub).1.length = (ys.take k).length + 1 := by rw [hpts]; rfl
  rw [hlen1, hdist, List.take_succ_cons]
  simp only [List.zipWith_cons_cons, List.map_append, List.map_cons, List.cons_append]
  have hr2 : c.mult / (64 * Real.pi ^ 3 * p.H * (if c.majorana then (c.sp 0).dof else (c.sp 0).dof / 2))
      / (if p.log then 1 else p.x) * (c.min1 / p.a * (64 * Real.pi ^ 3 *
        (c.Ms.map (restWidth fun i => (physicalReaction c p.a i).specie.m)).sum) + f0 * (-1 * (64 * Real.pi ^ 3 *
        (c.Ms.map (restWidth fun i => (physicalReaction c p.a i).specie.m)).sum))) = -(rate * f0) := by
    rw [hmin, zero_div, zero_mul, zero_add]
    have hr' : c.mult / (64 * Real.pi ^ 3 * p.H * (if c.majorana then (c.sp 0).dof else (c.sp 0).dof / 2))
      / (if p.log then 1 else p.x) * (-1 * (64 * Real.pi ^ 3 *
        (c.Ms.map (restWidth fun i => (physicalReaction c p.a i).specie.m)).sum)) = -rate := hr
    rw [mul_left_comm, hr']
    ring
  rw [hr2]
  refine ⟨_, _, congrArg Except.ok (congrArg₂ IntOut.two rfl (congrArg₂ List.cons hr rfl))⟩

end PyBBN
