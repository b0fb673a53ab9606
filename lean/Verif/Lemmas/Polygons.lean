import Verif.Lemmas.Invariants
import Verif.Lemmas.Boost
/-!
# Events of a reaction in which no three momenta are aligned
-/
namespace PyBBN

open Set Filter Topology

/-- Energies above the masses whose momenta form a polygon without being aligned. -/
def Strict {n : ℕ} (m e : Fin n → ℝ) : Prop :=
  (∀ i, m i < e i) ∧ ∀ i, 2 * momOf (m i) (e i) < ∑ j, momOf (m j) (e j)

theorem strict_open {n : ℕ} (m : Fin n → ℝ) : IsOpen {e | Strict m e} := by
  have : {e | Strict m e} = (⋂ i, {e : Fin n → ℝ | m i < e i}) ∩
      ⋂ i, {e : Fin n → ℝ | 2 * momOf (m i) (e i) < ∑ j, momOf (m j) (e j)} := by
    ext e; simp [Strict]
  rw [this]
  refine (isOpen_iInter_of_finite fun i => isOpen_lt continuous_const (continuous_apply i)).inter
    (isOpen_iInter_of_finite fun i => isOpen_lt ?_ ?_)
  · exact continuous_const.mul ((momOf_continuous _).comp (continuous_apply i))
  · exact continuous_finsetSum _ fun j _ => (momOf_continuous _).comp (continuous_apply j)

theorem momOf_ge {m x : ℝ} (hm : 0 ≤ m) (hx : m < x) : x - m ^ 2 / x ≤ momOf m x := by
  have hx0 : 0 < x := hm.trans_lt hx
  unfold momOf
  apply Real.le_sqrt_of_sq_le
  have h1 : m ^ 2 / x * x = m ^ 2 := by field_simp
  have h2 : 0 ≤ m ^ 2 / x := by positivity
  have h3 : m ^ 2 / x ≤ x := by rw [div_le_iff₀ hx0]; nlinarith
  nlinarith

theorem momOf_lt {m x : ℝ} (hm : 0 ≤ m) (hx : m < x) : momOf m x ≤ x := by
  unfold momOf
  rw [Real.sqrt_le_left (by linarith)]
  nlinarith

/-! ## Three particles -/

/-- A triangle, given the scalar product of two of the four-momenta. -/
theorem strict_triangle {m0 m1 m2 E1 E2 : ℝ} (h0 : 0 ≤ m0) (h1 : 0 ≤ m1) (h2 : 0 ≤ m2) (hE1 : m1 < E1) (hE2 : m2 < E2)
    (h : |E1 * E2 - (m0 ^ 2 - m1 ^ 2 - m2 ^ 2) / 2| < momOf m1 E1 * momOf m2 E2) :
    Strict ![m0, m1, m2] ![E1 + E2, E1, E2] := by
  have p1 := momOf_pos m1 E1 h1 hE1
  have p2 := momOf_pos m2 E2 h2 hE2
  have s1 := momOf_sq h1 hE1.le
  have s2 := momOf_sq h2 hE2.le
  set a := momOf m1 E1
  set b := momOf m2 E2
  obtain ⟨l1, l2⟩ := abs_lt.mp h
  have hpos : 0 < E1 + E2 := by linarith
  have hE0 : m0 < E1 + E2 := by
    refine lt_of_pow_lt_pow_left₀ 2 hpos.le ?_
    nlinarith [sq_nonneg (a - b)]
  have p0 := momOf_pos m0 (E1 + E2) h0 hE0
  have s0 := momOf_sq h0 hE0.le
  set c := momOf m0 (E1 + E2) with hc
  have u : c < a + b := by
    refine lt_of_pow_lt_pow_left₀ 2 (by linarith) ?_
    nlinarith
  have v : |a - b| < c := by
    refine lt_of_pow_lt_pow_left₀ 2 p0.le ?_
    rw [sq_abs]; nlinarith
  obtain ⟨v1, v2⟩ := abs_lt.mp v
  refine ⟨?_, ?_⟩
  · intro i; fin_cases i
    exacts [hE0, hE1, hE2]
  · intro i
    simp only [Fin.sum_univ_three]
    fin_cases i
    · change 2 * c < c + a + b; linarith
    · change 2 * a < c + a + b; linarith
    · change 2 * b < c + a + b; linarith

/-- Some momentum of the partner makes the invariant mass small. -/
theorem slow_partner {m1 m2 E1 Q : ℝ} (h1 : 0 ≤ m1) (h2 : 0 ≤ m2) (hE1 : m1 < E1) (hQ : m1 * m2 < Q) :
    ∃ E2, m2 < E2 ∧ E1 * E2 - momOf m1 E1 * momOf m2 E2 < Q := by
  have p1 := momOf_pos m1 E1 h1 hE1
  have s1 := momOf_sq h1 hE1.le
  have hE0 : 0 < E1 := h1.trans_lt hE1
  have hQ0 : 0 < Q := (mul_nonneg h1 h2).trans_lt hQ
  rcases h2.eq_or_lt with z2 | z2
  · subst z2
    refine ⟨Q / E1, by positivity, ?_⟩
    have e : momOf 0 (Q / E1) = Q / E1 := by
      unfold momOf; rw [show (Q / E1) ^ 2 - 0 ^ 2 = (Q / E1) ^ 2 by ring, Real.sqrt_sq (by positivity)]
    rw [e, mul_div_cancel₀ _ hE0.ne']
    have : 0 < momOf m1 E1 * (Q / E1) := by positivity
    linarith
  rcases h1.eq_or_lt with z1 | z1
  · subst z1
    have e : momOf 0 E1 = E1 := by
      unfold momOf; rw [show E1 ^ 2 - 0 ^ 2 = E1 ^ 2 by ring, Real.sqrt_sq hE0.le]
    rw [e]
    set q := E1 * m2 ^ 2 / Q with hq
    have hq0 : 0 < q := by positivity
    refine ⟨energyOf m2 q, energyOf_gt m2 q h2 hq0, ?_⟩
    rw [momOf_energyOf m2 q hq0.le, ← mul_sub]
    have hgt : q < energyOf m2 q := by
      unfold energyOf; apply Real.lt_sqrt_of_sq_lt; nlinarith
    have hsq : energyOf m2 q ^ 2 = q ^ 2 + m2 ^ 2 := by unfold energyOf; rw [Real.sq_sqrt (by positivity)]
    have h3 : (energyOf m2 q - q) * (2 * q) < m2 ^ 2 := by nlinarith
    have h4 : q * Q = E1 * m2 ^ 2 := by rw [hq]; field_simp
    by_contra hcon
    push Not at hcon
    have h5 : Q * (2 * q) ≤ E1 * (energyOf m2 q - q) * (2 * q) := mul_le_mul_of_nonneg_right hcon (by linarith)
    have h6 : E1 * ((energyOf m2 q - q) * (2 * q)) < E1 * m2 ^ 2 := mul_lt_mul_of_pos_left h3 hE0
    have : 0 < q * Q := by positivity
    nlinarith
  · refine ⟨m2 * E1 / m1, ?_, ?_⟩
    · rw [lt_div_iff₀ z1]; nlinarith
    · have e : momOf m2 (m2 * E1 / m1) = m2 * momOf m1 E1 / m1 := by
        have : (m2 * E1 / m1) ^ 2 - m2 ^ 2 = (m2 * momOf m1 E1 / m1) ^ 2 := by
          rw [div_pow, mul_pow, div_pow, mul_pow, s1]; field_simp
        rw [show momOf m2 (m2 * E1 / m1) = √((m2 * E1 / m1) ^ 2 - m2 ^ 2) from rfl, this, Real.sqrt_sq (by positivity)]
      rw [e]
      have : E1 * (m2 * E1 / m1) - momOf m1 E1 * (m2 * momOf m1 E1 / m1) = m2 / m1 * (E1 ^ 2 - momOf m1 E1 ^ 2) := by ring
      rw [this, s1, show E1 ^ 2 - (E1 ^ 2 - m1 ^ 2) = m1 ^ 2 by ring]
      have : m2 / m1 * m1 ^ 2 = m1 * m2 := by field_simp
      rw [this]; exact hQ

/-- In a decay every energy of a product occurs. -/
theorem decay_product {m0 m1 m2 E1 : ℝ} (h1 : 0 ≤ m1) (h2 : 0 ≤ m2) (hd : m1 + m2 < m0) (hE1 : m1 < E1) :
    ∃ E2, Strict ![m0, m1, m2] ![E1 + E2, E1, E2] := by
  set Q := (m0 ^ 2 - m1 ^ 2 - m2 ^ 2) / 2 with hQ
  have hQ1 : m1 * m2 < Q := by rw [hQ]; nlinarith
  have hE0 : 0 < E1 := h1.trans_lt hE1
  have p1 := momOf_pos m1 E1 h1 hE1
  obtain ⟨E, hE, hlt⟩ := slow_partner h1 h2 hE1 hQ1
  by_cases hc : Q ≤ E1 * E
  · refine ⟨E, strict_triangle (by linarith) h1 h2 hE1 hE ?_⟩
    rw [abs_of_nonneg (by linarith)]; linarith
  · push Not at hc
    have hgt : E < Q / E1 := by rw [lt_div_iff₀ hE0]; linarith
    refine ⟨Q / E1, strict_triangle (by linarith) h1 h2 hE1 (hE.trans hgt) ?_⟩
    rw [mul_div_cancel₀ _ hE0.ne', ← hQ, sub_self, abs_zero]
    exact mul_pos p1 (momOf_pos _ _ h2 (hE.trans hgt))

/-- In a decay every energy of the decaying particle occurs. -/
theorem decay_parent {m0 m1 m2 E0 : ℝ} (h1 : 0 ≤ m1) (h2 : 0 ≤ m2) (hd : m1 + m2 < m0) (hE0 : m0 < E0) :
    ∃ E1 E2, E1 + E2 = E0 ∧ Strict ![m0, m1, m2] ![E1 + E2, E1, E2] := by
  have h0 : 0 < m0 := by linarith
  set a := (m0 ^ 2 + m1 ^ 2 - m2 ^ 2) / (2 * m0) with ha
  set b := (m0 ^ 2 + m2 ^ 2 - m1 ^ 2) / (2 * m0) with hb
  set g := E0 / m0 with hg
  have hg1 : 1 < g := by rw [hg, one_lt_div h0]; exact hE0
  have hab : a + b = m0 := by rw [ha, hb]; field_simp; ring
  have ha1 : m1 < a := by rw [ha, lt_div_iff₀ (by positivity)]; nlinarith
  have hb1 : m2 < b := by rw [hb, lt_div_iff₀ (by positivity)]; nlinarith
  have hp : a ^ 2 - m1 ^ 2 = b ^ 2 - m2 ^ 2 := by
    have e : a - b = (m1 ^ 2 - m2 ^ 2) / m0 := by rw [ha, hb]; field_simp; ring
    have : (a - b) * (a + b) = m1 ^ 2 - m2 ^ 2 := by rw [e, hab]; field_simp
    linarith [this, show (a - b) * (a + b) = a ^ 2 - b ^ 2 by ring]
  have hp0 : 0 < a ^ 2 - m1 ^ 2 := by nlinarith
  have A1 : m1 < g * a := by nlinarith
  have B1 : m2 < g * b := by nlinarith
  refine ⟨g * a, g * b, by rw [← mul_add, hab, hg]; field_simp, strict_triangle h0.le h1 h2 A1 B1 ?_⟩
  refine lt_of_pow_lt_pow_left₀ 2 (mul_nonneg (momOf_nonneg _ _) (momOf_nonneg _ _)) ?_
  rw [sq_abs, mul_pow, momOf_sq h1 A1.le, momOf_sq h2 B1.le]
  have hm1 : m1 ^ 2 = a ^ 2 - (a ^ 2 - m1 ^ 2) := by ring
  have hm2 : m2 ^ 2 = b ^ 2 - (a ^ 2 - m1 ^ 2) := by rw [hp]; ring
  set P := a ^ 2 - m1 ^ 2 with hP
  have hm0 : m0 ^ 2 = (a + b) ^ 2 := by rw [hab]
  rw [hm0, hm1, hm2]
  have key : ((g * a) ^ 2 - (a ^ 2 - P)) * ((g * b) ^ 2 - (b ^ 2 - P))
      - (g * a * (g * b) - ((a + b) ^ 2 - (a ^ 2 - P) - (b ^ 2 - P)) / 2) ^ 2 = P * (a + b) ^ 2 * (g ^ 2 - 1) := by ring
  have : 0 < P * (a + b) ^ 2 * (g ^ 2 - 1) := by
    rw [hab]
    have : 0 < g ^ 2 - 1 := by nlinarith
    positivity
  linarith

/-- Swapping the products. -/
theorem strict_swap {m0 m1 m2 E0 E1 E2 : ℝ} (h : Strict ![m0, m1, m2] ![E0, E1, E2]) : Strict ![m0, m2, m1] ![E0, E2, E1] := by
  obtain ⟨a, b⟩ := h
  refine ⟨?_, ?_⟩
  · intro i; fin_cases i
    exacts [a 0, a 2, a 1]
  · intro i
    have c0 := b 0
    have c1 := b 1
    have c2 := b 2
    simp only [Fin.sum_univ_three] at c0 c1 c2 ⊢
    change 2 * momOf m0 E0 < momOf m0 E0 + momOf m1 E1 + momOf m2 E2 at c0
    change 2 * momOf m1 E1 < momOf m0 E0 + momOf m1 E1 + momOf m2 E2 at c1
    change 2 * momOf m2 E2 < momOf m0 E0 + momOf m1 E1 + momOf m2 E2 at c2
    fin_cases i
    · change 2 * momOf m0 E0 < momOf m0 E0 + momOf m2 E2 + momOf m1 E1; linarith
    · change 2 * momOf m2 E2 < momOf m0 E0 + momOf m2 E2 + momOf m1 E1; linarith
    · change 2 * momOf m1 E1 < momOf m0 E0 + momOf m2 E2 + momOf m1 E1; linarith

/-- In a decay into two particles every energy of every particle occurs in some event. -/
theorem decay2_reach {m : Fin 3 → ℝ} (hm : ∀ i, 0 ≤ m i) (hd : m 1 + m 2 < m 0) (i : Fin 3) {E : ℝ} (hE : m i < E) :
    ∃ e, Strict m e ∧ e 0 = e 1 + e 2 ∧ e i = E := by
  have em : ∀ {e}, Strict ![m 0, m 1, m 2] e → Strict m e := fun h => by
    have : m = ![m 0, m 1, m 2] := by ext i; fin_cases i <;> rfl
    rw [this]; exact h
  fin_cases i
  · obtain ⟨E1, E2, h, hs⟩ := decay_parent (hm 1) (hm 2) hd hE
    exact ⟨_, em (hs), rfl, h⟩
  · obtain ⟨E2, hs⟩ := decay_product (hm 1) (hm 2) hd hE
    exact ⟨_, em (hs), rfl, rfl⟩
  · obtain ⟨E1, hs⟩ := decay_product (m0 := m 0) (hm 2) (hm 1) (by linarith) hE
    exact ⟨_, em (strict_swap hs), add_comm _ _, rfl⟩

/-! ## Four particles -/

/-- Two triangles with a common side. -/
theorem strict_join {m0 m1 m2 m3 M E0 E1 E2 E3 X : ℝ} (h : Strict ![m0, m1, M] ![E0, E1, X])
    (g : Strict ![M, m2, m3] ![X, E2, E3]) : Strict ![m0, m1, m2, m3] ![E0, E1, E2, E3] := by
  obtain ⟨a, b⟩ := h
  obtain ⟨c, d⟩ := g
  refine ⟨?_, ?_⟩
  · intro i; fin_cases i
    exacts [a 0, a 1, c 1, c 2]
  · have b0 := b 0
    have b1 := b 1
    have b2 := b 2
    have d0 := d 0
    have d1 := d 1
    have d2 := d 2
    simp only [Fin.sum_univ_three] at b0 b1 b2 d0 d1 d2
    change 2 * momOf m0 E0 < momOf m0 E0 + momOf m1 E1 + momOf M X at b0
    change 2 * momOf m1 E1 < momOf m0 E0 + momOf m1 E1 + momOf M X at b1
    change 2 * momOf M X < momOf m0 E0 + momOf m1 E1 + momOf M X at b2
    change 2 * momOf M X < momOf M X + momOf m2 E2 + momOf m3 E3 at d0
    change 2 * momOf m2 E2 < momOf M X + momOf m2 E2 + momOf m3 E3 at d1
    change 2 * momOf m3 E3 < momOf M X + momOf m2 E2 + momOf m3 E3 at d2
    intro i
    simp only [Fin.sum_univ_four]
    fin_cases i
    · change 2 * momOf m0 E0 < momOf m0 E0 + momOf m1 E1 + momOf m2 E2 + momOf m3 E3; linarith
    · change 2 * momOf m1 E1 < momOf m0 E0 + momOf m1 E1 + momOf m2 E2 + momOf m3 E3; linarith
    · change 2 * momOf m2 E2 < momOf m0 E0 + momOf m1 E1 + momOf m2 E2 + momOf m3 E3; linarith
    · change 2 * momOf m3 E3 < momOf m0 E0 + momOf m1 E1 + momOf m2 E2 + momOf m3 E3; linarith

/-- In a decay into three particles every energy of every particle occurs in some event. -/
theorem decay3_reach {m : Fin 4 → ℝ} (hm : ∀ i, 0 ≤ m i) (hd : m 1 + m 2 + m 3 < m 0) (i : Fin 4) {E : ℝ} (hE : m i < E) :
    ∃ e, Strict m e ∧ e 0 = e 1 + e 2 + e 3 ∧ e i = E := by
  have em : ∀ {e}, Strict ![m 0, m 1, m 2, m 3] e → Strict m e := fun h => by
    have : m = ![m 0, m 1, m 2, m 3] := by ext i; fin_cases i <;> rfl
    rw [this]; exact h
  have n1 := hm 1
  have n2 := hm 2
  have n3 := hm 3
  set M := (m 2 + m 3 + (m 0 - m 1)) / 2 with hM
  have M1 : m 2 + m 3 < M := by rw [hM]; linarith
  have M2 : m 1 + M < m 0 := by rw [hM]; linarith
  have M0 : 0 ≤ M := by linarith
  fin_cases i
  · obtain ⟨E1, X, h, hs⟩ := decay_parent n1 M0 M2 hE
    obtain ⟨E2, E3, g, gs⟩ := decay_parent n2 n3 M1 (hs.1 2)
    change E2 + E3 = X at g
    rw [g] at gs
    refine ⟨_, em (strict_join hs gs), ?_, h⟩
    change E1 + X = E1 + E2 + E3; linarith
  · obtain ⟨X, hs⟩ := decay_product n1 M0 M2 hE
    obtain ⟨E2, E3, g, gs⟩ := decay_parent n2 n3 M1 (hs.1 2)
    change E2 + E3 = X at g
    rw [g] at gs
    refine ⟨_, em (strict_join hs gs), ?_, rfl⟩
    change E + X = E + E2 + E3; linarith
  · obtain ⟨E3, gs⟩ := decay_product n2 n3 M1 hE
    obtain ⟨E1, hs⟩ := decay_product (m0 := m 0) M0 n1 (by linarith) (gs.1 0)
    refine ⟨_, em (strict_join (strict_swap hs) gs), ?_, rfl⟩
    change E + E3 + E1 = E1 + E + E3; ring
  · obtain ⟨E2, gs⟩ := decay_product (m0 := M) n3 n2 (by linarith) hE
    obtain ⟨E1, hs⟩ := decay_product (m0 := m 0) M0 n1 (by linarith) (gs.1 0)
    refine ⟨_, em (strict_join (strict_swap hs) (strict_swap gs)), ?_, rfl⟩
    change E + E2 + E1 = E1 + E2 + E; ring

/-- A collision with a fast partner, for the first particle. -/
theorem scatter_first {m0 m1 m2 m3 E0 : ℝ} (h0 : 0 ≤ m0) (h1 : 0 ≤ m1) (h2 : 0 ≤ m2) (h3 : 0 ≤ m3) (hE : m0 < E0) :
    ∃ E1 E2, Strict ![m0, m1, m2, m3] ![E0, E1, E2, E0 + E1 - E2] := by
  have hE0 : 0 < E0 := h0.trans_lt hE
  have p0 := momOf_pos m0 E0 h0 hE
  have l0 := momOf_lt h0 hE
  set R := E0 + m1 + 2 * m2 + 2 * m3 + 2 * (m2 ^ 2 + m3 ^ 2) / momOf m0 E0 + 4 * E0 with hR
  have hfrac : 0 ≤ 2 * (m2 ^ 2 + m3 ^ 2) / momOf m0 E0 := by positivity
  have hRpos : 0 < R := by rw [hR]; linarith
  set E1 := energyOf m1 R with hE1
  have hE1m : m1 < E1 := energyOf_gt m1 R h1 hRpos
  have hE1R : R ≤ E1 := by rw [hE1]; unfold energyOf; exact Real.le_sqrt_of_sq_le (by nlinarith [sq_nonneg m1])
  have hE1R' : E1 ≤ R + m1 := by
    rw [hE1]; unfold energyOf
    rw [Real.sqrt_le_left (by linarith)]; nlinarith
  have e1 : momOf m1 E1 = R := momOf_energyOf m1 R hRpos.le
  set X := (E0 + E1) / 2 with hX
  have hX2 : m2 < X := by rw [hX]; linarith
  have hX3 : m3 < X := by rw [hX]; linarith
  have X0 : 0 < X := by linarith
  have hXR : R / 2 ≤ X := by rw [hX]; linarith
  have a2 := momOf_ge h2 hX2
  have a3 := momOf_ge h3 hX3
  have b2 := momOf_lt h2 hX2
  have b3 := momOf_lt h3 hX3
  have q2 := momOf_nonneg m2 X
  have q3 := momOf_nonneg m3 X
  have hsmall : m2 ^ 2 / X + m3 ^ 2 / X < momOf m0 E0 + E0 := by
    have e : m2 ^ 2 / X + m3 ^ 2 / X = (m2 ^ 2 + m3 ^ 2) / X := by ring
    rw [e, div_lt_iff₀ X0]
    have f : momOf m0 E0 * (2 * (m2 ^ 2 + m3 ^ 2) / momOf m0 E0) = 2 * (m2 ^ 2 + m3 ^ 2) := by field_simp
    have g : 2 * (m2 ^ 2 + m3 ^ 2) / momOf m0 E0 < R := by rw [hR]; linarith
    have g2 := mul_lt_mul_of_pos_left g p0
    rw [f] at g2
    nlinarith
  have hsum : R - momOf m0 E0 < momOf m2 X + momOf m3 X := by
    have : 2 * X = E0 + E1 := by rw [hX]; ring
    linarith
  refine ⟨E1, X, ?_⟩
  have hlast : E0 + E1 - X = X := by rw [hX]; ring
  rw [hlast]
  refine ⟨?_, ?_⟩
  · intro i; fin_cases i
    exacts [hE, hE1m, hX2, hX3]
  · intro i
    simp only [Fin.sum_univ_four]
    have X2 : 2 * X = E0 + E1 := by rw [hX]; ring
    have hm1R : m1 + 4 * E0 < R := by rw [hR]; linarith
    fin_cases i
    · change 2 * momOf m0 E0 < momOf m0 E0 + momOf m1 E1 + momOf m2 X + momOf m3 X
      rw [e1]; linarith
    · change 2 * momOf m1 E1 < momOf m0 E0 + momOf m1 E1 + momOf m2 X + momOf m3 X
      rw [e1]; linarith
    · change 2 * momOf m2 X < momOf m0 E0 + momOf m1 E1 + momOf m2 X + momOf m3 X
      rw [e1]; linarith
    · change 2 * momOf m3 X < momOf m0 E0 + momOf m1 E1 + momOf m2 X + momOf m3 X
      rw [e1]; linarith

/-- Relabelling the particles. -/
theorem Strict.perm {n : ℕ} {m e : Fin n → ℝ} (h : Strict m e) (τ : Equiv.Perm (Fin n)) : Strict (m ∘ τ) (e ∘ τ) := by
  refine ⟨fun i => h.1 (τ i), fun i => ?_⟩
  have := h.2 (τ i)
  rw [← Equiv.sum_comp τ] at this
  exact this

/-- In a collision of two particles every energy of every particle occurs in some event. -/
theorem scatter_reach {m : Fin 4 → ℝ} (hm : ∀ i, 0 ≤ m i) (i : Fin 4) {E : ℝ} (hE : m i < E) :
    ∃ e, Strict m e ∧ e 0 + e 1 = e 2 + e 3 ∧ e i = E := by
  have em : ∀ {e}, Strict ![m 0, m 1, m 2, m 3] e → Strict m e := fun h => by
    have : m = ![m 0, m 1, m 2, m 3] := by ext i; fin_cases i <;> rfl
    rw [this]; exact h
  fin_cases i
  · obtain ⟨E1, E2, h⟩ := scatter_first (hm 0) (hm 1) (hm 2) (hm 3) hE
    refine ⟨_, em (h), ?_, rfl⟩
    change E + E1 = E2 + (E + E1 - E2); ring
  · obtain ⟨E1, E2, h⟩ := scatter_first (hm 1) (hm 0) (hm 2) (hm 3) hE
    refine ⟨![E1, E, E2, E + E1 - E2], ?_, ?_, rfl⟩
    · convert h.perm (Equiv.swap 0 1) using 1
      · ext i; fin_cases i <;> rfl
      · ext i; fin_cases i <;> rfl
    · change E1 + E = E2 + (E + E1 - E2); ring
  · obtain ⟨E1, E2, h⟩ := scatter_first (hm 2) (hm 3) (hm 0) (hm 1) hE
    refine ⟨![E2, E + E1 - E2, E, E1], ?_, ?_, rfl⟩
    · convert h.perm ((Equiv.swap 0 2).trans (Equiv.swap 1 3)) using 1
      · ext i; fin_cases i <;> rfl
      · ext i; fin_cases i <;> rfl
    · change E2 + (E + E1 - E2) = E + E1; ring
  · obtain ⟨E1, E2, h⟩ := scatter_first (hm 3) (hm 2) (hm 0) (hm 1) hE
    refine ⟨![E2, E + E1 - E2, E1, E], ?_, ?_, rfl⟩
    · convert h.perm (((Equiv.swap 0 2).trans (Equiv.swap 1 3)).trans (Equiv.swap 0 1)) using 1
      · ext i; fin_cases i <;> rfl
      · ext i; fin_cases i <;> rfl
    · change E2 + (E + E1 - E2) = E1 + E; ring

end PyBBN
