import Verif.Lemmas.Polygons
import Verif.Props.EntropyDecay
import Mathlib.MeasureTheory.Integral.IntervalIntegral.Basic
/-!
# Only thermal spectra balance a reaction (C122)

The converse of detailed balance (C33).
-/
namespace PyBBN

open Set Filter Topology

/-! ## The spectra the code looks up are continuous -/

theorem energy_continuous (m : ℝ) : Continuous fun p => energy p m := by unfold energy; fun_prop

/-- On a cell of the grid the lookup is a thermal spectrum through both stored values. -/
theorem cell_thermal (grid dist : List ℝ) (m T : ℝ) (eta : ℤ) (heta : eta = 1 ∨ eta = -1) (hs : grid.Pairwise (· < ·))
    (hlen : dist.length = grid.length) (h0 : ∀ g ∈ grid, 0 ≤ g) (hd : ∀ d ∈ dist, 0 < d ∧ (eta = 1 → d < 1)) (i : ℕ)
    (hi : i + 1 < grid.length) :
    ∃ al be, ∀ p, grid[i] ≤ p → p ≤ grid[i + 1] → 0 < Real.exp (al + be * energy p m) + eta ∧
      distributionInterpolation grid dist p m eta T false = .ok (1 / (Real.exp (al + be * energy p m) + eta)) := by
  have inv : ∀ d ∈ dist, 0 < 1 / d - eta := by
    intro d hd'
    obtain ⟨a, b⟩ := hd d hd'
    rcases heta with h | h
    · rw [h]; push_cast
      have : 1 < 1 / d := by rw [lt_div_iff₀ a]; linarith [b h]
      linarith
    · rw [h]; push_cast; have : 0 < 1 / d := by positivity
      linarith
  have m1 : dist[i]'(by omega) ∈ dist := List.getElem_mem _
  have m2 : dist[i + 1]'(by omega) ∈ dist := List.getElem_mem _
  set d1 := dist[i]'(by omega) with hd1
  set d2 := dist[i + 1]'(by omega) with hd2
  have i1 := inv d1 m1
  have i2 := inv d2 m2
  have hlt : grid[i] < grid[i + 1] := List.pairwise_iff_getElem.mp hs i (i + 1) (by omega) hi (by omega)
  have hg0 := h0 grid[i] (List.getElem_mem _)
  have hE : energy grid[i] m < energy grid[i + 1] m := energy_strictMono hg0 hlt
  set E1 := energy grid[i] m
  set E2 := energy grid[i + 1] m
  set u1 := Real.log (1 / d1 - eta) with hu1
  set u2 := Real.log (1 / d2 - eta) with hu2
  have x1 : Real.exp u1 = 1 / d1 - eta := Real.exp_log i1
  have x2 : Real.exp u2 = 1 / d2 - eta := Real.exp_log i2
  have hne : E2 - E1 ≠ 0 := by linarith
  set be := (u2 - u1) / (E2 - E1) with hbe
  set al := u1 - be * E1 with hal
  have a1 : al + be * E1 = u1 := by rw [hal]; ring
  have a2 : al + be * E2 = u2 := by
    have : be * (E2 - E1) = u2 - u1 := by rw [hbe]; field_simp
    rw [hal]; linarith
  have o1 : d1 = occupation eta (al + be * E1) := by
    unfold occupation; rw [a1, x1]; simp
  have o2 : d2 = occupation eta (al + be * E2) := by
    unfold occupation; rw [a2, x2]; simp
  have y1 : 0 < Real.exp (al + be * E1) + eta := by rw [a1, x1]; have := (hd d1 m1).1; simpa using this
  have y2 : 0 < Real.exp (al + be * E2) + eta := by rw [a2, x2]; have := (hd d2 m2).1; simpa using this
  refine ⟨al, be, fun p hp1 hp2 => ⟨?_, ?_⟩⟩
  · rcases heta with h | h
    · rw [h]; push_cast; positivity
    · rw [h] at y1 y2 ⊢
      push_cast at y1 y2 ⊢
      have z1 : 0 < al + be * E1 := by
        rw [← Real.one_lt_exp_iff]; linarith
      have z2 : 0 < al + be * E2 := by
        rw [← Real.one_lt_exp_iff]; linarith
      have e1 : E1 ≤ energy p m := energy_mono hg0 hp1
      have e2 : energy p m ≤ E2 := energy_mono (hg0.trans hp1) hp2
      have : 0 < al + be * energy p m := by
        rcases le_total 0 be with hb | hb
        · nlinarith
        · nlinarith
      have := Real.one_lt_exp_iff.mpr this
      linarith
  · rcases hp1.eq_or_lt with h | h
    · rw [← h, C09_exact_on_grid grid dist m T eta hs hlen i (by omega), ← hd1, o1]; rfl
    rcases hp2.eq_or_lt with g | g
    · rw [g, C09_exact_on_grid grid dist m T eta hs hlen (i + 1) hi, ← hd2, o2]; rfl
    · rw [lookup_between grid dist p m T eta hs hlen i hi h g, ← hd1, ← hd2, o1, o2,
        interpCell_spectrum _ _ _ _ _ _ _ hg0 h g y1 y2]
      rfl

/-- Above the grid, and at its last point, the lookup is the Boltzmann tail. -/
theorem tail_lookup (grid dist : List ℝ) (m T : ℝ) (eta : ℤ) (hne : grid ≠ []) (hd : dist ≠ []) (hs : grid.Pairwise (· < ·))
    (hlen : dist.length = grid.length) (p : ℝ) (hp : grid.getLast hne ≤ p) :
    distributionInterpolation grid dist p m eta T false =
      .ok (dist.getLast hd * Real.exp ((energy (grid.getLast hne) m - energy p m) / T)) := by
  rcases hp.eq_or_lt with h | h
  · have hl : 0 < grid.length := List.length_pos_iff.mpr hne
    have e := C09_exact_on_grid grid dist m T eta hs hlen (grid.length - 1) (by omega)
    rw [← h, sub_self, zero_div, Real.exp_zero, mul_one]
    have e1 : grid.getLast hne = grid[grid.length - 1] := List.getLast_eq_getElem hne
    have e2 : dist.getLast hd = dist[grid.length - 1]'(by omega) := by
      rw [List.getLast_eq_getElem hd]; congr 1; omega
    rw [e1, e2, e]
  · refine C09_above grid dist p m T eta hne hlen (fun g hg => ?_) hd
    obtain ⟨k, hk, rfl⟩ := List.getElem_of_mem hg
    refine lt_of_le_of_lt ?_ h
    rw [List.getLast_eq_getElem hne]
    rcases (show k ≤ grid.length - 1 by omega).eq_or_lt with e | e
    · simp [e]
    · exact (List.pairwise_iff_getElem.mp hs k (grid.length - 1) hk (by omega) e).le

/-- The spectrum of a species as the code looks it up: defined and continuous from zero momentum on, no mode empty or
full. -/
theorem Filled.continuous {s : CParticle} (h : Filled s) (hm : 0 ≤ s.m) :
    ∃ f : ℝ → ℝ, (∀ p, 0 ≤ p → occAt s p = .ok (f p)) ∧ ContinuousOn f (Ici 0) ∧ ∀ p, 0 ≤ p → Partly s.eta (f p) := by
  obtain ⟨f, B, -, hf⟩ := h.regular
  have hocc : ∀ p, 0 ≤ p → occAt s p = .ok (f p) := fun p hp => (hf p hp).1
  refine ⟨f, hocc, ?_, fun p hp => (h.partly f hocc p).partly h.eta hp le_rfl⟩
  rcases h with ⟨a, b, c, d⟩ | ⟨a, ⟨g, b⟩, c, d, e, k, l⟩
  · have hE : ContinuousOn (fun p => 1 / (Real.exp (energy p s.m / s.T) + s.eta)) (Ici 0) := by
      refine ContinuousOn.div continuousOn_const ?_ ?_
      · have := energy_continuous s.m
        exact Continuous.continuousOn (by fun_prop)
      · intro p hp
        rcases d with d | ⟨d, d'⟩
        · rw [d]; push_cast; positivity
        · rw [d]; push_cast
          have hEp : 0 < energy p s.m := by
            unfold energy; apply Real.sqrt_pos.mpr; nlinarith [mul_self_nonneg p]
          have := Real.one_lt_exp_iff.mpr (show 0 < energy p s.m / s.T by positivity)
          intro h0; linarith
    refine hE.congr fun p hp => ?_
    have := hocc p hp
    unfold occAt distributionInterpolation at this
    rw [if_pos a, Except.ok.injEq] at this
    exact this.symm
  · have hne : s.grid ≠ [] := by rw [b]; simp
    have hl : 0 < s.grid.length := List.length_pos_iff.mpr hne
    have hdne : s.dist ≠ [] := by
      intro h; rw [h] at d; exact hne (List.length_eq_zero_iff.mp d.symm)
    have hpos : ∀ x ∈ s.grid, 0 ≤ x := by
      intro x hx
      rw [b] at hx c
      rcases List.mem_cons.mp hx with rfl | hx
      · exact le_rfl
      · exact ((List.pairwise_cons.mp c).1 x hx).le
    have hfirst : s.grid[0] = 0 := by simp only [b, List.getElem_cons_zero]
    have hval : ∀ p, 0 ≤ p → distributionInterpolation s.grid s.dist p s.m s.eta s.T false = .ok (f p) := by
      intro p hp; rw [← hocc p hp]; unfold occAt; rw [a]
    have cells : ∀ i, (hi : i < s.grid.length) → ContinuousOn f (Icc 0 s.grid[i]) := by
      intro i
      induction i with
      | zero =>
        intro hi
        rw [hfirst, Icc_self]; exact continuousOn_singleton _ _
      | succ i ih =>
        intro hi
        have hlt : s.grid[i] < s.grid[i + 1] := List.pairwise_iff_getElem.mp c i (i + 1) (by omega) hi (by omega)
        have hg0 := hpos s.grid[i] (List.getElem_mem _)
        rw [← Icc_union_Icc_eq_Icc hg0 hlt.le]
        refine (ih (by omega)).union_of_isClosed ?_ isClosed_Icc isClosed_Icc
        obtain ⟨al, be, hab⟩ := cell_thermal s.grid s.dist s.m s.T s.eta k c d hpos l i hi
        have hc : ContinuousOn (fun p => 1 / (Real.exp (al + be * energy p s.m) + s.eta)) (Icc s.grid[i] s.grid[i + 1]) := by
          refine ContinuousOn.div continuousOn_const ?_ fun p hp => (hab p hp.1 hp.2).1.ne'
          have := energy_continuous s.m
          exact Continuous.continuousOn (by fun_prop)
        refine hc.congr fun p hp => ?_
        have := hval p (hg0.trans hp.1)
        rw [(hab p hp.1 hp.2).2, Except.ok.injEq] at this
        exact this.symm
    have hlast := cells (s.grid.length - 1) (by omega)
    have hl0 : 0 ≤ s.grid[s.grid.length - 1] := hpos _ (List.getElem_mem _)
    rw [← Icc_union_Ici_eq_Ici hl0]
    refine hlast.union_of_isClosed ?_ isClosed_Icc isClosed_Ici
    have hc : ContinuousOn (fun p => s.dist.getLast hdne * Real.exp ((energy (s.grid.getLast hne) s.m - energy p s.m) / s.T))
        (Ici s.grid[s.grid.length - 1]) := by
      have := energy_continuous s.m
      exact Continuous.continuousOn (by fun_prop)
    refine hc.congr fun p hp => ?_
    have := hval p (hl0.trans hp)
    rw [tail_lookup s.grid s.dist s.m s.T s.eta hne hdne c d p (by rw [List.getLast_eq_getElem hne]; exact hp),
      Except.ok.injEq] at this
    exact this.symm

/-! ## The kernel is positive at momenta which are not aligned -/

theorem dot_strict {a b d : ℝ} (h1 : |a - b| < d) (h2 : d < a + b) : |dot a b d| < a * b := by
  have h0 := (abs_nonneg _).trans h1.le
  have e1 : (a - b) ^ 2 < d ^ 2 := by rw [← sq_abs (a - b)]; exact pow_lt_pow_left₀ h1 (abs_nonneg _) (by norm_num)
  have e2 : d ^ 2 < (a + b) ^ 2 := pow_lt_pow_left₀ h2 h0 (by norm_num)
  unfold dot
  rw [abs_lt]
  constructor <;> nlinarith

theorem fourProduct_pos {E p : Fin 4 → ℝ} {s : Fin 4 → ℤ} {i j : Fin 4} {d : ℝ}
    (hs : ∀ i, s i = 1 ∨ s i = -1) (hp : ∀ i, 0 ≤ p i) (hE : ∀ i, p i ≤ E i)
    (h1 : |p i - p j| < d) (h2 : d < p i + p j) : 0 < fourProduct E p s i j d := by
  have hb := dot_strict h1 h2
  have hm : p i * p j ≤ E i * E j := mul_le_mul (hE i) (hE j) (hp j) ((hp i).trans (hE i))
  obtain ⟨b1, b2⟩ := abs_lt.mp hb
  unfold fourProduct
  rcases hs i with h | h <;> rcases hs j with g | g <;> rw [h, g] <;> push_cast <;> linarith

theorem D_pos (p E m : Fin 4 → ℝ) (K1 K2 : ℝ) (σ : Equiv.Perm (Fin 4)) (s : Fin 4 → ℤ)
    (hs : ∀ i, s i = 1 ∨ s i = -1) (hp : ∀ i, 0 < p i) (hE : ∀ i, p i ≤ E i) (hm : ∀ i, 0 ≤ m i)
    (hpoly : ∀ i, 2 * p i < ∑ j, p j) (h1 : 0 < K1) (h2 : 0 ≤ K2) : 0 < D p E m K1 K2 σ s := by
  have hp' : ∀ i, 0 ≤ p i := fun i => (hp i).le
  rw [C63_average p E m K1 K2 σ s hp']
  have q : ∀ i, 2 * p (σ i) < p (σ 0) + p (σ 1) + p (σ 2) + p (σ 3) := by
    intro i
    have := hpoly (σ i)
    rwa [← Equiv.sum_comp σ p, Fin.sum_univ_four] at this
  have q0 := q 0
  have q1 := q 1
  have q2 := q 2
  have q3 := q 3
  have n0 := hp (σ 0)
  have n1 := hp (σ 1)
  have n2 := hp (σ 2)
  have n3 := hp (σ 3)
  have hlt : max |p (σ 0) - p (σ 1)| |p (σ 2) - p (σ 3)| < min (p (σ 0) + p (σ 1)) (p (σ 2) + p (σ 3)) := by
    rw [lt_min_iff, max_lt_iff, max_lt_iff, abs_lt, abs_lt, abs_lt, abs_lt]
    refine ⟨⟨⟨?_, ?_⟩, ?_, ?_⟩, ⟨?_, ?_⟩, ?_, ?_⟩ <;> linarith
  unfold pairAverage
  rw [if_pos hlt.le]
  refine mul_pos (by norm_num) (intervalIntegral.intervalIntegral_pos_of_pos_on ?_ ?_ hlt)
  · refine Continuous.intervalIntegrable ?_ _ _
    unfold amplitude fourProduct dot
    fun_prop
  · intro d hd
    obtain ⟨g1, g2⟩ := hd
    have a1 := (le_max_left _ _).trans_lt g1
    have a2 := (le_max_right _ _).trans_lt g1
    have b1 := g2.trans_le (min_le_left _ _)
    have b2 := g2.trans_le (min_le_right _ _)
    have f1 := fourProduct_pos hs hp' hE a1 b1
    have f2 := fourProduct_pos hs hp' hE a2 b2
    unfold amplitude
    have := hm (σ 0)
    have := hm (σ 1)
    positivity

/-- Matrix elements which let the reaction happen: non-negative coefficients, at least one positive. -/
def Couples (Ms : List CM) : Prop :=
  (∀ M ∈ Ms, M.order.Bijective ∧ 0 ≤ M.K ∧ 0 ≤ M.K1 ∧ 0 ≤ M.K2) ∧ ∃ M ∈ Ms, 0 < M.K1

theorem sum_pos_of {l : List ℝ} (h : ∀ x ∈ l, 0 ≤ x) (hx : ∃ x ∈ l, 0 < x) : 0 < l.sum := by
  induction l with
  | nil => simp at hx
  | cons a l ih =>
    rw [List.sum_cons]
    have ha := h a (by simp)
    have hl : ∀ x ∈ l, 0 ≤ x := fun x hx => h x (by simp [hx])
    obtain ⟨x, hx, hx0⟩ := hx
    rcases List.mem_cons.mp hx with rfl | hx
    · have := List.sum_nonneg hl; linarith
    · have := ih hl ⟨x, hx, hx0⟩; linarith

theorem kernel_pos (r : Fin 4 → Reactant) (Ms : List CM) (p E : Fin 4 → ℝ) (hMs : Couples Ms)
    (hs : ∀ i, (r i).side = 1 ∨ (r i).side = -1) (hm : ∀ i, 0 ≤ (r i).specie.m) (hp : ∀ i, 0 < p i)
    (hE : ∀ i, p i ≤ E i) (hpoly : ∀ i, 2 * p i < ∑ j, p j) : ∃ ds, kernel4 r Ms p E = .ok ds ∧ 0 < ds := by
  obtain ⟨h1, M, hM, hMK⟩ := hMs
  unfold kernel4
  cases Ms with
  | nil => simp at hM
  | cons M0 Mt =>
    simp only []
    split_ifs with hK hp0
    · exact ⟨_, rfl, lt_of_le_of_ne (h1 M0 (by simp)).2.1 (Ne.symm hK)⟩
    · refine ⟨_, rfl, div_pos (sum_pos_of ?_ ?_) (mul_pos (hp 0) ((hp 0).trans_le (hE 0)))⟩
      · intro x hx
        obtain ⟨N, hN, rfl⟩ := List.mem_map.mp hx
        obtain ⟨c1, -, c2, c3⟩ := h1 N hN
        exact C63_nonneg p E _ _ _ (Equiv.ofBijective _ c1) _ hs (fun i => (hp i).le) hE hm c2 c3
      · refine ⟨_, List.mem_map.mpr ⟨M, hM, rfl⟩, ?_⟩
        obtain ⟨c1, -, c2, c3⟩ := h1 M hM
        exact D_pos p E _ _ _ (Equiv.ofBijective _ c1) _ hs hp hE hm hpoly hMK c3
    · exact absurd (hp 0).ne' hp0

/-! ## Balance of one event -/

/-- `ln((1-ηf)/f)`, which is `(E-μ)/T` for a thermal spectrum. -/
noncomputable def affinity (eta : ℤ) (f : ℝ) : ℝ := Real.log ((1 - eta * f) / f)

theorem affinity_eq {eta : ℤ} {f : ℝ} (h : Partly eta f) (u : ℝ) : affinity eta f = u ↔ f = 1 / (Real.exp u + eta) := by
  obtain ⟨-, h0, h1⟩ := h
  have hpos : 0 < (1 - eta * f) / f := div_pos (by linarith) h0
  unfold affinity
  constructor
  · rintro rfl
    rw [Real.exp_log hpos]
    have : (1 - eta * f) / f + eta = 1 / f := by field_simp; ring
    rw [this, one_div_one_div]
  · intro hf
    have hne : Real.exp u + eta ≠ 0 := by
      intro h; rw [h] at hf; simp at hf; linarith
    have : (1 - eta * f) / f = Real.exp u := by
      rw [div_eq_iff h0.ne', hf]; field_simp; ring
    rw [this, Real.log_exp]

section
variable (r : Fin 4 → Reactant) (Ms : List CM) (f : Fin 4 → ℝ → ℝ)

/-- Sum of the affinities over an event. -/
noncomputable def imbalance {n : ℕ} (r : Fin n → Reactant) (f : Fin n → ℝ → ℝ) (p : Fin n → ℝ) : ℝ :=
  ∑ i, ((r i).side : ℝ) * affinity (r i).specie.eta (f i (p i))

theorem functional4 (s0 : (r 0).side = -1) (hs : ∀ i, (r i).side = 1 ∨ (r i).side = -1) (p : Fin 4 → ℝ)
    (hpart : ∀ i, Partly (r i).specie.eta (f i (p i))) :
    kindFactor (Kind.ofInt 0) [r 0, r 1, r 2, r 3] [f 0 (p 0), f 1 (p 1), f 2 (p 2), f 3 (p 3)] = .ok 0 ↔
      imbalance r f p = 0 := by
  rw [show Kind.ofInt 0 = .full from rfl, C74_zero_iff (r 0) [r 1, r 2, r 3] _ _ rfl s0 ?_ ?_]
  · unfold imbalance affinity
    rw [Fin.sum_univ_four]
    simp only [List.zip_cons_cons, List.zip_nil_right, List.map_cons, List.map_nil, List.sum_cons, List.sum_nil, add_zero]
    rw [← add_assoc, ← add_assoc]
  · intro x hx
    simp only [List.zip_cons_cons, List.zip_nil_right, List.mem_cons, List.not_mem_nil, or_false] at hx
    rcases hx with rfl | rfl | rfl
    exacts [hs 1, hs 2, hs 3]
  · intro x hx
    simp only [List.zip_cons_cons, List.zip_nil_right, List.mem_cons, List.not_mem_nil, or_false] at hx
    rcases hx with rfl | rfl | rfl | rfl
    exacts [hpart 0, hpart 1, hpart 2, hpart 3]

/-- **C122.** If the affinities of the possible event at the given momenta add up to zero, the integrand vanishes. -/
theorem integrand4_balanced (s0 : (r 0).side = -1) (hs : ∀ i, (r i).side = 1 ∨ (r i).side = -1)
    (hMs : Ms ≠ []) (p0 p1 p2 : ℝ) (hp : ∀ i, 0 ≤ momenta4 r p0 p1 p2 i)
    (hf : ∀ i p, 0 ≤ p → occAt (r i).specie p = .ok (f i p)) (hpart : ∀ i p, 0 ≤ p → Partly (r i).specie.eta (f i p))
    (hb : (r 3).specie.m ≤ lastEnergy4 r p0 p1 p2 → imbalance r f (momenta4 r p0 p1 p2) = 0) :
    integrandFull4 p0 p1 p2 r Ms 0 = .ok 0 := by
  unfold integrandFull4
  by_cases hE : lastEnergy4 r p0 p1 p2 < (r 3).specie.m
  · rw [if_pos hE]
  rw [if_neg hE]
  simp only []
  by_cases hbd : inBounds4 (momenta4 r p0 p1 p2) (energies4 r p0 p1 p2) fun i => (r i).specie.m
  swap
  · rw [if_pos hbd]
  rw [if_neg (not_not.mpr hbd)]
  by_cases hj : jacobian4 r (momenta4 r p0 p1 p2) (energies4 r p0 p1 p2) = 0
  · rw [if_pos hj]
  rw [if_neg hj]
  have hk : ∃ ds, kernel4 r Ms (momenta4 r p0 p1 p2) (energies4 r p0 p1 p2) = .ok ds := by
    unfold kernel4
    cases Ms with
    | nil => exact absurd rfl hMs
    | cons M0 Mt => simp only []; split_ifs <;> exact ⟨_, rfl⟩
  obtain ⟨ds, hds⟩ := hk
  rw [hds]
  simp only [Bind.bind, Except.bind]
  split_ifs with hz
  · rfl
  rw [hf 0 _ (hp 0), hf 1 _ (hp 1), hf 2 _ (hp 2), hf 3 _ (hp 3)]
  simp only []
  rw [(functional4 r f s0 hs _ fun i => hpart i _ (hp i)).mpr (hb (not_lt.mp hE))]
  simp

/-- **C122.** An event in which the momenta are not aligned contributes nothing only if the affinities add up to zero. -/
theorem integrand4_unbalanced (s0 : (r 0).side = -1) (hs : ∀ i, (r i).side = 1 ∨ (r i).side = -1)
    (hm : ∀ i, 0 ≤ (r i).specie.m) (hMs : Couples Ms) (e : Fin 4 → ℝ) (he : Strict (fun i => (r i).specie.m) e)
    (hE : ∑ i, ((r i).side : ℝ) * e i = 0)
    (hf : ∀ i p, 0 ≤ p → occAt (r i).specie p = .ok (f i p)) (hpart : ∀ i p, 0 ≤ p → Partly (r i).specie.eta (f i p))
    (hz : integrandFull4 (momOf (r 0).specie.m (e 0)) (momOf (r 1).specie.m (e 1)) (momOf (r 2).specie.m (e 2)) r Ms 0
      = .ok 0) :
    momenta4 r (momOf (r 0).specie.m (e 0)) (momOf (r 1).specie.m (e 1)) (momOf (r 2).specie.m (e 2))
        = (fun i => momOf (r i).specie.m (e i)) ∧
      imbalance r f (fun i => momOf (r i).specie.m (e i)) = 0 := by
  obtain ⟨h1, h2⟩ := he
  have en : ∀ i, energy (momOf (r i).specie.m (e i)) (r i).specie.m = e i := fun i => by
    rw [← energyOf_eq, energyOf_momOf _ _ (hm i) (h1 i).le]
  have hl : lastEnergy4 r (momOf (r 0).specie.m (e 0)) (momOf (r 1).specie.m (e 1)) (momOf (r 2).specie.m (e 2)) = e 3 := by
    unfold lastEnergy4
    rw [en 0, en 1, en 2]
    rw [Fin.sum_univ_four] at hE
    have h3 : ((r 3).side : ℝ) * (r 3).side = 1 := by
      rcases hs 3 with h | h <;> rw [h] <;> norm_num
    linear_combination (-((r 3).side : ℝ)) * hE + e 3 * h3
  have hmom : momenta4 r (momOf (r 0).specie.m (e 0)) (momOf (r 1).specie.m (e 1)) (momOf (r 2).specie.m (e 2))
      = fun i => momOf (r i).specie.m (e i) := by
    unfold momenta4
    rw [hl]
    ext i; fin_cases i <;> rfl
  have hen : energies4 r (momOf (r 0).specie.m (e 0)) (momOf (r 1).specie.m (e 1)) (momOf (r 2).specie.m (e 2)) = e := by
    unfold energies4
    rw [hl, en 0, en 1, en 2]
    ext i; fin_cases i <;> rfl
  refine ⟨hmom, ?_⟩
  have pos : ∀ i, 0 < momOf (r i).specie.m (e i) := fun i => momOf_pos _ _ (hm i) (h1 i)
  have le : ∀ i, momOf (r i).specie.m (e i) ≤ e i := fun i => momOf_lt (hm i) (h1 i)
  obtain ⟨ds, hds, hds0⟩ := kernel_pos r Ms _ e hMs hs hm pos le h2
  unfold integrandFull4 at hz
  rw [hl, if_neg (not_lt.mpr (h1 3).le)] at hz
  simp only [] at hz
  rw [hmom, hen] at hz
  have hbd : inBounds4 (fun i => momOf (r i).specie.m (e i)) e fun i => (r i).specie.m := by
    rw [C35_four _ _ _ fun i => (pos i).le, canClose4_iff _ fun i => (pos i).le]
    have a0 := h2 0
    have a1 := h2 1
    have a2 := h2 2
    have a3 := h2 3
    rw [Fin.sum_univ_four] at a0 a1 a2 a3
    refine ⟨(h1 3).le, ?_, ?_, ?_, ?_⟩ <;> linarith
  rw [if_neg (not_not.mpr hbd)] at hz
  have hj : 0 < jacobian4 r (fun i => momOf (r i).specie.m (e i)) e := by
    have q : ∀ i, 0 < momOf (r i).specie.m (e i) / e i := fun i => div_pos (pos i) ((pos i).trans_le (le i))
    unfold jacobian4
    refine mul_pos (mul_pos one_pos ?_) ?_
    · split_ifs
      · exact q 1
      · norm_num
    · split_ifs
      · exact q 2
      · norm_num
  rw [if_neg hj.ne', hds] at hz
  simp only [Bind.bind, Except.bind] at hz
  rw [if_neg (mul_pos hj hds0).ne', hf 0 _ (pos 0).le, hf 1 _ (pos 1).le, hf 2 _ (pos 2).le, hf 3 _ (pos 3).le] at hz
  simp only [] at hz
  rw [← functional4 r f s0 hs (fun i => momOf (r i).specie.m (e i)) fun i => hpart i _ (pos i).le]
  generalize hF : kindFactor (Kind.ofInt 0) [r 0, r 1, r 2, r 3] [f 0 (momOf (r 0).specie.m (e 0)),
    f 1 (momOf (r 1).specie.m (e 1)), f 2 (momOf (r 2).specie.m (e 2)), f 3 (momOf (r 3).specie.m (e 3))] = F at hz
  cases F with
  | error err => simp at hz
  | ok v =>
    simp only [Except.ok.injEq] at hz
    rw [(mul_eq_zero.mp hz).resolve_left (mul_pos hj hds0).ne']

end

section
variable (r : Fin 3 → Reactant) (f : Fin 3 → ℝ → ℝ)

theorem functional3 (s0 : (r 0).side = -1) (hs : ∀ i, (r i).side = 1 ∨ (r i).side = -1) (p : Fin 3 → ℝ)
    (hpart : ∀ i, Partly (r i).specie.eta (f i (p i))) :
    kindFactor (Kind.ofInt 0) [r 0, r 1, r 2] [f 0 (p 0), f 1 (p 1), f 2 (p 2)] = .ok 0 ↔ imbalance r f p = 0 := by
  rw [show Kind.ofInt 0 = .full from rfl, C74_zero_iff (r 0) [r 1, r 2] _ _ rfl s0 ?_ ?_]
  · unfold imbalance affinity
    rw [Fin.sum_univ_three]
    simp only [List.zip_cons_cons, List.zip_nil_right, List.map_cons, List.map_nil, List.sum_cons, List.sum_nil, add_zero]
    rw [← add_assoc]
  · intro x hx
    simp only [List.zip_cons_cons, List.zip_nil_right, List.mem_cons, List.not_mem_nil, or_false] at hx
    rcases hx with rfl | rfl
    exacts [hs 1, hs 2]
  · intro x hx
    simp only [List.zip_cons_cons, List.zip_nil_right, List.mem_cons, List.not_mem_nil, or_false] at hx
    rcases hx with rfl | rfl | rfl
    exacts [hpart 0, hpart 1, hpart 2]

/-- **C122.** The same for two-body decays. -/
theorem integrand3_unbalanced (s0 : (r 0).side = -1) (hs : ∀ i, (r i).side = 1 ∨ (r i).side = -1)
    (hm : ∀ i, 0 ≤ (r i).specie.m) (e : Fin 3 → ℝ) (he : Strict (fun i => (r i).specie.m) e)
    (hE : ∑ i, ((r i).side : ℝ) * e i = 0)
    (hf : ∀ i p, 0 ≤ p → occAt (r i).specie p = .ok (f i p)) (hpart : ∀ i p, 0 ≤ p → Partly (r i).specie.eta (f i p))
    (hz : integrandFull3 (momOf (r 0).specie.m (e 0)) (momOf (r 1).specie.m (e 1)) 0 r = .ok 0) :
    imbalance r f (fun i => momOf (r i).specie.m (e i)) = 0 := by
  obtain ⟨h1, h2⟩ := he
  have en : ∀ i, energy (momOf (r i).specie.m (e i)) (r i).specie.m = e i := fun i => by
    rw [← energyOf_eq, energyOf_momOf _ _ (hm i) (h1 i).le]
  have hl : lastEnergy3 r (momOf (r 0).specie.m (e 0)) (momOf (r 1).specie.m (e 1)) = e 2 := by
    unfold lastEnergy3
    rw [en 0, en 1]
    rw [Fin.sum_univ_three] at hE
    have h3 : ((r 2).side : ℝ) * (r 2).side = 1 := by
      rcases hs 2 with h | h <;> rw [h] <;> norm_num
    linear_combination (-((r 2).side : ℝ)) * hE + e 2 * h3
  have hmom : momenta3 r (momOf (r 0).specie.m (e 0)) (momOf (r 1).specie.m (e 1))
      = fun i => momOf (r i).specie.m (e i) := by
    unfold momenta3
    rw [hl]
    ext i; fin_cases i <;> rfl
  have pos : ∀ i, 0 < momOf (r i).specie.m (e i) := fun i => momOf_pos _ _ (hm i) (h1 i)
  have le : ∀ i, momOf (r i).specie.m (e i) ≤ e i := fun i => momOf_lt (hm i) (h1 i)
  have hfac : 0 < factor3 r (momOf (r 0).specie.m (e 0)) (momOf (r 1).specie.m (e 1)) := by
    have hb : inBounds3 (fun i => momOf (r i).specie.m (e i)) = 2 := by
      rw [(C35_three _ pos).2.1]
      have a0 := h2 0
      have a1 := h2 1
      have a2 := h2 2
      rw [Fin.sum_univ_three] at a0 a1 a2
      refine ⟨?_, ?_, ?_⟩ <;> linarith
    unfold factor3
    rw [hl, if_neg (not_lt.mpr (h1 2).le), if_neg (pos 0).ne', hmom, hb, en 0, en 1]
    have q : 0 < momOf (r 1).specie.m (e 1) / e 1 := div_pos (pos 1) ((pos 1).trans_le (le 1))
    have q0 : 0 < momOf (r 0).specie.m (e 0) * e 0 := mul_pos (pos 0) ((pos 0).trans_le (le 0))
    refine div_pos (mul_pos (by norm_num) ?_) q0
    split_ifs
    · exact q
    · norm_num
  unfold integrandFull3 at hz
  rw [if_neg hfac.ne'] at hz
  simp only [Bind.bind, Except.bind] at hz
  rw [hmom, hf 0 _ (pos 0).le, hf 1 _ (pos 1).le, hf 2 _ (pos 2).le] at hz
  simp only [] at hz
  rw [← functional3 r f s0 hs (fun i => momOf (r i).specie.m (e i)) fun i => hpart i _ (pos i).le]
  generalize hF : kindFactor (Kind.ofInt 0) [r 0, r 1, r 2] [f 0 (momOf (r 0).specie.m (e 0)),
    f 1 (momOf (r 1).specie.m (e 1)), f 2 (momOf (r 2).specie.m (e 2))] = F at hz
  cases F with
  | error err => simp at hz
  | ok v =>
    simp only [Except.ok.injEq] at hz
    rw [(mul_eq_zero.mp hz).resolve_left hfac.ne']

end

/-! ## All events balanced: thermal spectra -/

/-- Spectra balanced in every event with momenta in a given interval are thermal there, with a common temperature and
chemical potentials in chemical equilibrium. -/
theorem thermal_on {n : ℕ} (hn : 3 ≤ n) (r : Fin n → Reactant) (f : Fin n → ℝ → ℝ) {W : Set ℝ} (hW : W ⊆ Ioi 0)
    (hWo : IsOpen W) (hWc : IsPreconnected W) (hW0 : W.Nonempty) (hs : ∀ i, (r i).side = 1 ∨ (r i).side = -1)
    (hm : ∀ i, 0 ≤ (r i).specie.m) (hcont : ∀ i, ContinuousOn (f i) W)
    (hpart : ∀ i, ∀ p ∈ W, Partly (r i).specie.eta (f i p))
    (hbal : ∀ e, Strict (fun i => (r i).specie.m) e → (∀ i, momOf (r i).specie.m (e i) ∈ W) →
      ∑ i, ((r i).side : ℝ) * e i = 0 → imbalance r f (fun i => momOf (r i).specie.m (e i)) = 0)
    (hreach : ∀ i E, (r i).specie.m < E → momOf (r i).specie.m E ∈ W → ∃ e, Strict (fun i => (r i).specie.m) e ∧
      (∀ j, momOf (r j).specie.m (e j) ∈ W) ∧ ∑ j, ((r j).side : ℝ) * e j = 0 ∧ e i = E) :
    ∃ (β : ℝ) (ν : Fin n → ℝ), ∑ i, ((r i).side : ℝ) * ν i = 0 ∧
      ∀ i, ∀ p ∈ W, affinity (r i).specie.eta (f i p) = β * energyOf (r i).specie.m p - ν i := by
  set m : Fin n → ℝ := fun i => (r i).specie.m with hmdef
  set S : Fin n → Set ℝ := fun i => Ioi (m i) ∩ momOf (m i) ⁻¹' W with hSdef
  have hSim : ∀ i, S i = energyOf (m i) '' W := by
    intro i
    ext E
    constructor
    · rintro ⟨h1, h2⟩
      exact ⟨momOf (m i) E, h2, energyOf_momOf _ _ (hm i) (le_of_lt h1)⟩
    · rintro ⟨p, hp, rfl⟩
      have hp0 : 0 < p := hW hp
      exact ⟨energyOf_gt _ _ (hm i) hp0, by rw [mem_preimage, momOf_energyOf _ _ hp0.le]; exact hp⟩
  have hSo : ∀ i, IsOpen (S i) := fun i => isOpen_Ioi.inter (hWo.preimage (momOf_continuous _))
  have hSc : ∀ i, IsPreconnected (S i) := fun i => by
    rw [hSim i]
    refine hWc.image _ (Continuous.continuousOn ?_)
    unfold energyOf; fun_prop
  have hS0 : ∀ i, (S i).Nonempty := fun i => by rw [hSim i]; exact hW0.image _
  have hUo : IsOpen ({e | Strict m e} ∩ ⋂ i, {e : Fin n → ℝ | momOf (m i) (e i) ∈ W}) :=
    (strict_open m).inter (isOpen_iInter_of_finite fun i =>
      hWo.preimage ((momOf_continuous _).comp (continuous_apply i)))
  have hσ : ∀ i, ((r i).side : ℝ) * (r i).side = 1 := fun i => by
    rcases hs i with h | h <;> rw [h] <;> norm_num
  have hcc : ∀ i, ContinuousOn (fun E => affinity (r i).specie.eta (f i (momOf (m i) E))) (S i) := by
    intro i
    have hmaps : MapsTo (momOf (m i)) (S i) W := fun E hE => hE.2
    have hc := (hcont i).comp (momOf_continuous (m i)).continuousOn hmaps
    unfold affinity
    refine ContinuousOn.log (ContinuousOn.div (continuousOn_const.sub (continuousOn_const.mul hc)) hc ?_) ?_
    · intro E hE
      exact (hpart i _ (hmaps hE)).2.1.ne'
    · intro E hE
      obtain ⟨-, a, b⟩ := hpart i _ (hmaps hE)
      exact (div_pos (by linarith) a).ne'
  obtain ⟨β, ν, h1, h2⟩ := invariant_affine (σ := fun i => ((r i).side : ℝ))
    (φ := fun i E => affinity (r i).specie.eta (f i (momOf (m i) E)))
    (U := {e | Strict m e} ∩ ⋂ i, {e : Fin n → ℝ | momOf (m i) (e i) ∈ W}) hSo hSc hS0 hn hσ hUo
    (fun e he hz => hbal e he.1 (fun i => mem_iInter.mp he.2 i) hz)
    (fun i E hE => by
      obtain ⟨e, a, b, c, d⟩ := hreach i E hE.1 hE.2
      exact ⟨e, ⟨a, mem_iInter.mpr b⟩, c, d⟩)
    (fun e he i => ⟨he.1.1 i, mem_iInter.mp he.2 i⟩) hcc
  refine ⟨β, ν, h1, fun i p hp => ?_⟩
  have hp0 : 0 < p := hW hp
  have := h2 i (energyOf (m i) p) (by rw [hSim i]; exact mem_image_of_mem _ hp)
  simp only [momOf_energyOf _ _ hp0.le] at this
  exact this

/-- Thermal on an interval, thermal at its ends. -/
theorem affinity_closure {s : CParticle} {f : ℝ → ℝ} {W T : Set ℝ} {β ν : ℝ} (hc : ContinuousOn f T) (hpart : ∀ p ∈ T, Partly s.eta (f p))
    (hWT : W ⊆ T) (hTW : T ⊆ closure W) (h : ∀ p ∈ W, affinity s.eta (f p) = β * energyOf s.m p - ν) :
    ∀ p ∈ T, affinity s.eta (f p) = β * energyOf s.m p - ν := by
  have h' : EqOn (fun p => affinity s.eta (f p)) (fun p => β * energyOf s.m p - ν) W := h
  refine h'.of_subset_closure ?_ ?_ hWT hTW
  · unfold affinity
    refine ContinuousOn.log (ContinuousOn.div (continuousOn_const.sub (continuousOn_const.mul hc)) hc ?_) ?_
    · intro p hp
      exact (hpart p hp).2.1.ne'
    · intro p hp
      obtain ⟨-, a, b⟩ := hpart p hp
      exact (div_pos (by linarith) a).ne'
  · unfold energyOf
    exact Continuous.continuousOn (by fun_prop)

/-- A stored spectrum is followed by a Boltzmann tail and therefore is not thermal at all momenta; one flagged as being in
equilibrium is thermal with the temperature of the plasma. -/
theorem Filled.thermal {s : CParticle} (h : Filled s) (hm : 0 ≤ s.m) {f : ℝ → ℝ}
    (hf : ∀ p, 0 ≤ p → occAt s p = .ok (f p)) {β ν : ℝ}
    (hth : ∀ p, 0 < p → affinity s.eta (f p) = β * energyOf s.m p - ν) : s.inEq = true ∧ β = 1 / s.T ∧ ν = 0 := by
  have hpart : ∀ p, 0 ≤ p → Partly s.eta (f p) := fun p hp => (h.partly f hf p).partly h.eta hp le_rfl
  rcases h with ⟨a, b, c, d⟩ | ⟨a, ⟨g, b⟩, c, d, e, k, l⟩
  · have hv : ∀ p, 0 < p → β * energyOf s.m p - ν = energyOf s.m p / s.T := by
      intro p hp
      rw [← hth p hp, affinity_eq (hpart p hp.le)]
      have := hf p hp.le
      unfold occAt distributionInterpolation at this
      rw [if_pos a, Except.ok.injEq] at this
      rw [energyOf_eq]; exact this.symm
    have v1 := hv (momOf s.m (s.m + 1)) (momOf_pos _ _ hm (by linarith))
    have v2 := hv (momOf s.m (s.m + 2)) (momOf_pos _ _ hm (by linarith))
    rw [energyOf_momOf _ _ hm (by linarith)] at v1 v2
    have hβ : β = 1 / s.T := by
      have : (s.m + 2) / s.T - (s.m + 1) / s.T = 1 / s.T := by ring
      linarith
    refine ⟨a, hβ, ?_⟩
    rw [hβ] at v1
    have : 1 / s.T * (s.m + 1) = (s.m + 1) / s.T := by ring
    linarith
  · exfalso
    have hne : s.grid ≠ [] := by rw [b]; simp
    have hdne : s.dist ≠ [] := by
      intro h; rw [h] at d; exact hne (List.length_eq_zero_iff.mp d.symm)
    have hpos : ∀ x ∈ s.grid, 0 ≤ x := by
      intro x hx
      rw [b] at hx c
      rcases List.mem_cons.mp hx with rfl | hx
      · exact le_rfl
      · exact ((List.pairwise_cons.mp c).1 x hx).le
    set L := s.grid.getLast hne with hL
    have hL0 : 0 ≤ L := hpos L (List.getLast_mem hne)
    set w := s.dist.getLast hdne with hw
    have hw0 : 0 < w := (l w (List.getLast_mem hdne)).1
    set EL := energyOf s.m L with hEL
    have hEL0 : s.m ≤ EL := by rw [hEL]; unfold energyOf; exact Real.le_sqrt_of_sq_le (by nlinarith [sq_nonneg L])
    set A := Real.exp (β * EL - ν) with hA
    have key : ∀ t : ℝ, 0 < t → w * (A * Real.exp (β * t) + s.eta) = Real.exp (t / s.T) := by
      intro t ht
      set p := momOf s.m (EL + t) with hp
      have hE : energyOf s.m p = EL + t := energyOf_momOf _ _ hm (by linarith)
      have hp0 : 0 < p := momOf_pos _ _ hm (by linarith)
      have hLp : L ≤ p := by
        by_contra hcon
        push Not at hcon
        have h1 := energy_mono (m := s.m) hp0.le hcon.le
        rw [← energyOf_eq, ← energyOf_eq, hE] at h1
        linarith
      have h1 := hf p hp0.le
      unfold occAt at h1
      rw [a, tail_lookup s.grid s.dist s.m s.T s.eta hne hdne c d p hLp, Except.ok.injEq] at h1
      rw [← energyOf_eq, ← energyOf_eq, hE, ← hL, ← hEL] at h1
      have h2 := (affinity_eq (hpart p hp0.le) _).mp (hth p hp0)
      rw [hE] at h2
      have hfp := (hpart p hp0.le).2.1
      have hne2 : Real.exp (β * (EL + t) - ν) + s.eta ≠ 0 := by
        intro h0; rw [h0] at h2; simp at h2; linarith
      have h3 : f p * (Real.exp (β * (EL + t) - ν) + s.eta) = 1 := by rw [h2]; field_simp
      have e1 : Real.exp (β * (EL + t) - ν) = A * Real.exp (β * t) := by rw [hA, ← Real.exp_add]; congr 1; ring
      have e2 : Real.exp ((EL - (EL + t)) / s.T) * Real.exp (t / s.T) = 1 := by
        rw [← Real.exp_add, ← Real.exp_zero]; congr 1; ring
      rw [e1, ← h1] at h3
      linear_combination Real.exp (t / s.T) * h3 - w * (A * Real.exp (β * t) + s.eta) * e2
    have eta0 : (s.eta : ℝ) ≠ 0 := by rcases k with k | k <;> rw [k] <;> norm_num
    set x := Real.exp β with hx
    set y := Real.exp (1 / s.T) with hy
    have hy1 : 1 < y := Real.one_lt_exp_iff.mpr (by positivity)
    have k1 := key 1 one_pos
    have k2 := key 2 two_pos
    have k3 := key 3 three_pos
    have p2 : Real.exp (β * 2) = x ^ 2 := by rw [hx, ← Real.exp_nat_mul]; congr 1; push_cast; ring
    have p3 : Real.exp (β * 3) = x ^ 3 := by rw [hx, ← Real.exp_nat_mul]; congr 1; push_cast; ring
    have q2 : Real.exp (2 / s.T) = y ^ 2 := by rw [hy, ← Real.exp_nat_mul]; congr 1; push_cast; ring
    have q3 : Real.exp (3 / s.T) = y ^ 3 := by rw [hy, ← Real.exp_nat_mul]; congr 1; push_cast; ring
    rw [mul_one, ← hx, ← hy] at k1
    rw [p2, q2] at k2
    rw [p3, q3] at k3
    have hx0 : 0 < x := Real.exp_pos _
    have hA0 : 0 < A := Real.exp_pos _
    -- y² y² = y y³
    have z : (w * (A * x ^ 2 + s.eta)) ^ 2 = (w * (A * x + s.eta)) * (w * (A * x ^ 3 + s.eta)) := by
      rw [k1, k2, k3]; ring
    have z2 : w ^ 2 * A * s.eta * x * (x - 1) ^ 2 = 0 := by linear_combination -z
    have hx1 : x = 1 := by
      have hne3 : w ^ 2 * A * s.eta * x ≠ 0 := by positivity
      have := (mul_eq_zero.mp z2).resolve_left hne3
      have := pow_eq_zero_iff (two_ne_zero) |>.mp this
      linarith
    rw [hx1] at k1 k2
    have : y ^ 2 = y := by linear_combination k1 - k2
    nlinarith

/-! ## The theorems -/

/-- Sides of a collision of two particles. -/
def TwoIntoTwo (r : Fin 4 → Reactant) : Prop :=
  (r 0).side = -1 ∧ (r 1).side = -1 ∧ (r 2).side = 1 ∧ (r 3).side = 1

/-- Sides of a decay. -/
def OneMany {n : ℕ} (r : Fin (n + 1) → Reactant) : Prop := (r 0).side = -1 ∧ ∀ i, i ≠ 0 → (r i).side = 1

/-- All species are in equilibrium with a plasma of one temperature. -/
def InPlasma {n : ℕ} (r : Fin n → Reactant) : Prop :=
  ∃ T, 0 < T ∧ ∀ i, (r i).specie.inEq = true ∧ (r i).specie.T = T

theorem plasma_of {n : ℕ} (hn : 3 ≤ n) (r : Fin n → Reactant) (f : Fin n → ℝ → ℝ) (hs : ∀ i, (r i).side = 1 ∨ (r i).side = -1)
    (hm : ∀ i, 0 ≤ (r i).specie.m) (hfill : ∀ i, Filled (r i).specie) (hf : ∀ i p, 0 ≤ p → occAt (r i).specie p = .ok (f i p))
    (hc : ∀ i, ContinuousOn (f i) (Ici 0)) (hpart : ∀ i p, 0 ≤ p → Partly (r i).specie.eta (f i p))
    (hbal : ∀ e, Strict (fun i => (r i).specie.m) e → ∑ i, ((r i).side : ℝ) * e i = 0 →
      imbalance r f (fun i => momOf (r i).specie.m (e i)) = 0)
    (hreach : ∀ i E, (r i).specie.m < E → ∃ e, Strict (fun i => (r i).specie.m) e ∧ ∑ j, ((r j).side : ℝ) * e j = 0 ∧ e i = E) :
    InPlasma r := by
  obtain ⟨β, ν, -, h2⟩ := thermal_on hn r f (W := Ioi 0) subset_rfl isOpen_Ioi isPreconnected_Ioi nonempty_Ioi hs hm
    (fun i => (hc i).mono Ioi_subset_Ici_self) (fun i p hp => hpart i p (le_of_lt hp)) (fun e he _ hz => hbal e he hz)
    (fun i E hE _ => by
      obtain ⟨e, a, b, c⟩ := hreach i E hE
      exact ⟨e, a, fun j => momOf_pos _ _ (hm j) (a.1 j), b, c⟩)
  have h3 := fun i => (hfill i).thermal (hm i) (hf i) (h2 i)
  have hT : ∀ i, 0 < (r i).specie.T := by
    intro i
    rcases hfill i with ⟨-, h, -, -⟩ | ⟨-, -, -, -, h, -, -⟩ <;> exact h
  set i0 : Fin n := ⟨0, by omega⟩
  refine ⟨(r i0).specie.T, hT i0, fun i => ⟨(h3 i).1, ?_⟩⟩
  have a := (h3 i).2.1
  rw [(h3 i0).2.1] at a
  rw [one_div, one_div, inv_inj] at a
  exact a.symm

theorem plasma_thermal {n : ℕ} {r : Fin n → Reactant} (hfill : ∀ i, Filled (r i).specie) (hm : ∀ i, 0 ≤ (r i).specie.m)
    {T : ℝ} (h : ∀ i, (r i).specie.inEq = true ∧ (r i).specie.T = T) (i : Fin n) (p : ℝ) : ThermalAt (r i).specie T p := by
  obtain ⟨a, b⟩ := h i
  rw [← b]
  refine thermalAt_of_inEq _ _ a ?_
  rcases hfill i with ⟨-, hT, -, d⟩ | ⟨h', -⟩
  · rcases d with d | ⟨d, d'⟩
    · rw [d]; push_cast; positivity
    · rw [d]; push_cast
      have hEp : 0 < energy p (r i).specie.m := by
        unfold energy; apply Real.sqrt_pos.mpr; nlinarith [mul_self_nonneg p]
      have := Real.one_lt_exp_iff.mpr (show 0 < energy p (r i).specie.m / (r i).specie.T by positivity)
      linarith
  · rw [h'] at a; exact absurd a (by simp)

/-- **C122, collisions.** The integrand of a collision of two particles of any masses vanishes at all momenta exactly if
all four species are flagged as being in equilibrium at one temperature.  A stored spectrum, whatever its values, is never in
exact balance: the Boltzmann tail attached to it above the grid is not a Fermi–Dirac or Bose–Einstein spectrum. -/
theorem C122_scattering (r : Fin 4 → Reactant) (Ms : List CM) (hs : TwoIntoTwo r) (hm : ∀ i, 0 ≤ (r i).specie.m)
    (hMs : Couples Ms) (hfill : ∀ i, Filled (r i).specie) :
    (∀ p0 p1 p2, 0 < p0 → 0 < p1 → 0 < p2 → integrandFull4 p0 p1 p2 r Ms 0 = .ok 0) ↔ InPlasma r := by
  obtain ⟨s0, s1, s2, s3⟩ := hs
  have hs : ∀ i, (r i).side = 1 ∨ (r i).side = -1 := by
    intro i; fin_cases i
    exacts [Or.inr s0, Or.inr s1, Or.inl s2, Or.inl s3]
  constructor
  · intro hz
    choose f hf hc hpart using fun i => (hfill i).continuous (hm i)
    refine plasma_of (by norm_num) r f hs hm hfill hf hc hpart (fun e he hE => ?_) (fun i E hE => ?_)
    · exact (integrand4_unbalanced r Ms f s0 hs hm hMs e he hE hf hpart
        (hz _ _ _ (momOf_pos _ _ (hm 0) (he.1 0)) (momOf_pos _ _ (hm 1) (he.1 1)) (momOf_pos _ _ (hm 2) (he.1 2)))).2
    · obtain ⟨e, a, b, c⟩ := scatter_reach (m := fun i => (r i).specie.m) hm i hE
      refine ⟨e, a, ?_, c⟩
      rw [Fin.sum_univ_four, s0, s1, s2, s3]
      push_cast; linarith
  · rintro ⟨T, hT, h⟩ p0 p1 p2 - - -
    obtain ⟨-, M, hM, -⟩ := hMs
    exact C33_integrand4_zero p0 p1 p2 T r Ms (List.ne_nil_of_mem hM) s0 hs (hm 3)
      fun i => plasma_thermal hfill hm h i _

/-- **C122, three-body decays.** -/
theorem C122_decay_three (r : Fin 4 → Reactant) (Ms : List CM) (hs : OneMany r) (hm : ∀ i, 0 ≤ (r i).specie.m)
    (hopen : (r 1).specie.m + (r 2).specie.m + (r 3).specie.m < (r 0).specie.m) (hMs : Couples Ms)
    (hfill : ∀ i, Filled (r i).specie) :
    (∀ p0 p1 p2, 0 < p0 → 0 < p1 → 0 < p2 → integrandFull4 p0 p1 p2 r Ms 0 = .ok 0) ↔ InPlasma r := by
  obtain ⟨s0, s1⟩ := hs
  have hs : ∀ i, (r i).side = 1 ∨ (r i).side = -1 := by
    intro i
    by_cases h : i = 0
    · rw [h]; exact Or.inr s0
    · exact Or.inl (s1 i h)
  constructor
  · intro hz
    choose f hf hc hpart using fun i => (hfill i).continuous (hm i)
    refine plasma_of (by norm_num) r f hs hm hfill hf hc hpart (fun e he hE => ?_) (fun i E hE => ?_)
    · exact (integrand4_unbalanced r Ms f s0 hs hm hMs e he hE hf hpart
        (hz _ _ _ (momOf_pos _ _ (hm 0) (he.1 0)) (momOf_pos _ _ (hm 1) (he.1 1)) (momOf_pos _ _ (hm 2) (he.1 2)))).2
    · obtain ⟨e, a, b, c⟩ := decay3_reach (m := fun i => (r i).specie.m) hm hopen i hE
      refine ⟨e, a, ?_, c⟩
      rw [Fin.sum_univ_four, s0, s1 1 (by decide), s1 2 (by decide), s1 3 (by decide)]
      push_cast; linarith
  · rintro ⟨T, hT, h⟩ p0 p1 p2 - - -
    obtain ⟨-, M, hM, -⟩ := hMs
    exact C33_integrand4_zero p0 p1 p2 T r Ms (List.ne_nil_of_mem hM) s0 hs (hm 3)
      fun i => plasma_thermal hfill hm h i _

/-- **C122, two-body decays.** -/
theorem C122_decay_two (r : Fin 3 → Reactant) (hs : OneMany r) (hm : ∀ i, 0 ≤ (r i).specie.m)
    (hopen : (r 1).specie.m + (r 2).specie.m < (r 0).specie.m) (hfill : ∀ i, Filled (r i).specie) :
    (∀ p0 p1, 0 < p0 → 0 < p1 → integrandFull3 p0 p1 0 r = .ok 0) ↔ InPlasma r := by
  obtain ⟨s0, s1⟩ := hs
  have hs : ∀ i, (r i).side = 1 ∨ (r i).side = -1 := by
    intro i
    by_cases h : i = 0
    · rw [h]; exact Or.inr s0
    · exact Or.inl (s1 i h)
  constructor
  · intro hz
    choose f hf hc hpart using fun i => (hfill i).continuous (hm i)
    refine plasma_of (by norm_num) r f hs hm hfill hf hc hpart (fun e he hE => ?_) (fun i E hE => ?_)
    · exact integrand3_unbalanced r f s0 hs hm e he hE hf hpart
        (hz _ _ (momOf_pos _ _ (hm 0) (he.1 0)) (momOf_pos _ _ (hm 1) (he.1 1)))
    · obtain ⟨e, a, b, c⟩ := decay2_reach (m := fun i => (r i).specie.m) hm hopen i hE
      refine ⟨e, a, ?_, c⟩
      rw [Fin.sum_univ_three, s0, s1 1 (by decide), s1 2 (by decide)]
      push_cast; linarith
  · rintro ⟨T, hT, h⟩ p0 p1 - -
    exact C33_integrand3_zero p0 p1 T r s0 hs (hm 2) fun i => plasma_thermal hfill hm h i _

/-- **C122, within the grid.** The integrand of an elastic collision of stored spectra vanishes at all momenta below the end of
the grids exactly if the stored values are those of thermal spectra with a common temperature and chemical potentials in
chemical equilibrium. -/
theorem C122_grid (r : Fin 4 → Reactant) (Ms : List CM) (P : ℝ) (hs : TwoIntoTwo r) (hm : ∀ i, 0 ≤ (r i).specie.m)
    (hel : (r 2).specie.m = (r 0).specie.m ∧ (r 3).specie.m = (r 1).specie.m) (hMs : Couples Ms)
    (hfill : ∀ i, Filled (r i).specie) (hoff : ∀ i, (r i).specie.inEq = false) (hP : 0 < P)
    (hend : ∀ i, (r i).specie.grid.getLast? = some P) :
    (∀ p0 p1 p2, 0 < p0 → p0 < P → 0 < p1 → p1 < P → 0 < p2 → p2 < P → momenta4 r p0 p1 p2 3 < P →
        integrandFull4 p0 p1 p2 r Ms 0 = .ok 0) ↔
      ∃ (β : ℝ) (ν : Fin 4 → ℝ), ν 0 + ν 1 = ν 2 + ν 3 ∧ ∀ i (k : ℕ) (x : ℝ), (r i).specie.grid[k]? = some x →
        (r i).specie.dist[k]? =
          some (1 / (Real.exp (β * √(x ^ 2 + (r i).specie.m ^ 2) - ν i) + (r i).specie.eta)) := by
  obtain ⟨s0, s1, s2, s3⟩ := hs
  have hs : ∀ i, (r i).side = 1 ∨ (r i).side = -1 := by
    intro i; fin_cases i
    exacts [Or.inr s0, Or.inr s1, Or.inl s2, Or.inl s3]
  choose f hf hc hpart using fun i => (hfill i).continuous (hm i)
  have hst : ∀ i, (∃ g, (r i).specie.grid = 0 :: g) ∧ (r i).specie.grid.Pairwise (· < ·) ∧
      (r i).specie.dist.length = (r i).specie.grid.length ∧ ∀ d ∈ (r i).specie.dist, 0 < d := by
    intro i
    rcases hfill i with ⟨h, -⟩ | ⟨-, a, b, c, -, -, d⟩
    · rw [hoff i] at h; exact absurd h (by simp)
    · exact ⟨a, b, c, fun x hx => (d x hx).1⟩
  have hgne : ∀ i, (r i).specie.grid ≠ [] := fun i h => by have := hend i; rw [h] at this; simp at this
  have hlast : ∀ i, (r i).specie.grid.getLast (hgne i) = P := fun i => by
    have := hend i
    rw [List.getLast?_eq_some_getLast (hgne i), Option.some.injEq] at this
    exact this
  have hhead : ∀ i, (r i).specie.grid.head (hgne i) = 0 := fun i => by
    obtain ⟨g, hg⟩ := (hst i).1
    simp [hg]
  have hval : ∀ i p, 0 ≤ p → distributionInterpolation (r i).specie.grid (r i).specie.dist p (r i).specie.m (r i).specie.eta
      (r i).specie.T false = .ok (f i p) := by
    intro i p hp; rw [← hf i p hp]; unfold occAt; rw [hoff i]
  constructor
  · intro hz
    have hbal : ∀ e, Strict (fun i => (r i).specie.m) e → (∀ i, momOf (r i).specie.m (e i) ∈ Ioo 0 P) →
        ∑ i, ((r i).side : ℝ) * e i = 0 → imbalance r f (fun i => momOf (r i).specie.m (e i)) = 0 := by
      intro e he hw hE
      have hmom : momenta4 r (momOf (r 0).specie.m (e 0)) (momOf (r 1).specie.m (e 1)) (momOf (r 2).specie.m (e 2)) 3
          = momOf (r 3).specie.m (e 3) := by
        have en : ∀ i, energy (momOf (r i).specie.m (e i)) (r i).specie.m = e i := fun i => by
          rw [← energyOf_eq, energyOf_momOf _ _ (hm i) (he.1 i).le]
        change √(lastEnergy4 r _ _ _ ^ 2 - (r 3).specie.m ^ 2) = momOf _ _
        unfold lastEnergy4 momOf
        rw [Fin.sum_univ_four, s0, s1, s2, s3] at hE
        have e0 := en 0
        have e1 := en 1
        have e2 := en 2
        unfold momOf at e0 e1 e2
        rw [e0, e1, e2, s0, s1, s2, s3]
        push_cast at hE ⊢
        congr 3
        linarith
      exact (integrand4_unbalanced r Ms f s0 hs hm hMs e he hE hf hpart
        (hz _ _ _ (hw 0).1 (hw 0).2 (hw 1).1 (hw 1).2 (hw 2).1 (hw 2).2 (by rw [hmom]; exact (hw 3).2))).2
    have hreach : ∀ i E, (r i).specie.m < E → momOf (r i).specie.m E ∈ Ioo 0 P → ∃ e, Strict (fun i => (r i).specie.m) e ∧
        (∀ j, momOf (r j).specie.m (e j) ∈ Ioo 0 P) ∧ ∑ j, ((r j).side : ℝ) * e j = 0 ∧ e i = E := by
      -- an event in which the particles exchange their roles
      have elastic : ∀ A B, (r 0).specie.m < A → (r 1).specie.m < B → momOf (r 0).specie.m A < P → momOf (r 1).specie.m B < P →
          Strict (fun i => (r i).specie.m) ![A, B, A, B] ∧ (∀ j, momOf (r j).specie.m ((![A, B, A, B] : Fin 4 → ℝ) j) ∈ Ioo 0 P) ∧
          ∑ j, ((r j).side : ℝ) * (![A, B, A, B] : Fin 4 → ℝ) j = 0 := by
        intro A B hA hB hA2 hB2
        have a0 := momOf_pos _ _ (hm 0) hA
        have b0 := momOf_pos _ _ (hm 1) hB
        refine ⟨⟨?_, ?_⟩, ?_, ?_⟩
        · intro i; fin_cases i
          exacts [hA, hB, by change (r 2).specie.m < A; rw [hel.1]; exact hA, by change (r 3).specie.m < B; rw [hel.2]; exact hB]
        · intro i
          rw [Fin.sum_univ_four]
          change 2 * momOf (r i).specie.m ((![A, B, A, B] : Fin 4 → ℝ) i) < momOf (r 0).specie.m A + momOf (r 1).specie.m B +
            momOf (r 2).specie.m A + momOf (r 3).specie.m B
          rw [hel.1, hel.2]
          fin_cases i
          · change 2 * momOf (r 0).specie.m A < _; linarith
          · change 2 * momOf (r 1).specie.m B < _; linarith
          · change 2 * momOf (r 2).specie.m A < _; rw [hel.1]; linarith
          · change 2 * momOf (r 3).specie.m B < _; rw [hel.2]; linarith
        · intro i; fin_cases i
          exacts [⟨a0, hA2⟩, ⟨b0, hB2⟩, by change momOf (r 2).specie.m A ∈ _; rw [hel.1]; exact ⟨a0, hA2⟩,
            by change momOf (r 3).specie.m B ∈ _; rw [hel.2]; exact ⟨b0, hB2⟩]
        · rw [Fin.sum_univ_four, s0, s1, s2, s3]
          change ((-1 : ℤ) : ℝ) * A + ((-1 : ℤ) : ℝ) * B + ((1 : ℤ) : ℝ) * A + ((1 : ℤ) : ℝ) * B = 0
          push_cast; ring
      have any : ∀ i, (r i).specie.m < energyOf (r i).specie.m (P / 2) ∧
          momOf (r i).specie.m (energyOf (r i).specie.m (P / 2)) < P := fun i =>
        ⟨energyOf_gt _ _ (hm i) (by linarith), by rw [momOf_energyOf _ _ (by linarith)]; linarith⟩
      intro i E hE hEP
      fin_cases i
      · obtain ⟨a, b, c⟩ := elastic E _ hE (any 1).1 hEP.2 (any 1).2
        exact ⟨_, a, b, c, rfl⟩
      · obtain ⟨a, b, c⟩ := elastic _ E (any 0).1 hE (any 0).2 hEP.2
        exact ⟨_, a, b, c, rfl⟩
      · change (r 2).specie.m < E at hE
        change momOf (r 2).specie.m E ∈ _ at hEP
        rw [hel.1] at hE hEP
        obtain ⟨a, b, c⟩ := elastic E _ hE (any 1).1 hEP.2 (any 1).2
        exact ⟨_, a, b, c, rfl⟩
      · change (r 3).specie.m < E at hE
        change momOf (r 3).specie.m E ∈ _ at hEP
        rw [hel.2] at hE hEP
        obtain ⟨a, b, c⟩ := elastic _ E (any 0).1 hE (any 0).2 hEP.2
        exact ⟨_, a, b, c, rfl⟩
    obtain ⟨β, ν, h1, h2⟩ := thermal_on (by norm_num) r f (W := Ioo 0 P) (fun p hp => hp.1) isOpen_Ioo isPreconnected_Ioo
      (nonempty_Ioo.mpr hP) hs hm (fun i => (hc i).mono fun p hp => (le_of_lt hp.1 : (0 : ℝ) ≤ p))
      (fun i p hp => hpart i p hp.1.le) hbal hreach
    refine ⟨β, ν, ?_, fun i k x hx => ?_⟩
    · rw [Fin.sum_univ_four, s0, s1, s2, s3] at h1
      push_cast at h1
      linarith
    · have h3 := affinity_closure (s := (r i).specie) (T := Icc 0 P) ((hc i).mono fun p hp => hp.1)
        (fun p hp => hpart i p hp.1) Ioo_subset_Icc_self (by rw [closure_Ioo hP.ne]) (h2 i)
      obtain ⟨hk, hkx⟩ := List.getElem?_eq_some_iff.mp hx
      obtain ⟨-, c1, c2, -⟩ := hst i
      have x0 : 0 ≤ x := by
        rw [← hkx, ← hhead i, List.head_eq_getElem]
        exact StrictInc.le c1 (Nat.zero_le _) hk
      have xP : x ≤ P := by
        rw [← hkx, ← hlast i, List.getLast_eq_getElem]
        exact StrictInc.le c1 (by omega) (by omega)
      have h4 := (affinity_eq (hpart i x x0) _).mp (h3 x ⟨x0, xP⟩)
      have h5 := hval i x x0
      rw [← hkx, C09_exact_on_grid _ _ _ _ _ c1 c2 k hk, hkx, Except.ok.injEq] at h5
      rw [List.getElem?_eq_getElem (by omega), h5, h4]
      rfl
  · rintro ⟨β, ν, hν, hd⟩ p0 p1 p2 a1 a2 b1 b2 c1 c2 d2
    have hth : ∀ i p, 0 ≤ p → p ≤ P → affinity (r i).specie.eta (f i p) = β * energy p (r i).specie.m - ν i := by
      intro i p hp hpP
      obtain ⟨-, g1, g2, g3⟩ := hst i
      have hdk : ∀ k, (hk : k < (r i).specie.grid.length) → (r i).specie.dist[k]'(by omega) =
          1 / (Real.exp (-ν i + β * energy (r i).specie.grid[k] (r i).specie.m) + (r i).specie.eta) := by
        intro k hk
        have := hd i k _ (List.getElem?_eq_getElem hk)
        rw [List.getElem?_eq_getElem (by omega), Option.some.injEq] at this
        rw [this, ← energyOf_eq, show -ν i + β * energyOf (r i).specie.m (r i).specie.grid[k]
          = β * energyOf (r i).specie.m (r i).specie.grid[k] - ν i by ring]
        rfl
      have h1 := C10_thermal_reproduced (r i).specie.grid (r i).specie.dist p (r i).specie.m (r i).specie.T (-ν i) β
        (r i).specie.eta (hgne i) g1 g2 (hhead i).ge ?_ hdk (by rw [hhead i]; exact hp) (by rw [hlast i]; exact hpP)
      · rw [hval i p hp, Except.ok.injEq] at h1
        rw [affinity_eq (hpart i p hp), h1]
        congr 3; ring
      · intro g hg
        obtain ⟨k, hk, rfl⟩ := List.getElem_of_mem hg
        have := g3 _ (List.getElem_mem (show k < (r i).specie.dist.length by omega))
        rw [hdk k hk, one_div_pos] at this
        exact this
    obtain ⟨-, M, hM, -⟩ := hMs
    have hmp : ∀ i, 0 ≤ momenta4 r p0 p1 p2 i ∧ momenta4 r p0 p1 p2 i ≤ P := by
      intro i; fin_cases i
      exacts [⟨a1.le, a2.le⟩, ⟨b1.le, b2.le⟩, ⟨c1.le, c2.le⟩, ⟨Real.sqrt_nonneg _, d2.le⟩]
    refine integrand4_balanced r Ms f s0 hs (List.ne_nil_of_mem hM) p0 p1 p2 (fun i => (hmp i).1) hf hpart fun hE => ?_
    unfold imbalance
    rw [Fin.sum_univ_four, hth 0 _ (hmp 0).1 (hmp 0).2, hth 1 _ (hmp 1).1 (hmp 1).2, hth 2 _ (hmp 2).1 (hmp 2).2,
      hth 3 _ (hmp 3).1 (hmp 3).2]
    have e3 : energy (momenta4 r p0 p1 p2 3) (r 3).specie.m = lastEnergy4 r p0 p1 p2 := energy_last (hm 3) hE
    rw [e3]
    unfold lastEnergy4
    rw [s0, s1, s2, s3]
    change ((-1 : ℤ) : ℝ) * (β * energy p0 (r 0).specie.m - ν 0) + ((-1 : ℤ) : ℝ) * (β * energy p1 (r 1).specie.m - ν 1)
      + ((1 : ℤ) : ℝ) * (β * energy p2 (r 2).specie.m - ν 2) + _ = 0
    push_cast
    linear_combination hν

section Example

private noncomputable def balSpec : CParticle := ⟨1, 0, [0, 1, 3], [1/2, 1/4, 1/8], false, 1⟩

private theorem balSpec_filled : Filled balSpec :=
  Or.inr ⟨rfl, ⟨[1, 3], rfl⟩, by norm_num [balSpec], rfl, by norm_num [balSpec], Or.inl rfl, by norm_num [balSpec]⟩

private noncomputable def balReaction : Fin 4 → Reactant := ![⟨balSpec, -1⟩, ⟨balSpec, -1⟩, ⟨balSpec, 1⟩, ⟨balSpec, 1⟩]

private theorem balReaction_specie (i : Fin 4) : (balReaction i).specie = balSpec := by fin_cases i <;> rfl

private theorem balCouples : Couples [⟨id, 1, 0, 0⟩] := by
  refine ⟨fun M hM => ?_, _, List.mem_singleton.mpr rfl, by norm_num⟩
  rw [List.mem_singleton.mp hM]
  exact ⟨Function.bijective_id, le_rfl, by norm_num, le_rfl⟩

/-- A stored spectrum is out of balance with itself at some momenta. -/
example : ∃ p0 p1 p2, integrandFull4 p0 p1 p2 balReaction [⟨id, 1, 0, 0⟩] 0 ≠ .ok 0 := by
  by_contra hcon
  push Not at hcon
  obtain ⟨T, -, h⟩ := (C122_scattering balReaction [⟨id, 1, 0, 0⟩] ⟨rfl, rfl, rfl, rfl⟩
    (fun i => by rw [balReaction_specie]; exact le_rfl) balCouples (fun i => by rw [balReaction_specie]; exact balSpec_filled)).mp
    fun p0 p1 p2 _ _ _ => hcon p0 p1 p2
  exact absurd (h 0).1 (by simp [balReaction, balSpec])

/-- And so at momenta below the end of the grid, since `1/2, 1/4, 1/8` at momenta `0, 1, 3` is not thermal. -/
example : ∃ p0 p1 p2, p0 < 3 ∧ p1 < 3 ∧ p2 < 3 ∧ momenta4 balReaction p0 p1 p2 3 < 3 ∧
    integrandFull4 p0 p1 p2 balReaction [⟨id, 1, 0, 0⟩] 0 ≠ .ok 0 := by
  by_contra hcon
  push Not at hcon
  obtain ⟨β, ν, -, h⟩ := (C122_grid balReaction [⟨id, 1, 0, 0⟩] 3 ⟨rfl, rfl, rfl, rfl⟩
    (fun i => by rw [balReaction_specie]; exact le_rfl) ⟨rfl, rfl⟩ balCouples
    (fun i => by rw [balReaction_specie]; exact balSpec_filled) (fun i => by rw [balReaction_specie]; rfl) (by norm_num)
    (fun i => by rw [balReaction_specie]; rfl)).mp fun p0 p1 p2 _ a _ b _ c d => hcon p0 p1 p2 a b c d
  have h0 := h 0 0 0 rfl
  have h1 := h 0 1 1 rfl
  have h3 := h 0 2 3 rfl
  change some (1 / 2 : ℝ) = some (1 / (Real.exp (β * √(0 ^ 2 + 0 ^ 2) - ν 0) + ((1 : ℤ) : ℝ))) at h0
  change some (1 / 4 : ℝ) = some (1 / (Real.exp (β * √(1 ^ 2 + 0 ^ 2) - ν 0) + ((1 : ℤ) : ℝ))) at h1
  change some (1 / 8 : ℝ) = some (1 / (Real.exp (β * √(3 ^ 2 + 0 ^ 2) - ν 0) + ((1 : ℤ) : ℝ))) at h3
  rw [Option.some.injEq] at h0 h1 h3
  have q0 : √((0 : ℝ) ^ 2 + 0 ^ 2) = 0 := by norm_num
  have q1 : √((1 : ℝ) ^ 2 + 0 ^ 2) = 1 := by norm_num
  have q3 : √((3 : ℝ) ^ 2 + 0 ^ 2) = 3 := by
    rw [show (3 : ℝ) ^ 2 + 0 ^ 2 = 3 ^ 2 by norm_num, Real.sqrt_sq (by norm_num)]
  rw [q0] at h0
  rw [q1] at h1
  rw [q3] at h3
  push_cast at h0 h1 h3
  have inv : ∀ {a x : ℝ}, 0 < x → 1 / a = 1 / (x + 1) → x = a - 1 := by
    intro a x hx h
    rw [one_div, one_div, inv_inj] at h
    linarith
  have e0 := inv (Real.exp_pos _) h0
  have e1 := inv (Real.exp_pos _) h1
  have e3 := inv (Real.exp_pos _) h3
  have l0 : β * 0 - ν 0 = 0 := Real.exp_eq_one_iff _ |>.mp (by rw [e0]; norm_num)
  have k1 : Real.exp β = 3 := by
    rw [show β = β * 1 - ν 0 by linarith, e1]; norm_num
  have k3 : Real.exp β ^ 3 = 7 := by
    rw [← Real.exp_nat_mul, show ((3 : ℕ) : ℝ) * β = β * 3 - ν 0 by push_cast; linarith, e3]; norm_num
  rw [k1] at k3
  norm_num at k3

/-- A thermal spectrum on the grid, with a chemical potential, is in balance within it. -/
example (p0 p1 p2 : ℝ) (h0 : 0 < p0 ∧ p0 < 3) (h1 : 0 < p1 ∧ p1 < 3) (h2 : 0 < p2 ∧ p2 < 3) :
    let s : CParticle := ⟨1, 0, [0, 1, 3], [0, 1, 3].map fun x => 1 / (Real.exp (x - 1 / 2) + 1), false, 1⟩
    let r : Fin 4 → Reactant := ![⟨s, -1⟩, ⟨s, -1⟩, ⟨s, 1⟩, ⟨s, 1⟩]
    momenta4 r p0 p1 p2 3 < 3 → integrandFull4 p0 p1 p2 r [⟨id, 1, 0, 0⟩] 0 = .ok 0 := by
  intro s r
  have hr : ∀ i, (r i).specie = s := fun i => by fin_cases i <;> rfl
  have hfill : Filled s := by
    refine Or.inr ⟨rfl, ⟨[1, 3], rfl⟩, by norm_num [s], rfl, by norm_num [s], Or.inl rfl, ?_⟩
    intro d hd
    obtain ⟨x, -, rfl⟩ := List.mem_map.mp hd
    have := Real.exp_pos (x - 1 / 2)
    refine ⟨by positivity, fun _ => ?_⟩
    rw [div_lt_one (by positivity)]; linarith
  refine fun h => (C122_grid r [⟨id, 1, 0, 0⟩] 3 ⟨rfl, rfl, rfl, rfl⟩ (fun i => by rw [hr]) ⟨rfl, rfl⟩ balCouples
    (fun i => by rw [hr]; exact hfill) (fun i => by rw [hr]) (by norm_num) (fun i => by rw [hr]; rfl)).mpr
    ⟨1, fun _ => 1 / 2, rfl, fun i k x hx => ?_⟩ p0 p1 p2 h0.1 h0.2 h1.1 h1.2 h2.1 h2.2 h
  rw [hr] at hx ⊢
  have hx0 : 0 ≤ x := by
    have := List.mem_of_getElem? hx
    simp only [s, List.mem_cons, List.not_mem_nil, or_false] at this
    rcases this with rfl | rfl | rfl <;> norm_num
  change (([0, 1, 3] : List ℝ).map fun x => 1 / (Real.exp (x - 1 / 2) + 1))[k]? = _
  rw [List.getElem?_map, show ([0, 1, 3] : List ℝ)[k]? = some x from hx]
  change some (1 / (Real.exp (x - 1 / 2) + 1)) = some (1 / (Real.exp (1 * √(x ^ 2 + 0 ^ 2) - 1 / 2) + ((1 : ℤ) : ℝ)))
  rw [show x ^ 2 + 0 ^ 2 = x ^ 2 by ring, Real.sqrt_sq hx0]
  push_cast
  rw [one_mul]

/-- A decay into a stored spectrum is out of balance. -/
example : ∃ p0 p1, integrandFull3 p0 p1 0 ![⟨⟨1, 2, [], [], true, 1⟩, -1⟩, ⟨balSpec, 1⟩, ⟨⟨-1, 1, [], [], true, 1⟩, 1⟩] ≠ .ok 0 := by
  by_contra hcon
  push Not at hcon
  obtain ⟨T, -, h⟩ := (C122_decay_two ![⟨⟨1, 2, [], [], true, 1⟩, -1⟩, ⟨balSpec, 1⟩, ⟨⟨-1, 1, [], [], true, 1⟩, 1⟩]
    ⟨rfl, fun i hi => by fin_cases i <;> first | exact absurd rfl hi | rfl⟩
    (fun i => by fin_cases i <;> norm_num [balSpec]) (by change (0 : ℝ) + 1 < 2; norm_num)
    (fun i => by
      fin_cases i
      · exact Or.inl ⟨rfl, by norm_num, by norm_num, Or.inl rfl⟩
      · exact balSpec_filled
      · exact Or.inl ⟨rfl, by norm_num, by norm_num, Or.inr ⟨rfl, by norm_num⟩⟩)).mp fun p0 p1 _ _ => hcon p0 p1
  exact absurd (h 1).1 (by simp [balSpec])

end Example

end PyBBN
