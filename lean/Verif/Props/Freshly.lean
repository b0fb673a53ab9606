import Verif.Props.OnlyThermal
import Verif.Props.Relaxation
import Verif.Props.BalanceScat
/-!
# C123: a species which has just left equilibrium stays where it is

When a species decouples its equilibrium spectrum is stored on its grid and from then on collision integrals act on it.
Nothing has happened to it yet, so they should vanish.  Specification: with every species of a reaction in equilibrium
at one temperature, either by its formula or as stored values, decays and inverse decays contribute exactly zero; a
scattering reaches momenta above the grids, where the tail is a Boltzmann one, and its net rate is bounded by the
occupation at the end of the grids times its rate of loss.
-/
namespace PyBBN
open MeasureTheory

/-- A species in equilibrium at temperature `T`: by its formula or by stored values. -/
structure FreshSp (s : CParticle) (T : ℝ) : Prop where
  temp : s.T = T
  pos : 0 < T
  mass : 0 ≤ s.m
  stat : s.eta = 1 ∨ s.eta = -1 ∧ 0 < s.m
  stored : s.inEq = false → (∃ g, s.grid = 0 :: g) ∧ s.grid.Pairwise (· < ·) ∧ s.dist.length = s.grid.length ∧
    ∀ i (hi : i < s.grid.length) (hd : i < s.dist.length), s.dist[i] = 1 / (Real.exp (energy s.grid[i] s.m / T) + s.eta)

/-- Momenta at which the species is known exactly. -/
def Known (s : CParticle) (p : ℝ) : Prop := s.inEq = true ∨ ∃ h : s.grid ≠ [], p ≤ s.grid.getLast h

/-- Occupation at the end of the grid; zero for a species without stored values. -/
noncomputable def endOcc (s : CParticle) : ℝ := if s.inEq then 0 else s.dist.getLastD 0

theorem FreshSp.fin {s : CParticle} {T : ℝ} (h : FreshSp s T) (p : ℝ) : 0 < Real.exp (energy p s.m / T) + s.eta := by
  rcases h.stat with e | ⟨e, hm⟩
  · rw [e]; push_cast; positivity
  · have hE : 0 < energy p s.m := by
      unfold energy; apply Real.sqrt_pos.mpr; nlinarith [mul_self_nonneg p]
    have : (0 : ℝ) < energy p s.m / T := div_pos hE h.pos
    have := Real.one_lt_exp_iff.mpr this
    rw [e]; push_cast; linarith

theorem FreshSp.eta {s : CParticle} {T : ℝ} (h : FreshSp s T) : s.eta = 1 ∨ s.eta = -1 := h.stat.imp id And.left

theorem FreshSp.thermal {s : CParticle} {T : ℝ} (h : FreshSp s T) {p : ℝ} (hp : 0 ≤ p) (hk : Known s p) : ThermalAt s T p := by
  have ht := h.temp
  by_cases he : s.inEq = true
  · have := thermalAt_of_inEq s p he (by rw [ht]; exact h.fin p)
    rwa [ht] at this
  · have he : s.inEq = false := by simpa using he
    obtain ⟨⟨g, hg⟩, hs, hl, hv⟩ := h.stored he
    rcases hk with hk | ⟨hne, hk⟩
    · rw [he] at hk; simp at hk
    have h0 : s.grid.head hne = 0 := by simp [hg]
    have := thermalAt_of_stored s p he hne hs hl h0.ge (by rw [ht]; exact h.pos) h.stat
      (fun i hi => by rw [ht]; exact hv i hi _) (by rw [h0]; exact hp) hk
    rwa [ht] at this

/-- Odds of a mode: how many times more likely filled than free. -/

theorem thermal_odds {eta : ℤ} {x : ℝ} (h : 0 < Real.exp x + eta) (he : eta = 1 ∨ eta = -1) :
    0 < 1 / (Real.exp x + eta) ∧ 1 - (eta : ℝ) * (1 / (Real.exp x + eta)) = Real.exp x * (1 / (Real.exp x + eta)) := by
  refine ⟨by positivity, ?_⟩
  rw [mul_one_div, mul_one_div, eq_div_iff h.ne', sub_mul, one_mul, div_mul_cancel₀ _ h.ne']
  ring

/-- **C123, one species.** Looked up at any momentum, the odds of a freshly stored spectrum are those of equilibrium up
to the occupation at the end of its grid; on the grid they agree; a fermion is never above equilibrium, a boson never
below. -/
theorem C123_odds {s : CParticle} {T : ℝ} (h : FreshSp s T) {p : ℝ} (hp : 0 ≤ p) :
    ∃ f ρ, occAt s p = .ok f ∧ 0 < f ∧ 0 < 1 - (s.eta : ℝ) * f ∧
      f * Real.exp (energy p s.m / T) = ρ * (1 - s.eta * f) ∧ |ρ - 1| ≤ endOcc s ∧ 0 < ρ ∧
      (Known s p → ρ = 1) ∧ (s.eta = 1 → ρ ≤ 1) ∧ (s.eta = -1 → 1 ≤ ρ) := by
  have hend : 0 ≤ endOcc s := by
    unfold endOcc
    split_ifs with he
    · exact le_rfl
    · have he : s.inEq = false := by simpa using he
      obtain ⟨⟨g, hg⟩, hs, hl, hv⟩ := h.stored he
      have hd : s.dist ≠ [] := by
        intro h0; rw [h0, hg] at hl; simp at hl
      rw [List.getLastD_eq_getLast?, List.getLast?_eq_some_getLast hd, Option.getD_some, List.getLast_eq_getElem hd,
        hv _ (by rw [← hl]; have := List.length_pos_iff.mpr hd; omega)]
      exact (one_div_pos.mpr (h.fin _)).le
  by_cases hk : Known s p
  · have ht := h.thermal hp hk
    obtain ⟨a, b⟩ := thermal_odds (h.fin p) h.eta
    refine ⟨_, 1, ht.2, a, ?_, ?_, ?_, one_pos, fun _ => rfl, fun _ => le_rfl, fun _ => le_rfl⟩
    · rw [b]; positivity
    · rw [b]; ring
    · simpa using hend
  · have he : s.inEq = false := by
      by_contra hn
      exact hk (Or.inl (by simpa using hn))
    obtain ⟨⟨g, hg⟩, hs, hl, hv⟩ := h.stored he
    have hne : s.grid ≠ [] := by rw [hg]; simp
    have hd : s.dist ≠ [] := by
      intro h0; rw [h0, hg] at hl; simp at hl
    have hlt : s.grid.getLast hne < p := by
      by_contra hn
      exact hk (Or.inr ⟨hne, not_lt.mp hn⟩)
    have hlook := tail_lookup s.grid s.dist s.m s.T s.eta hne hd hs hl p hlt.le
    have hlast : s.dist.getLast hd = 1 / (Real.exp (energy (s.grid.getLast hne) s.m / T) + s.eta) := by
      rw [List.getLast_eq_getElem hd, List.getLast_eq_getElem hne,
        hv _ (by rw [← hl]; have := List.length_pos_iff.mpr hd; omega)]
      simp only [hl]
    have hendv : endOcc s = 1 / (Real.exp (energy (s.grid.getLast hne) s.m / T) + s.eta) := by
      unfold endOcc
      rw [he, List.getLastD_eq_getLast?, List.getLast?_eq_some_getLast hd, Option.getD_some, hlast]
      simp
    have hfin := h.fin (s.grid.getLast hne)
    have h0 : 0 ≤ s.grid.getLast hne := by
      have hmem := List.getLast_mem hne
      rw [hg] at hs
      have hm' : s.grid.getLast hne ∈ (0 :: g : List ℝ) := by rw [← hg]; exact hmem
      rcases List.mem_cons.mp hm' with e | e
      · exact e.ge
      · exact ((List.pairwise_cons.mp hs).1 _ e).le
    have hEE : energy (s.grid.getLast hne) s.m < energy p s.m := energy_strictMono h0 hlt
    set X := Real.exp (energy (s.grid.getLast hne) s.m / T) with hX
    set x := Real.exp ((energy (s.grid.getLast hne) s.m - energy p s.m) / T) with hx
    have hXx : X = x * Real.exp (energy p s.m / T) := by
      rw [hX, hx, ← Real.exp_add]; congr 1; ring
    have hX0 : 0 < X := Real.exp_pos _
    have hx0 : 0 < x := Real.exp_pos _
    have hx1 : x < 1 := by
      rw [hx, Real.exp_lt_one_iff]
      exact div_neg_of_neg_of_pos (by linarith) h.pos
    have hocc : occAt s p = .ok (1 / (X + s.eta) * x) := by
      unfold occAt
      rw [he, hlook, hlast, h.temp]
    have hD : 0 < X + s.eta * (1 - x) := by
      rcases h.eta with e | e <;> rw [e] at hfin ⊢ <;> push_cast at hfin ⊢ <;> linarith
    have h1 : 1 - (s.eta : ℝ) * (1 / (X + s.eta) * x) = (X + s.eta * (1 - x)) / (X + s.eta) := by
      rw [eq_div_iff hfin.ne', sub_mul]
      field_simp
      ring
    refine ⟨_, X / (X + s.eta * (1 - x)), hocc, by positivity, ?_, ?_, ?_, by positivity, fun hk' => absurd hk' hk, ?_, ?_⟩
    · rw [h1]; positivity
    · rw [h1, div_mul_div_cancel₀ hD.ne']
      rw [mul_assoc, ← hXx]
      ring
    · rw [hendv, div_sub_one hD.ne', abs_div, abs_of_pos hD, div_le_div_iff₀ hD hfin]
      rcases h.eta with e | e <;> rw [e] at hfin ⊢ <;> push_cast at hfin ⊢
      · rw [abs_of_nonpos (by linarith)]; nlinarith
      · rw [abs_of_nonneg (by linarith)]; nlinarith
    · intro e
      rw [div_le_one hD, e]; push_cast; linarith
    · intro e
      rw [one_le_div hD, e]; push_cast; linarith

/-! ## Rates of an event -/

/-- Creation and destruction of an event in which every mode has the odds of equilibrium times `ρ`. -/
theorem flux_balance {n : ℕ} (r : Fin n → Reactant) (f ρ E : Fin n → ℝ) (T : ℝ)
    (hs : ∀ i, (r i).side = 1 ∨ (r i).side = -1)
    (h : ∀ i, f i * Real.exp (E i / T) = ρ i * (1 - (r i).specie.eta * f i))
    (hE : ∑ i, ((r i).side : ℝ) * E i = 0) :
    flux r f 1 * ∏ i, (if (r i).side = 1 then 1 else ρ i) = flux r f (-1) * ∏ i, (if (r i).side = 1 then ρ i else 1) := by
  have e1 : ∏ i, Real.exp (((r i).side : ℝ) * E i / T) = 1 := by
    rw [← Real.exp_sum, ← Finset.sum_div, hE, zero_div, Real.exp_zero]
  have e2 : flux r f 1 * ∏ i, (if (r i).side = 1 then 1 else ρ i) =
      flux r f 1 * (∏ i, (if (r i).side = 1 then 1 else ρ i)) * ∏ i, Real.exp (((r i).side : ℝ) * E i / T) := by
    rw [e1, mul_one]
  rw [e2]
  unfold flux
  rw [← Finset.prod_mul_distrib, ← Finset.prod_mul_distrib, ← Finset.prod_mul_distrib]
  apply Finset.prod_congr rfl
  intro i _
  rcases hs i with e | e
  · rw [e, if_pos rfl, if_pos rfl, if_neg (by decide), if_pos rfl]
    push_cast
    rw [mul_one, one_mul, h i]; ring
  · rw [e, if_neg (by decide), if_neg (by decide), if_pos rfl, if_neg (by decide)]
    push_cast
    rw [mul_comm _ (ρ i), ← h i, mul_assoc, ← Real.exp_add]
    rw [show E i / T + -1 * E i / T = 0 by ring, Real.exp_zero]

theorem nice2_mono {G K : ℝ → ℝ → ℝ} (hG : Nice2 G) (hK : Nice2 K) (h : ∀ x y, G x y ≤ K x y) :
    ∫ x, ∫ y, G x y ≤ ∫ x, ∫ y, K x y :=
  integral_mono hG.inner hK.inner fun x => integral_mono (hG.slice x) (hK.slice x) (h x)

theorem nice2_smul {G : ℝ → ℝ → ℝ} (hG : Nice2 G) (c : ℝ) : Nice2 fun x y => c * G x y := by
  obtain ⟨C, hC⟩ := hG.bdd
  obtain ⟨R, hR⟩ := hG.box
  refine ⟨hG.meas.const_mul c, ⟨|c| * C, fun x y => ?_⟩, ⟨R, fun x y hne => hR x y fun h => hne (by rw [h, mul_zero])⟩⟩
  rw [abs_mul]
  exact mul_le_mul_of_nonneg_left (hC x y) (abs_nonneg c)

theorem nice2_add {G K : ℝ → ℝ → ℝ} (hG : Nice2 G) (hK : Nice2 K) : Nice2 fun x y => G x y + K x y := by
  obtain ⟨C, hC⟩ := hG.bdd
  obtain ⟨R, hR⟩ := hG.box
  obtain ⟨C', hC'⟩ := hK.bdd
  obtain ⟨R', hR'⟩ := hK.box
  refine ⟨hG.meas.add hK.meas, ⟨C + C', fun x y => (abs_add_le _ _).trans (add_le_add (hC x y) (hC' x y))⟩,
    ⟨max R R', fun x y hne => ?_⟩⟩
  by_cases h : G x y = 0
  · have h' : K x y ≠ 0 := fun h' => hne (by rw [h, h', add_zero])
    exact ⟨(hR' x y h').1.trans (le_max_right _ _), (hR' x y h').2.trans (le_max_right _ _)⟩
  · exact ⟨(hR x y h).1.trans (le_max_left _ _), (hR x y h).2.trans (le_max_left _ _)⟩

theorem nice2_int_add {G K : ℝ → ℝ → ℝ} (hG : Nice2 G) (hK : Nice2 K) (c : ℝ) :
    ∫ x, ∫ y, (G x y + c * K x y) = (∫ x, ∫ y, G x y) + c * ∫ x, ∫ y, K x y := by
  have e : ∀ x, ∫ y, (G x y + c * K x y) = (∫ y, G x y) + c * ∫ y, K x y := fun x => by
    rw [integral_add (hG.slice x) ((hK.slice x).const_mul c), integral_const_mul]
  simp only [e]
  rw [integral_add hG.inner (hK.inner.const_mul c), integral_const_mul]

section
variable (r : Fin 4 → Reactant) (Ms : List CM) (p0 P : ℝ)

open Classical in
/-- The integrand of a scattering with statistics factor `N`, inside the limits of the code. -/
noncomputable def scatH (N : ℝ → ℝ → ℝ) (p1 p2 : ℝ) : ℝ :=
  if (0 < p1 ∧ p1 ≤ P) ∧ 0 < p2 ∧ (r 3).specie.m ≤ lastEnergy4 r p0 p1 p2 then
    (p1 / energyOf (r 1).specie.m p1) / (p0 * energyOf (r 0).specie.m p0) * ((p2 / energyOf (r 2).specie.m p2) *
      (kern r Ms (momenta4 r p0 p1 p2) (energies4 r p0 p1 p2) * N p1 p2)) else 0

variable {r Ms p0 P}

theorem lastEnergy4_measurable : Measurable fun z : ℝ × ℝ => lastEnergy4 r p0 z.1 z.2 := by
  unfold lastEnergy4
  have h1 : Measurable fun z : ℝ × ℝ => energy z.1 (r 1).specie.m := (energy_measurable _).comp measurable_fst
  have h2 : Measurable fun z : ℝ × ℝ => energy z.2 (r 2).specie.m := (energy_measurable _).comp measurable_snd
  exact ((measurable_const.add (h1.const_mul _)).add (h2.const_mul _)).mul_const _

theorem momenta4_measurable (i : Fin 4) : Measurable fun z : ℝ × ℝ => momenta4 r p0 z.1 z.2 i := by
  fin_cases i
  · exact measurable_const
  · exact measurable_fst
  · exact measurable_snd
  · exact ((lastEnergy4_measurable.pow_const 2).sub_const _).sqrt

theorem energies4_measurable (i : Fin 4) : Measurable fun z : ℝ × ℝ => energies4 r p0 z.1 z.2 i := by
  fin_cases i
  · exact measurable_const
  · exact (energy_measurable _).comp measurable_fst
  · exact (energy_measurable _).comp measurable_snd
  · exact lastEnergy4_measurable

theorem velocity_bound (m p : ℝ) (hp : 0 < p) : 0 ≤ p / energyOf m p ∧ p / energyOf m p ≤ 1 := by
  have h : p ≤ energyOf m p := by rw [energyOf_eq]; exact le_energy p m
  exact ⟨div_nonneg hp.le (hp.le.trans h), (div_le_one (hp.trans_le h)).mpr h⟩

/-- Bounds on all momenta and energies of an event inside the limits. -/
theorem scat_box (hs : TwoIntoTwo r) (hm : ∀ i, 0 ≤ (r i).specie.m) (h0 : 0 < p0) {p1 p2 : ℝ} (h1 : 0 < p1) (hP : p1 ≤ P)
    (h2 : 0 < p2) (h : (r 3).specie.m ≤ lastEnergy4 r p0 p1 p2) :
    (∀ i, |momenta4 r p0 p1 p2 i| ≤ energy p0 (r 0).specie.m + energy P (r 1).specie.m) ∧
    (∀ i, |energies4 r p0 p1 p2 i| ≤ energy p0 (r 0).specie.m + energy P (r 1).specie.m) := by
  obtain ⟨s0, s1, s2, s3⟩ := hs
  have hE := scat_energy (p0 := p0) (p1 := p1) (p2 := p2) s0 s1 s2 s3
  have a1 := energy_mono (m := (r 1).specie.m) h1.le hP
  have e0 := energy_nonneg p0 (r 0).specie.m
  have e1 := energy_nonneg p1 (r 1).specie.m
  have e2 := energy_nonneg p2 (r 2).specie.m
  have m3 := hm 3
  have hen : ∀ i, 0 ≤ energies4 r p0 p1 p2 i ∧ energies4 r p0 p1 p2 i ≤ energy p0 (r 0).specie.m + energy P (r 1).specie.m := by
    intro i
    fin_cases i
    · exact ⟨e0, by change energy p0 _ ≤ _; linarith⟩
    · exact ⟨e1, by change energy p1 _ ≤ _; linarith⟩
    · exact ⟨e2, by change energy p2 _ ≤ _; linarith⟩
    · exact ⟨by change 0 ≤ lastEnergy4 r p0 p1 p2; linarith, by change lastEnergy4 r p0 p1 p2 ≤ _; linarith⟩
  refine ⟨fun i => ?_, fun i => by rw [abs_of_nonneg (hen i).1]; exact (hen i).2⟩
  rw [abs_of_nonneg (momenta4_nonneg r h0.le h1.le h2.le i)]
  refine le_trans ?_ (hen i).2
  fin_cases i
  · exact le_energy _ _
  · exact le_energy _ _
  · exact le_energy _ _
  · change √(lastEnergy4 r p0 p1 p2 ^ 2 - (r 3).specie.m ^ 2) ≤ lastEnergy4 r p0 p1 p2
    exact (le_abs_self _).trans (momOf_le_self (r 3).specie.m _ (m3.trans h))

theorem scatH_nice (hs : TwoIntoTwo r) (hm : ∀ i, 0 ≤ (r i).specie.m) (h0 : 0 < p0) {N : ℝ → ℝ → ℝ}
    (hN : Measurable fun z : ℝ × ℝ => N z.1 z.2) {C : ℝ} (hC : ∀ p1 p2, 0 < p1 → 0 < p2 → |N p1 p2| ≤ C) :
    Nice2 (scatH r Ms p0 P N) := by
  classical
  refine ⟨?_, ?_, ⟨energy p0 (r 0).specie.m + energy P (r 1).specie.m, fun p1 p2 hne => ?_⟩⟩
  · unfold scatH
    apply Measurable.ite
    · apply MeasurableSet.inter
      · exact (measurableSet_lt measurable_const measurable_fst).inter (measurableSet_le measurable_fst measurable_const)
      · exact (measurableSet_lt measurable_const measurable_snd).inter
          (measurableSet_le measurable_const lastEnergy4_measurable)
    · have v : ∀ m : ℝ, Measurable fun p : ℝ => p / energyOf m p := by
        intro m
        have : (fun p : ℝ => p / energyOf m p) = fun p => p / energy p m := by
          funext p; rw [energyOf_eq]
        rw [this]
        exact measurable_id.div (energy_measurable m)
      exact (((v _).comp measurable_fst).div_const _).mul (((v _).comp measurable_snd).mul
        (((kern_continuous r Ms).measurable.comp ((measurable_pi_lambda _ momenta4_measurable).prodMk
          (measurable_pi_lambda _ energies4_measurable))).mul hN))
    · exact measurable_const
  · obtain ⟨K, hK⟩ := kern_bound r Ms (energy p0 (r 0).specie.m + energy P (r 1).specie.m)
    refine ⟨(p0 * energyOf (r 0).specie.m p0)⁻¹ * (|K| * |C|), fun p1 p2 => ?_⟩
    have hE0 : 0 < p0 * energyOf (r 0).specie.m p0 := by
      rw [energyOf_eq]; exact mul_pos h0 (h0.trans_le (le_energy _ _))
    unfold scatH
    split_ifs with h
    · obtain ⟨⟨h1, hP⟩, h2, hl⟩ := h
      obtain ⟨b1, b2⟩ := scat_box (P := P) hs hm h0 h1 hP h2 hl
      have v1 := velocity_bound (r 1).specie.m p1 h1
      have v2 := velocity_bound (r 2).specie.m p2 h2
      rw [abs_mul, abs_mul, abs_mul, abs_div, abs_of_nonneg v1.1, abs_of_pos hE0, abs_of_nonneg v2.1]
      have k := (hK _ _ b1 b2).trans (le_abs_self K)
      have n := (hC p1 p2 h1 h2).trans (le_abs_self C)
      have kn := mul_le_mul k n (abs_nonneg _) (abs_nonneg _)
      have a : p1 / energyOf (r 1).specie.m p1 / (p0 * energyOf (r 0).specie.m p0) ≤ (p0 * energyOf (r 0).specie.m p0)⁻¹ := by
        rw [div_eq_mul_inv]
        exact mul_le_of_le_one_left (inv_nonneg.mpr hE0.le) v1.2
      refine mul_le_mul a ?_ (mul_nonneg v2.1 (mul_nonneg (abs_nonneg _) (abs_nonneg _))) (inv_nonneg.mpr hE0.le)
      exact (mul_le_of_le_one_left (mul_nonneg (abs_nonneg _) (abs_nonneg _)) v2.2).trans kn
    · rw [abs_zero]; positivity
  · have hc : (0 < p1 ∧ p1 ≤ P) ∧ 0 < p2 ∧ (r 3).specie.m ≤ lastEnergy4 r p0 p1 p2 := by
      by_contra hn
      apply hne
      unfold scatH
      rw [if_neg hn]
    obtain ⟨b1, -⟩ := scat_box (P := P) hs hm h0 hc.1.1 hc.1.2 hc.2.1 hc.2.2
    exact ⟨b1 1, b1 2⟩

/-- An entry of the loop of a scattering in terms of the statistics factor. -/
theorem scat_entry (hs : TwoIntoTwo r) (hm : ∀ i, 0 ≤ (r i).specie.m) (hMs : Ms ≠ []) (hK : ∀ M ∈ Ms, M.K = 0)
    (ho : ∀ M ∈ Ms, M.order.Bijective) {F : Fin 4 → ℝ → ℝ}
    (hocc : ∀ i p, 0 ≤ p → occAt (r i).specie p = .ok (F i p)) (k : ℤ) (N : ℝ → ℝ → ℝ) (max3 : ℝ) (dflt : ℝ × ℝ)
    (h0 : 0 < p0) (hP : scatMin1 (loopCtx4 r max3) p0 ≤ P)
    (hN : ∀ p1 p2, 0 < p1 → 0 < p2 → kindFactor (Kind.ofInt k) [r 0, r 1, r 2, r 3] [F 0 (momenta4 r p0 p1 p2 0),
      F 1 (momenta4 r p0 p1 p2 1), F 2 (momenta4 r p0 p1 p2 2), F 3 (momenta4 r p0 p1 p2 3)] = .ok (N p1 p2)) :
    valOf (exactQuad4 r Ms k max3 dflt p0 (scatMin1 (loopCtx4 r max3) p0) P) = ∫ p1, ∫ p2, scatH r Ms p0 P N p1 p2 := by
  have hsd : ∀ i, (r i).side = 1 ∨ (r i).side = -1 := by
    intro i
    obtain ⟨s0, s1, s2, s3⟩ := hs
    fin_cases i
    exacts [Or.inr s0, Or.inr s1, Or.inl s2, Or.inl s3]
  rw [entry4_scattering Ms k max3 P dflt hs.1 hs.2.1 hs.2.2.1 hs.2.2.2 (hm 0) (hm 3) p0 h0 hP (scatH r Ms p0 P N) ?_ ?_]
  · change ∫ p1 in Set.Ioi 0, ∫ p2 in Set.Ioi 0, scatH r Ms p0 P N p1 p2 = _
    apply setIntegral_all2
    intro p1 p2 hne
    unfold scatH at hne
    by_contra hn
    apply hne
    rw [if_neg fun h => hn ⟨h.1.1.le, h.2.1.le⟩]
  · intro p1 p2 h1 h2 hp
    rw [integrand4_kind hMs hK ho hsd hm hocc k _ h0 h1 h2 (hN p1 p2 h1 h2)]
    change _ * (_ * (if _ then _ else _)) = _
    unfold scatH
    by_cases h : (r 3).specie.m ≤ lastEnergy4 r p0 p1 p2
    · rw [if_pos h, if_pos ⟨⟨h1, hp⟩, h2, h⟩]
    · rw [if_neg h, if_neg fun h' => h h'.2.2, mul_zero, mul_zero]
  · intro p1 p2 _ _ hp
    unfold scatH
    rw [if_neg fun h => hp h.1.2]

end

theorem FreshSp.filled {s : CParticle} {T : ℝ} (h : FreshSp s T) : Filled s := by
  by_cases he : s.inEq = true
  · exact Or.inl ⟨he, h.temp ▸ h.pos, h.mass, h.stat⟩
  · have he : s.inEq = false := by simpa using he
    obtain ⟨hg, hs, hl, hv⟩ := h.stored he
    refine Or.inr ⟨he, hg, hs, hl, h.temp ▸ h.pos, h.eta, fun d hd => ?_⟩
    obtain ⟨i, hi, rfl⟩ := List.getElem_of_mem hd
    rw [hv i (hl ▸ hi) hi]
    have hf := h.fin (s.grid[i]'(hl ▸ hi))
    refine ⟨one_div_pos.mpr hf, fun e => ?_⟩
    rw [div_lt_one hf, e]
    push_cast
    linarith [Real.exp_pos (energy (s.grid[i]'(hl ▸ hi)) s.m / T)]

theorem Known.mono {s : CParticle} {p q : ℝ} (h : Known s q) (hp : p ≤ q) : Known s p :=
  h.imp id fun ⟨a, b⟩ => ⟨a, hp.trans b⟩

section
variable {r : Fin 4 → Reactant} {Ms : List CM} {p0 P : ℝ}

/-- The kind which counts losses only. -/
theorem kind_loss (f : Fin 4 → ℝ) (hs : ∀ i, (r i).side = 1 ∨ (r i).side = -1) (s0 : (r 0).side = -1)
    (hf : ∀ i, 0 ≤ f i) : kindFactor (Kind.ofInt 7) [r 0, r 1, r 2, r 3] [f 0, f 1, f 2, f 3] =
      .ok (-flux r (Function.update f 0 1) (-1)) := by
  have h2 : TwoSided ([r 1, r 2, r 3].zip [f 1, f 2, f 3]) := by
    intro x hx
    simp only [List.zip_cons_cons, List.zip_nil_right, List.mem_cons, List.not_mem_nil, or_false] at hx
    rcases hx with rfl | rfl | rfl <;> exact hs _
  have hf' : ∀ x ∈ [r 1, r 2, r 3].zip [f 1, f 2, f 3], 0 ≤ x.2 := by
    intro x hx
    simp only [List.zip_cons_cons, List.zip_nil_right, List.mem_cons, List.not_mem_nil, or_false] at hx
    rcases hx with rfl | rfl | rfl <;> exact hf _
  rw [(C84_kinds (r 0) _ (f 0) _ s0 h2 (hf 0) hf' 7).2.2.2.1 rfl]
  have l := loss_four r (Function.update f 0 1) hs
  unfold flux
  rw [← l]
  rfl

theorem flux_first {f : Fin 4 → ℝ} (s0 : (r 0).side = -1) :
    f 0 * flux r (Function.update f 0 1) (-1) = flux r f (-1) := by
  rw [flux_affine r f 0 (-1)]
  have : flux r (Function.update f 0 0) (-1) = 0 := by
    unfold flux
    apply Finset.prod_eq_zero (Finset.mem_univ (0 : Fin 4))
    rw [if_pos s0, Function.update_self]
  rw [this]; ring

theorem flux_measurable {V : Fin 4 → ℝ → ℝ} (hV : ∀ i, Measurable (V i)) (t : ℤ) :
    Measurable fun z : ℝ × ℝ => flux r (fun i => V i (momenta4 r p0 z.1 z.2 i)) t := by
  unfold flux
  apply Finset.measurable_fun_prod
  intro i _
  have a : Measurable fun z : ℝ × ℝ => V i (momenta4 r p0 z.1 z.2 i) := (hV i).comp (momenta4_measurable i)
  split_ifs
  · exact a
  · exact measurable_const.sub (a.const_mul _)

theorem scatH_mono (hs : TwoIntoTwo r) (hm : ∀ i, 0 ≤ (r i).specie.m) (ho : ∀ M ∈ Ms, M.order.Bijective)
    (hK : ∀ M ∈ Ms, 0 ≤ M.K1 ∧ 0 ≤ M.K2) (h0 : 0 < p0) {N N' : ℝ → ℝ → ℝ}
    (h : ∀ p1 p2, 0 < p1 → p1 ≤ P → 0 < p2 → (r 3).specie.m ≤ lastEnergy4 r p0 p1 p2 → N p1 p2 ≤ N' p1 p2) (p1 p2 : ℝ) :
    scatH r Ms p0 P N p1 p2 ≤ scatH r Ms p0 P N' p1 p2 := by
  unfold scatH
  split_ifs with hc
  · obtain ⟨⟨h1, hP⟩, h2, hl⟩ := hc
    have hsd : ∀ i, (r i).side = 1 ∨ (r i).side = -1 := by
      intro i
      obtain ⟨s0, s1, s2, s3⟩ := hs
      fin_cases i
      exacts [Or.inr s0, Or.inr s1, Or.inl s2, Or.inl s3]
    have sh := onShell4 hsd hm h0.le h1.le h2.le hl
    have hk := kern_nonneg r Ms hsd hm ho hK (momenta4 r p0 p1 p2) (energies4 r p0 p1 p2) sh.mom fun i => by
      rw [sh.energy i, energyOf_eq]; exact le_energy _ _
    have hE0 : 0 < p0 * energyOf (r 0).specie.m p0 := by
      rw [energyOf_eq]; exact mul_pos h0 (h0.trans_le (le_energy _ _))
    refine mul_le_mul_of_nonneg_left ?_ (div_nonneg (velocity_bound _ _ h1).1 hE0.le)
    refine mul_le_mul_of_nonneg_left ?_ (velocity_bound _ _ h2).1
    exact mul_le_mul_of_nonneg_left (h p1 p2 h1 hP h2 hl) hk
  · exact le_rfl

theorem scatH_lin (N N' : ℝ → ℝ → ℝ) (c : ℝ) (p1 p2 : ℝ) :
    scatH r Ms p0 P (fun x y => N x y + c * N' x y) p1 p2 = scatH r Ms p0 P N p1 p2 + c * scatH r Ms p0 P N' p1 p2 := by
  unfold scatH
  split_ifs
  · ring
  · ring

/-- The rates of an event of a scattering of fresh species. -/
theorem scat_rates (hs : TwoIntoTwo r) {T : ℝ} (hr : ∀ i, FreshSp (r i).specie T) {F : Fin 4 → ℝ → ℝ}
    (hocc : ∀ i p, 0 ≤ p → occAt (r i).specie p = .ok (F i p)) (h0 : 0 ≤ p0) (k0 : Known (r 0).specie p0) {p1 p2 : ℝ}
    (h1 : 0 ≤ p1) (k1 : Known (r 1).specie p1) (h2 : 0 ≤ p2) (hl : (r 3).specie.m ≤ lastEnergy4 r p0 p1 p2) :
    0 ≤ flux r (fun i => F i (momenta4 r p0 p1 p2 i)) (-1) ∧
    |netFlux4 r (fun i => F i (momenta4 r p0 p1 p2 i))| ≤ ((1 + endOcc (r 2).specie) * (1 + endOcc (r 3).specie) - 1) *
      flux r (fun i => F i (momenta4 r p0 p1 p2 i)) (-1) ∧
    ((r 2).specie.eta = 1 → (r 3).specie.eta = 1 → netFlux4 r (fun i => F i (momenta4 r p0 p1 p2 i)) ≤ 0) ∧
    (Known (r 2).specie p2 → Known (r 3).specie (momenta4 r p0 p1 p2 3) →
      netFlux4 r (fun i => F i (momenta4 r p0 p1 p2 i)) = 0) := by
  have hsd : ∀ i, (r i).side = 1 ∨ (r i).side = -1 := by
    intro i
    obtain ⟨s0, s1, s2, s3⟩ := hs
    fin_cases i
    exacts [Or.inr s0, Or.inr s1, Or.inl s2, Or.inl s3]
  have sh := onShell4 hsd (fun i => (hr i).mass) h0 h1 h2 hl
  have hod := fun i => C123_odds (hr i) (sh.mom i)
  choose g ρ hg hpos hfree hbal hρ hρ0 hkn hfer hbos using hod
  have hgF : ∀ i, g i = F i (momenta4 r p0 p1 p2 i) := fun i => by
    have := (hg i).symm.trans (hocc i _ (sh.mom i))
    exact Except.ok.inj this
  have hfl := flux_balance r g ρ (energies4 r p0 p1 p2) T hsd (fun i => by
    have := hbal i
    rwa [← energyOf_eq, ← sh.energy i] at this) sh.conserved
  have e : g = fun i => F i (momenta4 r p0 p1 p2 i) := funext hgF
  rw [e] at hfl
  have hloss : 0 ≤ flux r (fun i => F i (momenta4 r p0 p1 p2 i)) (-1) := by
    rw [← e]
    unfold flux
    apply Finset.prod_nonneg
    intro i _
    split_ifs
    · exact (hpos i).le
    · exact (hfree i).le
  rw [Fin.prod_univ_four, Fin.prod_univ_four, hs.1, hs.2.1, hs.2.2.1, hs.2.2.2] at hfl
  rw [if_neg (by decide), if_neg (by decide), if_pos rfl, if_pos rfl, if_neg (by decide), if_neg (by decide), if_pos rfl,
    if_pos rfl, hkn 0 k0, hkn 1 k1] at hfl
  have hnet : netFlux4 r (fun i => F i (momenta4 r p0 p1 p2 i)) =
      (ρ 2 * ρ 3 - 1) * flux r (fun i => F i (momenta4 r p0 p1 p2 i)) (-1) := by
    unfold netFlux4; linear_combination hfl
  have b2 := abs_le.mp (hρ 2)
  have b3 := abs_le.mp (hρ 3)
  refine ⟨hloss, ?_, ?_, ?_⟩
  · rw [hnet, abs_mul, abs_of_nonneg hloss]
    refine mul_le_mul_of_nonneg_right ?_ hloss
    have e2 : ρ 2 * ρ 3 - 1 = (ρ 2 - 1) * (ρ 3 - 1) + (ρ 2 - 1) + (ρ 3 - 1) := by ring
    rw [e2]
    have h23 : |(ρ 2 - 1) * (ρ 3 - 1)| ≤ endOcc (r 2).specie * endOcc (r 3).specie := by
      rw [abs_mul]
      exact mul_le_mul (hρ 2) (hρ 3) (abs_nonneg _) ((abs_nonneg _).trans (hρ 2))
    have t1 := abs_add_le ((ρ 2 - 1) * (ρ 3 - 1) + (ρ 2 - 1)) (ρ 3 - 1)
    have t2 := abs_add_le ((ρ 2 - 1) * (ρ 3 - 1)) (ρ 2 - 1)
    have := hρ 2
    have := hρ 3
    linarith
  · intro f2 f3
    rw [hnet]
    refine mul_nonpos_of_nonpos_of_nonneg ?_ hloss
    have := mul_le_one₀ (hfer 2 f2) (hρ0 3).le (hfer 3 f3)
    linarith
  · intro k2 k3
    rw [hnet, hkn 2 k2, hkn 3 k3]
    ring

/-- **C123, scattering.** All four species in equilibrium at one temperature, some of them by stored values, the momenta
of the particle and of its partner inside their grids: the collision term `A + f B` of the particle is at most a
fraction of its own rate of loss `f D`, the fraction being the occupation at the end of the grids of the products (both
of them added); if the products are fermions, the term is not positive. -/
theorem C123_scattering (r : Fin 4 → Reactant) (Ms : List CM) (hs : TwoIntoTwo r) (T : ℝ) (hr : ∀ i, FreshSp (r i).specie T)
    (hMs : Ms ≠ []) (hK : ∀ M ∈ Ms, M.K = 0 ∧ 0 ≤ M.K1 ∧ 0 ≤ M.K2) (ho : ∀ M ∈ Ms, M.order.Bijective)
    (min1 max1 min2 max2 max3 : ℝ) (h0 : 0 ≤ max1)
    (hthr : 3 * ((r 2).specie.m + (r 3).specie.m - (r 0).specie.m) ≤ max1) (hk : Known (r 1).specie max1) :
    ∃ A B D : ℝ → ℝ,
      (∀ (ps : List ℝ) (sched : List (List ℕ)), ValidSchedule ps.length sched →
        integration4Exact r Ms 1 ps min1 max1 min2 max2 max3 sched = .ok (ps.map A) ∧
        integration4Exact r Ms 2 ps min1 max1 min2 max2 max3 sched = .ok (ps.map B) ∧
        integration4Exact r Ms 7 ps min1 max1 min2 max2 max3 sched = .ok (ps.map D)) ∧
      ∀ p f, 0 < p → Known (r 0).specie p → occAt (r 0).specie p = .ok f →
        D p ≤ 0 ∧
        |A p + f * B p| ≤ ((1 + endOcc (r 2).specie) * (1 + endOcc (r 3).specie) - 1) * (f * -D p) ∧
        ((r 2).specie.eta = 1 → (r 3).specie.eta = 1 → A p + f * B p ≤ 0) := by
  have hm : ∀ i, 0 ≤ (r i).specie.m := fun i => (hr i).mass
  have hsd : ∀ i, (r i).side = 1 ∨ (r i).side = -1 := by
    intro i
    obtain ⟨s0, s1, s2, s3⟩ := hs
    fin_cases i
    exacts [Or.inr s0, Or.inr s1, Or.inl s2, Or.inl s3]
  have hT : reactionTypeSum [r 0, r 1, r 2, r 3] = 0 := by
    obtain ⟨s0, s1, s2, s3⟩ := hs
    simp [reactionTypeSum, s0, s1, s2, s3]
  choose F Bd hFm hF using fun i => (hr i).filled.regular
  have hocc : ∀ i p, 0 ≤ p → occAt (r i).specie p = .ok (F i p) := fun i p hp => (hF i p hp).1
  let X : ℤ → ℝ → ℝ := fun k p =>
    valOf (exactQuad4 r Ms k max3 (min2, max2) p (scatMin1 (loopCtx4 r max3) p) max1)
  refine ⟨X 1, X 2, X 7, fun ps sched hv => ⟨arrayScat r Ms 1 _ _ _ _ _ hT h0 hthr ps sched hv,
    arrayScat r Ms 2 _ _ _ _ _ hT h0 hthr ps sched hv, arrayScat r Ms 7 _ _ _ _ _ hT h0 hthr ps sched hv⟩, ?_⟩
  intro p f hp kp hf
  have hf0 : f = F 0 p := Except.ok.inj (hf.symm.trans (hocc 0 p hp.le))
  have hmin : scatMin1 (loopCtx4 r max3) p ≤ max1 := by
    have := scatMin1_le (loopCtx4 r max3) p
    change _ ≤ max 0 ((r 2).specie.m + (r 3).specie.m - (r 0).specie.m) at this
    rcases max_cases 0 ((r 2).specie.m + (r 3).specie.m - (r 0).specie.m) with ⟨h, -⟩ | ⟨h, -⟩ <;> rw [h] at this <;>
      linarith
  -- statistics factors
  let U : ℝ → Fin 4 → ℝ → ℝ := fun c => Function.update F 0 fun _ => c
  let V : (Fin 4 → ℝ → ℝ) → ℤ → ℝ → ℝ → ℝ := fun G t p1 p2 => flux r (fun i => G i (momenta4 r p p1 p2 i)) t
  have hu : ∀ c p1 p2, (fun i => U c i (momenta4 r p p1 p2 i)) = Function.update (fun i => F i (momenta4 r p p1 p2 i)) 0 c := by
    intro c p1 p2
    funext i
    by_cases h : i = 0
    · subst h; simp [U]
    · rw [Function.update_of_ne h]; simp only [U]; rw [Function.update_of_ne h]
  have hUm : ∀ c i, Measurable (U c i) := by
    intro c i
    by_cases h : i = 0
    · subst h; simp only [U]; rw [Function.update_self]; exact measurable_const
    · simp only [U]; rw [Function.update_of_ne h]; exact hFm i
  have hbd : ∀ c, ∃ C, ∀ t p1 p2, 0 < p1 → 0 < p2 → |V (U c) t p1 p2| ≤ C := by
    intro c
    refine ⟨(2 * max (max |c| 1) (∑ i, |Bd i|)) ^ 4, fun t p1 p2 h1 h2 => ?_⟩
    apply flux_bound4 _ ((le_max_right _ _).trans (le_max_left _ _)) fun i => (hr i).eta
    intro i
    have hb : ∀ i, |F i (momenta4 r p p1 p2 i)| ≤ ∑ i, |Bd i| := fun i => by
      have := hF i _ (momenta4_nonneg r hp.le h1.le h2.le i)
      rw [abs_of_nonneg this.2.1]
      exact (this.2.2.trans (le_abs_self _)).trans
        (Finset.single_le_sum (f := fun i => |Bd i|) (fun i _ => abs_nonneg _) (Finset.mem_univ i))
    by_cases h : i = 0
    · subst h; simp only [U]; rw [Function.update_self]
      exact (le_max_left _ _).trans (le_max_left _ _)
    · simp only [U]; rw [Function.update_of_ne h]
      exact (hb i).trans (le_max_right _ _)
  have nice : ∀ c t, Nice2 (scatH r Ms p max1 (V (U c) t)) := fun c t => by
    obtain ⟨C, hC⟩ := hbd c
    exact scatH_nice hs hm hp (flux_measurable (hUm c) t) (hC t)
  have comb : ∀ (N N' : ℝ → ℝ → ℝ) (c : ℝ), Nice2 (scatH r Ms p max1 N) → Nice2 (scatH r Ms p max1 N') →
      Nice2 (scatH r Ms p max1 fun x y => N x y + c * N' x y) := by
    intro N N' c h h'
    have e : (scatH r Ms p max1 fun x y => N x y + c * N' x y) =
        fun x y => scatH r Ms p max1 N x y + c * scatH r Ms p max1 N' x y := by
      funext x y; exact scatH_lin N N' c x y
    rw [e]
    exact nice2_add h (nice2_smul h' c)
  let N1 : ℝ → ℝ → ℝ := fun x y => V (U 0) 1 x y + -1 * V (U 0) (-1) x y
  let M1 : ℝ → ℝ → ℝ := fun x y => V (U 1) 1 x y + -1 * V (U 1) (-1) x y
  let N2 : ℝ → ℝ → ℝ := fun x y => M1 x y + -1 * N1 x y
  have n1 : Nice2 (scatH r Ms p max1 N1) := comb _ _ _ (nice 0 1) (nice 0 (-1))
  have m1 : Nice2 (scatH r Ms p max1 M1) := comb _ _ _ (nice 1 1) (nice 1 (-1))
  have n2 : Nice2 (scatH r Ms p max1 N2) := comb _ _ _ m1 n1
  have hnn : ∀ p1 p2, 0 < p1 → 0 < p2 → ∀ i, 0 ≤ F i (momenta4 r p p1 p2 i) := fun p1 p2 h1 h2 i =>
    (hF i _ (momenta4_nonneg r hp.le h1.le h2.le i)).2.1
  have e1 : X 1 p = ∫ x, ∫ y, scatH r Ms p max1 N1 x y := by
    apply scat_entry hs hm hMs (fun M h => (hK M h).1) ho hocc 1 N1 max3 _ hp hmin
    intro p1 p2 h1 h2
    rw [(kind_parts (fun i => F i (momenta4 r p p1 p2 i)) hsd hs.1 (hnn p1 p2 h1 h2)).1]
    simp only [N1, V, hu]
    unfold netFlux4
    congr 1; ring
  have e2 : X 2 p = ∫ x, ∫ y, scatH r Ms p max1 N2 x y := by
    apply scat_entry hs hm hMs (fun M h => (hK M h).1) ho hocc 2 N2 max3 _ hp hmin
    intro p1 p2 h1 h2
    rw [(kind_parts (fun i => F i (momenta4 r p p1 p2 i)) hsd hs.1 (hnn p1 p2 h1 h2)).2]
    simp only [N2, M1, N1, V, hu]
    unfold netFlux4
    congr 1; ring
  have n7 : Nice2 (scatH r Ms p max1 fun x y => 0 + -1 * V (U 1) (-1) x y) := by
    refine comb _ _ _ ?_ (nice 1 (-1))
    exact scatH_nice hs hm hp (C := 0) measurable_const fun _ _ _ _ => by simp
  have e7 : X 7 p = ∫ x, ∫ y, scatH r Ms p max1 (fun x y => 0 + -1 * V (U 1) (-1) x y) x y := by
    apply scat_entry hs hm hMs (fun M h => (hK M h).1) ho hocc 7 _ max3 _ hp hmin
    intro p1 p2 h1 h2
    rw [kind_loss (fun i => F i (momenta4 r p p1 p2 i)) hsd hs.1 (hnn p1 p2 h1 h2)]
    simp only [V, hu]
    congr 1; ring
  -- the whole term and the loss
  have eAB : X 1 p + f * X 2 p = ∫ x, ∫ y, scatH r Ms p max1 (fun x y => N1 x y + f * N2 x y) x y := by
    rw [e1, e2, ← nice2_int_add n1 n2 f]
    simp only [scatH_lin]
  have nAB : Nice2 (scatH r Ms p max1 fun x y => N1 x y + f * N2 x y) := comb _ _ _ n1 n2
  have hAB : ∀ x y, N1 x y + f * N2 x y = netFlux4 r fun i => F i (momenta4 r p x y i) := by
    intro x y
    rw [netFlux4_affine r (fun i => F i (momenta4 r p x y i)) 0, ← hu, ← hu, hf0]
    change _ = _ + F 0 p * _
    simp only [N2, M1, N1, V]
    unfold netFlux4
    ring
  have hL : ∀ x y, f * V (U 1) (-1) x y = flux r (fun i => F i (momenta4 r p x y i)) (-1) := by
    intro x y
    rw [← flux_first (r := r) (f := fun i => F i (momenta4 r p x y i)) hs.1, ← hu, hf0]
    rfl
  have hKK : ∀ M ∈ Ms, 0 ≤ M.K1 ∧ 0 ≤ M.K2 := fun M h => (hK M h).2
  set κ := (1 + endOcc (r 2).specie) * (1 + endOcc (r 3).specie) - 1 with hκ
  have hrate := fun p1 p2 (h1 : 0 < p1) (hP : p1 ≤ max1) (h2 : 0 < p2)
    (hl : (r 3).specie.m ≤ lastEnergy4 r p p1 p2) =>
    scat_rates hs hr hocc hp.le kp h1.le (hk.mono hP) h2.le hl
  have hfpos : 0 < f := by
    obtain ⟨g, ρ, hg, hpos, -⟩ := C123_odds (hr 0) hp.le
    have := Except.ok.inj (hf.symm.trans hg)
    rw [this]; exact hpos
  have z : ∀ x y, scatH r Ms p max1 (fun _ _ => 0) x y = 0 := by
    intro x y; unfold scatH; simp
  refine ⟨?_, ?_, ?_⟩
  · rw [e7]
    have : ∀ x, ∫ y, scatH r Ms p max1 (fun x y => 0 + -1 * V (U 1) (-1) x y) x y ≤ 0 := fun x =>
      integral_nonpos fun y => by
        change _ ≤ (0 : ℝ)
        refine le_trans (scatH_mono hs hm ho hKK hp (fun p1 p2 h1 hP h2 hl => ?_) x y) (z x y).le
        have := (hrate p1 p2 h1 hP h2 hl).1
        rw [← hL] at this
        have hv := (mul_nonneg_iff_of_pos_left hfpos).mp this
        change 0 + -1 * V (U 1) (-1) p1 p2 ≤ 0
        linarith
    exact integral_nonpos this
  · have n7' : Nice2 (scatH r Ms p max1 fun x y => 0 + (κ * f) * V (U 1) (-1) x y) := by
      refine comb _ _ _ ?_ (nice 1 (-1))
      exact scatH_nice hs hm hp (C := 0) measurable_const fun _ _ _ _ => by simp
    have n7'' : Nice2 (scatH r Ms p max1 fun x y => 0 + -(κ * f) * V (U 1) (-1) x y) := by
      refine comb _ _ _ ?_ (nice 1 (-1))
      exact scatH_nice hs hm hp (C := 0) measurable_const fun _ _ _ _ => by simp
    have val : ∀ c : ℝ, ∫ x, ∫ y, scatH r Ms p max1 (fun x y => 0 + c * V (U 1) (-1) x y) x y = c * -X 7 p := by
      intro c
      have hh : ∀ c : ℝ, ∫ x, ∫ y, scatH r Ms p max1 (fun x y => 0 + c * V (U 1) (-1) x y) x y =
          c * ∫ x, ∫ y, scatH r Ms p max1 (V (U 1) (-1)) x y := by
        intro c
        rw [← integral_const_mul]
        refine integral_congr_ae (Filter.Eventually.of_forall fun x => ?_)
        change ∫ y, _ = c * ∫ y, _
        rw [← integral_const_mul]
        refine integral_congr_ae (Filter.Eventually.of_forall fun y => ?_)
        change scatH r Ms p max1 (fun x y => (fun _ _ => (0 : ℝ)) x y + c * V (U 1) (-1) x y) x y = _
        rw [scatH_lin, z, zero_add]
      rw [e7, hh, hh]
      ring
    rw [eAB, abs_le]
    constructor
    · have := nice2_mono n7'' nAB fun x y => scatH_mono hs hm ho hKK hp (fun p1 p2 h1 hP h2 hl => ?_) x y
      · rw [val] at this; linarith
      · have := (abs_le.mp (hrate p1 p2 h1 hP h2 hl).2.1).1
        rw [hAB]
        rw [← hL] at this
        linarith
    · have := nice2_mono nAB n7' fun x y => scatH_mono hs hm ho hKK hp (fun p1 p2 h1 hP h2 hl => ?_) x y
      · rw [val] at this; linarith
      · have := (abs_le.mp (hrate p1 p2 h1 hP h2 hl).2.1).2
        rw [hAB]
        rw [← hL] at this
        linarith
  · intro f2 f3
    rw [eAB]
    refine integral_nonpos fun x => integral_nonpos fun y => ?_
    change _ ≤ (0 : ℝ)
    rw [← z x y]
    refine scatH_mono hs hm ho hKK hp (fun p1 p2 h1 hP h2 hl => ?_) x y
    rw [hAB]
    exact (hrate p1 p2 h1 hP h2 hl).2.2.1 f2 f3

/-- Particle 0 and the others of its reaction balance at given momenta. -/
theorem fresh_point {r : Fin 4 → Reactant} {Ms : List CM} {T p0 p1 p2 f : ℝ} (hr : ∀ i, FreshSp (r i).specie T)
    (s0 : (r 0).side = -1) (hs : ∀ i, (r i).side = 1 ∨ (r i).side = -1) (h0 : 0 ≤ p0) (h1 : 0 ≤ p1) (h2 : 0 ≤ p2)
    (k0 : Known (r 0).specie p0) (hf : occAt (r 0).specie p0 = .ok f)
    (hk : (r 3).specie.m ≤ lastEnergy4 r p0 p1 p2 → ∀ i, i ≠ 0 → Known (r i).specie (momenta4 r p0 p1 p2 i)) :
    valOf (integrandFull4 p0 p1 p2 r Ms 1) = -f * valOf (integrandFull4 p0 p1 p2 r Ms 2) := by
  by_cases hl : (r 3).specie.m ≤ lastEnergy4 r p0 p1 p2
  · have t := ((hr 0).thermal h0 k0)
    have ht : ∀ i, i ≠ 0 → ThermalAt (r i).specie T (momenta4 r p0 p1 p2 i) := fun i hi =>
      (hr i).thermal (momenta4_nonneg r h0 h1 h2 i) (hk hl i hi)
    have := (bath_point4 p0 p1 p2 T r Ms s0 hs (hr 3).mass ht ((hr 0).fin p0)).1
    have e : f = 1 / (Real.exp (energy p0 (r 0).specie.m / T) + (r 0).specie.eta) :=
      Except.ok.inj (hf.symm.trans t.2)
    rw [e]
    exact this
  · unfold integrandFull4
    rw [if_pos (not_le.mp hl), if_pos (not_le.mp hl)]
    simp [valOf]

theorem int_scale {h : ℝ → ℝ → ℝ} {c : ℝ} :
    ∫ p1 in Set.Ioi 0, ∫ p2 in Set.Ioi 0, c * h p1 p2 = c * ∫ p1 in Set.Ioi 0, ∫ p2 in Set.Ioi 0, h p1 p2 := by
  rw [← integral_const_mul]
  refine integral_congr_ae (Filter.Eventually.of_forall fun x => ?_)
  exact integral_const_mul _ _

/-- **C123, a decaying particle.** A species which decays into three others, all four in equilibrium at one temperature
(some by stored values): wherever the grids of the products reach as far as the energy of the particle allows, the
collision term is zero: exactly, whatever the chemistry (no kernel sign, no crossing assumption) -/
theorem C123_decay (r : Fin 4 → Reactant) (Ms : List CM) (s0 : (r 0).side = -1) (s1 : (r 1).side = 1) (s2 : (r 2).side = 1)
    (s3 : (r 3).side = 1) (T : ℝ) (hr : ∀ i, FreshSp (r i).specie T) (max1 min2 max2 max3 : ℝ) :
    ∃ A B : ℝ → ℝ,
      (∀ (ps : List ℝ) (sched : List (List ℕ)), ValidSchedule ps.length sched →
        integration4Exact r Ms 1 ps 0 max1 min2 max2 max3 sched = .ok (ps.map A) ∧
        integration4Exact r Ms 2 ps 0 max1 min2 max2 max3 sched = .ok (ps.map B)) ∧
      ∀ p f, 0 < p → Known (r 0).specie p → occAt (r 0).specie p = .ok f →
        (∀ i, i ≠ 0 → Known (r i).specie √(energy p (r 0).specie.m ^ 2 - (r i).specie.m ^ 2)) →
        A p + f * B p = 0 := by
  have hm : ∀ i, 0 ≤ (r i).specie.m := fun i => (hr i).mass
  have hsd : ∀ i, (r i).side = 1 ∨ (r i).side = -1 := by
    intro i
    fin_cases i
    exacts [Or.inr s0, Or.inl s1, Or.inl s2, Or.inl s3]
  have hT : reactionTypeSum [r 0, r 1, r 2, r 3] ≠ 0 := by simp [reactionTypeSum, s0, s1, s2, s3]
  refine ⟨_, _, fun ps sched hv => ⟨array4 r Ms 1 max1 min2 max2 max3 hT ps sched hv,
    array4 r Ms 2 max1 min2 max2 max3 hT ps sched hv⟩, ?_⟩
  intro p f hp k0 hf hk
  have hpt : ∀ p1 p2, 0 < p1 → 0 < p2 →
      valOf (integrandFull4 p p1 p2 r Ms 1) = -f * valOf (integrandFull4 p p1 p2 r Ms 2) := by
    intro p1 p2 h1 h2
    refine fresh_point hr s0 hsd hp.le h1.le h2.le k0 hf fun hl i hi => (hk i hi).mono ?_
    have sh := onShell4 hsd hm hp.le h1.le h2.le hl
    have hE : ∀ j, (r j).specie.m ≤ energies4 r p p1 p2 j := fun j => by
      rw [sh.energy j, energyOf_eq]
      exact mass_le_energy _ _
    have hc := sh.conserved
    rw [Fin.sum_univ_four, s0, s1, s2, s3] at hc
    push_cast at hc
    have hE0 : energies4 r p p1 p2 0 = energy p (r 0).specie.m := by
      rw [sh.energy 0, energyOf_eq]; rfl
    have hle : energies4 r p p1 p2 i ≤ energy p (r 0).specie.m := by
      rw [← hE0]
      have a1 := (hm 1).trans (hE 1)
      have a2 := (hm 2).trans (hE 2)
      have a3 := (hm 3).trans (hE 3)
      fin_cases i
      · exact absurd rfl hi
      · change energies4 r p p1 p2 1 ≤ _; linarith
      · change energies4 r p p1 p2 2 ≤ _; linarith
      · change energies4 r p p1 p2 3 ≤ _; linarith
    apply Real.le_sqrt_of_sq_le
    have h2 : momenta4 r p p1 p2 i ^ 2 + (r i).specie.m ^ 2 = energies4 r p p1 p2 i ^ 2 := by
      rw [sh.energy i, energyOf, Real.sq_sqrt (by positivity)]
    have := pow_le_pow_left₀ ((hm i).trans (hE i)) hle 2
    linarith
  rw [entry4_decay Ms 1 max3 max1 (min2, max2) s0 s1 s2 s3 p hp
      (fun p1 p2 => -f * valOf (integrandFull4 p p1 p2 r Ms 2)) hpt,
    entry4_decay Ms 2 max3 max1 (min2, max2) s0 s1 s2 s3 p hp (fun p1 p2 => valOf (integrandFull4 p p1 p2 r Ms 2))
      fun _ _ _ _ => rfl, int_scale]
  simp only [valOf]
  ring

/-- **C123, a particle which is produced.** Three species which join into a heavier one, the momentum of the latter cut
off at `max3` inside its grid, and the grids of the former reaching as far as its energy there allows: the collision
term is zero. -/
theorem C123_inverse (r : Fin 4 → Reactant) (Ms : List CM) (s0 : (r 0).side = -1) (s1 : (r 1).side = -1)
    (s2 : (r 2).side = -1) (s3 : (r 3).side = 1) (T : ℝ) (hr : ∀ i, FreshSp (r i).specie T) (hm3 : 0 < (r 3).specie.m)
    (max1 min2 max2 max3 : ℝ) (h3 : 0 ≤ max3) (hk3 : Known (r 3).specie max3)
    (hk : ∀ i, i ≠ 0 → i ≠ 3 → Known (r i).specie √(energy max3 (r 3).specie.m ^ 2 - (r i).specie.m ^ 2)) :
    ∃ A B : ℝ → ℝ,
      (∀ (ps : List ℝ) (sched : List (List ℕ)), ValidSchedule ps.length sched →
        integration4Exact r Ms 1 ps 0 max1 min2 max2 max3 sched = .ok (ps.map A) ∧
        integration4Exact r Ms 2 ps 0 max1 min2 max2 max3 sched = .ok (ps.map B)) ∧
      ∀ p f, 0 < p → Known (r 0).specie p → occAt (r 0).specie p = .ok f → A p + f * B p = 0 := by
  classical
  have hm : ∀ i, 0 ≤ (r i).specie.m := fun i => (hr i).mass
  have hsd : ∀ i, (r i).side = 1 ∨ (r i).side = -1 := by
    intro i
    fin_cases i
    exacts [Or.inr s0, Or.inr s1, Or.inr s2, Or.inl s3]
  have hT : reactionTypeSum [r 0, r 1, r 2, r 3] ≠ 0 := by simp [reactionTypeSum, s0, s1, s2, s3]
  refine ⟨_, _, fun ps sched hv => ⟨array4 r Ms 1 max1 min2 max2 max3 hT ps sched hv,
    array4 r Ms 2 max1 min2 max2 max3 hT ps sched hv⟩, ?_⟩
  intro p f hp k0 hf
  have hpt : ∀ p1 p2, 0 < p1 → 0 < p2 → momenta4 r p p1 p2 3 ≤ max3 →
      valOf (integrandFull4 p p1 p2 r Ms 1) = -f * valOf (integrandFull4 p p1 p2 r Ms 2) := by
    intro p1 p2 h1 h2 hcut
    refine fresh_point hr s0 hsd hp.le h1.le h2.le k0 hf fun hl i hi => ?_
    by_cases hi3 : i = 3
    · subst hi3; exact hk3.mono hcut
    refine (hk i hi hi3).mono ?_
    have sh := onShell4 hsd hm hp.le h1.le h2.le hl
    have hE : ∀ j, (r j).specie.m ≤ energies4 r p p1 p2 j := fun j => by
      rw [sh.energy j, energyOf_eq]
      exact mass_le_energy _ _
    have hc := sh.conserved
    rw [Fin.sum_univ_four, s0, s1, s2, s3] at hc
    push_cast at hc
    have hE3 : energies4 r p p1 p2 3 ≤ energy max3 (r 3).specie.m := by
      rw [sh.energy 3, energyOf_eq]; exact energy_mono (sh.mom 3) hcut
    have hle : energies4 r p p1 p2 i ≤ energy max3 (r 3).specie.m := by
      refine le_trans ?_ hE3
      have a0 := (hm 0).trans (hE 0)
      have a1 := (hm 1).trans (hE 1)
      have a2 := (hm 2).trans (hE 2)
      fin_cases i
      · exact absurd rfl hi
      · change energies4 r p p1 p2 1 ≤ _; linarith
      · change energies4 r p p1 p2 2 ≤ _; linarith
      · exact absurd rfl hi3
    apply Real.le_sqrt_of_sq_le
    have h2 : momenta4 r p p1 p2 i ^ 2 + (r i).specie.m ^ 2 = energies4 r p p1 p2 i ^ 2 := by
      rw [sh.energy i, energyOf, Real.sq_sqrt (by positivity)]
    have := pow_le_pow_left₀ ((hm i).trans (hE i)) hle 2
    linarith
  let h2 : ℝ → ℝ → ℝ := fun p1 p2 =>
    if momenta4 r p p1 p2 3 ≤ max3 then valOf (integrandFull4 p p1 p2 r Ms 2) else 0
  rw [entry4_creation Ms 1 max3 max1 (min2, max2) h3 s0 s1 s2 s3 (hm 2) hm3 p hp (fun p1 p2 => -f * h2 p1 p2)
      (fun p1 p2 a b c => by simp only [h2]; rw [if_pos c]; exact hpt p1 p2 a b c)
      (fun p1 p2 _ _ c => by simp only [h2]; rw [if_neg c]; ring),
    entry4_creation Ms 2 max3 max1 (min2, max2) h3 s0 s1 s2 s3 (hm 2) hm3 p hp h2
      (fun p1 p2 a b c => by simp only [h2]; rw [if_pos c]) (fun p1 p2 _ _ c => by simp only [h2]; rw [if_neg c]),
    int_scale]
  simp only [valOf]
  ring

end

/-- **C123, the hypothesis.** `update` hands the collision integrals such a species: one which was in equilibrium when
the step began, whether it has decoupled in this step or not. -/
theorem C123_decoupling {ι : Type*} (sp : Species) (dens : PState ι → Params → ℝ) (p : Params) (s : PState ι)
    (h : inEq sp s = true) (ha : 0 < p.a) (haT : 0 < p.aT) (hm : 0 ≤ sp.mass) (hb : sp.fermion = false → 0 < sp.mass)
    (g : List ℝ) (hg : sp.grid = 0 :: g) (hs : StrictInc sp.grid) :
    FreshSp (toC sp (particleUpdate sp dens p s) p) 1 := by
  have hm' : 0 ≤ sp.mass * p.a / p.aT := by positivity
  refine ⟨?_, one_pos, hm', ?_, fun he => ⟨⟨g.map (· / p.aT), ?_⟩, ?_, ?_, ?_⟩⟩
  · change (particleUpdate sp dens p s).aT / p.aT = 1
    rw [(C27_equilibrium_follows sp dens p s h).1, div_self haT.ne']
  · change sp.eta = 1 ∨ sp.eta = -1 ∧ 0 < sp.mass * p.a / p.aT
    unfold Species.eta
    cases h : sp.fermion
    · have := hb h
      exact Or.inr ⟨by simp, by positivity⟩
    · exact Or.inl (by simp)
  · change sp.grid.map (· / p.aT) = _
    rw [hg, List.map_cons, zero_div]
  · change (sp.grid.map (· / p.aT)).Pairwise (· < ·)
    rw [List.pairwise_map]
    exact hs.imp fun h => div_lt_div_of_pos_right h haT
  · change (particleUpdate sp dens p s).dist.length = (sp.grid.map (· / p.aT)).length
    rw [(C27_decoupling_step sp dens p s h he).2, List.length_map, List.length_map]
  · intro i hi hd
    have hd' : (particleUpdate sp dens p s).dist =
        sp.grid.map fun y => sp.stat (conformalEnergy sp y (sp.mass * p.a) / p.aT) :=
      (C27_decoupling_step sp dens p s h he).2
    have hl : i < sp.grid.length := by
      change i < (sp.grid.map (· / p.aT)).length at hi
      simpa using hi
    change (particleUpdate sp dens p s).dist[i] =
      1 / (Real.exp (energy ((sp.grid.map (· / p.aT))[i]'(by simpa using hl)) (sp.mass * p.a / p.aT) / 1) + (sp.eta : ℝ))
    simp only [hd', List.getElem_map]
    have hy : 0 ≤ sp.grid[i] := by
      rcases Nat.eq_zero_or_pos i with rfl | h0
      · simp [hg]
      · have := List.pairwise_iff_getElem.mp hs 0 i (by omega) hl h0
        simp only [hg, List.getElem_cons_zero] at this
        simpa [hg] using this.le
    have he' : conformalEnergy sp sp.grid[i] (sp.mass * p.a) / p.aT = energy (sp.grid[i] / p.aT) (sp.mass * p.a / p.aT) / 1 := by
      rw [div_one]
      have e1 : conformalEnergy sp sp.grid[i] (sp.mass * p.a) = √(sp.grid[i] ^ 2 + (sp.mass * p.a) ^ 2) := by
        unfold conformalEnergy
        split_ifs with hp
        · rfl
        · have : sp.mass = 0 := le_antisymm (not_lt.mp hp) hm
          rw [this, zero_mul, zero_pow two_ne_zero, add_zero, Real.sqrt_sq_eq_abs]
      rw [e1, ← energyOf_eq, energyOf,
        show (sp.grid[i] / p.aT) ^ 2 + (sp.mass * p.a / p.aT) ^ 2 = (sp.grid[i] ^ 2 + (sp.mass * p.a) ^ 2) / p.aT ^ 2 by
          field_simp,
        Real.sqrt_div (by positivity), Real.sqrt_sq haT.le]
    rw [he']
    unfold Species.stat Species.eta Fermi Bose
    cases sp.fermion <;> simp [sub_eq_add_neg]

section Example

/-- A massive fermion, thermal at `T = 1`, stored on a grid up to momentum 8. -/
private noncomputable def freshF (m : ℝ) : CParticle :=
  ⟨1, m, [0, 2, 8], [0, 2, 8].map fun x => 1 / (Real.exp (energy x m / 1) + ((1 : ℤ) : ℝ)), false, 1⟩

private theorem freshF_fresh {m : ℝ} (hm : 0 ≤ m) : FreshSp (freshF m) 1 := by
  refine ⟨rfl, one_pos, hm, Or.inl rfl, fun _ => ⟨⟨[2, 8], rfl⟩, by norm_num [freshF], rfl, fun i hi hd => ?_⟩⟩
  simp only [freshF, List.getElem_map]

private theorem freshF_known {m p : ℝ} (h : p ≤ 8) : Known (freshF m) p := Or.inr ⟨by simp [freshF], by simpa [freshF] using h⟩

private noncomputable def freshR : Fin 4 → Reactant := ![⟨freshF 0, -1⟩, ⟨freshF 0, -1⟩, ⟨freshF 0, 1⟩, ⟨freshF 0, 1⟩]

private theorem freshR_specie (i : Fin 4) : (freshR i).specie = freshF 0 := by fin_cases i <;> rfl

private theorem freshF_end : endOcc (freshF 0) = 1 / (Real.exp 8 + 1) := by
  have : energy 8 0 = 8 := by
    rw [← energyOf_eq, energyOf, show (8 : ℝ) ^ 2 + 0 ^ 2 = 8 ^ 2 by norm_num, Real.sqrt_sq (by norm_num)]
  simp [endOcc, freshF, this]

/-- Massless fermions scattering on themselves: the collision term is a gain of at most nothing, and a loss of less
than a hundredth of the rate at which particles of this momentum are scattered away. -/
example (p f : ℝ) (hp : 0 < p) (hp8 : p ≤ 8) (hf : occAt (freshF 0) p = .ok f) (sched : List (List ℕ))
    (hs : ValidSchedule 1 sched) : ∃ a b d,
      integration4Exact freshR [⟨id, 1, 0, 0⟩] 1 [p] 0 8 0 8 8 sched = .ok [a] ∧
      integration4Exact freshR [⟨id, 1, 0, 0⟩] 2 [p] 0 8 0 8 8 sched = .ok [b] ∧
      integration4Exact freshR [⟨id, 1, 0, 0⟩] 7 [p] 0 8 0 8 8 sched = .ok [d] ∧
      a + f * b ≤ 0 ∧ -(a + f * b) ≤ 1 / 100 * (f * -d) := by
  have hM : ∀ M ∈ [(⟨id, 1, 0, 0⟩ : CM)], (M.K = 0 ∧ 0 ≤ M.K1 ∧ 0 ≤ M.K2) ∧ M.order.Bijective := by
    intro M hM
    rw [List.mem_singleton.mp hM]
    exact ⟨⟨rfl, zero_le_one, le_rfl⟩, Function.bijective_id⟩
  obtain ⟨A, B, D, hA, hB⟩ := C123_scattering freshR [⟨id, 1, 0, 0⟩] ⟨rfl, rfl, rfl, rfl⟩ 1
    (fun i => by rw [freshR_specie]; exact freshF_fresh le_rfl) (by simp) (fun M h => (hM M h).1) (fun M h => (hM M h).2)
    0 8 0 8 8 (by norm_num) (by simp only [freshR_specie]; norm_num [freshF])
    (by rw [freshR_specie]; exact freshF_known le_rfl)
  obtain ⟨h1, h2, h7⟩ := hA [p] sched hs
  obtain ⟨hD, hb, hn⟩ := hB p f hp (by rw [freshR_specie]; exact freshF_known hp8) (by rw [freshR_specie]; exact hf)
  refine ⟨A p, B p, D p, h1, h2, h7, hn (by rw [freshR_specie]; rfl) (by rw [freshR_specie]; rfl), ?_⟩
  rw [freshR_specie, freshR_specie, freshF_end] at hb
  have hf0 : 0 < f := by
    obtain ⟨g, ρ, hg, hpos, -⟩ := C123_odds (freshF_fresh (m := 0) le_rfl) hp.le
    rw [Except.ok.inj (hf.symm.trans hg)]; exact hpos
  refine (neg_le_abs _).trans (hb.trans (mul_le_mul_of_nonneg_right ?_ (mul_nonneg hf0.le (by linarith))))
  have h8 : (2 : ℝ) ^ 8 ≤ Real.exp 8 := by
    have : Real.exp 8 = Real.exp 1 ^ 8 := by rw [← Real.exp_nat_mul]; norm_num
    rw [this]
    exact pow_le_pow_left₀ (by norm_num) (by linarith [Real.add_one_le_exp (1 : ℝ)]) 8
  have hx : 1 / (Real.exp 8 + 1) ≤ 1 / 256 :=
    one_div_le_one_div_of_le (by norm_num) (by norm_num at h8 ⊢; linarith)
  have hx0 : 0 ≤ 1 / (Real.exp 8 + 1) := by positivity
  nlinarith

/-- A particle of mass 5 at rest or slow decays into three massless ones: nothing changes. -/
example (p f : ℝ) (hp : 0 < p) (hp6 : p ≤ 6) (hf : occAt (freshF 5) p = .ok f) (sched : List (List ℕ))
    (hs : ValidSchedule 1 sched) (Ms : List CM) : ∃ a b,
      integration4Exact ![⟨freshF 5, -1⟩, ⟨freshF 0, 1⟩, ⟨freshF 0, 1⟩, ⟨freshF 0, 1⟩] Ms 1 [p] 0 8 0 8 8 sched = .ok [a] ∧
      integration4Exact ![⟨freshF 5, -1⟩, ⟨freshF 0, 1⟩, ⟨freshF 0, 1⟩, ⟨freshF 0, 1⟩] Ms 2 [p] 0 8 0 8 8 sched = .ok [b] ∧
      a + f * b = 0 := by
  obtain ⟨A, B, hA, hB⟩ := C123_decay ![⟨freshF 5, -1⟩, ⟨freshF 0, 1⟩, ⟨freshF 0, 1⟩, ⟨freshF 0, 1⟩] Ms rfl rfl rfl rfl 1
    (fun i => by fin_cases i <;> exact freshF_fresh (by norm_num)) 8 0 8 8
  refine ⟨A p, B p, (hA [p] sched hs).1, (hA [p] sched hs).2, hB p f hp (freshF_known (by linarith)) hf fun i hi => ?_⟩
  have hq : √(energy p 5 ^ 2 - 0 ^ 2) ≤ 8 := by
    rw [← energyOf_eq, energyOf, Real.sq_sqrt (by positivity)]
    apply Real.sqrt_le_iff.mpr ⟨by norm_num, by nlinarith⟩
  fin_cases i
  · exact absurd rfl hi
  all_goals exact freshF_known hq

/-- The same reaction seen from a product, the momentum of the heavy particle cut off at 6. -/
example (p f : ℝ) (hp : 0 < p) (hp8 : p ≤ 8) (hf : occAt (freshF 0) p = .ok f) (sched : List (List ℕ))
    (hs : ValidSchedule 1 sched) (Ms : List CM) : ∃ a b,
      integration4Exact ![⟨freshF 0, -1⟩, ⟨freshF 0, -1⟩, ⟨freshF 0, -1⟩, ⟨freshF 5, 1⟩] Ms 1 [p] 0 8 0 8 6 sched = .ok [a] ∧
      integration4Exact ![⟨freshF 0, -1⟩, ⟨freshF 0, -1⟩, ⟨freshF 0, -1⟩, ⟨freshF 5, 1⟩] Ms 2 [p] 0 8 0 8 6 sched = .ok [b] ∧
      a + f * b = 0 := by
  have hq : √(energy 6 5 ^ 2 - 0 ^ 2) ≤ 8 := by
    rw [← energyOf_eq, energyOf, Real.sq_sqrt (by positivity)]
    apply Real.sqrt_le_iff.mpr ⟨by norm_num, by norm_num⟩
  obtain ⟨A, B, hA, hB⟩ := C123_inverse ![⟨freshF 0, -1⟩, ⟨freshF 0, -1⟩, ⟨freshF 0, -1⟩, ⟨freshF 5, 1⟩] Ms rfl rfl rfl rfl 1
    (fun i => by fin_cases i <;> exact freshF_fresh (by norm_num)) (by change (0 : ℝ) < 5; norm_num) 8 0 8 6 (by norm_num)
    (freshF_known (by norm_num)) (fun i hi hi3 => by
      fin_cases i
      · exact absurd rfl hi
      · exact freshF_known hq
      · exact freshF_known hq
      · exact absurd rfl hi3)
  exact ⟨A p, B p, (hA [p] sched hs).1, (hA [p] sched hs).2, hB p f hp (freshF_known hp8) hf⟩

end Example

end PyBBN
