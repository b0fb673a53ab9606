import Verif.Lemmas.LoopRelation
import Verif.Props.Balance4Step
import Verif.Props.ParticleInit
import Verif.Props.Integrators
/-!
# C113: a species in a thermal bath relaxes towards its own equilibrium

The other particles of a reaction are in equilibrium at a common temperature; the first has any distribution.  The
arrays `integrate` returns then satisfy `C = B (f − f_eq)` with `f_eq` the Fermi–Dirac or Bose–Einstein distribution of
the species at the temperature of the bath, and `B ≤ 0`.
-/
namespace PyBBN
open MeasureTheory

variable {ι : Type*}

/-- The value an adaptive quadrature adds up: exceptions count as 0. -/
noncomputable def valOr0 (e : Except Err ℝ) : ℝ := match e with | .ok v => v | .error _ => 0

theorem gain_nonneg_of (l : List (Reactant × ℝ)) (hf : ∀ x ∈ l, 0 ≤ x.2)
    (ho : ∀ x ∈ l, 0 ≤ 1 - (x.1.specie.eta : ℝ) * x.2) : 0 ≤ gain l := by
  unfold gain occupied blocked
  apply mul_nonneg <;> apply List.prod_nonneg <;> intro a ha <;>
    simp only [List.mem_map, List.mem_filter] at ha <;> obtain ⟨x, ⟨hx, -⟩, rfl⟩ := ha
  exacts [hf x hx, ho x hx]

theorem thermal_open {e : ℝ} {η : ℤ} (h : 0 < Real.exp e + η) :
    0 ≤ 1 - (η : ℝ) * (1 / (Real.exp e + η)) := by
  rw [mul_one_div, one_sub_div h.ne']
  apply div_nonneg _ h.le
  rw [add_sub_cancel_right]
  exact (Real.exp_pos e).le

/-- The functionals when the rest is in equilibrium: gain `g` and coefficient `−g / f_eq`. -/
theorem bath_functional (r0 : Reactant) (rs : List Reactant) (f0 u0 : ℝ) (fs us : List ℝ)
    (h0 : r0.side = -1) (h2 : TwoSided (rs.zip fs))
    (hf : ∀ x ∈ rs.zip fs, 0 ≤ x.2) (ho : ∀ x ∈ rs.zip fs, 0 ≤ 1 - (x.1.specie.eta : ℝ) * x.2)
    (hd : 0 < Real.exp u0 + r0.specie.eta)
    (he : Equilibrium ((r0, 1 / (Real.exp u0 + r0.specie.eta)) :: rs.zip fs) (u0 :: us))
    (hc : Conserved ((r0, 1 / (Real.exp u0 + r0.specie.eta)) :: rs.zip fs) (u0 :: us)) :
    ∃ g, 0 ≤ g ∧ kindFactor .f1 (r0 :: rs) (f0 :: fs) = .ok g ∧
      kindFactor .ff (r0 :: rs) (f0 :: fs) = .ok (-(g * (Real.exp u0 + r0.specie.eta))) ∧
      kindFactor .full (r0 :: rs) (f0 :: fs) = .ok (g + f0 * -(g * (Real.exp u0 + r0.specie.eta))) := by
  have h2' : TwoSided ((r0, 1 / (Real.exp u0 + r0.specie.eta)) :: rs.zip fs) := by
    intro x hx
    rcases List.mem_cons.mp hx with rfl | hx
    · right; exact h0
    · exact h2 x hx
  have hgl := C33_gain_eq_loss _ _ h2' he hc
  have hl : loss (rs.zip fs) = gain (rs.zip fs) * Real.exp u0 := by
    have e1 : gain ((r0, 1 / (Real.exp u0 + r0.specie.eta)) :: rs.zip fs)
        = gain (rs.zip fs) * (1 - r0.specie.eta * (1 / (Real.exp u0 + r0.specie.eta))) := by
      unfold gain
      rw [occupied_cons, blocked_cons]
      simp only [h0]; norm_num; ring
    have e2 : loss ((r0, 1 / (Real.exp u0 + r0.specie.eta)) :: rs.zip fs)
        = loss (rs.zip fs) * (1 / (Real.exp u0 + r0.specie.eta)) := by
      unfold loss
      rw [occupied_cons, blocked_cons]
      simp only [h0]; norm_num; ring
    rw [e1, e2, mul_one_div, one_sub_div hd.ne', add_sub_cancel_right] at hgl
    field_simp at hgl
    linarith
  have hlast : (f0 :: fs).getLast? = some ((f0 :: fs).getLast (by simp)) := List.getLast?_eq_some_getLast _
  have hA := FA_skip_ok r0 rs f0 fs h2 hf
  have hB := FB_skip_ok r0 rs f0 fs h2 hf
  refine ⟨gain (rs.zip fs), gain_nonneg_of _ hf ho, ?_, ?_, ?_⟩
  · unfold kindFactor F_1
    simp only [List.getElem?_cons_zero, hlast]
    exact hB
  · unfold kindFactor F_f
    simp only [List.getElem?_cons_zero, hlast, hA, hB, bind, Except.bind]
    rw [hl]; congr 1; ring
  · unfold kindFactor F_1 F_f
    simp only [List.getElem?_cons_zero, hlast, hA, hB, bind, Except.bind]
    rw [hl]; congr 1; ring

/-- At fixed momenta of a four-particle reaction. -/
theorem bath_point4 (p0 p1 p2 T : ℝ) (r : Fin 4 → Reactant) (Ms : List CM)
    (h0 : (r 0).side = -1) (hs : ∀ i, (r i).side = 1 ∨ (r i).side = -1) (hm : 0 ≤ (r 3).specie.m)
    (ht : ∀ i, i ≠ 0 → ThermalAt (r i).specie T (momenta4 r p0 p1 p2 i))
    (hd : 0 < Real.exp (energy p0 (r 0).specie.m / T) + (r 0).specie.eta) :
    valOr0 (integrandFull4 p0 p1 p2 r Ms 1)
      = -(1 / (Real.exp (energy p0 (r 0).specie.m / T) + (r 0).specie.eta)) *
        valOr0 (integrandFull4 p0 p1 p2 r Ms 2) ∧
    (0 ≤ jacobian4 r (momenta4 r p0 p1 p2) (energies4 r p0 p1 p2) →
      ((r 3).specie.m ≤ lastEnergy4 r p0 p1 p2 →
        ∀ ds, kernel4 r Ms (momenta4 r p0 p1 p2) (energies4 r p0 p1 p2) = .ok ds → 0 ≤ ds) →
      valOr0 (integrandFull4 p0 p1 p2 r Ms 2) ≤ 0) := by
  unfold integrandFull4
  by_cases hE : lastEnergy4 r p0 p1 p2 < (r 3).specie.m
  · rw [if_pos hE, if_pos hE]; simp [valOr0]
  rw [if_neg hE, if_neg hE]
  simp only []
  by_cases hb : inBounds4 (momenta4 r p0 p1 p2) (energies4 r p0 p1 p2) fun i => (r i).specie.m
  swap
  · rw [if_pos hb, if_pos hb]; simp [valOr0]
  rw [if_neg (not_not.mpr hb), if_neg (not_not.mpr hb)]
  by_cases hj : jacobian4 r (momenta4 r p0 p1 p2) (energies4 r p0 p1 p2) = 0
  · rw [if_pos hj, if_pos hj]; simp [valOr0]
  rw [if_neg hj, if_neg hj]
  cases hk : kernel4 r Ms (momenta4 r p0 p1 p2) (energies4 r p0 p1 p2) with
  | error e => simp [valOr0, bind, Except.bind]
  | ok ds =>
  simp only [bind, Except.bind]
  by_cases hz : jacobian4 r (momenta4 r p0 p1 p2) (energies4 r p0 p1 p2) * ds = 0
  · rw [if_pos hz, if_pos hz]; simp [valOr0]
  rw [if_neg hz, if_neg hz]
  rw [(ht 1 (by decide)).2, (ht 2 (by decide)).2, (ht 3 (by decide)).2]
  cases hf0 : occAt (r 0).specie (momenta4 r p0 p1 p2 0) with
  | error e => simp [valOr0]
  | ok f0 =>
  simp only []
  have t1 := (ht 1 (by decide)).1
  have t2 := (ht 2 (by decide)).1
  have t3 := (ht 3 (by decide)).1
  have hF := bath_functional (r 0) [r 1, r 2, r 3] f0 (energy p0 (r 0).specie.m / T)
    [1 / (Real.exp (energy (momenta4 r p0 p1 p2 1) (r 1).specie.m / T) + (r 1).specie.eta),
     1 / (Real.exp (energy (momenta4 r p0 p1 p2 2) (r 2).specie.m / T) + (r 2).specie.eta),
     1 / (Real.exp (energy (momenta4 r p0 p1 p2 3) (r 3).specie.m / T) + (r 3).specie.eta)]
    [energy (momenta4 r p0 p1 p2 1) (r 1).specie.m / T,
     energy (momenta4 r p0 p1 p2 2) (r 2).specie.m / T, energy (momenta4 r p0 p1 p2 3) (r 3).specie.m / T]
    h0 ?_ ?_ ?_ hd ?_ ?_
  · obtain ⟨g, hg, e1, e2, -⟩ := hF
    rw [show Kind.ofInt 1 = .f1 from rfl, show Kind.ofInt 2 = .ff from rfl, e1, e2]
    simp only [valOr0]
    constructor
    · field_simp
    · intro hj0 hker
      have hds := hker (not_lt.mp hE) ds rfl
      have := mul_nonneg (mul_nonneg hj0 hds) (mul_nonneg hg hd.le)
      linarith
  · intro x hx
    simp only [List.zip_cons_cons, List.zip_nil_right, List.mem_cons, List.not_mem_nil, or_false] at hx
    rcases hx with rfl | rfl | rfl
    exacts [hs 1, hs 2, hs 3]
  · intro x hx
    simp only [List.zip_cons_cons, List.zip_nil_right, List.mem_cons, List.not_mem_nil, or_false] at hx
    rcases hx with rfl | rfl | rfl
    exacts [(one_div_pos.mpr t1).le, (one_div_pos.mpr t2).le, (one_div_pos.mpr t3).le]
  · intro x hx
    simp only [List.zip_cons_cons, List.zip_nil_right, List.mem_cons, List.not_mem_nil, or_false] at hx
    rcases hx with rfl | rfl | rfl
    exacts [thermal_open t1, thermal_open t2, thermal_open t3]
  · unfold Equilibrium
    simp only [List.zip_cons_cons, List.zip_nil_right]
    exact .cons ⟨hd.ne', rfl⟩ (.cons ⟨t1.ne', rfl⟩ (.cons ⟨t2.ne', rfl⟩ (.cons ⟨t3.ne', rfl⟩ .nil)))
  · unfold Conserved
    simp only [List.zip_cons_cons, List.zip_nil_right, List.map_cons, List.map_nil, List.sum_cons,
      List.sum_nil]
    have e3 : energy (momenta4 r p0 p1 p2 3) (r 3).specie.m = lastEnergy4 r p0 p1 p2 :=
      energy_last hm (not_lt.mp hE)
    rw [e3]
    change ((r 0).side : ℝ) * (energy p0 (r 0).specie.m / T) + (((r 1).side : ℝ) *
      (energy p1 (r 1).specie.m / T) + (((r 2).side : ℝ) * (energy p2 (r 2).specie.m / T) +
      (((r 3).side : ℝ) * (lastEnergy4 r p0 p1 p2 / T) + 0))) = 0
    have h3 : ((r 3).side : ℝ) * (r 3).side = 1 := by
      rcases hs 3 with h | h <;> rw [h] <;> norm_num
    unfold lastEnergy4
    linear_combination (-((r 0).side * energy p0 (r 0).specie.m + (r 1).side * energy p1 (r 1).specie.m
      + (r 2).side * energy p2 (r 2).specie.m) / T) * h3

/-- The other three particles form a bath of temperature `T`. -/
structure Bath4 (r : Fin 4 → Reactant) (T : ℝ) : Prop where
  first : (r 0).side = -1
  sides : ∀ i, (r i).side = 1 ∨ (r i).side = -1
  mass : ∀ i, 0 ≤ (r i).specie.m
  temp : ∀ i, i ≠ 0 → (r i).specie.T = T
  eq : ∀ i, i ≠ 0 → (r i).specie.inEq = true
  fin : ∀ i q, 0 < Real.exp (energy q (r i).specie.m / T) + (r i).specie.eta

theorem Bath4.thermal {r : Fin 4 → Reactant} {T : ℝ} (h : Bath4 r T) (i : Fin 4) (hi : i ≠ 0) (q : ℝ) :
    ThermalAt (r i).specie T q := by
  have := thermalAt_of_inEq (r i).specie q (h.eq i hi) (by rw [h.temp i hi]; exact h.fin i q)
  rwa [h.temp i hi] at this

/-- Equilibrium occupation of the first particle at the temperature of the bath, in the units of the C++ code. -/
noncomputable def bathOcc (s : CParticle) (T q : ℝ) : ℝ := 1 / (Real.exp (energy q s.m / T) + s.eta)

theorem exactQuad4_val (r : Fin 4 → Reactant) (Ms : List CM) (kind : ℤ) (max3 : ℝ) (dflt : ℝ × ℝ)
    (p0 lo hi : ℝ) : exactQuad4 r Ms kind max3 dflt p0 lo hi = .ok (∫ p1 in lo..hi,
      (match innerLimits (reactionTypeSum [r 0, r 1, r 2, r 3]) (r 0).specie.m (r 1).specie.m
        (r 2).specie.m (r 3).specie.m max3 p0 p1 dflt with
      | none => 0
      | some (a, b) => ∫ p2 in a..b, valOr0 (integrandFull4 p0 p1 p2 r Ms kind))) := rfl

/-- The double integral of `F_1` is `−f_eq` times the one of `F_f`. -/
theorem bath_quad4 (r : Fin 4 → Reactant) (Ms : List CM) (T max3 : ℝ) (dflt : ℝ × ℝ) (h : Bath4 r T)
    (p0 lo hi : ℝ) (a b : ℝ) (ha : exactQuad4 r Ms 1 max3 dflt p0 lo hi = .ok a)
    (hb : exactQuad4 r Ms 2 max3 dflt p0 lo hi = .ok b) : a = -bathOcc (r 0).specie T p0 * b := by
  rw [exactQuad4_val] at ha hb
  cases ha; cases hb
  rw [← intervalIntegral.integral_const_mul]
  apply intervalIntegral.integral_congr
  intro p1 _
  dsimp only
  cases innerLimits (reactionTypeSum [r 0, r 1, r 2, r 3]) (r 0).specie.m (r 1).specie.m
        (r 2).specie.m (r 3).specie.m max3 p0 p1 dflt with
  | none => simp
  | some ab =>
    obtain ⟨a, b⟩ := ab
    dsimp only
    rw [← intervalIntegral.integral_const_mul]
    apply intervalIntegral.integral_congr
    intro p2 _
    exact (bath_point4 p0 p1 p2 T r Ms h.first h.sides (h.mass 3) (fun i hi => h.thermal i hi _) (h.fin 0 p0)).1

/-- The squared matrix element averaged over the angles is not negative wherever the code evaluates it. -/
def KernelNonneg (r : Fin 4 → Reactant) (Ms : List CM) : Prop :=
  ∀ p0 p1 p2, 0 < p0 → 0 ≤ p1 → 0 ≤ p2 → (r 3).specie.m ≤ lastEnergy4 r p0 p1 p2 →
    ∀ ds, kernel4 r Ms (momenta4 r p0 p1 p2) (energies4 r p0 p1 p2) = .ok ds → 0 ≤ ds

theorem jacobian4_nonneg (r : Fin 4 → Reactant) {p0 p1 p2 : ℝ} (h1 : 0 ≤ p1) (h2 : 0 ≤ p2) :
    0 ≤ jacobian4 r (momenta4 r p0 p1 p2) (energies4 r p0 p1 p2) := by
  unfold jacobian4
  have e1 : 0 ≤ momenta4 r p0 p1 p2 1 / energies4 r p0 p1 p2 1 := div_nonneg h1 (energy_nonneg _ _)
  have e2 : 0 ≤ momenta4 r p0 p1 p2 2 / energies4 r p0 p1 p2 2 := div_nonneg h2 (energy_nonneg _ _)
  refine mul_nonneg (mul_nonneg zero_le_one ?_) ?_ <;> split_ifs <;> first | assumption | norm_num

/-- Limits of the inner integral are ordered and not negative. -/
theorem inner_ordered (type : ℤ) (m0 m1 m2 m3 max3 p0 p1 : ℝ) (dflt : ℝ × ℝ) 
    (ht : type = 2 ∨ type = 0 ∨ type = -2) (h0 : 0 < p0) (a b : ℝ)
    (h : innerLimits type m0 m1 m2 m3 max3 p0 p1 dflt = some (a, b)) : 0 ≤ a ∧ a ≤ b := by
  unfold innerLimits at h
  rcases ht with rfl | rfl | rfl
  · simp only [if_true, Option.some.injEq, Prod.mk.injEq] at h
    obtain ⟨rfl, rfl⟩ := h
    exact ⟨le_rfl, Real.sqrt_nonneg _⟩
  · norm_num at h
    obtain ⟨rfl, rfl⟩ := h
    unfold p2MinScat p2MaxScat
    rw [if_pos h0.ne', if_pos h0.ne']
    exact ⟨le_rfl, Real.sqrt_nonneg _⟩
  · rw [if_neg (by decide), if_neg (by decide), if_pos rfl] at h
    dsimp only at h
    split_ifs at h with g1 g2
    · simp only [Option.some.injEq, Prod.mk.injEq] at h
      obtain ⟨rfl, rfl⟩ := h
      exact ⟨le_rfl, Real.sqrt_nonneg _⟩
    · simp only [Option.some.injEq, Prod.mk.injEq] at h
      obtain ⟨rfl, rfl⟩ := h
      refine ⟨Real.sqrt_nonneg _, Real.sqrt_le_sqrt ?_⟩
      push Not at g2
      have := mass_le_energy max3 m3
      have : m3 - energy p0 m0 - energy p1 m1 ≤ energy max3 m3 - energy p0 m0 - energy p1 m1 := by linarith
      have := pow_le_pow_left₀ g2.1.le this 2
      linarith

theorem type_cases {r : Fin 4 → Reactant} {T : ℝ} (h : Bath4 r T) (ho : ∃ i, (r i).side = 1) :
    reactionTypeSum [r 0, r 1, r 2, r 3] = 2 ∨ reactionTypeSum [r 0, r 1, r 2, r 3] = 0 ∨
      reactionTypeSum [r 0, r 1, r 2, r 3] = -2 := by
  have e : reactionTypeSum [r 0, r 1, r 2, r 3] = (r 0).side + ((r 1).side + ((r 2).side + (r 3).side)) := by
    simp [reactionTypeSum]
  rw [e, h.first]
  have h0 := h.first
  obtain ⟨i, hi⟩ := ho
  have a1 := h.sides 1
  have a2 := h.sides 2
  have a3 := h.sides 3
  have : (r 1).side = 1 ∨ (r 2).side = 1 ∨ (r 3).side = 1 := by
    fin_cases i
    · exact absurd (h0.symm.trans hi) (by decide)
    · exact .inl hi
    · exact .inr (.inl hi)
    · exact .inr (.inr hi)
  omega

/-- The state of a thread: in decays the lower limit stays what it was. -/
def StartsAtZero (type : ℤ) (st : ℝ × ℝ) : Prop := type = 2 → st.1 = 0

theorem outer_inv (c : LoopCtx) (p0 : ℝ) (st : ℝ × ℝ) (h : StartsAtZero c.type st) :
    StartsAtZero c.type (outerLimits c p0 st).1 := by
  intro ht
  unfold outerLimits
  rw [if_pos ht]
  exact h ht

theorem outer_ordered (c : LoopCtx) (p0 : ℝ) (st : ℝ × ℝ) (h : StartsAtZero c.type st)
    (ht : c.type = 2 ∨ c.type = 0 ∨ c.type = -2) (hg : (outerLimits c p0 st).2 = true) :
    0 ≤ (outerLimits c p0 st).1.1 ∧ (outerLimits c p0 st).1.1 ≤ (outerLimits c p0 st).1.2 := by
  have hmn : 0 ≤ scatMin1 c p0 := by
    unfold scatMin1
    dsimp only
    split_ifs
    · exact le_rfl
    · exact Real.sqrt_nonneg _
  unfold outerLimits at hg ⊢
  rcases ht with e | e | e
  · rw [if_pos e]
    simp only [h e]
    exact ⟨le_rfl, Real.sqrt_nonneg _⟩
  · rw [if_neg (by rw [e]; decide), if_pos e]
    dsimp only
    refine ⟨hmn, ?_⟩
    split_ifs with g
    · linarith
    · linarith
  · rw [if_neg (by rw [e]; decide), if_neg (by rw [e]; decide), if_pos e] at hg ⊢
    by_cases z : c.m3 = 0
    · rw [if_pos z] at hg; cases hg
    rw [if_neg z] at hg ⊢
    dsimp only at hg ⊢
    by_cases z : energy c.max3 c.m3 - c.m2 - energy p0 c.m0 ≤ 0 ∨
        (energy c.max3 c.m3 - c.m2 - energy p0 c.m0) ^ 2 - c.m1 ^ 2 ≤ 0
    · rw [if_pos z] at hg; cases hg
    rw [if_neg z]
    exact ⟨le_rfl, Real.sqrt_nonneg _⟩

theorem integral_nonpos' {f : ℝ → ℝ} {a b : ℝ} (hab : a ≤ b) (h : ∀ x, a ≤ x → x ≤ b → f x ≤ 0) :
    ∫ x in a..b, f x ≤ 0 := by
  have := intervalIntegral.integral_nonneg (f := fun x => -f x) (μ := volume) hab
    (fun x hx => by have := h x hx.1 hx.2; linarith)
  rw [intervalIntegral.integral_neg] at this
  linarith

/-- The double integral of `F_f` is not positive. -/
theorem bath_quad4_sign (r : Fin 4 → Reactant) (Ms : List CM) (T max3 : ℝ) (dflt : ℝ × ℝ) (h : Bath4 r T)
    (ho : ∃ i, (r i).side = 1) (hK : KernelNonneg r Ms) (p0 : ℝ) (h0 : 0 < p0) (st : ℝ × ℝ)
    (hst : StartsAtZero (loopCtx4 r max3).type st) (hg : (outerLimits (loopCtx4 r max3) p0 st).2 = true)
    (b : ℝ) (hb : exactQuad4 r Ms 2 max3 dflt p0 (outerLimits (loopCtx4 r max3) p0 st).1.1
      (outerLimits (loopCtx4 r max3) p0 st).1.2 = .ok b) : b ≤ 0 := by
  rw [exactQuad4_val] at hb
  cases hb
  have ht := type_cases h ho
  obtain ⟨o1, o2⟩ := outer_ordered (loopCtx4 r max3) p0 st hst ht hg
  apply integral_nonpos' o2
  intro p1 hp1 _
  cases hi : innerLimits (reactionTypeSum [r 0, r 1, r 2, r 3]) (r 0).specie.m (r 1).specie.m
        (r 2).specie.m (r 3).specie.m max3 p0 p1 dflt with
  | none => simp
  | some ab =>
    obtain ⟨a, b⟩ := ab
    obtain ⟨i1, i2⟩ := inner_ordered _ _ _ _ _ _ _ _ _ ht h0 a b hi
    apply integral_nonpos' i2
    intro p2 hp2 _
    exact (bath_point4 p0 p1 p2 T r Ms h.first h.sides (h.mass 3) (fun i hi => h.thermal i hi _) (h.fin 0 p0)).2
      (jacobian4_nonneg r (o1.trans hp1) (i1.trans hp2))
      (fun hE => hK p0 p1 p2 h0 (o1.trans hp1) (i1.trans hp2) hE)

/-- The loops of `integrate` for `F_1` and `F_f`, entry by entry. -/
theorem bath_loop4 (r : Fin 4 → Reactant) (Ms : List CM) (T max1 min2 max2 max3 : ℝ) (h : Bath4 r T)
    (ho : ∃ i, (r i).side = 1) (ps : List ℝ) (sched : List (List ℕ)) (A B : List ℝ)
    (hA : integration4Exact r Ms 1 ps 0 max1 min2 max2 max3 sched = .ok A)
    (hB : integration4Exact r Ms 2 ps 0 max1 min2 max2 max3 sched = .ok B) :
    A.length = ps.length ∧ B.length = ps.length ∧
      ∀ (i : ℕ) (hi : i < ps.length) (ha : i < A.length) (hb : i < B.length),
        A[i] = -bathOcc (r 0).specie T ps[i] * B[i] ∧ (KernelNonneg r Ms → 0 < ps[i] → B[i] ≤ 0) := by
  refine parallelLoop_paired (outerLimits (loopCtx4 r max3)) _ _ ps (StartsAtZero (loopCtx4 r max3).type)
    (fun p0 a b => a = -bathOcc (r 0).specie T p0 * b ∧ (KernelNonneg r Ms → 0 < p0 → b ≤ 0))
    (fun p _ => ⟨by simp, fun _ _ => le_rfl⟩) (fun p _ st hst => outer_inv _ p st hst) ?_ (0, max1)
    (fun _ => rfl) sched A B hA hB
  intro p0 _ st hst hg a b ha hb
  exact ⟨bath_quad4 r Ms T max3 _ h p0 _ _ a b ha hb,
    fun hK hp => bath_quad4_sign r Ms T max3 _ h ho hK p0 hp st hst hg b hb⟩

/-! ## The arrays of `integrate` -/

theorem bathOcc_toC (sp : Species) (s : PState ι) (p : Params) (haT : 0 < p.aT) (θ y : ℝ) :
    bathOcc (toC sp s p) (θ / p.aT) (y / p.aT) = thermal sp.fermion y (sp.mass * p.a) θ := by
  have e := sc_energy (c := 1 / p.aT) (by positivity) y (sp.mass * p.a)
  unfold bathOcc thermal toC Species.eta
  simp only
  rw [show y / p.aT = 1 / p.aT * y by ring, show sp.mass * p.a / p.aT = 1 / p.aT * (sp.mass * p.a) by ring, e]
  have e2 : 1 / p.aT * energy y (sp.mass * p.a) / (θ / p.aT) = √(y ^ 2 + (sp.mass * p.a) ^ 2) / θ := by
    unfold energy
    rw [← sq, ← sq]
    field_simp
  rw [e2]
  cases sp.fermion <;> simp

/-- Fermions, or massive bosons: the equilibrium distribution is finite at every momentum. -/
def FiniteOcc (sp : Species) : Prop := sp.fermion = true ∨ 0 < sp.mass

theorem finiteOcc_pos (sp : Species) (s : PState ι) (p : Params) (haT : 0 < p.aT) (ha : 0 < p.a) {θ : ℝ}
    (hθ : 0 < θ) (h : FiniteOcc sp) (q : ℝ) :
    0 < Real.exp (energy q (toC sp s p).m / (θ / p.aT)) + ((toC sp s p).eta : ℝ) := by
  unfold toC Species.eta
  simp only
  rcases h with h | h
  · rw [h]; simp; positivity
  · have hE : 0 < energy q (sp.mass * p.a / p.aT) := by
      have : 0 < sp.mass * p.a / p.aT := by positivity
      exact lt_of_lt_of_le this (mass_le_energy _ _)
    have := Real.one_lt_exp_iff.mpr (show 0 < energy q (sp.mass * p.a / p.aT) / (θ / p.aT) by positivity)
    split_ifs
    · push_cast; linarith
    · push_cast; linarith

/-- The situation of C113 at the level of the Python objects: `c` is an integral of the first species, all the other
species are in equilibrium at the comoving temperature `θ`. -/
structure InBath4 (c : Int4 ι) (p : Params) (θ : ℝ) : Prop where
  aT : 0 < p.aT
  a : 0 < p.a
  temp : 0 < θ
  kind : c.kind = .full ∨ c.kind = .fullVac
  slow : (c.sp 0).fastDecay = false
  active : c.neglect = false
  min1 : c.min1 = 0
  grid : (c.sp 0).grid ≠ []
  inc : StrictInc (c.sp 0).grid
  first : c.side 0 = -1
  sides : ∀ i, c.side i = 1 ∨ c.side i = -1
  products : ∃ i, c.side i = 1
  mass : ∀ i, 0 ≤ (c.sp i).mass
  finite : ∀ i, FiniteOcc (c.sp i)
  bath : ∀ i, i ≠ 0 → inEq (c.sp i) (c.st i) = true ∧ (c.st i).aT = θ

theorem InBath4.reaction {c : Int4 ι} {p : Params} {θ : ℝ} (h : InBath4 c p θ) :
    Bath4 (c.reaction p) (θ / p.aT) where
  first := h.first
  sides := h.sides
  mass i := div_nonneg (mul_nonneg (h.mass i) h.a.le) h.aT.le
  temp i hi := by
    change (c.st i).aT / p.aT = _
    rw [(h.bath i hi).2]
  eq i hi := (h.bath i hi).1
  fin i q := finiteOcc_pos _ _ p h.aT h.a h.temp (h.finite i) q

/-- **C113.** Whatever the distribution of the species and the schedule of the threads: if `integrate` returns, it
returns two arrays, and at every momentum of the grid the collision term is the damping coefficient times the
departure of the distribution from equilibrium at the temperature of the bath. -/
theorem C113_relaxation (c : Int4 ι) (p : Params) (θ : ℝ) (sched : List (List ℕ)) (h : InBath4 c p θ)
    (out : IntOut) (hout : integrate4 c p sched = .ok out) :
    ∃ C B, out = .two C B ∧ C.length = (c.sp 0).grid.length ∧ B.length = (c.sp 0).grid.length ∧
      ∀ (i : ℕ) (hi : i < (c.sp 0).grid.length) (hC : i < C.length) (hB : i < B.length),
        (∀ f, particleDistribution (c.sp 0) p (c.st 0) (c.sp 0).grid[i] = .ok f →
          C[i] = B[i] * (f - thermal (c.sp 0).fermion (c.sp 0).grid[i] ((c.sp 0).mass * p.a) θ)) ∧
        (KernelNonneg (c.reaction p) (c.Ms.map (toCM c.GF)) →
          0 ≤ constant4 c.GF (c.sp 0).dof c.majorana c.mult p → 0 < (c.sp 0).grid[i] → B[i] ≤ 0) := by
  obtain ⟨k, hk0, hk, hlen, hz, -, -⟩ := C47_four _ h.grid h.inc c.ub
  unfold integrate4 at hout
  dsimp only at hout
  rw [h.active, h.slow, if_neg (by simp), if_pos ⟨h.kind, by simp⟩, h.min1, zero_div] at hout
  simp only [CKind.toInt] at hout
  set pts := (gridCut4 (c.sp 0).grid c.ub).1 with hpts
  set zeros := (gridCut4 (c.sp 0).grid c.ub).2 with hzeros
  cases hA : integration4Exact (c.reaction p) (c.Ms.map (toCM c.GF)) 1 (pts.map (· / p.aT)) 0 (c.max1 / p.aT)
      (c.min2 / p.aT) (c.max2 / p.aT) (c.max3 / p.aT) sched with
  | error e => rw [hA] at hout; cases hout
  | ok A =>
  cases hB : integration4Exact (c.reaction p) (c.Ms.map (toCM c.GF)) 2 (pts.map (· / p.aT)) 0 (c.max1 / p.aT)
      (c.min2 / p.aT) (c.max2 / p.aT) (c.max3 / p.aT) sched with
  | error e => rw [hA, hB] at hout; cases hout
  | ok B =>
  cases hf : (pts.map (· / p.aT)).mapM fun x => particleDistribution (c.sp 0) p (c.st 0) (x * p.aT) with
  | error e => rw [hA, hB, hf] at hout; cases hout
  | ok f =>
  rw [hA, hB, hf] at hout
  simp only [bind, Except.bind, Except.ok.injEq] at hout
  obtain ⟨lA, lB, hAB⟩ := bath_loop4 (c.reaction p) (c.Ms.map (toCM c.GF)) (θ / p.aT) _ _ _ _ h.reaction h.products
    (pts.map (· / p.aT)) sched A B hA hB
  obtain ⟨lf, hff⟩ := mapM_entries _ _ _ hf
  rw [List.length_map] at lA lB lf
  refine ⟨_, _, hout.symm, ?_, ?_, ?_⟩
  · simp [lA, lB, lf, hlen]
  · simp [lB, hlen]
  intro i hi hC hB'
  simp only [List.getElem_map]
  by_cases hip : i < pts.length
  · have e0 : pts[i] = (c.sp 0).grid[i] := by
      have : pts[i]? = (c.sp 0).grid[i]? := by
        rw [hk, List.getElem?_take, if_pos]
        have := congrArg List.length hk
        rw [List.length_take] at this
        omega
      rw [List.getElem?_eq_getElem hip, List.getElem?_eq_getElem hi] at this
      exact Option.some.inj this
    obtain ⟨g1, g2⟩ := hAB i (by simpa using hip) (by omega) (by omega)
    rw [List.getElem_append_left (by simp [lA, lB, lf]; omega), List.getElem_append_left (by omega)]
    simp only [List.getElem_map, e0] at g1 g2
    have gf := hff i (by simpa using hip) (by omega)
    simp only [List.getElem_map, e0, div_mul_cancel₀ _ h.aT.ne'] at gf
    rw [show (c.reaction p 0).specie = toC (c.sp 0) (c.st 0) p from rfl, bathOcc_toC _ _ p h.aT] at g1
    refine ⟨?_, ?_⟩
    · intro f' hf'
      rw [gf] at hf'
      cases hf'
      simp only [List.getElem_zipWith]
      rw [g1]; ring
    · intro hK hc hg
      exact mul_nonpos_of_nonpos_of_nonneg (g2 hK (div_pos hg h.aT)) hc
  · have zC : ∀ (l : List ℝ) (hl : i < (l ++ zeros).length), l.length = pts.length → (l ++ zeros)[i] = 0 := by
      intro l hl e
      rw [List.getElem_append_right (by omega)]
      exact hz _ (List.getElem_mem _)
    rw [zC _ _ (by simp [lA, lB, lf]), zC _ _ lB]
    simp

/-- Non-negative couplings give a non-negative kernel. -/
theorem kernelNonneg_of (r : Fin 4 → Reactant) (Ms : List CM) (hs : ∀ i, (r i).side = 1 ∨ (r i).side = -1)
    (hm : ∀ i, 0 ≤ (r i).specie.m)
    (h : ∀ M ∈ Ms, 0 ≤ M.K ∧ 0 ≤ M.K1 ∧ 0 ≤ M.K2 ∧ M.order.Bijective) : KernelNonneg r Ms := by
  intro p0 p1 p2 h0 h1 h2 hE ds hds
  unfold kernel4 at hds
  cases Ms with
  | nil => cases hds
  | cons M0 Mt =>
    simp only at hds
    by_cases hK : M0.K ≠ 0
    · rw [if_pos hK] at hds
      cases hds
      exact (h M0 (by simp)).1
    rw [if_neg hK, if_pos (show momenta4 r p0 p1 p2 0 ≠ 0 from h0.ne')] at hds
    cases hds
    refine div_nonneg (List.sum_nonneg ?_) (mul_nonneg h0.le (energy_nonneg _ _))
    intro x hx
    obtain ⟨M, hM, rfl⟩ := List.mem_map.mp hx
    obtain ⟨-, k1, k2, hb⟩ := h M hM
    have e : M.order = ⇑(Equiv.ofBijective M.order hb) := rfl
    rw [e]
    refine C63_nonneg _ _ _ _ _ _ _ hs (momenta4_nonneg r h0.le h1 h2) ?_ hm k1 k2
    intro i
    fin_cases i
    · exact le_energy _ _
    · exact le_energy _ _
    · exact le_energy _ _
    · have hl : 0 ≤ lastEnergy4 r p0 p1 p2 := (hm 3).trans hE
      change √(lastEnergy4 r p0 p1 p2 ^ 2 - (r 3).specie.m ^ 2) ≤ lastEnergy4 r p0 p1 p2
      refine (Real.sqrt_le_sqrt (sub_le_self _ (sq_nonneg _))).trans ?_
      rw [Real.sqrt_sq hl]

/-- **C113.** A species already in equilibrium with the bath stays there: the collision term vanishes at every
momentum, whatever the matrix elements and the schedule. -/
theorem C113_stationary (c : Int4 ι) (p : Params) (θ : ℝ) (sched : List (List ℕ)) (h : InBath4 c p θ)
    (heq : ∀ y ∈ (c.sp 0).grid, particleDistribution (c.sp 0) p (c.st 0) y =
      .ok (thermal (c.sp 0).fermion y ((c.sp 0).mass * p.a) θ))
    (out : IntOut) (hout : integrate4 c p sched = .ok out) :
    ∃ C B, out = .two C B ∧ C = List.replicate (c.sp 0).grid.length 0 := by
  obtain ⟨C, B, e, lC, lB, hi⟩ := C113_relaxation c p θ sched h out hout
  refine ⟨C, B, e, List.ext_getElem (by simp [lC]) ?_⟩
  intro i h1 h2
  have := (hi i (by omega) h1 (by omega)).1 _ (heq _ (List.getElem_mem _))
  rw [this, List.getElem_replicate, sub_self, mul_zero]

/-- **C113.** One step of implicit Euler with such a collision term: the departure from equilibrium is divided by
`1 − h B ≥ 1`, for every size of the step; the distribution does not cross the equilibrium. -/
theorem C113_implicit_step (f feq B h : ℝ) (hB : B ≤ 0) (hh : 0 ≤ h) :
    implicitEuler f (B * (f - feq) - B * f) B h - feq = (f - feq) / (1 - B * h) ∧
    |implicitEuler f (B * (f - feq) - B * f) B h - feq| ≤ |f - feq| ∧
    (feq ≤ f → feq ≤ implicitEuler f (B * (f - feq) - B * f) B h ∧
      implicitEuler f (B * (f - feq) - B * f) B h ≤ f) ∧
    (f ≤ feq → f ≤ implicitEuler f (B * (f - feq) - B * f) B h ∧
      implicitEuler f (B * (f - feq) - B * f) B h ≤ feq) := by
  have hd : 1 ≤ 1 - B * h := by nlinarith
  have hd0 : 0 < 1 - B * h := by linarith
  have e : implicitEuler f (B * (f - feq) - B * f) B h - feq = (f - feq) / (1 - B * h) := by
    unfold implicitEuler
    field_simp
    ring
  refine ⟨e, ?_, ?_, ?_⟩
  · rw [e, abs_div, abs_of_pos hd0]
    exact div_le_self (abs_nonneg _) hd
  · intro g
    have a1 : 0 ≤ (f - feq) / (1 - B * h) := div_nonneg (by linarith) hd0.le
    have a2 : (f - feq) / (1 - B * h) ≤ f - feq := div_le_self (by linarith) hd
    constructor <;> linarith
  · intro g
    have a1 : 0 ≤ (feq - f) / (1 - B * h) := div_nonneg (by linarith) hd0.le
    have a2 : (feq - f) / (1 - B * h) ≤ feq - f := div_le_self (by linarith) hd
    have a3 : (f - feq) / (1 - B * h) = -((feq - f) / (1 - B * h)) := by rw [← neg_div, neg_sub]
    constructor <;> linarith

/-! ## Three-particle reactions -/

/-- At fixed momenta of a three-particle reaction. -/
theorem bath_point3 (p0 p1 T : ℝ) (r : Fin 3 → Reactant)
    (h0 : (r 0).side = -1) (hs : ∀ i, (r i).side = 1 ∨ (r i).side = -1) (hm : 0 ≤ (r 2).specie.m)
    (ht : ∀ i, i ≠ 0 → ThermalAt (r i).specie T (momenta3 r p0 p1 i))
    (hd : 0 < Real.exp (energy p0 (r 0).specie.m / T) + (r 0).specie.eta) (f0 : ℝ)
    (hf0 : occAt (r 0).specie p0 = .ok f0) :
    ∃ a b, integrandFull3 p0 p1 0 r = .ok a ∧ integrandFull3 p0 p1 2 r = .ok b ∧
      a = b * (f0 - bathOcc (r 0).specie T p0) ∧ (0 ≤ factor3 r p0 p1 → b ≤ 0) := by
  unfold integrandFull3
  by_cases hf : factor3 r p0 p1 = 0
  · rw [if_pos hf, if_pos hf]; exact ⟨0, 0, rfl, rfl, by simp, fun _ => le_rfl⟩
  rw [if_neg hf, if_neg hf]
  have hE : ¬ lastEnergy3 r p0 p1 < (r 2).specie.m := by
    intro h; apply hf; unfold factor3; rw [if_pos h]
  simp only []
  have hf0' : occAt (r 0).specie (momenta3 r p0 p1 0) = .ok f0 := hf0
  rw [hf0', (ht 1 (by decide)).2, (ht 2 (by decide)).2]
  simp only [bind, Except.bind]
  have t1 := (ht 1 (by decide)).1
  have t2 := (ht 2 (by decide)).1
  have hF := bath_functional (r 0) [r 1, r 2] f0 (energy p0 (r 0).specie.m / T)
    [1 / (Real.exp (energy (momenta3 r p0 p1 1) (r 1).specie.m / T) + (r 1).specie.eta),
     1 / (Real.exp (energy (momenta3 r p0 p1 2) (r 2).specie.m / T) + (r 2).specie.eta)]
    [energy (momenta3 r p0 p1 1) (r 1).specie.m / T, energy (momenta3 r p0 p1 2) (r 2).specie.m / T]
    h0 ?_ ?_ ?_ hd ?_ ?_
  · obtain ⟨g, hg, -, e2, e3⟩ := hF
    rw [show Kind.ofInt 0 = .full from rfl, show Kind.ofInt 2 = .ff from rfl, e2, e3]
    refine ⟨_, _, rfl, rfl, ?_, ?_⟩
    · unfold bathOcc
      field_simp
      ring
    · intro hp
      have := mul_nonneg hp (mul_nonneg hg hd.le)
      linarith
  · intro x hx
    simp only [List.zip_cons_cons, List.zip_nil_right, List.mem_cons, List.not_mem_nil, or_false] at hx
    rcases hx with rfl | rfl
    exacts [hs 1, hs 2]
  · intro x hx
    simp only [List.zip_cons_cons, List.zip_nil_right, List.mem_cons, List.not_mem_nil, or_false] at hx
    rcases hx with rfl | rfl
    exacts [(one_div_pos.mpr t1).le, (one_div_pos.mpr t2).le]
  · intro x hx
    simp only [List.zip_cons_cons, List.zip_nil_right, List.mem_cons, List.not_mem_nil, or_false] at hx
    rcases hx with rfl | rfl
    exacts [thermal_open t1, thermal_open t2]
  · unfold Equilibrium
    simp only [List.zip_cons_cons, List.zip_nil_right]
    exact .cons ⟨hd.ne', rfl⟩ (.cons ⟨t1.ne', rfl⟩ (.cons ⟨t2.ne', rfl⟩ .nil))
  · unfold Conserved
    simp only [List.zip_cons_cons, List.zip_nil_right, List.map_cons, List.map_nil, List.sum_cons,
      List.sum_nil]
    have e3 : energy (momenta3 r p0 p1 2) (r 2).specie.m = lastEnergy3 r p0 p1 :=
      energy_last hm (not_lt.mp hE)
    rw [e3]
    change ((r 0).side : ℝ) * (energy p0 (r 0).specie.m / T) + (((r 1).side : ℝ) *
      (energy p1 (r 1).specie.m / T) + (((r 2).side : ℝ) * (lastEnergy3 r p0 p1 / T) + 0)) = 0
    have h3 : ((r 2).side : ℝ) * (r 2).side = 1 := by
      rcases hs 2 with h | h <;> rw [h] <;> norm_num
    unfold lastEnergy3
    linear_combination (-((r 0).side * energy p0 (r 0).specie.m + (r 1).side * energy p1 (r 1).specie.m) / T) * h3

theorem inBounds3_nonneg (p : Fin 3 → ℝ) (hp : ∀ i, 0 ≤ p i) : 0 ≤ inBounds3 p := by
  by_cases h : ∀ i, 0 < p i
  · rcases (C35_three p h).1 with e | e | e <;> rw [e] <;> norm_num
  · push Not at h
    obtain ⟨i, hi⟩ := h
    have he := le_antisymm hi (hp i)
    rw [C35_three_zero_momentum p]
    fin_cases i
    exacts [.inl he, .inr (.inl he), .inr (.inr he)]

theorem factor3_nonneg (r : Fin 3 → Reactant) {p0 p1 : ℝ} (h0 : 0 ≤ p0) (h1 : 0 ≤ p1) : 0 ≤ factor3 r p0 p1 := by
  unfold factor3
  split_ifs
  · exact le_rfl
  · rwa [one_mul]
  all_goals
    refine div_nonneg (mul_nonneg (mul_nonneg zero_le_one (inBounds3_nonneg _ ?_)) ?_)
      (mul_nonneg h0 (energy_nonneg _ _))
    · intro i
      fin_cases i
      exacts [h0, h1, Real.sqrt_nonneg _]
    · first | exact zero_le_one | exact div_nonneg h1 (energy_nonneg _ _)

/-- The other two particles form a bath of temperature `T`. -/
structure Bath3 (r : Fin 3 → Reactant) (T : ℝ) : Prop where
  first : (r 0).side = -1
  sides : ∀ i, (r i).side = 1 ∨ (r i).side = -1
  mass : ∀ i, 0 ≤ (r i).specie.m
  /-- a particle does not decay into a heavier one -/
  open' : (r 1).side = 1 → (r 2).specie.m ≤ (r 0).specie.m
  temp : ∀ i, i ≠ 0 → (r i).specie.T = T
  eq : ∀ i, i ≠ 0 → (r i).specie.inEq = true
  fin : ∀ i q, 0 < Real.exp (energy q (r i).specie.m / T) + (r i).specie.eta

theorem Bath3.thermal {r : Fin 3 → Reactant} {T : ℝ} (h : Bath3 r T) (i : Fin 3) (hi : i ≠ 0) (q : ℝ) :
    ThermalAt (r i).specie T q := by
  have := thermalAt_of_inEq (r i).specie q (h.eq i hi) (by rw [h.temp i hi]; exact h.fin i q)
  rwa [h.temp i hi] at this

theorem outer3_ordered (r : Fin 3 → Reactant) (T max2 p0 : ℝ) (h : Bath3 r T) (ho : (r 2).side = 1) (h0 : 0 < p0)
    (st : ℝ × ℝ) (hg : (outerLimits3 (loopCtx3 r max2) p0 st).2 = true) :
    0 ≤ (outerLimits3 (loopCtx3 r max2) p0 st).1.1 ∧
      (outerLimits3 (loopCtx3 r max2) p0 st).1.1 ≤ (outerLimits3 (loopCtx3 r max2) p0 st).1.2 := by
  have habs : ∀ x : ℝ, 0 ≤ max x (-x) := fun x => abs_nonneg x
  have ht : (loopCtx3 r max2).type = (r 0).side + ((r 1).side + (r 2).side) := by
    simp [loopCtx3, reactionTypeSum]
  rw [h.first, ho] at ht
  unfold outerLimits3 at hg ⊢
  by_cases e : (loopCtx3 r max2).type = -1
  · rw [if_pos e] at hg ⊢
    dsimp only at hg ⊢
    split_ifs at hg ⊢ <;> first | exact ⟨habs _, le_of_lt (not_le.mp ‹_›)⟩ | cases hg
  · rw [if_neg e]
    dsimp only
    refine ⟨habs _, ?_⟩
    have hs1 : (r 1).side = 1 := by
      rcases h.sides 1 with g | g
      · exact g
      · rw [g] at ht; exact absurd ht e
    have hm := h.open' hs1
    have hm2 := h.mass 2
    unfold p1Bounds3 loopCtx3
    dsimp only
    have hs := Real.sqrt_nonneg (if ((p0 ^ 2 + (r 0).specie.m ^ 2) * ((r 1).specie.m ^ 4 +
      ((r 2).specie.m ^ 2 - (r 0).specie.m ^ 2) ^ 2 - 2 * (r 1).specie.m ^ 2 *
      ((r 2).specie.m ^ 2 + (r 0).specie.m ^ 2))) < 0 then 0 else
      ((p0 ^ 2 + (r 0).specie.m ^ 2) * ((r 1).specie.m ^ 4 +
      ((r 2).specie.m ^ 2 - (r 0).specie.m ^ 2) ^ 2 - 2 * (r 1).specie.m ^ 2 *
      ((r 2).specie.m ^ 2 + (r 0).specie.m ^ 2))))
    revert hs
    generalize √_ = s
    intro hs
    have hc : p0 * ((r 2).specie.m ^ 2 - (r 1).specie.m ^ 2 - (r 0).specie.m ^ 2) ≤ 0 := by
      have := pow_le_pow_left₀ hm2 hm 2
      nlinarith [sq_nonneg (r 1).specie.m]
    have hd : 0 ≤ 2 * (r 0).specie.m ^ 2 := by positivity
    apply max_le
    · exact div_le_div_of_nonneg_right (by linarith) hd
    · rw [← neg_div]
      exact div_le_div_of_nonneg_right (by linarith) hd

/-- The loops of `integrate` for `Full` and `F_f`, entry by entry. -/
theorem bath_loop3 (r : Fin 3 → Reactant) (T min1 max1 max2 : ℝ) (h : Bath3 r T) (ho : (r 2).side = 1)
    (ps : List ℝ) (hp : ∀ q ∈ ps, 0 ≤ q) (sched : List (List ℕ)) (C B : List ℝ)
    (hC : integration3Exact r 0 ps min1 max1 max2 sched = .ok C)
    (hB : integration3Exact r 2 ps min1 max1 max2 sched = .ok B) :
    C.length = ps.length ∧ B.length = ps.length ∧
      ∀ (i : ℕ) (hi : i < ps.length) (hc : i < C.length) (hb : i < B.length),
        ∀ f, occAt (r 0).specie ps[i] = .ok f → C[i] = B[i] * (f - bathOcc (r 0).specie T ps[i]) ∧ B[i] ≤ 0 := by
  refine parallelLoop_paired _ _ _ ps (fun _ => True)
    (fun p0 a b => ∀ f, occAt (r 0).specie p0 = .ok f → a = b * (f - bathOcc (r 0).specie T p0) ∧ b ≤ 0)
    (fun p _ f _ => ⟨by simp, le_rfl⟩) (fun _ _ _ _ => trivial) ?_ (min1, max1) trivial sched C B hC hB
  intro p0 hp0 st _ hg a b ha hb f hf
  have pt := fun p1 => bath_point3 p0 p1 T r h.first h.sides (h.mass 2) (fun i hi => h.thermal i hi _) (h.fin 0 p0) f hf
  by_cases hz : p0 = 0
  · simp only [hz, if_true] at ha hb
    obtain ⟨a', b', e1, e2, e3, e4⟩ := pt (p1Bounds1 (r 0).specie.m (r 1).specie.m (r 2).specie.m)
    rw [hz] at e1 e2 e3 e4
    rw [e1] at ha
    rw [e2] at hb
    cases ha; cases hb
    rw [hz]
    refine ⟨e3, e4 (factor3_nonneg r le_rfl ?_)⟩
    unfold p1Bounds1
    have := h.mass 0
    split_ifs <;> positivity
  · simp only [hz, if_false] at ha hb hg
    unfold exactQuad3 at ha hb
    cases ha; cases hb
    have hpos : 0 < p0 := lt_of_le_of_ne (hp p0 hp0) (Ne.symm hz)
    obtain ⟨o1, o2⟩ := outer3_ordered r T max2 p0 h ho hpos st hg
    constructor
    · rw [mul_comm, ← intervalIntegral.integral_const_mul]
      apply intervalIntegral.integral_congr
      intro p1 _
      obtain ⟨a', b', e1, e2, e3, -⟩ := pt p1
      simp only [e1, e2, e3]
      ring
    · apply integral_nonpos' o2
      intro p1 hp1 _
      obtain ⟨a', b', e1, e2, -, e4⟩ := pt p1
      rw [e2]
      exact e4 (factor3_nonneg r hpos.le (o1.trans hp1))

/-- The slices of the grid: zeros, a stretch of the grid over `aT`, zeros. -/
theorem cutoff3_stretch (sum : ℤ) (grid : List ℝ) (hne : grid ≠ []) (hs : StrictInc grid) (lb ub aT : ℝ)
    (hb : lb ≤ ub) (hg0 : ∀ g ∈ grid, 0 ≤ g) (s : Slices)
    (h : cutoff3 sum (grid.map (· / aT)) grid lb ub aT = some s) :
    (∀ z ∈ s.zeros1, z = 0) ∧ (∀ z ∈ s.zeros3, z = 0) ∧
    s.zeros1.length + s.points.length + s.zeros3.length = grid.length ∧
    ∀ (k : ℕ) (hk : k < s.points.length) (hl : s.zeros1.length + k < grid.length),
      s.points[k] = grid[s.zeros1.length + k] / aT := by
  unfold cutoff3 at h
  split_ifs at h
  · unfold gridCutoff3 at h
    dsimp only at h
    rcases C47_three grid hne hs lb ub hb hg0 with ⟨lo, hi, h1, h2, h3, h4, h5, h6, h7, h8, -⟩ | ⟨h1, -⟩
    · rw [if_pos h6] at h
      cases h
      refine ⟨h7, h8, ?_, ?_⟩
      · simp only [List.length_map]
        rw [h4, h3, h5, List.length_drop, List.length_take]
        omega
      · intro k hk hl
        simp only [List.getElem_map, h4, List.getElem_drop, List.getElem_take, h3]
    · rw [if_neg (by rw [h1]; simp)] at h
      cases h
  · cases h
    refine ⟨by simp, by simp, by simp, ?_⟩
    intro k hk hl
    simp

theorem constants3_nonneg (K mass dof : ℝ) (majorana : Bool) (mult : ℝ) (p : Params) (n : ℕ) (hK : 0 ≤ K)
    (hd : 0 ≤ dof) (hm : 0 ≤ mult) (haT : 0 < p.aT) (ha : 0 < p.a) (hH : 0 < p.H) (hx : 0 < p.x) :
    ∀ z ∈ constants3 K mass dof majorana mult p n, 0 ≤ z := by
  have key : ∀ c : ℝ, 0 ≤ c → 0 ≤ (if p.log then c / dofFactor majorana dof * mult else
      c / dofFactor majorana dof * mult / p.x) := by
    intro c hc
    have hf : 0 ≤ dofFactor majorana dof := by unfold dofFactor; split_ifs <;> positivity
    split_ifs <;> positivity
  intro z hz
  unfold constants3 at hz
  dsimp only at hz
  obtain ⟨c, hc, rfl⟩ := List.mem_map.mp hz
  apply key
  rcases List.mem_cons.mp hc with rfl | hc
  · have := Real.pi_pos
    split_ifs <;> positivity
  · rw [List.eq_of_mem_replicate hc]
    have := Real.pi_pos
    positivity

/-- The situation of C113 for decays `0 → 1 + 2` and creations `0 + 1 → 2`. -/
structure InBath3 (c : Int3 ι) (p : Params) (θ : ℝ) : Prop where
  aT : 0 < p.aT
  a : 0 < p.a
  temp : 0 < θ
  kind : c.kind = .full ∨ c.kind = .fullVac
  slow : (c.sp 0).fastDecay = false
  grid : (c.sp 0).grid ≠ []
  inc : StrictInc (c.sp 0).grid
  nonneg : ∀ g ∈ (c.sp 0).grid, 0 ≤ g
  bounds : c.lb ≤ c.ub
  first : c.side 0 = -1
  second : c.side 1 = 1 ∨ c.side 1 = -1
  last : c.side 2 = 1
  mass : ∀ i, 0 ≤ (c.sp i).mass
  lighter : c.side 1 = 1 → (c.sp 2).mass ≤ (c.sp 0).mass
  finite : ∀ i, FiniteOcc (c.sp i)
  bath : ∀ i, i ≠ 0 → inEq (c.sp i) (c.st i) = true ∧ (c.st i).aT = θ

theorem InBath3.reaction {c : Int3 ι} {p : Params} {θ : ℝ} (h : InBath3 c p θ) :
    Bath3 (c.reaction p) (θ / p.aT) where
  first := h.first
  sides i := by
    fin_cases i
    exacts [.inr h.first, h.second, .inl h.last]
  mass i := div_nonneg (mul_nonneg (h.mass i) h.a.le) h.aT.le
  open' hs := div_le_div_of_nonneg_right (mul_le_mul_of_nonneg_right (h.lighter hs) h.a.le) h.aT.le
  temp i hi := by
    change (c.st i).aT / p.aT = _
    rw [(h.bath i hi).2]
  eq i hi := (h.bath i hi).1
  fin i q := finiteOcc_pos _ _ p h.aT h.a h.temp (h.finite i) q

/-- **C113, three particles.** The same for decays and inverse decays, including the special value at zero momentum:
the collision term is the damping coefficient times the departure from equilibrium, and the coefficient is not
positive. -/
theorem C113_three (c : Int3 ι) (p : Params) (θ : ℝ) (sched : List (List ℕ)) (h : InBath3 c p θ)
    (out : IntOut) (hout : integrate3 c p sched = .ok out) :
    ∃ C B, out = .two C B ∧ C.length = (c.sp 0).grid.length ∧ B.length = (c.sp 0).grid.length ∧
      ∀ (i : ℕ) (hi : i < (c.sp 0).grid.length) (hC : i < C.length) (hB : i < B.length),
        ∀ f, occAt (toC (c.sp 0) (c.st 0) p) ((c.sp 0).grid[i] / p.aT) = .ok f →
          C[i] = B[i] * (f - thermal (c.sp 0).fermion (c.sp 0).grid[i] ((c.sp 0).mass * p.a) θ) ∧
          (0 ≤ c.K → 0 ≤ (c.sp 0).dof → 0 ≤ c.mult → 0 < p.H → 0 < p.x → B[i] ≤ 0) := by
  have hzero : returnFunction c.kind false (c.sp 0).grid.length =
      .two (List.replicate (c.sp 0).grid.length 0) (List.replicate (c.sp 0).grid.length 0) := by
    unfold returnFunction
    rcases h.kind with e | e <;> rw [e] <;> simp
  have hret : ∃ C B, returnFunction c.kind false (c.sp 0).grid.length = .two C B ∧
      C.length = (c.sp 0).grid.length ∧ B.length = (c.sp 0).grid.length ∧
      ∀ (i : ℕ) (hi : i < (c.sp 0).grid.length) (hC : i < C.length) (hB : i < B.length),
        ∀ f, occAt (toC (c.sp 0) (c.st 0) p) ((c.sp 0).grid[i] / p.aT) = .ok f →
          C[i] = B[i] * (f - thermal (c.sp 0).fermion (c.sp 0).grid[i] ((c.sp 0).mass * p.a) θ) ∧
          (0 ≤ c.K → 0 ≤ (c.sp 0).dof → 0 ≤ c.mult → 0 < p.H → 0 < p.x → B[i] ≤ 0) := by
    refine ⟨_, _, hzero, by simp, by simp, ?_⟩
    intro i hi hC hB f _
    simp
  unfold integrate3 at hout
  dsimp only at hout
  rw [h.slow] at hout
  by_cases hneg : c.neglect = true
  · rw [if_pos hneg] at hout
    cases hout
    exact hret
  rw [if_neg hneg] at hout
  cases hcut : cutoff3 (c.side 0 + c.side 1 + c.side 2) ((c.sp 0).grid.map (· / p.aT)) (c.sp 0).grid c.lb c.ub p.aT with
  | none =>
    rw [hcut] at hout
    cases hout
    exact hret
  | some s =>
  rw [hcut] at hout
  dsimp only at hout
  rw [if_pos ⟨h.kind, by simp⟩] at hout
  simp only [CKind.toInt] at hout
  cases hC : integration3Exact (c.reaction p) 0 s.points (c.min1 / p.aT) (c.max1 / p.aT) (c.max2 / p.aT) sched with
  | error e => rw [hC] at hout; cases hout
  | ok C =>
  cases hB : integration3Exact (c.reaction p) 2 s.points (c.min1 / p.aT) (c.max1 / p.aT) (c.max2 / p.aT) sched with
  | error e => rw [hC, hB] at hout; cases hout
  | ok B =>
  rw [hC, hB] at hout
  simp only [Except.ok.injEq] at hout
  obtain ⟨z1, z3, hlen, hpt⟩ := cutoff3_stretch _ _ h.grid h.inc _ _ _ h.bounds h.nonneg s hcut
  have hpn : ∀ q ∈ s.points, 0 ≤ q := by
    intro q hq
    obtain ⟨k, hk, rfl⟩ := List.getElem_of_mem hq
    rw [hpt k hk (by omega)]
    exact div_nonneg (h.nonneg _ (List.getElem_mem _)) h.aT.le
  obtain ⟨lC, lB, hCB⟩ := bath_loop3 (c.reaction p) (θ / p.aT) _ _ _ h.reaction h.last s.points hpn sched C B hC hB
  have lK : (constants3 c.K (c.sp 0).mass (c.sp 0).dof c.majorana c.mult p (c.sp 0).grid.length).length
      = (c.sp 0).grid.length := by
    have := List.length_pos_iff.mpr h.grid
    simp [constants3]; omega
  have hKn := constants3_nonneg c.K (c.sp 0).mass (c.sp 0).dof c.majorana c.mult p (c.sp 0).grid.length
  generalize constants3 c.K (c.sp 0).mass (c.sp 0).dof c.majorana c.mult p (c.sp 0).grid.length = ks at *
  refine ⟨_, _, hout.symm, ?_, ?_, ?_⟩
  · unfold mulArr
    simp [lC, lK]; omega
  · unfold mulArr
    simp [lB, lK]; omega
  intro i hi hC' hB' f hf
  unfold mulArr at hC' hB' ⊢
  rw [List.getElem_zipWith, List.getElem_zipWith]
  have hmid : ∀ (l : List ℝ) (hl : i < (s.zeros1 ++ l ++ s.zeros3).length), l.length = s.points.length →
      (¬ (s.zeros1.length ≤ i ∧ i < s.zeros1.length + s.points.length) → (s.zeros1 ++ l ++ s.zeros3)[i] = 0) ∧
      (∀ (g : s.zeros1.length ≤ i) (g' : i - s.zeros1.length < l.length),
        (s.zeros1 ++ l ++ s.zeros3)[i] = l[i - s.zeros1.length]) := by
    intro l hl e
    constructor
    · intro g
      by_cases g1 : i < s.zeros1.length
      · rw [List.getElem_append_left (by simp; omega), List.getElem_append_left g1]
        exact z1 _ (List.getElem_mem _)
      · rw [List.getElem_append_right (by simp; omega)]
        exact z3 _ (List.getElem_mem _)
    · intro g g'
      rw [List.getElem_append_left (by simp; omega), List.getElem_append_right g]
  obtain ⟨a1, a2⟩ := hmid C (by simp [lC]; omega) lC
  obtain ⟨b1, b2⟩ := hmid B (by simp [lB]; omega) lB
  by_cases g : s.zeros1.length ≤ i ∧ i < s.zeros1.length + s.points.length
  · rw [a2 g.1 (by omega), b2 g.1 (by omega)]
    have hq : s.points[i - s.zeros1.length]'(by omega) = (c.sp 0).grid[i] / p.aT := by
      rw [hpt _ (by omega) (by omega)]
      congr 2; omega
    obtain ⟨e1, e2⟩ := hCB (i - s.zeros1.length) (by omega) (by omega) (by omega) f (by rw [hq]; exact hf)
    rw [hq, show (c.reaction p 0).specie = toC (c.sp 0) (c.st 0) p from rfl, bathOcc_toC _ _ p h.aT] at e1
    refine ⟨by rw [e1]; ring, ?_⟩
    intro k1 k2 k3 k4 k5
    exact mul_nonpos_of_nonpos_of_nonneg e2 (hKn k1 k2 k3 h.aT h.a k4 k5 _ (List.getElem_mem _))
  · rw [a1 g, b1 g]
    simp

/-- **C113.** `integrate` does return: for a species off equilibrium whose values are stored on its grid, with any
schedule over the points of the loop, the arrays exist, and in terms of the stored values `C = B (f − f_eq)`. -/
theorem C113_returns (c : Int4 ι) (p : Params) (θ : ℝ) (sched : List (List ℕ)) (h : InBath4 c p θ)
    (hoff : inEq (c.sp 0) (c.st 0) = false) (hst : (c.st 0).dist.length = (c.sp 0).grid.length)
    (hs : ∀ t ∈ sched, ∀ i ∈ t, i < (gridCut4 (c.sp 0).grid c.ub).1.length) :
    ∃ C B, integrate4 c p sched = .ok (.two C B) ∧ C.length = (c.sp 0).grid.length ∧ B.length = (c.sp 0).grid.length ∧
      ∀ (i : ℕ) (hi : i < (c.sp 0).grid.length) (hC : i < C.length) (hB : i < B.length),
        C[i] = B[i] * ((c.st 0).dist[i] - thermal (c.sp 0).fermion (c.sp 0).grid[i] ((c.sp 0).mass * p.a) θ) ∧
        (KernelNonneg (c.reaction p) (c.Ms.map (toCM c.GF)) →
          0 ≤ constant4 c.GF (c.sp 0).dof c.majorana c.mult p → 0 < (c.sp 0).grid[i] → B[i] ≤ 0) := by
  have hpd : ∀ (i : ℕ) (hi : i < (c.sp 0).grid.length),
      particleDistribution (c.sp 0) p (c.st 0) (c.sp 0).grid[i] = .ok (c.st 0).dist[i] := by
    intro i hi
    unfold particleDistribution
    rw [hoff]
    exact C09_exact_on_grid _ _ _ _ _ h.inc hst i hi
  obtain ⟨k, -, hk, -, -, -, -⟩ := C47_four _ h.grid h.inc c.ub
  have hret : ∃ out, integrate4 c p sched = .ok out := by
    unfold integrate4
    dsimp only
    rw [h.active, h.slow, if_neg (by simp), if_pos ⟨h.kind, by simp⟩]
    set pts := (gridCut4 (c.sp 0).grid c.ub).1 with hpts
    have hloop : ∀ kind : ℤ, ∃ A, integration4Exact (c.reaction p) (c.Ms.map (toCM c.GF)) kind (pts.map (· / p.aT))
        (c.min1 / p.aT) (c.max1 / p.aT) (c.min2 / p.aT) (c.max2 / p.aT) (c.max3 / p.aT) sched = .ok A := by
      intro kind
      refine parallelLoop_returns _ _ _ (fun q _ a b => ⟨_, exactQuad4_val _ _ _ _ _ _ _ _⟩) _ _ ?_
      simpa using hs
    obtain ⟨A, hA⟩ := hloop CKind.f1.toInt
    obtain ⟨B, hB⟩ := hloop CKind.ff.toInt
    have hf : ∃ f, ((pts.map (· / p.aT)).mapM fun x => particleDistribution (c.sp 0) p (c.st 0) (x * p.aT)) = .ok f := by
      refine ⟨(c.st 0).dist.take pts.length, mapM_getElem _ _ _ ?_ ?_⟩
      · have := congrArg List.length hk
        rw [List.length_take] at this
        simp; omega
      · intro i hi hi'
        have hi2 : i < pts.length := by simpa using hi
        have hl := congrArg List.length hk
        rw [List.length_take] at hl
        have hig : i < (c.sp 0).grid.length := by omega
        have e : pts[i] = (c.sp 0).grid[i] := by
          have : pts[i]? = (c.sp 0).grid[i]? := by
            rw [hk, List.getElem?_take, if_pos]
            omega
          rw [List.getElem?_eq_getElem hi2, List.getElem?_eq_getElem hig] at this
          exact Option.some.inj this
        rw [List.getElem_map, div_mul_cancel₀ _ h.aT.ne', e, hpd i hig, List.getElem_take]
    obtain ⟨f, hf⟩ := hf
    rw [hA, hB]
    simp only [bind, Except.bind]
    rw [hf]
    exact ⟨_, rfl⟩
  obtain ⟨out, hout⟩ := hret
  obtain ⟨C, B, e, lC, lB, hi⟩ := C113_relaxation c p θ sched h out hout
  refine ⟨C, B, by rw [hout, e], lC, lB, ?_⟩
  intro i h1 h2 h3
  obtain ⟨g1, g2⟩ := hi i h1 h2 h3
  exact ⟨g1 _ (hpd i h1), g2⟩

theorem occAt_stored (sp : Species) (s : PState ι) (p : Params) (haT : 0 < p.aT) (hoff : inEq sp s = false)
    (hinc : StrictInc sp.grid) (hst : s.dist.length = sp.grid.length) (i : ℕ) (hi : i < sp.grid.length) :
    occAt (toC sp s p) (sp.grid[i] / p.aT) = .ok s.dist[i] := by
  have hp : (sp.grid.map (· / p.aT)).Pairwise (· < ·) :=
    List.pairwise_map.mpr (hinc.imp fun h => div_lt_div_of_pos_right h haT)
  have := C09_exact_on_grid (sp.grid.map (· / p.aT)) s.dist (toC sp s p).m (toC sp s p).T (toC sp s p).eta hp
    (by simpa using hst) i (by simpa using hi)
  rw [List.getElem_map] at this
  unfold occAt
  rw [show (toC sp s p).inEq = false from hoff]
  exact this

/-- **C113, three particles.** For a species off equilibrium whose values are stored on its grid the arrays exist, and in
terms of the stored values `C = B (f − f_eq)` with `B ≤ 0`. -/
theorem C113_three_returns (c : Int3 ι) (p : Params) (θ : ℝ) (sched : List (List ℕ)) (h : InBath3 c p θ)
    (hoff : inEq (c.sp 0) (c.st 0) = false) (hst : (c.st 0).dist.length = (c.sp 0).grid.length)
    (hs : ∀ s, cutoff3 (c.side 0 + c.side 1 + c.side 2) ((c.sp 0).grid.map (· / p.aT)) (c.sp 0).grid c.lb c.ub p.aT =
      some s → ∀ t ∈ sched, ∀ i ∈ t, i < s.points.length) :
    ∃ C B, integrate3 c p sched = .ok (.two C B) ∧ C.length = (c.sp 0).grid.length ∧ B.length = (c.sp 0).grid.length ∧
      ∀ (i : ℕ) (hi : i < (c.sp 0).grid.length) (hC : i < C.length) (hB : i < B.length),
        C[i] = B[i] * ((c.st 0).dist[i] - thermal (c.sp 0).fermion (c.sp 0).grid[i] ((c.sp 0).mass * p.a) θ) ∧
        (0 ≤ c.K → 0 ≤ (c.sp 0).dof → 0 ≤ c.mult → 0 < p.H → 0 < p.x → B[i] ≤ 0) := by
  have hocc := occAt_stored (c.sp 0) (c.st 0) p h.aT hoff h.inc hst
  have hret : ∃ out, integrate3 c p sched = .ok out := by
    unfold integrate3
    dsimp only
    rw [h.slow]
    by_cases hneg : c.neglect = true
    · rw [if_pos hneg]; exact ⟨_, rfl⟩
    rw [if_neg hneg]
    cases hcut : cutoff3 (c.side 0 + c.side 1 + c.side 2) ((c.sp 0).grid.map (· / p.aT)) (c.sp 0).grid c.lb c.ub p.aT with
    | none => exact ⟨_, rfl⟩
    | some s =>
    dsimp only
    rw [if_pos ⟨h.kind, by simp⟩]
    obtain ⟨-, -, hlen, hpt⟩ := cutoff3_stretch _ _ h.grid h.inc _ _ _ h.bounds h.nonneg s hcut
    have hloop : ∀ kind : ℤ, (kind = 0 ∨ kind = 2) → ∃ A, integration3Exact (c.reaction p) kind s.points
        (c.min1 / p.aT) (c.max1 / p.aT) (c.max2 / p.aT) sched = .ok A := by
      intro kind hkind
      refine parallelLoop_returns _ _ _ ?_ _ _ (hs s hcut)
      intro q hq a b
      by_cases hz : q = 0
      · obtain ⟨k, hk, e⟩ := List.getElem_of_mem hq
        have hf := hocc (s.zeros1.length + k) (by omega)
        rw [← hpt k hk (by omega), e, hz] at hf
        have hr := h.reaction
        obtain ⟨a', b', e1, e2, -, -⟩ := bath_point3 0 (p1Bounds1 (c.reaction p 0).specie.m (c.reaction p 1).specie.m
          (c.reaction p 2).specie.m) (θ / p.aT) (c.reaction p) hr.first hr.sides (hr.mass 2)
          (fun i hi => hr.thermal i hi _) (hr.fin 0 0) _ hf
        rw [if_pos hz]
        rcases hkind with rfl | rfl
        exacts [⟨_, e1⟩, ⟨_, e2⟩]
      · rw [if_neg hz]
        exact ⟨_, rfl⟩
    obtain ⟨A, hA⟩ := hloop CKind.full.toInt (.inl rfl)
    obtain ⟨B, hB⟩ := hloop CKind.ff.toInt (.inr rfl)
    rw [hA, hB]
    exact ⟨_, rfl⟩
  obtain ⟨out, hout⟩ := hret
  obtain ⟨C, B, e, lC, lB, hi⟩ := C113_three c p θ sched h out hout
  refine ⟨C, B, by rw [hout, e], lC, lB, ?_⟩
  intro i h1 h2 h3
  exact hi i h1 h2 h3 _ (hocc i h1)

/-! ## A heavy neutral lepton in a plasma -/

private noncomputable def bathSp (i : Fin 4) : Species :=
  { name := "X", mass := ![100, 0, 1 / 2, 1 / 2] i, dof := 2, fermion := true, thermalDyn := true, Q := 0,
    grid := [0, 1, 2], fastDecay := false, lifetime := 0 }
private noncomputable def bathSt (i : Fin 4) : PState ℕ :=
  { T := 1, aT := 1, Tdec := if i = 0 then 2 else 0, dist := [1 / 2, 1 / 5, 0], coll := [],
    integrals := [], tDec := 0, decayed := false, density := 0, histDist := [], histColl := [], histT := [],
    histDensity := [] }
private noncomputable def bathP : Params :=
  { log := true, m := 1, T := 1, a := 1, aIni := 1, x := 1, y := none, aT := 1, t := 1, H := 1, rho := none,
    S := none, Neff := 3, dy := 1, dx := 1, h := 1 }
private noncomputable def bathC : Int4 ℕ :=
  { sp := bathSp, st := bathSt, side := ![-1, -1, 1, 1],
    Ms := [⟨![0, 1, 2, 3], 1, 0, 0⟩], GF := 1, majorana := false, mult := 1, kind := .full, neglect := false,
    min1 := 0, max1 := 2, min2 := 0, max2 := 2, max3 := 2, ub := 2, creationFast := false, br := none, num := 0,
    total := fun _ => 0 }

private theorem bathC_ready : InBath4 bathC bathP 1 where
  aT := by norm_num [bathP]
  a := by norm_num [bathP]
  temp := one_pos
  kind := .inl rfl
  slow := rfl
  active := rfl
  min1 := rfl
  grid := by simp [bathC, bathSp]
  inc := by
    change StrictInc [0, 1, 2]
    norm_num [StrictInc]
  first := rfl
  sides i := by fin_cases i <;> simp [bathC]
  products := ⟨2, rfl⟩
  mass i := by fin_cases i <;> norm_num [bathC, bathSp]
  finite i := .inl rfl
  bath i hi := by
    simp [bathC, inEq, bathSp, bathSt, hi]

/-- A heavy lepton with a spectrum of its own, in collisions with neutrinos and electrons in equilibrium: the arrays
exist and damp the departure from equilibrium. -/
example : ∃ C B, integrate4 bathC bathP [[0, 2], [1]] = .ok (.two C B) ∧ C.length = 3 ∧ B.length = 3 ∧
    ∀ (hC : 1 < C.length) (hB : 1 < B.length), C[1] = B[1] * (1 / 5 - thermal true 1 (100 * 1) 1) ∧ B[1] ≤ 0 := by
  obtain ⟨C, B, e, lC, lB, h⟩ := C113_returns bathC bathP 1 [[0, 2], [1]] bathC_ready (by simp [bathC, inEq, bathSt])
    rfl (by
      have := (C47_four _ bathC_ready.grid bathC_ready.inc bathC.ub)
      obtain ⟨k, -, hk, -, -, hkeep, -⟩ := this
      have h2 := hkeep 2 (by simp [bathC, bathSp]) (by simp [bathC, bathSp])
      rw [hk, List.length_take]
      intro t ht i hi
      have hl : (bathC.sp 0).grid.length = 3 := rfl
      have : i ≤ 2 := by
        simp only [List.mem_cons, List.not_mem_nil, or_false] at ht
        rcases ht with rfl | rfl <;> simp at hi <;> omega
      omega)
  refine ⟨C, B, e, lC, lB, ?_⟩
  intro hC hB
  obtain ⟨g1, g2⟩ := h 1 (by simp [bathC, bathSp]) hC hB
  refine ⟨g1, g2 ?_ ?_ ?_⟩
  · refine kernelNonneg_of _ _ bathC_ready.sides bathC_ready.reaction.mass ?_
    intro M hM
    simp only [bathC, List.map_cons, List.map_nil, List.mem_cons, List.not_mem_nil, or_false] at hM
    subst hM
    refine ⟨by simp [toCM], by simp [toCM], by simp [toCM], ?_⟩
    change Function.Bijective ![0, 1, 2, 3]
    decide
  · unfold constant4 dofFactor
    have := Real.pi_pos
    simp [bathC, bathP, bathSp]
    positivity
  · simp [bathC, bathSp]

private noncomputable def bathC3 : Int3 ℕ :=
  { sp := fun i => bathSp (![0, 1, 2] i), st := fun i => bathSt (![0, 1, 2] i), side := ![-1, 1, 1],
    K := 3, majorana := true, mult := 1, kind := .full, neglect := false, min1 := 0, max1 := 2, max2 := 2,
    lb := 0, ub := 2, creationFast := false, br := none, num := 0, total := fun _ => 0 }

/-- The decay of the heavy lepton into two particles of the plasma, with the inverse decay. -/
example : ∃ C B, integrate3 bathC3 bathP [[2, 0], [1]] = .ok (.two C B) ∧ C.length = 3 ∧ B.length = 3 ∧
    ∀ (hC : 0 < C.length) (hB : 0 < B.length), C[0] = B[0] * (1 / 2 - thermal true 0 (100 * 1) 1) ∧ B[0] ≤ 0 := by
  have h : InBath3 bathC3 bathP 1 :=
    { aT := by norm_num [bathP]
      a := by norm_num [bathP]
      temp := one_pos
      kind := .inl rfl
      slow := rfl
      grid := by simp [bathC3, bathSp]
      inc := by
        change StrictInc [0, 1, 2]
        norm_num [StrictInc]
      nonneg := by
        intro g hg
        simp only [bathC3, bathSp, List.mem_cons, List.not_mem_nil, or_false] at hg
        rcases hg with rfl | rfl | rfl <;> norm_num
      bounds := by norm_num [bathC3]
      first := rfl
      second := .inl rfl
      last := rfl
      mass := fun i => bathC_ready.mass (![0, 1, 2] i)
      lighter := fun _ => by
        change (1 / 2 : ℝ) ≤ 100
        norm_num
      finite := fun i => .inl rfl
      bath := fun i hi => by
        fin_cases i
        · exact absurd rfl hi
        · simp [bathC3, inEq, bathSp, bathSt]
        · simp [bathC3, inEq, bathSp, bathSt] }
  obtain ⟨C, B, e, lC, lB, g⟩ := C113_three_returns bathC3 bathP 1 [[2, 0], [1]] h (by simp [bathC3, inEq, bathSt]) rfl (by
    intro s hcut t ht i hi
    have e : cutoff3 (bathC3.side 0 + bathC3.side 1 + bathC3.side 2) ((bathC3.sp 0).grid.map (· / bathP.aT))
        (bathC3.sp 0).grid bathC3.lb bathC3.ub bathP.aT = some ⟨[], (bathC3.sp 0).grid.map (· / bathP.aT), []⟩ := rfl
    rw [e] at hcut
    cases hcut
    have hl : ((bathC3.sp 0).grid.map (· / bathP.aT)).length = 3 := rfl
    change i < ((bathC3.sp 0).grid.map (· / bathP.aT)).length
    rw [hl]
    simp only [List.mem_cons, List.not_mem_nil, or_false] at ht
    rcases ht with rfl | rfl <;> simp at hi <;> omega)
  refine ⟨C, B, e, lC, lB, ?_⟩
  intro hC hB
  obtain ⟨g1, g2⟩ := g 0 (by simp [bathC3, bathSp]) hC hB
  exact ⟨g1, g2 (by norm_num [bathC3]) (by norm_num [bathC3, bathSp]) (by norm_num [bathC3]) (by norm_num [bathP])
    (by norm_num [bathP])⟩

end PyBBN
