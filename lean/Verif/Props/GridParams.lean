import Verif.Model.GridParams
import Verif.Model.Grids
import Verif.Model.Resample
import Verif.Props.Kinematics
import Verif.Props.Integrand
import Mathlib.Analysis.Real.Pi.Bounds
import Mathlib.Analysis.SpecialFunctions.Log.Basic
import Mathlib.Analysis.Complex.ExponentialBounds
/-!
# C95: the recommended grids

Specification: a resolution is a positive number not above the setting; the grid built from the parameters has a
spacing just above the resolution; what a decay at rest produces up to the largest scale factor lies on the grid.
-/
namespace PyBBN

theorem gridResHNL_pos {MeV : ℝ} (h : 0 < MeV) : 0 < gridResHNL MeV := by
  unfold gridResHNL
  have hp := Real.pi_gt_three
  have : 8 / Real.pi < 3 := by rw [div_lt_iff₀ (by linarith)]; linarith
  have : 0 < √(3 - 8 / Real.pi) := Real.sqrt_pos.mpr (by linarith)
  positivity

theorem cmMomentum_massless (M m : ℝ) : cmMomentum M 0 m = |M ^ 2 - m ^ 2| / (2 * M) := by
  unfold cmMomentum
  rw [show (M ^ 2 - 0 ^ 2 - m ^ 2) ^ 2 - (2 * 0 * m) ^ 2 = (M ^ 2 - m ^ 2) ^ 2 by ring, Real.sqrt_sq_eq_abs]

theorem cmMomentum_pos {M m : ℝ} (hM : 0 < M) (hm : 0 < m) (h : m ≠ M) : 0 < cmMomentum M 0 m := by
  rw [cmMomentum_massless]
  apply div_pos _ (by linarith)
  rw [abs_pos]
  intro e
  have : (M - m) * (M + m) = 0 := by linear_combination e
  rcases mul_eq_zero.mp this with e | e
  · exact h (by linarith)
  · linarith

/-- A meson is always found, and its mass is not the mass given. -/
theorem mesonBelow_ok (tbl : List ℚ) (hs : tbl.Pairwise (· < ·)) (q0 ql : ℚ) (h0 : tbl.head? = some q0)
    (hl : tbl.getLast? = some ql) (hpos : 0 < q0) (hlt : q0 < ql) (MeV mass : ℝ) (hM : 0 < MeV) (hm : q0 * MeV ≤ mass) :
    ∃ x, mesonBelow (tbl.map fun q : ℚ => (q : ℝ) * MeV) mass = .ok x ∧ 0 < x ∧ x ≠ mass := by
  have hinc : StrictInc (tbl.map fun q : ℚ => (q : ℝ) * MeV) := by
    unfold StrictInc
    rw [List.pairwise_map]
    exact hs.imp fun h => mul_lt_mul_of_pos_right (by exact_mod_cast h) hM
  have hall : ∀ x ∈ tbl.map fun q : ℚ => (q : ℝ) * MeV, 0 < x := by
    intro x hx
    obtain ⟨q, hq, rfl⟩ := List.mem_map.mp hx
    have : q0 ≤ q := by
      cases tbl with
      | nil => simp at hq
      | cons a l =>
        simp only [List.head?_cons, Option.some.injEq] at h0
        subst h0
        rcases List.mem_cons.mp hq with rfl | hq
        · exact le_rfl
        · exact ((List.pairwise_cons.mp hs).1 q hq).le
    have : (0 : ℝ) < q := by exact_mod_cast lt_of_lt_of_le hpos this
    positivity
  have hh : (tbl.map fun q : ℚ => (q : ℝ) * MeV).head? = some (q0 * MeV) := by rw [List.head?_map, h0]; rfl
  have hg : (tbl.map fun q : ℚ => (q : ℝ) * MeV).getLast? = some (ql * MeV) := by rw [List.getLast?_map, hl]; rfl
  rcases hm.lt_or_eq with hm | hm
  · obtain ⟨x, hx, he, hlt, -⟩ := C67_heaviest_below _ hinc _ mass hh hm
    exact ⟨x, he, hall x hx, hlt.ne⟩
  · refine ⟨_, C67_wraps _ hinc _ _ mass hh hg hm.symm.le, hall _ (List.mem_of_getLast? hg), ?_⟩
    rw [← hm]
    have : (q0 : ℝ) < ql := by exact_mod_cast hlt
    nlinarith

theorem mesonsNeutrino_sorted : mesonsNeutrino.Pairwise (· < ·) := by unfold mesonsNeutrino; norm_num
theorem mesonsMeson_sorted : mesonsMeson.Pairwise (· < ·) := by unfold mesonsMeson; norm_num

/-- **C95.** The neutrino resolution exists for every mass, is positive and not above the setting. -/
theorem C95_resolution_neutrino (MeV res mass : ℝ) (hM : 0 < MeV) (hr : 0 < res) :
    ∃ d, gridResNeutrino MeV res mass = .ok d ∧ 0 < d ∧ d ≤ res * MeV ∧
      (134.98 * MeV ≤ mass → d ≤ res * MeV / 3) := by
  have hrm : 0 < res * MeV := by positivity
  unfold gridResNeutrino
  by_cases h1 : mass < 134.98 * MeV
  · rw [if_pos h1]
    by_cases h2 : mass > 105.658 * MeV ∧ mass - 105.658 * MeV < 10 * MeV
    · rw [if_pos h2]
      exact ⟨_, rfl, by linarith, by linarith, fun h => absurd h (not_le.mpr h1)⟩
    · rw [if_neg h2]
      exact ⟨_, rfl, by linarith, by linarith, fun h => absurd h (not_le.mpr h1)⟩
  · rw [if_neg h1]
    have hm : 134.98 * MeV ≤ mass := not_lt.mp h1
    have hm0 : 0 < mass := by nlinarith
    obtain ⟨x, hx, hx0, hne⟩ := mesonBelow_ok mesonsNeutrino mesonsNeutrino_sorted 134.98 1019.46 rfl rfl (by norm_num)
      (by norm_num) MeV mass hM (by push_cast; exact hm)
    rw [hx]
    have hp := cmMomentum_pos hm0 hx0 hne
    have hd := gridResHNL_pos hM
    refine ⟨_, rfl, ?_, ?_, fun _ => min_le_right _ _⟩
    · exact lt_min (by positivity) (by positivity)
    · exact (min_le_right _ _).trans (by linarith)

/-- **C95.** The same for mesons; between an energy spread below threshold (nan) and a real one, no case is lost. -/
theorem C95_resolution_meson (MeV res mass : ℝ) (hM : 0 < MeV) (hr : 0 < res) :
    ∃ d, gridResMeson MeV res mass = .ok d ∧ 0 < d ∧ d ≤ res * MeV := by
  have hrm : 0 < res * MeV := by positivity
  unfold gridResMeson
  by_cases h1 : mass < 134.98 * MeV
  · rw [if_pos h1]
    exact ⟨_, rfl, hrm, le_rfl⟩
  · rw [if_neg h1]
    have hm : 134.98 * MeV ≤ mass := not_lt.mp h1
    obtain ⟨x, hx, hx0, hne⟩ := mesonBelow_ok mesonsMeson mesonsMeson_sorted 134.98 1019.46 rfl rfl (by norm_num)
      (by norm_num) MeV mass hM (by push_cast; exact hm)
    rw [hx]
    refine ⟨_, rfl, lt_min ?_ hrm, min_le_right _ _⟩
    split
    · split_ifs with hd
      · exact div_pos hd (by norm_num)
      · positivity
    · positivity

/-- The lepton spread, in units of MeV. -/
theorem lepton_spread (MeV : ℝ) (hM : 0 < MeV) :
    ∃ d, momentumSpread (√(cmMomentum (139.57 * MeV) 0 (105.658 * MeV) ^ 2 + (105.658 * MeV) ^ 2))
      (0.67 * √(139.57 * MeV * MeV * 0.5) * cmMomentum (139.57 * MeV) 0 (105.658 * MeV) / (139.57 * MeV))
      (105.658 * MeV) = some d ∧ 8 * MeV < d ∧ d < 10 * MeV := by
  set P : ℝ := (139.57 ^ 2 - 105.658 ^ 2) / (2 * 139.57) with hP
  have hcm : cmMomentum (139.57 * MeV) 0 (105.658 * MeV) = P * MeV := by
    rw [cmMomentum_massless, show (139.57 * MeV) ^ 2 - (105.658 * MeV) ^ 2 = (139.57 ^ 2 - 105.658 ^ 2) * MeV ^ 2 by ring,
      abs_of_pos (by positivity), hP]
    field_simp
  set E : ℝ := (139.57 ^ 2 + 105.658 ^ 2) / (2 * 139.57) with hE
  have hEe : √((P * MeV) ^ 2 + (105.658 * MeV) ^ 2) = E * MeV := by
    rw [show (P * MeV) ^ 2 + (105.658 * MeV) ^ 2 = (E * MeV) ^ 2 by rw [hP, hE]; ring]
    exact Real.sqrt_sq (by positivity)
  have hs : √(139.57 * MeV * MeV * 0.5) = √69.785 * MeV := by
    rw [show 139.57 * MeV * MeV * 0.5 = 69.785 * MeV ^ 2 by ring, Real.sqrt_mul (by norm_num), Real.sqrt_sq hM.le]
  have hr1 : 8.353 < √69.785 := Real.lt_sqrt_of_sq_lt (by norm_num)
  have hr2 : √69.785 < 8.354 := by rw [Real.sqrt_lt' (by norm_num)]; norm_num
  rw [hcm, hEe, hs]
  set s : ℝ := 0.67 * √69.785 * P / 139.57 with hsd
  have hsc : s = √69.785 * (0.67 * P / 139.57) := by rw [hsd]; ring
  have hc : 0.67 * P / 139.57 = 17411984991 / 121748655625 := by rw [hP]; norm_num
  rw [hc] at hsc
  have hs1 : 1.194 < s := by rw [hsc]; linarith
  have hs2 : s < 1.195 := by rw [hsc]; linarith
  have hS : 0.67 * (√69.785 * MeV) * (P * MeV) / (139.57 * MeV) = s * MeV := by rw [hsd]; field_simp
  rw [hS]
  have hE1 : 109.777 < E := by rw [hE]; norm_num
  have hE2 : E < 109.778 := by rw [hE]; norm_num
  have ea : (E * MeV + s * MeV) ^ 2 - (105.658 * MeV) ^ 2 = ((E + s) ^ 2 - 105.658 ^ 2) * MeV ^ 2 := by ring
  have eb : (E * MeV - s * MeV) ^ 2 - (105.658 * MeV) ^ 2 = ((E - s) ^ 2 - 105.658 ^ 2) * MeV ^ 2 := by ring
  have a1 : 33.9 ^ 2 < (E + s) ^ 2 - 105.658 ^ 2 := by nlinarith
  have a2 : (E + s) ^ 2 - 105.658 ^ 2 < 34 ^ 2 := by nlinarith
  have b1 : 25 ^ 2 < (E - s) ^ 2 - 105.658 ^ 2 := by nlinarith
  have b2 : (E - s) ^ 2 - 105.658 ^ 2 < 25.1 ^ 2 := by nlinarith
  have na : ¬ ((E + s) ^ 2 - 105.658 ^ 2) * MeV ^ 2 < 0 := by
    rw [not_lt]; have : (0:ℝ) < (E + s) ^ 2 - 105.658 ^ 2 := by linarith
    positivity
  have nb : ¬ ((E - s) ^ 2 - 105.658 ^ 2) * MeV ^ 2 < 0 := by
    rw [not_lt]; have : (0:ℝ) < (E - s) ^ 2 - 105.658 ^ 2 := by linarith
    positivity
  have va : √(((E + s) ^ 2 - 105.658 ^ 2) * MeV ^ 2) = √((E + s) ^ 2 - 105.658 ^ 2) * MeV := by
    rw [Real.sqrt_mul (by linarith), Real.sqrt_sq hM.le]
  have vb : √(((E - s) ^ 2 - 105.658 ^ 2) * MeV ^ 2) = √((E - s) ^ 2 - 105.658 ^ 2) * MeV := by
    rw [Real.sqrt_mul (by linarith), Real.sqrt_sq hM.le]
  have la : 33.9 < √((E + s) ^ 2 - 105.658 ^ 2) := Real.lt_sqrt_of_sq_lt a1
  have ua : √((E + s) ^ 2 - 105.658 ^ 2) < 34 := by rw [Real.sqrt_lt' (by norm_num)]; exact a2
  have lb : 25 < √((E - s) ^ 2 - 105.658 ^ 2) := Real.lt_sqrt_of_sq_lt b1
  have ub : √((E - s) ^ 2 - 105.658 ^ 2) < 25.1 := by rw [Real.sqrt_lt' (by norm_num)]; exact b2
  refine ⟨√((E + s) ^ 2 - 105.658 ^ 2) * MeV - √((E - s) ^ 2 - 105.658 ^ 2) * MeV, ?_, ?_, ?_⟩
  · unfold momentumSpread npSqrt
    rw [ea, eb, if_neg na, if_neg nb, va, vb]
    rfl
  · rw [← sub_mul]; apply mul_lt_mul_of_pos_right _ hM; linarith
  · rw [← sub_mul]; apply mul_lt_mul_of_pos_right _ hM; linarith

/-- **C95.** The same for leptons, with the value: up to a setting of 8 (the setting is 0.24999) the spread computed for
products of pions is never used. -/
theorem C95_resolution_lepton (MeV res mass : ℝ) (std : Bool) (hM : 0 < MeV) (hr : 0 < res) :
    ∃ d, gridResLepton MeV res mass std = some d ∧ 0 < d ∧ d ≤ res * MeV ∧
      (res ≤ 8 → d = res * MeV ∨ d = res * MeV / 2 ∧ 105.658 * MeV < mass ∧ mass < 115.658 * MeV) := by
  have hrm : 0 < res * MeV := by positivity
  unfold gridResLepton
  by_cases h1 : mass < 139.57 * MeV ∨ std = true
  · rw [if_pos h1]
    by_cases h2 : mass > 105.658 * MeV ∧ mass - 105.658 * MeV < 10 * MeV
    · rw [if_pos h2]
      exact ⟨_, rfl, by linarith, by linarith, fun _ => Or.inr ⟨rfl, h2.1, by linarith [h2.2]⟩⟩
    · rw [if_neg h2]
      exact ⟨_, rfl, hrm, le_rfl, fun _ => Or.inl rfl⟩
  · rw [if_neg h1]
    obtain ⟨d, hd, l1, l2⟩ := lepton_spread MeV hM
    dsimp only
    rw [hd]
    refine ⟨min d (res * MeV), rfl, lt_min (by linarith) hrm, min_le_right _ _, fun h => Or.inl ?_⟩
    apply min_eq_right
    have : res * MeV ≤ 8 * MeV := by gcongr
    linarith

/-! ## Number of samples -/

/-- The spacing of the grid built from `N` samples up to `mx`, `N` being `int(mx / d)`: above the resolution `d`, by at
most two parts in `N - 1`. -/
def JustAbove (defMax : ℝ) (defN : ℕ) (N : ℤ) (mx d : ℝ) : Prop :=
  ∀ i : ℕ, ∀ u v : ℝ, (linearSpacedGrid defMax defN (some N.toNat) (some mx)).template[i]? = some u →
    (linearSpacedGrid defMax defN (some N.toNat) (some mx)).template[i + 1]? = some v →
    d < v - u ∧ v - u < d * (1 + 2 / ((N : ℝ) - 1))

theorem justAbove (defMax : ℝ) (defN : ℕ) (mx d : ℝ) (hd : 0 < d) (hmx : 0 < mx) (N : ℤ) (hN : pyInt (some (mx / d)) = .ok N)
    (h2 : 2 ≤ N) : JustAbove defMax defN N mx d ∧ d < mx / ((N : ℝ) - 1) ∧ mx / ((N : ℝ) - 1) < d * (1 + 2 / ((N : ℝ) - 1)) := by
  unfold pyInt at hN
  dsimp only at hN
  rw [if_pos (by positivity)] at hN
  have hN : ⌊mx / d⌋ = N := by simpa using hN
  have l1 : (N : ℝ) ≤ mx / d := by rw [← hN]; exact Int.floor_le _
  have l2 : mx / d < N + 1 := by rw [← hN]; exact Int.lt_floor_add_one _
  rw [le_div_iff₀ hd] at l1
  rw [div_lt_iff₀ hd] at l2
  have hNr : (2 : ℝ) ≤ N := by exact_mod_cast h2
  have b1 : d < mx / ((N : ℝ) - 1) := by rw [lt_div_iff₀ (by linarith)]; nlinarith
  have b2 : mx / ((N : ℝ) - 1) < d * (1 + 2 / ((N : ℝ) - 1)) := by
    have h1 : (0 : ℝ) < N - 1 := by linarith
    rw [div_lt_iff₀ h1, mul_assoc, add_mul, div_mul_cancel₀ _ h1.ne']
    linarith
  refine ⟨?_, b1, b2⟩
  intro i u v hu hv
  have hne : N.toNat ≠ 0 := by omega
  have hcast : (((N.toNat - 1 : ℕ) : ℕ) : ℝ) = (N : ℝ) - 1 := by
    have h1 : ((N.toNat - 1 : ℕ) : ℤ) = N - 1 := by omega
    have : (((N.toNat - 1 : ℕ) : ℤ) : ℝ) = ((N - 1 : ℤ) : ℝ) := by rw [h1]
    push_cast at this
    exact this
  have ht : (linearSpacedGrid defMax defN (some N.toNat) (some mx)).template = linspace 0 mx N.toNat := by
    unfold linearSpacedGrid orDefault
    dsimp only
    rw [if_neg hne, if_neg hmx.ne']
  rw [ht] at hu hv
  unfold linspace at hu hv
  rw [List.getElem?_map] at hu hv
  have hi : i + 1 < N.toNat := by
    by_contra hc
    rw [List.getElem?_eq_none (by simpa using not_lt.mp hc)] at hv
    simp at hv
  rw [List.getElem?_range (by omega)] at hu hv
  simp only [Option.map_some, Option.some.injEq, hcast, sub_zero, zero_add] at hu hv
  have : v - u = mx / ((N : ℝ) - 1) := by rw [← hu, ← hv]; push_cast; ring
  rw [this]
  exact ⟨b1, b2⟩

/-- **C95.** The neutrino grid: parameters exist for every positive mass, the spacing is just above the resolution; the
collision integrals are interpolated on it (C94) exactly for masses above the muon threshold that ask for a
resolution below the setting. -/
theorem C95_neutrino (MeV res msf mass last defMax : ℝ) (defN : ℕ) (hM : 0 < MeV) (hr : 0 < res) (hs : 0 < msf) (hm : 0 < mass) :
    ∃ (N : ℤ) (d : ℝ), gridParamsNeutrino MeV res msf mass = .ok (N, mass * msf) ∧ gridResNeutrino MeV res mass = .ok d ∧
      0 ≤ N ∧ (2 ≤ N → JustAbove defMax defN N (mass * msf) d) ∧
      (2 ≤ N → mass ≤ 105.658 * MeV → interpSteps (mass * msf) N.toNat last (res * MeV) = none) ∧
      (4 ≤ N → (105.658 * MeV < mass ∧ mass < 115.658 * MeV ∨ 134.98 * MeV ≤ mass) →
        ∃ n, interpSteps (mass * msf) N.toNat last (res * MeV) = some n) := by
  obtain ⟨d, hd, hd0, hd1, hd2⟩ := C95_resolution_neutrino MeV res mass hM hr
  have hmx : 0 < mass * msf := by positivity
  have hint : pyInt (some (mass * msf / d)) = .ok ⌊mass * msf / d⌋ := by
    unfold pyInt; dsimp only; rw [if_pos (by positivity)]
  have hcast : ∀ N : ℤ, 2 ≤ N → (((N.toNat : ℕ) : ℝ) - 1) = (N : ℝ) - 1 := by
    intro N h
    have h1 : ((N.toNat : ℕ) : ℤ) = N := by omega
    have : (((N.toNat : ℕ) : ℤ) : ℝ) = (N : ℝ) := by rw [h1]
    push_cast at this
    rw [this]
  refine ⟨⌊mass * msf / d⌋, d, ?_, hd, Int.floor_nonneg.mpr (by positivity), fun h => (justAbove defMax defN _ _ hd0 hmx _ hint h).1, ?_, ?_⟩
  · unfold gridParamsNeutrino
    simp only [bind, Except.bind, hd, hint]
  · intro h hmu
    obtain ⟨-, b1, -⟩ := justAbove defMax defN _ _ hd0 hmx _ hint h
    unfold interpSteps
    rw [hcast _ h, if_neg]
    have : d = res * MeV := by
      unfold gridResNeutrino at hd
      rw [if_pos (by nlinarith), if_neg (by rintro ⟨h, -⟩; linarith)] at hd
      simpa using hd.symm
    linarith
  · intro h hmu
    obtain ⟨-, -, b2⟩ := justAbove defMax defN _ _ hd0 hmx _ hint (by omega)
    unfold interpSteps
    rw [hcast _ (by omega), if_pos]
    · exact ⟨_, rfl⟩
    · have hd' : d ≤ res * MeV / 2 := by
        rcases hmu with ⟨h1, h2⟩ | h1
        · unfold gridResNeutrino at hd
          rw [if_pos (by nlinarith), if_pos ⟨h1, by linarith⟩] at hd
          have : res * MeV / 2 = d := by simpa using hd
          exact this.ge
        · have : 0 < res * MeV := by positivity
          linarith [hd2 h1]
      have h4 : (4 : ℝ) ≤ (⌊mass * msf / d⌋ : ℝ) := by exact_mod_cast h
      have : 2 / ((⌊mass * msf / d⌋ : ℝ) - 1) < 1 := by rw [div_lt_one (by linarith)]; linarith
      nlinarith

/-- **C95.** Mesons. -/
theorem C95_meson (MeV res msf maxMeV mass defMax : ℝ) (defN : ℕ) (hM : 0 < MeV) (hr : 0 < res) (hs : 0 < msf)
    (hx : 0 < maxMeV) :
    ∃ (N : ℤ) (d mx : ℝ), gridParamsMeson MeV res msf maxMeV mass = .ok (N, mx) ∧ gridResMeson MeV res mass = .ok d ∧
      0 < mx ∧ 0 ≤ N ∧ (2 ≤ N → JustAbove defMax defN N mx d) ∧
      -- a product heavier than the neutral pion of a decay at rest
      (134.98 * MeV ≤ mass → ∀ m q a : ℝ, 134.98 * MeV ≤ m → 0 ≤ q → energyOf m q + q ≤ mass → 0 ≤ a → a ≤ msf → q * a ≤ mx) := by
  obtain ⟨d, hd, hd0, hd1⟩ := C95_resolution_meson MeV res mass hM hr
  set mx : ℝ := if mass < 134.98 * MeV then maxMeV * MeV
    else if mass - 134.98 * MeV < 0.35 * MeV then 10 * msf * MeV
    else √(mass ^ 2 - (134.98 * MeV) ^ 2) * msf with hmxd
  have hmx : 0 < mx := by
    rw [hmxd]
    split_ifs with h1 h2
    · positivity
    · positivity
    · have : 0 < mass ^ 2 - (134.98 * MeV) ^ 2 := by nlinarith
      have := Real.sqrt_pos.mpr this
      positivity
  have hint : pyInt (some (mx / d)) = .ok ⌊mx / d⌋ := by
    unfold pyInt; dsimp only; rw [if_pos (by positivity)]
  refine ⟨⌊mx / d⌋, d, mx, ?_, hd, hmx, Int.floor_nonneg.mpr (by positivity), fun h => (justAbove defMax defN _ _ hd0 hmx _ hint h).1, ?_⟩
  · unfold gridParamsMeson
    dsimp only
    rw [← hmxd]
    simp only [bind, Except.bind, hd, hint]
  · intro hge m q a hmm hq he ha has
    have hm0 : 0 ≤ m := by nlinarith
    have hEm : m ≤ energyOf m q := by
      unfold energyOf; exact Real.le_sqrt_of_sq_le (by nlinarith)
    have hsq : energyOf m q ^ 2 = q ^ 2 + m ^ 2 := by unfold energyOf; exact Real.sq_sqrt (by positivity)
    rw [hmxd, if_neg (not_lt.mpr hge)]
    split_ifs with h2
    · have : q ≤ 10 * MeV := by nlinarith
      calc q * a ≤ (10 * MeV) * msf := by gcongr
        _ = _ := by ring
    · have : q ≤ √(mass ^ 2 - (134.98 * MeV) ^ 2) := by
        apply Real.le_sqrt_of_sq_le
        have h3 : energyOf m q ≤ mass := by linarith
        nlinarith
      gcongr

/-- **C95.** Leptons. -/
theorem C95_lepton (MeV res msf mass defMax : ℝ) (std : Bool) (defN : ℕ) (hM : 0 < MeV) (hr : 0 < res) (hs : 0 < msf) (hm : 0 < mass) :
    ∃ (N : ℤ) (d mx : ℝ), gridParamsLepton MeV res msf mass std = .ok (N, mx) ∧ gridResLepton MeV res mass std = some d ∧
      0 < mx ∧ 0 ≤ N ∧ (2 ≤ N → JustAbove defMax defN N mx d) ∧
      -- a muon (or anything heavier) from a decay at rest
      (105.658 * MeV ≤ mass → ∀ m q a : ℝ, 105.658 * MeV ≤ m → 0 ≤ q → energyOf m q + q ≤ mass → 0 ≤ a → a ≤ msf → q * a ≤ mx) := by
  obtain ⟨d, hd, hd0, hd1, -⟩ := C95_resolution_lepton MeV res mass std hM hr
  set mx : ℝ := if mass < 105.658 * MeV ∨ std = true then mass * msf
    else if mass - 105.658 * MeV < 0.35 * MeV then 10 * msf * MeV
    else √(mass ^ 2 - (105.658 * MeV) ^ 2) * msf with hmxd
  have hmx : 0 < mx := by
    rw [hmxd]
    split_ifs with h1 h2
    · positivity
    · positivity
    · have : 0 < mass ^ 2 - (105.658 * MeV) ^ 2 := by nlinarith
      have := Real.sqrt_pos.mpr this
      positivity
  have hint : pyInt (some (mx / d)) = .ok ⌊mx / d⌋ := by
    unfold pyInt; dsimp only; rw [if_pos (by positivity)]
  refine ⟨⌊mx / d⌋, d, mx, ?_, hd, hmx, Int.floor_nonneg.mpr (by positivity), fun h => (justAbove defMax defN _ _ hd0 hmx _ hint h).1, ?_⟩
  · unfold gridParamsLepton
    dsimp only
    rw [← hmxd, hd]
    simp only [Option.map_some, bind, Except.bind, hint]
  · intro hge m q a hmm hq he ha has
    have hm0 : 0 ≤ m := by nlinarith
    have hEm : m ≤ energyOf m q := by
      unfold energyOf; exact Real.le_sqrt_of_sq_le (by nlinarith)
    have hsq : energyOf m q ^ 2 = q ^ 2 + m ^ 2 := by unfold energyOf; exact Real.sq_sqrt (by positivity)
    have hqm : q ≤ mass := by linarith
    rw [hmxd]
    split_ifs with h1 h2
    · gcongr
    · have : q ≤ 10 * MeV := by nlinarith
      calc q * a ≤ (10 * MeV) * msf := by gcongr
        _ = _ := by ring
    · have : q ≤ √(mass ^ 2 - (105.658 * MeV) ^ 2) := by
        apply Real.le_sqrt_of_sq_le
        have h3 : energyOf m q ≤ mass := by linarith
        nlinarith
      gcongr

/-! ## The grid of the heavy neutrino -/

theorem log_ten_bounds : 2.3022 < Real.log 10 ∧ Real.log 10 < 2.30266 := by
  have l1 := Real.log_two_gt_d9
  have l2 := Real.log_two_lt_d9
  have h1 : 93 * Real.log 2 < 28 * Real.log 10 := by
    have : Real.log ((2 : ℝ) ^ 93) < Real.log ((10 : ℝ) ^ 28) := Real.log_lt_log (by norm_num) (by norm_num)
    rw [Real.log_pow, Real.log_pow] at this
    push_cast at this
    exact this
  have h2 : 59 * Real.log 10 < 196 * Real.log 2 := by
    have : Real.log ((10 : ℝ) ^ 59) < Real.log ((2 : ℝ) ^ 196) := Real.log_lt_log (by norm_num) (by norm_num)
    rw [Real.log_pow, Real.log_pow] at this
    push_cast at this
    exact this
  constructor <;> linarith

/-- **C95.** The grid of a heavy neutrino of any mass and mixing has 341 samples up to 230.2 or so conformal MeV, and ends
where the thermal occupation at decoupling is 10⁻¹⁰⁰. -/
theorem C95_HNL (MeV mass theta muon lam Mp GF : ℝ) (hM : 0 < MeV) (hm : 0 < mass) :
    ∃ mx, gridParamsHNL MeV mass (decouplingTemperature mass theta muon lam Mp GF).1 = .ok (341, mx) ∧
      230.2 * MeV < mx ∧ mx < 230.3 * MeV ∧
      Real.exp (-(energyOf (mass * (MeV / (decouplingTemperature mass theta muon lam Mp GF).1)) mx / MeV)) = 1e-100 := by
  have hT := C48_at_least_mass mass theta muon lam Mp GF hm.le
  set T := (decouplingTemperature mass theta muon lam Mp GF).1 with hTd
  have hT0 : 0 < T := by linarith
  obtain ⟨g1, g2⟩ := log_ten_bounds
  have hlog : Real.log 1e100 = 100 * Real.log 10 := by
    rw [show (1e100 : ℝ) = 10 ^ 100 by norm_num, Real.log_pow]; norm_num
  set r := mass / T with hr
  have hr0 : 0 < r := by positivity
  have hr1 : r ≤ 1 := by rw [hr, div_le_one hT0]; exact hT
  have hma : mass * (1 * MeV / T) = r * MeV := by rw [hr]; ring
  set L := 100 * Real.log 10 with hL
  have hL1 : 230.22 < L := by rw [hL]; linarith
  have hL2 : L < 230.266 := by rw [hL]; linarith
  have harg : (1 * MeV * Real.log 1e100) ^ 2 - (mass * (1 * MeV / T)) ^ 2 = (L ^ 2 - r ^ 2) * MeV ^ 2 := by
    rw [hlog, hma]; ring
  have hpos : 0 < L ^ 2 - r ^ 2 := by nlinarith
  set mx := √(L ^ 2 - r ^ 2) * MeV with hmx
  have hsq : npSqrt ((1 * MeV * Real.log 1e100) ^ 2 - (mass * (1 * MeV / T)) ^ 2) = some mx := by
    unfold npSqrt
    rw [harg, if_neg (not_lt.mpr (by positivity)), Real.sqrt_mul hpos.le, Real.sqrt_sq hM.le]
  have k1 : 230.21 < √(L ^ 2 - r ^ 2) := Real.lt_sqrt_of_sq_lt (by nlinarith)
  have k2 : √(L ^ 2 - r ^ 2) < 230.266 := by rw [Real.sqrt_lt' (by norm_num)]; nlinarith
  have p1 := Real.pi_gt_d4
  have p2 := Real.pi_lt_d4
  have hp0 := Real.pi_pos
  have q1 : 0.6733 < √(3 - 8 / Real.pi) := by
    apply Real.lt_sqrt_of_sq_lt
    have : 8 / Real.pi < 2.5466 := by rw [div_lt_iff₀ hp0]; nlinarith
    norm_num; linarith
  have q2 : √(3 - 8 / Real.pi) < 0.6750 := by
    rw [Real.sqrt_lt' (by norm_num)]
    have : 2.5464 < 8 / Real.pi := by rw [lt_div_iff₀ hp0]; nlinarith
    norm_num; linarith
  have hint : pyInt (some (mx / gridResHNL MeV)) = .ok 341 := by
    unfold pyInt
    have hg := gridResHNL_pos hM
    dsimp only
    rw [if_pos (by positivity)]
    congr 1
    rw [Int.floor_eq_iff, hmx]
    unfold gridResHNL
    rw [one_mul, mul_div_mul_right _ _ hM.ne', le_div_iff₀ (by linarith), div_lt_iff₀ (by linarith)]
    push_cast
    constructor <;> nlinarith
  refine ⟨mx, ?_, ?_, ?_, ?_⟩
  · unfold gridParamsHNL
    dsimp only
    rw [hsq]
    simp only [bind, Except.bind, hint]
  · rw [hmx]; apply mul_lt_mul_of_pos_right _ hM; linarith
  · rw [hmx]; apply mul_lt_mul_of_pos_right _ hM; linarith
  · have he : energyOf (mass * (MeV / T)) mx = L * MeV := by
      unfold energyOf
      rw [show mass * (MeV / T) = r * MeV by rw [hr]; ring, hmx, mul_pow, Real.sq_sqrt hpos.le,
        show (L ^ 2 - r ^ 2) * MeV ^ 2 + (r * MeV) ^ 2 = (L * MeV) ^ 2 by ring]
      exact Real.sqrt_sq (by positivity)
    rw [he, mul_div_cancel_right₀ _ hM.ne', ← hlog, Real.exp_neg, Real.exp_log (by norm_num)]
    norm_num

/-- **C95.** Where the recommendation is no grid: for masses below `res / msf` the number of samples is 0, which the grid
constructor takes for "not given" and replaces by the default number. -/
theorem C95_tiny_mass (MeV res msf mass defMax : ℝ) (defN : ℕ) (hM : 0 < MeV) (hr : 0 < res) (hs : 0 < msf) (hm : 0 < mass)
    (h1 : mass ≤ 105.658 * MeV) (h2 : mass * msf < res * MeV) :
    gridParamsNeutrino MeV res msf mass = .ok (0, mass * msf) ∧
      (linearSpacedGrid defMax defN (some 0) (some (mass * msf))).samples = defN := by
  have hd : gridResNeutrino MeV res mass = .ok (res * MeV) := by
    unfold gridResNeutrino
    rw [if_pos (by nlinarith), if_neg (by rintro ⟨h, -⟩; linarith)]
  have hrm : 0 < res * MeV := by positivity
  constructor
  · unfold gridParamsNeutrino
    have hint : pyInt (some (mass * msf / (res * MeV))) = .ok 0 := by
      unfold pyInt
      dsimp only
      rw [if_pos (by positivity)]
      congr 1
      rw [Int.floor_eq_zero_iff, Set.mem_Ico]
      exact ⟨by positivity, by rwa [div_lt_one hrm]⟩
    simp only [bind, Except.bind, hd, hint]
  · unfold linearSpacedGrid orDefault
    simp

/-- The default settings and a mass of 100 MeV: 4000 samples up to 1000 MeV. -/
example : gridParamsNeutrino 1 0.24999 10 100 = .ok (4000, 100 * 10) := by
  obtain ⟨N, d, h1, h2, -⟩ := C95_neutrino 1 0.24999 10 100 0 100 401 one_pos (by norm_num) (by norm_num) (by norm_num)
  have hd : gridResNeutrino 1 0.24999 100 = .ok (0.24999 * 1) := by
    unfold gridResNeutrino
    rw [if_pos (by norm_num), if_neg (by norm_num)]
  unfold gridParamsNeutrino
  have hint : pyInt (some ((100 : ℝ) * 10 / (0.24999 * 1))) = .ok 4000 := by
    unfold pyInt
    dsimp only
    rw [if_pos (by norm_num)]
    congr 1
    rw [Int.floor_eq_iff]
    norm_num
  simp only [bind, Except.bind, hd, hint]

/-- A pion of momentum 50 MeV from a particle of 250 MeV is on the grid at scale factor 10. -/
example : ∃ (N : ℤ) (mx : ℝ), gridParamsMeson 1 0.24999 10 100 250 = .ok (N, mx) ∧ 50 * 10 ≤ mx := by
  obtain ⟨N, d, mx, h1, -, -, -, -, h⟩ := C95_meson 1 0.24999 10 100 250 100 401 one_pos (by norm_num) (by norm_num) (by norm_num)
  refine ⟨N, mx, h1, h (by norm_num) 134.98 50 10 (by norm_num) (by norm_num) ?_ (by norm_num) le_rfl⟩
  have : energyOf 134.98 50 ≤ 200 := by
    unfold energyOf; rw [Real.sqrt_le_left (by norm_num)]; norm_num
  linarith

/-- The meson resolution just above the threshold of the charged pion: the spread is nan and a ninth of the setting is
returned. -/
example : gridResMeson 1 0.24999 139.571 = .ok (0.24999 / 9) := by
  have hb : mesonBelow (mesonsMeson.map fun q : ℚ => (q : ℝ) * 1) 139.571 = .ok 139.57 := by
    unfold mesonBelow mesonsMeson searchsortedLeft pyGet pyIndex
    norm_num [List.takeWhile]
  unfold gridResMeson
  rw [if_neg (by norm_num), hb]
  have hcm : cmMomentum 139.571 0 139.57 = (139.571 ^ 2 - 139.57 ^ 2) / (2 * 139.571) := by
    rw [cmMomentum_massless, abs_of_pos (by norm_num)]
  have hE : √(cmMomentum 139.571 0 139.57 ^ 2 + 139.57 ^ 2) = (139.571 ^ 2 + 139.57 ^ 2) / (2 * 139.571) := by
    rw [hcm, Real.sqrt_eq_iff_mul_self_eq (by norm_num) (by norm_num)]
    norm_num
  have hq1 : (0.5 : ℝ) < gridResHNL 1 := by
    unfold gridResHNL
    have : (0.5 : ℝ) < √(3 - 8 / Real.pi) := by
      apply Real.lt_sqrt_of_sq_lt
      have : 8 / Real.pi < 2.7 := by rw [div_lt_iff₀ Real.pi_pos]; linarith [Real.pi_gt_three]
      norm_num; linarith
    linarith
  have hq2 : gridResHNL 1 < 1 := by
    unfold gridResHNL
    have : √(3 - 8 / Real.pi) < 1 := by
      rw [Real.sqrt_lt' (by norm_num)]
      have : 2 < 8 / Real.pi := by rw [lt_div_iff₀ Real.pi_pos]; linarith [Real.pi_le_four, Real.pi_lt_d4]
      linarith
    linarith
  have hn : momentumSpread (√(cmMomentum 139.571 0 139.57 ^ 2 + 139.57 ^ 2))
      (gridResHNL 1 * cmMomentum 139.571 0 139.57 / 139.571) 139.57 = none := by
    unfold momentumSpread
    have : npSqrt ((√(cmMomentum 139.571 0 139.57 ^ 2 + 139.57 ^ 2)
        - gridResHNL 1 * cmMomentum 139.571 0 139.57 / 139.571) ^ 2 - 139.57 ^ 2) = none := by
      unfold npSqrt
      rw [if_pos]
      rw [hE, hcm]
      norm_num
      nlinarith
    rw [this]
    cases npSqrt ((√(cmMomentum 139.571 0 139.57 ^ 2 + 139.57 ^ 2)
        + gridResHNL 1 * cmMomentum 139.571 0 139.57 / 139.571) ^ 2 - 139.57 ^ 2) <;> rfl
  simp only [bind, Except.bind, hn]
  norm_num

end PyBBN
