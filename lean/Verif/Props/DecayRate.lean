import Verif.Model.Assembly
import Verif.Props.Limits
import Verif.Props.Schedule
import Verif.Props.Integrand
import Mathlib.MeasureTheory.Integral.IntervalIntegral.FundThmCalculus
/-!
# C86: two-body decay rates

Specification: a particle of mass `M` and energy `E` decaying through a constant squared amplitude
`K` into particles of masses `m₁`, `m₂` disappears at the rate `Γ M/E`, with the textbook width
`Γ = K k/(8π M²)` and `k` the momentum of the products at rest.
-/
namespace PyBBN

/-- A species whose occupation can be looked up at every momentum. -/
def Readable (s : CParticle) : Prop := ∀ p, 0 ≤ p → ∃ f, occAt s p = .ok f

/-- Value of an integrand that does not raise. -/
noncomputable def valOf : Except Err ℝ → ℝ
  | .ok v => v
  | .error _ => 0

theorem exactQuad3_eq (r : Fin 3 → Reactant) (kind : ℤ) (p0 lo hi : ℝ) :
    exactQuad3 r kind p0 lo hi = .ok (∫ p1 in lo..hi, valOf (integrandFull3 p0 p1 kind r)) := by
  unfold exactQuad3 valOf
  congr 1

/-- The three-particle integrand in the interior of the allowed region. -/
theorem integrand3_inside (r : Fin 3 → Reactant) (p0 p1 : ℝ) (kind : ℤ) (f : Fin 3 → ℝ) (F : ℝ)
    (h0 : 0 < p0) (h1 : 0 < p1) (hE : (r 2).specie.m ≤ lastEnergy3 r p0 p1)
    (hb : inBounds3 (momenta3 r p0 p1) = 2)
    (hocc : ∀ i, occAt (r i).specie (momenta3 r p0 p1 i) = .ok (f i))
    (hF : kindFactor (Kind.ofInt kind) [r 0, r 1, r 2] [f 0, f 1, f 2] = .ok F) :
    integrandFull3 p0 p1 kind r =
      .ok (2 * deriv (energyOf (r 1).specie.m) p1 / (p0 * energyOf (r 0).specie.m p0) * F) := by
  have e1 : 0 < energy p1 (r 1).specie.m := lt_of_lt_of_le h1 (le_energy _ _)
  have hj : (if (r 1).specie.m ≠ 0 then p1 / energy p1 (r 1).specie.m else 1) =
      deriv (energyOf (r 1).specie.m) p1 := by
    rw [energyOf_deriv _ _ h1, energyOf_eq]
    split_ifs with h
    · rfl
    · push Not at h
      rw [h, energy_massless _ h1.le, div_self h1.ne']
  have hf : factor3 r p0 p1 =
      2 * deriv (energyOf (r 1).specie.m) p1 / (p0 * energyOf (r 0).specie.m p0) := by
    unfold factor3
    rw [if_neg (not_lt.mpr hE), if_neg h0.ne', hb, energyOf_eq, ← hj]
    ring
  have hne : factor3 r p0 p1 ≠ 0 := by
    rw [hf, energyOf_deriv _ _ h1, energyOf_eq, energyOf_eq]
    have e0 : 0 < energy p0 (r 0).specie.m := lt_of_lt_of_le h0 (le_energy _ _)
    positivity
  unfold integrandFull3
  rw [if_neg hne]
  have o0 := hocc 0
  have o1 := hocc 1
  have o2 := hocc 2
  simp only [o0, o1, o2, bind, Except.bind]
  rw [hF, hf]

/-- Momentum of the products of a two-body decay at rest. -/
noncomputable def restMomentum (M m1 m2 : ℝ) : ℝ :=
  √((M ^ 2 - (m1 + m2) ^ 2) * (M ^ 2 - (m1 - m2) ^ 2)) / (2 * M)

theorem restMomentum_eq (M m1 m2 : ℝ) (hM : 0 < M) : p1Bounds1 M m1 m2 = restMomentum M m1 m2 := by
  unfold p1Bounds1 restMomentum
  rw [if_neg hM.ne']
  congr 2
  ring

/-- Difference of the energies of the first product at the two limits. -/
theorem limits3_energy {m0 m1 m2 p0 : ℝ} (hm0 : 0 < m0) (hm1 : 0 ≤ m1) (hm2 : 0 ≤ m2)
    (hopen : m1 + m2 ≤ m0) (h0 : 0 < p0) :
    let lo := max (p1Bounds3 m0 m1 m2 p0 1 1) (-p1Bounds3 m0 m1 m2 p0 1 1)
    let hi := p1Bounds3 m0 m1 m2 p0 (-1) 1
    0 ≤ lo ∧ lo ≤ hi ∧
    energyOf m1 hi - energyOf m1 lo = 2 * p0 * restMomentum m0 m1 m2 / m0 := by
  intro lo hi
  have hR := bounds3_rad_nonneg (p0 := p0) hm0.le hm1 hm2 (Or.inl hopen)
  have hE2 := energy_sq p0 m0
  have hE := energy_nonneg p0 m0
  have hEp := le_energy p0 m0
  set E := energy p0 m0 with hEdef
  set A := m0 ^ 2 + m1 ^ 2 - m2 ^ 2 with hA
  set L := (m0 ^ 2 - (m1 + m2) ^ 2) * (m0 ^ 2 - (m1 - m2) ^ 2) with hL
  have hL0 : 0 ≤ L := by
    have a : 0 ≤ m0 ^ 2 - (m1 + m2) ^ 2 := by nlinarith
    have b : 0 ≤ m0 ^ 2 - (m1 - m2) ^ 2 := by nlinarith
    exact mul_nonneg a b
  have hLA : L = A ^ 2 - 4 * m0 ^ 2 * m1 ^ 2 := by rw [hL, hA]; ring
  have hA0 : 0 ≤ A := by rw [hA]; nlinarith
  have hLs : √L ≤ A := by
    rw [Real.sqrt_le_left hA0, hLA]; nlinarith [sq_nonneg (m0 * m1)]
  have hs := Real.sq_sqrt hL0
  have hs0 := Real.sqrt_nonneg L
  have hroot : √((p0 ^ 2 + m0 ^ 2) * (m1 ^ 4 + (m2 ^ 2 - m0 ^ 2) ^ 2 - 2 * m1 ^ 2 * (m2 ^ 2 + m0 ^ 2))) =
      E * √L := by
    rw [show (p0 ^ 2 + m0 ^ 2) * (m1 ^ 4 + (m2 ^ 2 - m0 ^ 2) ^ 2 - 2 * m1 ^ 2 * (m2 ^ 2 + m0 ^ 2)) =
      E ^ 2 * L by rw [hE2, hL]; ring, Real.sqrt_mul (sq_nonneg E), Real.sqrt_sq hE]
  have b1 : p1Bounds3 m0 m1 m2 p0 1 1 = (E * √L - p0 * A) / (2 * m0 ^ 2) := by
    rw [p1Bounds3_eq _ _ _ _ _ _ hR, hroot]; congr 1; rw [hA]; ring
  have b2 : hi = (E * √L + p0 * A) / (2 * m0 ^ 2) := by
    change p1Bounds3 m0 m1 m2 p0 (-1) 1 = _
    rw [p1Bounds3_eq _ _ _ _ _ _ hR, hroot]; congr 1; rw [hA]; ring
  have hlo : lo = |(E * √L - p0 * A) / (2 * m0 ^ 2)| := by
    change max _ _ = _
    rw [b1]; exact abs_eq_max_neg.symm
  have hpos : 0 < 2 * m0 ^ 2 := by positivity
  have key1 : (E * √L + p0 * A) ^ 2 + 4 * m0 ^ 4 * m1 ^ 2 = (E * A + p0 * √L) ^ 2 := by
    linear_combination -(A ^ 2 - √L ^ 2) * hE2 + m0 ^ 2 * hs + m0 ^ 2 * hLA
  have key2 : (E * √L - p0 * A) ^ 2 + 4 * m0 ^ 4 * m1 ^ 2 = (E * A - p0 * √L) ^ 2 := by
    linear_combination -(A ^ 2 - √L ^ 2) * hE2 + m0 ^ 2 * hs + m0 ^ 2 * hLA
  have hD : 4 * m0 ^ 4 * m1 ^ 2 / (2 * m0 ^ 2) ^ 2 = m1 ^ 2 := by
    rw [div_eq_iff (by positivity)]; ring
  have e1 : energyOf m1 hi = (E * A + p0 * √L) / (2 * m0 ^ 2) := by
    unfold energyOf
    rw [← Real.sqrt_sq (show 0 ≤ (E * A + p0 * √L) / (2 * m0 ^ 2) by positivity), b2, div_pow, div_pow,
      ← key1, add_div, hD]
  have e2 : energyOf m1 lo = (E * A - p0 * √L) / (2 * m0 ^ 2) := by
    have hn : 0 ≤ (E * A - p0 * √L) / (2 * m0 ^ 2) := by
      apply div_nonneg _ hpos.le
      have := mul_le_mul hEp hLs hs0 hE
      linarith
    unfold energyOf
    rw [← Real.sqrt_sq hn, hlo, sq_abs, div_pow, div_pow, ← key2, add_div, hD]
  refine ⟨by rw [hlo]; positivity, ?_, ?_⟩
  · rw [hlo, b2, abs_div, abs_of_pos hpos]
    apply div_le_div_of_nonneg_right _ hpos.le
    rw [abs_le]
    have : 0 ≤ p0 * A := by positivity
    have : 0 ≤ E * √L := by positivity
    constructor <;> linarith
  · rw [e1, e2]
    unfold restMomentum
    rw [← hL]
    field_simp
    ring

theorem energyOf_continuous (m : ℝ) : Continuous (energyOf m) := by
  unfold energyOf; fun_prop

theorem energyOf_hasDeriv (m q : ℝ) (hq : 0 < q) : HasDerivAt (energyOf m) (deriv (energyOf m) q) q := by
  apply DifferentiableAt.hasDerivAt
  unfold energyOf
  apply DifferentiableAt.sqrt
  · fun_prop
  · positivity

/-- The measure of the first energy integrates to the difference of the energies. -/
theorem integral_energy (m lo hi : ℝ) (h0 : 0 ≤ lo) (h : lo ≤ hi) :
    ∫ q in lo..hi, deriv (energyOf m) q = energyOf m hi - energyOf m lo := by
  have hd : ∀ x ∈ Set.Ioo lo hi, HasDerivAt (energyOf m) (deriv (energyOf m) x) x :=
    fun x hx => energyOf_hasDeriv m x (lt_of_le_of_lt h0 hx.1)
  apply intervalIntegral.integral_eq_sub_of_hasDerivAt_of_le h (energyOf_continuous m).continuousOn hd
  apply intervalIntegral.intervalIntegrable_deriv_of_nonneg (energyOf_continuous m).continuousOn
  · rw [min_eq_left h, max_eq_right h]; exact hd
  · rw [min_eq_left h, max_eq_right h]
    intro x hx
    have hx0 := lt_of_le_of_lt h0 hx.1
    rw [energyOf_deriv _ _ hx0]
    unfold energyOf
    positivity

/-- **C86, the loop.** Kind 5 (minus one per decaying particle) integrated over the limits of the loop, at
any momentum of the decaying particle, and the value stored for a particle at rest. -/
theorem C86_loop (r : Fin 3 → Reactant) (max2 : ℝ) (st : ℝ × ℝ) (p0 : ℝ)
    (s0 : (r 0).side = -1) (s1 : (r 1).side = 1) (s2 : (r 2).side = 1)
    (hm0 : 0 < (r 0).specie.m) (hm1 : 0 ≤ (r 1).specie.m) (hm2 : 0 ≤ (r 2).specie.m)
    (hopen : (r 1).specie.m + (r 2).specie.m ≤ (r 0).specie.m) (hread : ∀ i, Readable (r i).specie)
    (h0 : 0 < p0) :
    exactQuad3 r 5 p0 (outerLimits3 (loopCtx3 r max2) p0 st).1.1 (outerLimits3 (loopCtx3 r max2) p0 st).1.2 =
      .ok (-4 * restMomentum (r 0).specie.m (r 1).specie.m (r 2).specie.m /
        ((r 0).specie.m * energyOf (r 0).specie.m p0)) ∧
    integrandFull3 0 (p1Bounds1 (r 0).specie.m (r 1).specie.m (r 2).specie.m) 5 r =
      .ok (-restMomentum (r 0).specie.m (r 1).specie.m (r 2).specie.m) := by
  have hin := fun p1 => decay3_inside r max2 p0 p1 st s0 s1 s2 hm0 hm1 hm2 hopen h0
  have ht : (loopCtx3 r max2).type = 1 := by simp [loopCtx3, reactionTypeSum, s0, s1, s2]
  obtain ⟨hl0, hlh, hdiff⟩ := limits3_energy hm0 hm1 hm2 hopen h0
  change ∀ p1, _ → (outerLimits3 (loopCtx3 r max2) p0 st).1.1 < p1 →
    p1 < (outerLimits3 (loopCtx3 r max2) p0 st).1.2 → _ at hin
  have hlim : (outerLimits3 (loopCtx3 r max2) p0 st).1 =
      (max (p1Bounds3 (r 0).specie.m (r 1).specie.m (r 2).specie.m p0 1 1)
        (-p1Bounds3 (r 0).specie.m (r 1).specie.m (r 2).specie.m p0 1 1),
        p1Bounds3 (r 0).specie.m (r 1).specie.m (r 2).specie.m p0 (-1) 1) := by
    unfold outerLimits3
    rw [ht]
    simp only [show ¬ (1 : ℤ) = -1 by decide, if_false]
    rfl
  rw [hlim] at hin ⊢
  simp only at hin ⊢
  set lo := max (p1Bounds3 (r 0).specie.m (r 1).specie.m (r 2).specie.m p0 1 1)
        (-p1Bounds3 (r 0).specie.m (r 1).specie.m (r 2).specie.m p0 1 1)
  set hi := p1Bounds3 (r 0).specie.m (r 1).specie.m (r 2).specie.m p0 (-1) 1
  have hE0 : 0 < energyOf (r 0).specie.m p0 := by unfold energyOf; positivity
  constructor
  · rw [exactQuad3_eq]
    congr 1
    rw [intervalIntegral.integral_congr_Ioo_of_le
      (g := fun q => (-2 / (p0 * energyOf (r 0).specie.m p0)) * deriv (energyOf (r 1).specie.m) q) hlh]
    · rw [intervalIntegral.integral_const_mul, integral_energy _ _ _ hl0 hlh, hdiff]
      field_simp
      ring
    · intro q hq
      have hq0 : 0 < q := lt_of_le_of_lt hl0 hq.1
      obtain ⟨x, y, z⟩ := hin q hq0 hq.1 hq.2
      have hmom := momenta3_nonneg r h0.le hq0.le
      choose f hf using fun i => hread i (momenta3 r p0 q i) (hmom i)
      have := integrand3_inside r p0 q 5 f (-1) h0 hq0 x (inBounds3_inside r h0 hq0 y z) hf rfl
      simp only [this, valOf]
      ring
  · rw [restMomentum_eq _ _ _ hm0]
    have hk : 0 ≤ restMomentum (r 0).specie.m (r 1).specie.m (r 2).specie.m := by
      unfold restMomentum; positivity
    set k := restMomentum (r 0).specie.m (r 1).specie.m (r 2).specie.m
    have hlast : lastEnergy3 r 0 k = energy k (r 2).specie.m :=
      (C65_rest r s0 s2 hm0 hm1 hm2 (Or.inl ⟨s1, hopen⟩) k hk).mp (restMomentum_eq _ _ _ hm0).symm
    have hf3 : factor3 r 0 k = k := by
      unfold factor3
      rw [if_neg, if_pos rfl, one_mul]
      rw [not_lt, hlast]
      unfold energy
      exact Real.le_sqrt_of_sq_le (by nlinarith)
    unfold integrandFull3
    rw [hf3]
    split_ifs with hz
    · rw [hz]; simp
    · have hmom := momenta3_nonneg r le_rfl hk
      choose f hf using fun i => hread i (momenta3 r 0 k i) (hmom i)
      have o0 := hf 0
      have o1 := hf 1
      have o2 := hf 2
      simp only [o0, o1, o2, bind, Except.bind]
      rw [show kindFactor (Kind.ofInt 5) [r 0, r 1, r 2] [f 0, f 1, f 2] = .ok (-1) from rfl]
      simp


theorem mapM_ok_map {α : Type*} (l : List α) (g : α → Except Err ℝ) (v : α → ℝ)
    (h : ∀ x ∈ l, g x = .ok (v x)) : (l.map g).mapM id = .ok (l.map v) := by
  induction l with
  | nil => rfl
  | cons x l ih =>
    rw [List.map_cons, List.mapM_cons, h x (by simp), ih fun y hy => h y (by simp [hy])]
    rfl

theorem energyOf_scale (m q c : ℝ) (hc : 0 ≤ c) : energyOf (c * m) (c * q) = c * energyOf m q := by
  unfold energyOf
  rw [show (c * q) ^ 2 + (c * m) ^ 2 = c ^ 2 * (q ^ 2 + m ^ 2) by ring, Real.sqrt_mul (sq_nonneg c),
    Real.sqrt_sq hc]

theorem restMomentum_scale (M m1 m2 c : ℝ) (hc : 0 < c) :
    restMomentum (c * M) (c * m1) (c * m2) = c * restMomentum M m1 m2 := by
  unfold restMomentum
  rw [show ((c * M) ^ 2 - (c * m1 + c * m2) ^ 2) * ((c * M) ^ 2 - (c * m1 - c * m2) ^ 2) =
    (c ^ 2) ^ 2 * ((M ^ 2 - (m1 + m2) ^ 2) * (M ^ 2 - (m1 - m2) ^ 2)) by ring,
    Real.sqrt_mul (by positivity), Real.sqrt_sq (by positivity)]
  by_cases hM : M = 0
  · simp [hM]
  · field_simp

/-- An array of `integrate` without branching-ratio scaling. -/
theorem tail3_plain (kind : CKind) (br : Option ℝ) (num : ℝ) (total : List ℝ → ℝ)
    (const dist full : List ℝ) (hk : kind = .ffVac) (hc : const.length = full.length)
    (hd : dist.length = full.length) :
    integrateTail3 kind false false br num total const dist full =
      .ok (.one (mulArr full (mulArr const dist))) := by
  subst hk
  unfold integrateTail3 scaling
  match full, const, dist, hc, hd with
  | [], _, _, _, _ => simp [Scaled.truth, returnFunction, mulArr]
  | [x], [c], [d], _, _ =>
    by_cases h : x = 0
    · simp [Scaled.truth, h, returnFunction, mulArr]
    · simp [Scaled.truth, h, integrateEnd]
  | a :: b :: l, _, _, _, _ => simp [Scaled.truth, integrateEnd]

variable {ι : Type*}

theorem rate_rest (K a aT H M k g mult f X : ℝ) (ha : 0 < a) (haT : 0 < aT) :
    -(a / aT * k) * (K * aT / a / 8 / Real.pi / H / M ^ 2 / g * mult / X * f) =
      -(K * k / (8 * Real.pi * M ^ 2) * 1 / g * mult / H * f) / X := by
  have := Real.pi_pos
  field_simp

theorem rate_moving (K a aT H M k g mult f X E : ℝ) (ha : 0 < a) (haT : 0 < aT) (hM : 0 < M) (hE : 0 < E) :
    -4 * (a / aT * k) / (a / aT * M * (a / aT * E)) * (K * a / aT / 32 / Real.pi / H / g * mult / X * f) =
      -(K * k / (8 * Real.pi * M ^ 2) * (M / E) / g * mult / H * f) / X := by
  have := Real.pi_pos
  field_simp
  ring

theorem rate_list (u v w : ℝ → ℝ) (C : ℝ) (X : ℝ) (h : ∀ y f : ℝ, 0 < y → u y * (C * f) = v y * f / X) :
    ∀ (ys fs : List ℝ), (∀ y ∈ ys, 0 < y) → fs.length = ys.length →
    List.zipWith (· * ·) (ys.map fun y => if y = 0 then w y else u y)
      (List.zipWith (· * ·) (List.replicate ys.length C) fs) =
    List.zipWith (fun y f => v y * f / X) ys fs := by
  intro ys
  induction ys with
  | nil => intro fs _ _; simp
  | cons y ys ih =>
    intro fs hy hl
    cases fs with
    | nil => simp at hl
    | cons f fs =>
      have hy0 := hy y (by simp)
      simp only [List.length_cons, List.replicate_succ, List.map_cons, List.zipWith_cons_cons,
        if_neg hy0.ne']
      rw [ih fs (fun z hz => hy z (by simp [hz])) (by simpa using hl), h y f hy0]

/-- **C86.** `integrate` of a two-body decay into empty states (kind `F_f_vacuum_decay`, converged
quadrature): at every momentum `y` of the grid the array is `-Γ (M/E) f / H` per unit of `ln a` (in
logarithmic mode; divided by `x` in linear mode), with the width `Γ = K k/(8π M²)` per degree of
freedom counted by the code. -/
theorem C86_rate (c : Int3 ι) (p : Params) (sched : List (List ℕ))
    (hsch : ValidSchedule (c.sp 0).grid.length sched)
    (hsides : c.side 0 = -1 ∧ c.side 1 = 1 ∧ c.side 2 = 1) (hkind : c.kind = .ffVac)
    (hfast : (c.sp 0).fastDecay = false) (hn : c.neglect = false) (hcf : c.creationFast = false)
    (ha : 0 < p.a) (haT : 0 < p.aT)
    (hM : 0 < (c.sp 0).mass) (hm1 : 0 ≤ (c.sp 1).mass) (hm2 : 0 ≤ (c.sp 2).mass)
    (hopen : (c.sp 1).mass + (c.sp 2).mass ≤ (c.sp 0).mass)
    (hread : ∀ i, Readable (toC (c.sp i) (c.st i) p))
    (ys : List ℝ) (hgrid : (c.sp 0).grid = 0 :: ys) (hys : ∀ y ∈ ys, 0 < y)
    (hd : (c.st 0).dist.length = (c.sp 0).grid.length) :
    let M := (c.sp 0).mass
    let width := c.K * restMomentum M (c.sp 1).mass (c.sp 2).mass / (8 * Real.pi * M ^ 2)
    integrate3 c p sched = .ok (.one (List.zipWith
      (fun y f => -(width * (M / energyOf M (y / p.a)) / dofFactor c.majorana (c.sp 0).dof * c.mult / p.H
        * f) / (if p.log then 1 else p.x)) (c.sp 0).grid (c.st 0).dist)) := by
  intro M width
  have hM' : 0 < M := hM
  obtain ⟨s0, s1, s2⟩ := hsides
  set b := p.a / p.aT with hb
  have hb0 : 0 < b := by positivity
  have hmass : ∀ i, (c.reaction p i).specie.m = b * (c.sp i).mass := by
    intro i; change (c.sp i).mass * p.a / p.aT = _; rw [hb]; ring
  have hr : ∀ i, Readable (c.reaction p i).specie := hread
  have hm0' : 0 < (c.reaction p 0).specie.m := by rw [hmass]; positivity
  have hm1' : 0 ≤ (c.reaction p 1).specie.m := by rw [hmass]; positivity
  have hm2' : 0 ≤ (c.reaction p 2).specie.m := by rw [hmass]; positivity
  have ho' : (c.reaction p 1).specie.m + (c.reaction p 2).specie.m ≤ (c.reaction p 0).specie.m := by
    rw [hmass, hmass, hmass, ← mul_add]; exact mul_le_mul_of_nonneg_left hopen hb0.le
  have hcut : cutoff3 (c.side 0 + c.side 1 + c.side 2) ((c.sp 0).grid.map (· / p.aT)) (c.sp 0).grid
      c.lb c.ub p.aT = some ⟨[], (c.sp 0).grid.map (· / p.aT), []⟩ := by
    unfold cutoff3
    rw [s0, s1, s2]
    rfl
  set k := restMomentum M (c.sp 1).mass (c.sp 2).mass
  have hk : restMomentum (c.reaction p 0).specie.m (c.reaction p 1).specie.m (c.reaction p 2).specie.m =
      b * k := by
    rw [hmass, hmass, hmass, restMomentum_scale _ _ _ _ hb0]
  -- the loop
  have hloop : integration3Exact (c.reaction p) CKind.ffVac.toInt ((c.sp 0).grid.map (· / p.aT))
      (c.min1 / p.aT) (c.max1 / p.aT) (c.max2 / p.aT) sched =
      .ok ((c.sp 0).grid.map fun y => if y = 0 then -(b * k) else
        -4 * (b * k) / (b * M * (b * energyOf M (y / p.a)))) := by
    unfold integration3Exact
    rw [C40_three_value _ _ _ _ _ _ _ (by rw [List.length_map]; exact hsch), List.map_map]
    apply mapM_ok_map
    intro y hy
    rw [hgrid] at hy
    simp only [Function.comp_apply]
    have hrest := fun q hq => C86_loop (c.reaction p) (c.max2 / p.aT) (c.min1 / p.aT, c.max1 / p.aT) q
      s0 s1 s2 hm0' hm1' hm2' ho' hr hq
    rcases List.mem_cons.mp hy with rfl | hy
    · rw [zero_div, if_pos rfl, if_pos rfl]
      have := (hrest 1 one_pos).2
      rw [hk] at this
      exact this
    · have hy0 := hys y hy
      have hq : 0 < y / p.aT := by positivity
      rw [if_neg hq.ne', if_neg hy0.ne']
      have ht : (loopCtx3 (c.reaction p) (c.max2 / p.aT)).type = 1 := by
        have e0 : (c.reaction p 0).side = -1 := s0
        have e1 : (c.reaction p 1).side = 1 := s1
        have e2 : (c.reaction p 2).side = 1 := s2
        simp [loopCtx3, reactionTypeSum, e0, e1, e2]
      have hok : (outerLimits3 (loopCtx3 (c.reaction p) (c.max2 / p.aT)) (y / p.aT)
          (c.min1 / p.aT, c.max1 / p.aT)).2 = true := by
        unfold outerLimits3
        rw [ht]
        simp
      rw [if_pos hok]
      refine ((hrest _ hq).1).trans ?_
      rw [hk, hmass, show y / p.aT = b * (y / p.a) by rw [hb]; field_simp, energyOf_scale _ _ _ hb0.le]
  unfold integrate3
  simp only [hn, Bool.false_eq_true, if_false, hcut, hkind, hfast, hcf]
  simp only [reduceCtorEq, or_self, false_and, if_false]
  rw [hloop]
  simp only [List.nil_append, List.append_nil]
  rw [tail3_plain _ _ _ _ _ _ _ rfl _ (by rw [hd]; simp)]
  · congr 2
    rw [hgrid] at hd ⊢
    obtain ⟨f0, fs, hfs⟩ := List.exists_cons_of_ne_nil
      (show (c.st 0).dist ≠ [] by intro h; rw [h] at hd; simp at hd)
    rw [hfs] at hd ⊢
    have hl : fs.length = ys.length := by simpa using hd
    have hX : ∀ z : ℝ, (if p.log then z else z / p.x) = z / (if p.log then 1 else p.x) := by
      intro z; split_ifs <;> simp
    unfold constants3 mulArr
    rw [if_neg hM.ne']
    simp only [List.map_cons, List.zipWith_cons_cons, if_true, List.length_cons, Nat.add_sub_cancel,
      List.map_replicate, hX]
    congr 1
    · rw [zero_div, show energyOf M 0 = M by unfold energyOf; simp [Real.sqrt_sq hM'.le], div_self hM'.ne']
      exact rate_rest _ _ _ _ _ _ _ _ _ _ ha haT
    · have hrl := rate_list (fun y => -4 * (b * k) / (b * M * (b * energyOf M (y / p.a))))
        (fun y => -(width * (M / energyOf M (y / p.a)) / dofFactor c.majorana (c.sp 0).dof * c.mult / p.H))
        (fun _ => -(b * k))
        (c.K * p.a / p.aT / 32 / Real.pi / p.H / dofFactor c.majorana (c.sp 0).dof * c.mult /
          (if p.log then 1 else p.x)) (if p.log then 1 else p.x) (fun y f hy => by
          have hEp : 0 < energyOf M (y / p.a) := by unfold energyOf; positivity
          refine (rate_moving c.K p.a p.aT p.H M k (dofFactor c.majorana (c.sp 0).dof) c.mult f
            (if p.log then 1 else p.x) _ ha haT hM' hEp).trans ?_
          rw [← neg_mul]) ys fs hys hl
      simp only [neg_mul] at hrl ⊢
      exact hrl
  · simp [constants3, hgrid]

/-- Any species with a strictly increasing grid from zero and as many values as points is readable. -/
theorem readable_toC (sp : Species) (s : PState ι) (p : Params) (haT : 0 < p.aT) (g : List ℝ)
    (hg : sp.grid = 0 :: g) (hs : sp.grid.Pairwise (· < ·)) (hl : s.dist.length = sp.grid.length) :
    Readable (toC sp s p) := by
  intro q hq
  unfold occAt
  apply C09_total
  · change (sp.grid.map (· / p.aT)).Pairwise (· < ·)
    rw [List.pairwise_map]
    exact hs.imp fun h => div_lt_div_of_pos_right h haT
  · change s.dist.length = (sp.grid.map (· / p.aT)).length
    rw [hl, List.length_map]
  · have : (toC sp s p).grid = 0 :: g.map (· / p.aT) := by
      change sp.grid.map (· / p.aT) = _
      rw [hg, List.map_cons, zero_div]
    simp only [this, List.head_cons]
    exact hq
  · change sp.grid.map (· / p.aT) ≠ []
    rw [hg]; simp

section Example
/-- A particle of mass 2 and two massless ones on the grid `0, 1`. -/
private def exSp : Fin 3 → Species := fun i =>
  { name := "X", mass := if i = 0 then 2 else 0, dof := 2, fermion := true, thermalDyn := false, Q := 0,
    grid := [0, 1], fastDecay := false, lifetime := 0 }
private noncomputable def exSt : Fin 3 → PState ℕ := fun i =>
  { T := 1, aT := 1, Tdec := 0, dist := if i = 0 then [1/2, 1/4] else [0, 0], coll := [], integrals := [],
    tDec := 0, decayed := false, density := 0, histDist := [], histColl := [], histT := [], histDensity := [] }
private noncomputable def exP : Params :=
  { log := true, m := 1, T := 1, a := 1, aIni := 1, x := 1, y := none, aT := 1, t := 1, H := 1, rho := none,
    S := none, Neff := 3, dy := 1, dx := 1, h := 1 }
private noncomputable def exInt : Int3 ℕ :=
  { sp := exSp, st := exSt, side := ![-1, 1, 1], K := 16 * Real.pi, majorana := false, mult := 1, kind := .ffVac,
    neglect := false, min1 := 0, max1 := 1, max2 := 1, lb := 0, ub := 1, creationFast := false, br := none,
    num := 0, total := fun _ => 0 }

/-- `K = 16π`, `k = 1`, `M = 2`: the width is `1/2`; at rest the occupation `1/2` decays at the rate `1/4`,
at momentum 1 the occupation `1/4` at the rate `1/(4√5)`. -/
example : integrate3 exInt exP [[1], [0]] = .ok (.one [-(1/4), -(1 / (4 * √5))]) := by
  have hread : ∀ i, Readable (toC (exSp i) (exSt i) exP) := fun i =>
    readable_toC _ _ _ one_pos [1] rfl (by change [(0 : ℝ), 1].Pairwise (· < ·); simp)
      (by by_cases h : i = 0 <;> simp [exSt, exSp, h])
  have h := C86_rate exInt exP [[1], [0]] (by change [1, 0].Perm [0, 1]; decide) ⟨rfl, rfl, rfl⟩ rfl rfl rfl rfl
    one_pos one_pos (by norm_num [exInt, exSp]) (by norm_num [exInt, exSp])
    (by norm_num [exInt, exSp, show ¬ (2 : Fin 3) = 0 by decide])
    (by norm_num [exInt, exSp, show ¬ (2 : Fin 3) = 0 by decide]) hread [1] rfl (by simp) (by simp [exInt, exSt, exSp])
  rw [h]
  have hk : restMomentum 2 0 0 = 1 := by
    unfold restMomentum
    rw [show ((2 : ℝ) ^ 2 - (0 + 0) ^ 2) * (2 ^ 2 - (0 - 0) ^ 2) = 4 ^ 2 by norm_num,
      Real.sqrt_sq (by norm_num)]
    norm_num
  have e0 : energyOf 2 0 = 2 := by
    unfold energyOf; rw [show (0 : ℝ) ^ 2 + 2 ^ 2 = 2 ^ 2 by norm_num, Real.sqrt_sq (by norm_num)]
  have e1 : energyOf 2 1 = √5 := by unfold energyOf; norm_num
  have hpi := Real.pi_ne_zero
  have h5 : √(5 : ℝ) ≠ 0 := by positivity
  simp only [exInt, exSp, exSt, exP, dofFactor, if_true, show ¬ (1 : Fin 3) = 0 by decide,
    show ¬ (2 : Fin 3) = 0 by decide, if_false, List.zipWith_cons_cons, List.zipWith_nil_right, hk,
    div_one, e0, e1, Bool.false_eq_true]
  congr 3
  · field_simp; norm_num
  · congr 1
    field_simp; norm_num

end Example

end PyBBN
