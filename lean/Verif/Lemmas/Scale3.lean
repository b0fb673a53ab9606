import Verif.Lemmas.ScaleLimits
/-!
# The three-particle loop under a change of the unit of momentum

All masses, momenta, temperatures and limits are multiplied by `c > 0`: the integral of a particle in motion is
divided by `c`, the value of a particle at rest is multiplied by `c`.
-/
namespace PyBBN

section
variable {c : ℝ} (hc : 0 < c)
include hc

theorem sc_inBounds3 (p : Fin 3 → ℝ) : inBounds3 (fun i => c * p i) = inBounds3 p := by
  unfold inBounds3
  simp only [sc_max hc, sc_min hc, ← mul_add, ← mul_sub, sc_sgn hc]

theorem sc_lastEnergy3 (r : Fin 3 → Reactant) (p0 p1 : ℝ) :
    lastEnergy3 (fun i => scaleR c (r i)) (c * p0) (c * p1) = c * lastEnergy3 r p0 p1 := by
  unfold lastEnergy3
  simp only [scaleR, scaleC, sc_energy hc]
  ring

theorem sc_momenta3 (r : Fin 3 → Reactant) (p0 p1 : ℝ) :
    momenta3 (fun i => scaleR c (r i)) (c * p0) (c * p1) = fun i => c * momenta3 r p0 p1 i := by
  have h : √((c * lastEnergy3 r p0 p1) ^ 2 - (c * (r 2).specie.m) ^ 2)
      = c * √(lastEnergy3 r p0 p1 ^ 2 - (r 2).specie.m ^ 2) := sc_sqrt hc (by ring)
  funext i
  unfold momenta3
  rw [sc_lastEnergy3 hc]
  fin_cases i
  · rfl
  · rfl
  · exact h

theorem sc_factor3_rest (r : Fin 3 → Reactant) (p1 : ℝ) :
    factor3 (fun i => scaleR c (r i)) 0 (c * p1) = c * factor3 r 0 p1 := by
  have h := sc_lastEnergy3 hc r 0 p1
  rw [mul_zero] at h
  have hm : (scaleR c (r 2)).specie.m = c * (r 2).specie.m := rfl
  unfold factor3
  rw [h]
  simp only [hm, sc_lt hc, if_true]
  split_ifs <;> ring

theorem sc_factor3 (r : Fin 3 → Reactant) {p0 : ℝ} (hp : p0 ≠ 0) (p1 : ℝ) :
    factor3 (fun i => scaleR c (r i)) (c * p0) (c * p1) = (c ^ 2)⁻¹ * factor3 r p0 p1 := by
  have hm : ∀ i, (scaleR c (r i)).specie.m = c * (r i).specie.m := fun _ => rfl
  have hp' : c * p0 ≠ 0 := mul_ne_zero hc.ne' hp
  unfold factor3
  simp only [hm, sc_lastEnergy3 hc, sc_momenta3 hc, sc_inBounds3 hc, sc_lt hc, if_neg hp, if_neg hp',
    sc_energy hc, mul_div_mul_left _ _ hc.ne', ne_eq, sc_eq0 hc]
  by_cases h : lastEnergy3 r p0 p1 < (r 2).specie.m
  · simp [h]
  · rw [if_neg h, if_neg h, show c * p0 * (c * energy p0 (r 0).specie.m)
      = c ^ 2 * (p0 * energy p0 (r 0).specie.m) by ring, div_mul_eq_div_div]
    rw [div_eq_inv_mul (b := c ^ 2), mul_div_assoc]

/-- The integrand, given the scaling `k` of its kinematic factor. -/
theorem sc_integrand3 {k : ℝ} (hk : k ≠ 0) (r : Fin 3 → Reactant) (kind : ℤ) (p0 p1 : ℝ)
    (hf : factor3 (fun i => scaleR c (r i)) (c * p0) (c * p1) = k * factor3 r p0 p1) :
    integrandFull3 (c * p0) (c * p1) kind (fun i => scaleR c (r i))
      = (integrandFull3 p0 p1 kind r).map (k * ·) := by
  have ho : ∀ (i : Fin 3) (p : ℝ), occAt (scaleR c (r i)).specie (c * p) = occAt (r i).specie p :=
    fun i p => sc_occAt hc _ _
  have hl : [scaleR c (r 0), scaleR c (r 1), scaleR c (r 2)] = [r 0, r 1, r 2].map (scaleR c) := rfl
  unfold integrandFull3
  simp only [hf, sc_momenta3 hc, ho, hl, sc_kindFactor, mul_eq_zero, hk, false_or]
  by_cases h : factor3 r p0 p1 = 0
  · simp [h, Except.map]
  · rw [if_neg h, if_neg h]
    simp only [bind, Except.bind]
    cases occAt (r 0).specie (momenta3 r p0 p1 0) <;> try rfl
    cases occAt (r 1).specie (momenta3 r p0 p1 1) <;> try rfl
    cases occAt (r 2).specie (momenta3 r p0 p1 2) <;> try rfl
    rename_i f0 f1 f2
    simp only
    cases kindFactor (Kind.ofInt kind) [r 0, r 1, r 2] [f0, f1, f2] <;> try rfl
    simp only [Except.map]
    congr 1
    ring

theorem sc_exactQuad3 (r : Fin 3 → Reactant) (kind : ℤ) {p0 : ℝ} (hp : p0 ≠ 0) (lo hi : ℝ) :
    exactQuad3 (fun i => scaleR c (r i)) kind (c * p0) (c * lo) (c * hi)
      = (exactQuad3 r kind p0 lo hi).map (c⁻¹ * ·) := by
  unfold exactQuad3
  simp only [Except.map]
  congr 1
  rw [← intervalIntegral.mul_integral_comp_mul_left, ← intervalIntegral.integral_const_mul,
    ← intervalIntegral.integral_const_mul]
  apply intervalIntegral.integral_congr
  intro p1 _
  simp only [sc_integrand3 hc (k := (c ^ 2)⁻¹) (by positivity) r kind p0 p1 (sc_factor3 hc r hp p1)]
  cases integrandFull3 p0 p1 kind r with
  | error e => simp [Except.map]
  | ok v =>
    simp only [Except.map]
    field_simp

theorem sc_p1Bounds1 (m0 m1 m2 : ℝ) :
    p1Bounds1 (c * m0) (c * m1) (c * m2) = c * p1Bounds1 m0 m1 m2 := by
  unfold p1Bounds1
  simp only [sc_eq0 hc]
  split_ifs with h
  · simp
  · rw [sc_sqrt2 hc (b := (m0 ^ 2 - m1 ^ 2 - m2 ^ 2) ^ 2 - 4 * m1 ^ 2 * m2 ^ 2) (by ring)]
    field_simp

theorem sc_p1Bounds2 (m0 m1 m2 p0 : ℝ) :
    p1Bounds2 (c * m0) (c * m1) (c * m2) (c * p0) = c * p1Bounds2 m0 m1 m2 p0 := by
  unfold p1Bounds2
  simp only [sc_eq0 hc]
  split_ifs with h
  · simp
  · rw [show (c * m1) ^ 4 + (c * m2) ^ 4 - 2 * (c * m1) ^ 2 * ((c * m2) ^ 2 + 2 * (c * p0) ^ 2)
        = c ^ 3 * (c * (m1 ^ 4 + m2 ^ 4 - 2 * m1 ^ 2 * (m2 ^ 2 + 2 * p0 ^ 2))) by ring,
      show 4 * (c * p0) * ((c * m1) ^ 2 - (c * m2) ^ 2) = c ^ 3 * (4 * p0 * (m1 ^ 2 - m2 ^ 2)) by ring,
      mul_div_mul_left _ _ (pow_ne_zero 3 hc.ne'), mul_div_assoc]

theorem sc_p1Bounds3 (m0 m1 m2 p0 s1 s2 : ℝ) :
    p1Bounds3 (c * m0) (c * m1) (c * m2) (c * p0) s1 s2 = c * p1Bounds3 m0 m1 m2 p0 s1 s2 := by
  set T := (p0 ^ 2 + m0 ^ 2) * (m1 ^ 4 + (m2 ^ 2 - m0 ^ 2) ^ 2 - 2 * m1 ^ 2 * (m2 ^ 2 + m0 ^ 2)) with hT
  have e : ((c * p0) ^ 2 + (c * m0) ^ 2) *
      ((c * m1) ^ 4 + ((c * m2) ^ 2 - (c * m0) ^ 2) ^ 2 - 2 * (c * m1) ^ 2 * ((c * m2) ^ 2 + (c * m0) ^ 2))
      = c ^ 6 * T := by rw [hT]; ring
  have e2 : √(if c ^ 6 * T < 0 then 0 else c ^ 6 * T) = c ^ 3 * √(if T < 0 then 0 else T) := by
    by_cases h : T < 0
    · rw [if_pos ((sc_neg_pow hc).2 h), if_pos h]; simp
    · rw [if_neg (fun h' => h ((sc_neg_pow hc).1 h')), if_neg h]
      exact sc_sqrt3 hc rfl
  unfold p1Bounds3
  dsimp only
  rw [e, e2, ← hT, show s1 * (c * p0 * ((c * m2) ^ 2 - (c * m1) ^ 2 - (c * m0) ^ 2))
      + s2 * (c ^ 3 * √(if T < 0 then 0 else T))
      = c ^ 3 * (s1 * (p0 * (m2 ^ 2 - m1 ^ 2 - m0 ^ 2)) + s2 * √(if T < 0 then 0 else T)) by ring,
    show 2 * (c * m0) ^ 2 = c ^ 2 * (2 * m0 ^ 2) by ring, sc_div hc]

theorem sc_p1Bounds4 (m0 m1 m2 p0 mx : ℝ) :
    (p1Bounds4 (c * m0) (c * m1) (c * m2) (c * p0) (c * mx) = -1 ∧ p1Bounds4 m0 m1 m2 p0 mx = -1) ∨
    (p1Bounds4 (c * m0) (c * m1) (c * m2) (c * p0) (c * mx) ≠ -1 ∧ p1Bounds4 m0 m1 m2 p0 mx ≠ -1 ∧
      p1Bounds4 (c * m0) (c * m1) (c * m2) (c * p0) (c * mx) = c * p1Bounds4 m0 m1 m2 p0 mx) := by
  unfold p1Bounds4
  dsimp only
  rw [sc_energy hc, sc_energy hc, ← mul_sub,
    show (c * (energy mx m2 - energy p0 m0)) ^ 2 - (c * m1) ^ 2
      = c ^ 2 * ((energy mx m2 - energy p0 m0) ^ 2 - m1 ^ 2) by ring]
  simp only [sc_nonpos hc, sc_nonpos_pow hc]
  split_ifs with h
  · exact .inl ⟨rfl, rfl⟩
  · refine .inr ⟨?_, ?_, sc_sqrt hc rfl⟩
    · intro h'; linarith [Real.sqrt_nonneg (c ^ 2 * ((energy mx m2 - energy p0 m0) ^ 2 - m1 ^ 2))]
    · intro h'; linarith [Real.sqrt_nonneg ((energy mx m2 - energy p0 m0) ^ 2 - m1 ^ 2)]

theorem sc_outerLimits3 (x : LoopCtx3) (p0 : ℝ) (st : ℝ × ℝ) :
    outerLimits3 ⟨x.type, c * x.m0, c * x.m1, c * x.m2, c * x.max2⟩ (c * p0) (c * st.1, c * st.2)
      = ((c * (outerLimits3 x p0 st).1.1, c * (outerLimits3 x p0 st).1.2), (outerLimits3 x p0 st).2) := by
  unfold outerLimits3
  dsimp only
  simp only [sc_eq0 hc, sc_p1Bounds2 hc, sc_p1Bounds3 hc, sc_maxneg hc]
  by_cases ht : x.type = -1
  · rw [if_pos ht, if_pos ht]
    rcases sc_p1Bounds4 hc x.m0 x.m1 x.m2 p0 x.max2 with ⟨h1, h2⟩ | ⟨h1, h2, h3⟩
    · simp only [h1, h2, if_true]
      split_ifs <;> rfl
    · rw [h3] at h1
      simp only [h3, h1, h2, if_false, sc_min hc, ge_iff_le, sc_le hc]
      split_ifs <;> rfl
  · rw [if_neg ht, if_neg ht]

end

section loop
variable {c : ℝ}

/-- One thread, with a weight for every grid point. -/
theorem sw_runThread {V : ℕ → ℝ} {lim lim' : ℝ → ℝ × ℝ → (ℝ × ℝ) × Bool}
    {quad quad' : ℝ → ℝ → ℝ → Except Err ℝ} (ps : List ℝ)
    (hl : ∀ p st, lim' (c * p) (c * st.1, c * st.2)
      = ((c * (lim p st).1.1, c * (lim p st).1.2), (lim p st).2))
    (hq : ∀ i p, ps[i]? = some p → ∀ a b, quad' (c * p) (c * a) (c * b) = (quad p a b).map (V i * ·)) :
    ∀ (l : List ℕ) (st : ℝ × ℝ),
      runThread lim' quad' (ps.map (c * ·)) (c * st.1, c * st.2) l
        = (runThread lim quad ps st l).map fun e => (e.1, e.2.map (V e.1 * ·))
  | [], _ => rfl
  | i :: rest, st => by
    simp only [runThread, List.getElem?_map]
    cases hp : ps[i]? with
    | none =>
      simp only [Option.map_none, List.map_cons]
      rw [sw_runThread ps hl hq rest st]
      rfl
    | some p0 =>
      simp only [Option.map_some, List.map_cons]
      rw [hl, sw_runThread ps hl hq rest (lim p0 st).1, hq i p0 hp]
      congr 2
      split_ifs <;> simp [Except.map]

theorem sw_lookup {V : ℕ → ℝ} (i : ℕ) : ∀ l : List (ℕ × Except Err ℝ),
    (l.map fun e => (e.1, e.2.map (V e.1 * ·))).lookup i = (l.lookup i).map fun v => v.map (V i * ·)
  | [] => rfl
  | (j, v) :: t => by
    simp only [List.map_cons, List.lookup_cons]
    by_cases h : i = j
    · subst h; simp
    · have : (i == j) = false := by simpa using h
      simp only [this]
      exact sw_lookup i t

theorem sw_parallelLoop {V : ℕ → ℝ} {lim lim' : ℝ → ℝ × ℝ → (ℝ × ℝ) × Bool}
    {quad quad' : ℝ → ℝ → ℝ → Except Err ℝ} (ps : List ℝ)
    (hl : ∀ p st, lim' (c * p) (c * st.1, c * st.2)
      = ((c * (lim p st).1.1, c * (lim p st).1.2), (lim p st).2))
    (hq : ∀ i p, ps[i]? = some p → ∀ a b, quad' (c * p) (c * a) (c * b) = (quad p a b).map (V i * ·))
    (st : ℝ × ℝ) (sched : List (List ℕ)) :
    parallelLoop lim' quad' (ps.map (c * ·)) (c * st.1, c * st.2) sched
      = (parallelLoop lim quad ps st sched).mapIdx fun i v => v.map (V i * ·) := by
  unfold parallelLoop
  simp only [List.length_map, sw_runThread ps hl hq]
  have hfl : (sched.map fun t => (runThread lim quad ps st t).map
      fun e => (e.1, e.2.map (V e.1 * ·))).flatten
      = ((sched.map fun t => runThread lim quad ps st t).flatten).map
        fun e => (e.1, e.2.map (V e.1 * ·)) := by
    rw [List.map_flatten, List.map_map]; rfl
  rw [hfl]
  apply List.ext_getElem
  · simp
  · intro i h1 h2
    simp only [List.getElem_map, List.getElem_range, List.getElem_mapIdx, sw_lookup]
    cases (sched.map fun t => runThread lim quad ps st t).flatten.lookup i <;> simp [Except.map]

theorem sw_mapM : ∀ (V : ℕ → ℝ) (l : List (Except Err ℝ)),
    (l.mapIdx fun i v => v.map (V i * ·)).mapM id
      = (l.mapM id).map fun r : List ℝ => r.mapIdx fun i v => V i * v
  | _, [] => rfl
  | V, v :: t => by
    simp only [List.mapIdx_cons, List.mapM_cons, sw_mapM (fun i => V (i + 1)) t]
    cases v with
    | error e => rfl
    | ok a =>
      cases t.mapM id with
      | error e => rfl
      | ok r => simp [Except.map, bind, Except.bind, pure, Except.pure, List.mapIdx_cons]

/-- **The three-particle loop**: `V i` is `c` for a particle at rest and `1/c` for one in motion. -/
theorem sc_integration3 (hc : 0 < c) {V : ℕ → ℝ} (r : Fin 3 → Reactant) (kind : ℤ) (ps : List ℝ)
    (a b z : ℝ) (sched : List (List ℕ))
    (hV : ∀ (i : ℕ) (p : ℝ), ps[i]? = some p → V i = if p = 0 then c else c⁻¹) :
    integration3Exact (fun i => scaleR c (r i)) kind (ps.map (c * ·)) (c * a) (c * b) (c * z) sched
      = (integration3Exact r kind ps a b z sched).map fun l => l.mapIdx fun i v => V i * v := by
  unfold integration3Exact integration3
  rw [← sw_mapM]
  congr 1
  refine sw_parallelLoop ps ?_ ?_ (a, b) sched
  · intro p st
    simp only [sc_eq0 hc]
    by_cases h : p = 0
    · simp only [h, if_true]
    · simp only [if_neg h]
      exact sc_outerLimits3 hc (loopCtx3 r z) p st
  · intro i p hp lo hi
    simp only [sc_eq0 hc]
    rw [hV i p hp]
    by_cases h : p = 0
    · simp only [h, if_true]
      have e := sc_integrand3 hc hc.ne' r kind 0
        (p1Bounds1 (r 0).specie.m (r 1).specie.m (r 2).specie.m)
        (by rw [mul_zero]; exact sc_factor3_rest hc r _)
      rw [mul_zero, ← sc_p1Bounds1 hc] at e
      exact e
    · simp only [if_neg h]
      exact sc_exactQuad3 hc r kind h lo hi

end loop

end PyBBN
