import Verif.Lemmas.Scale
/-!
# Homogeneity of the integration limits and of the momentum loops
-/
namespace PyBBN

section
variable {c : ℝ} (hc : 0 < c)
include hc

theorem sc_max0 (a : ℝ) : max (c * a) 0 = c * max a 0 := by
  have := sc_max hc a 0
  rwa [mul_zero] at this

theorem sc_maxneg (a : ℝ) : max (c * a) (-(c * a)) = c * max a (-a) := by
  rw [← mul_neg, sc_max hc]

theorem sc_p2MaxDec (m0 m1 m2 m3 p0 p1 : ℝ) :
    p2MaxDec (c * m0) (c * m1) (c * m2) (c * m3) (c * p0) (c * p1)
      = c * p2MaxDec m0 m1 m2 m3 p0 p1 := by
  unfold p2MaxDec
  rw [sc_energy hc, sc_energy hc]
  exact sc_sqrt hc (by ring)

omit hc in
theorem sc_scatRad (t1 t2 m2 p1 : ℝ) :
    scatRad (c * t1) (c ^ 2 * t2) (c * m2) (c * p1) = c ^ 6 * scatRad t1 t2 m2 p1 := by
  unfold scatRad; ring

theorem sc_neg_pow {k : ℕ} {a : ℝ} : c ^ k * a < 0 ↔ a < 0 := sc_neg (pow_pos hc k)
theorem sc_nonpos_pow {k : ℕ} {a : ℝ} : c ^ k * a ≤ 0 ↔ a ≤ 0 := sc_nonpos (pow_pos hc k)

theorem sc_scatRad1 (m1 m2 m3 p1 : ℝ) :
    scatRad1 (c * m1) (c * m2) (c * m3) (c * p1) = c ^ 6 * scatRad1 m1 m2 m3 p1 := by
  unfold scatRad1
  have : ((c * p1) ^ 2 + (c * m1) ^ 2) * ((c * m1) ^ 4 + ((c * m2) ^ 2 - (c * m3) ^ 2) ^ 2
      - 2 * (c * m1) ^ 2 * ((c * m2) ^ 2 + (c * m3) ^ 2))
      = c ^ 6 * ((p1 ^ 2 + m1 ^ 2) *
        (m1 ^ 4 + (m2 ^ 2 - m3 ^ 2) ^ 2 - 2 * m1 ^ 2 * (m2 ^ 2 + m3 ^ 2))) := by ring
  dsimp only
  rw [this]
  simp only [sc_neg_pow hc]
  split_ifs <;> simp

theorem sc_t1 (m0 m1 p1 : ℝ) : c * m0 + √((c * m1) ^ 2 + (c * p1) ^ 2)
    = c * (m0 + √(m1 ^ 2 + p1 ^ 2)) := by
  rw [sc_sqrt hc (b := m1 ^ 2 + p1 ^ 2) (by ring)]; ring

omit hc in
theorem sc_t2 (m3 p1 : ℝ) : (c * m3) ^ 2 + (c * p1) ^ 2 = c ^ 2 * (m3 ^ 2 + p1 ^ 2) := by ring

theorem sc_div (a b : ℝ) : c ^ 3 * a / (c ^ 2 * b) = c * (a / b) := by
  rw [show c ^ 3 * a = c ^ 2 * (c * a) by ring, mul_div_mul_left _ _ (by positivity), mul_div_assoc]

theorem sc_p2MinScat (m0 m1 m2 m3 p0 p1 : ℝ) :
    p2MinScat (c * m0) (c * m1) (c * m2) (c * m3) (c * p0) (c * p1)
      = c * p2MinScat m0 m1 m2 m3 p0 p1 := by
  unfold p2MinScat
  dsimp only
  simp only [ne_eq, sc_eq0 hc, ← mul_add, gt_iff_lt, sc_lt hc]
  rw [sc_t1 hc, sc_t2, sc_scatRad, sc_scatRad1 hc, sc_sqrt3 hc rfl, sc_sqrt3 hc rfl]
  generalize hG : m0 + √(m1 ^ 2 + p1 ^ 2) = t1
  generalize hH : m3 ^ 2 + p1 ^ 2 = t2
  have e1 : ((c ^ 2 * t2 - (c * t1) ^ 2 - (c * m2) ^ 2) * (c * p1) + c ^ 3 * √(scatRad t1 t2 m2 p1))
      / (2 * ((c * t1) ^ 2 - (c * p1) ^ 2))
      = c * (((t2 - t1 ^ 2 - m2 ^ 2) * p1 + √(scatRad t1 t2 m2 p1)) / (2 * (t1 ^ 2 - p1 ^ 2))) := by
    rw [← sc_div hc]; congr 1 <;> ring
  have e2 : (-(c * p1) * ((c * m1) ^ 2 + (c * m2) ^ 2 - (c * m3) ^ 2)
      + c ^ 3 * √(scatRad1 m1 m2 m3 p1)) / (2 * (c * m1) ^ 2)
      = c * ((-p1 * (m1 ^ 2 + m2 ^ 2 - m3 ^ 2) + √(scatRad1 m1 m2 m3 p1)) / (2 * m1 ^ 2)) := by
    rw [← sc_div hc]; congr 1 <;> ring
  rw [e1, e2, sc_max0 hc, sc_maxneg hc]
  split_ifs <;> ring

theorem sc_p2MaxScat (m0 m1 m2 m3 p0 p1 : ℝ) :
    p2MaxScat (c * m0) (c * m1) (c * m2) (c * m3) (c * p0) (c * p1)
      = c * p2MaxScat m0 m1 m2 m3 p0 p1 := by
  unfold p2MaxScat
  dsimp only
  have hs : c * m0 + c * m1 > c * m2 + c * m3 ↔ m0 + m1 > m2 + m3 := by
    rw [← mul_add, ← mul_add]; exact sc_lt hc
  simp only [ne_eq, sc_eq0 hc, hs, sc_energy hc]
  rw [sc_t1 hc, sc_t2, sc_scatRad, sc_scatRad1 hc, sc_sqrt3 hc rfl, sc_sqrt3 hc rfl]
  generalize hG : m0 + √(m1 ^ 2 + p1 ^ 2) = t1
  generalize hH : m3 ^ 2 + p1 ^ 2 = t2
  have e1 : ((-(c ^ 2 * t2) + (c * t1) ^ 2 + (c * m2) ^ 2) * (c * p1) + c ^ 3 * √(scatRad t1 t2 m2 p1))
      / (2 * ((c * t1) ^ 2 - (c * p1) ^ 2))
      = c * (((-t2 + t1 ^ 2 + m2 ^ 2) * p1 + √(scatRad t1 t2 m2 p1)) / (2 * (t1 ^ 2 - p1 ^ 2))) := by
    rw [← sc_div hc]; congr 1 <;> ring
  have e2 : ((c * p1) * ((c * m1) ^ 2 + (c * m2) ^ 2 - (c * m3) ^ 2)
      + c ^ 3 * √(scatRad1 m1 m2 m3 p1)) / (2 * (c * m1) ^ 2)
      = c * ((p1 * (m1 ^ 2 + m2 ^ 2 - m3 ^ 2) + √(scatRad1 m1 m2 m3 p1)) / (2 * m1 ^ 2)) := by
    rw [← sc_div hc]; congr 1 <;> ring
  have e3 : √((c * energy p0 m0 + c * energy p1 m1 - c * m3) ^ 2 - (c * m2) ^ 2)
      = c * √((energy p0 m0 + energy p1 m1 - m3) ^ 2 - m2 ^ 2) := sc_sqrt hc (by ring)
  have e4 : √((c * m0 - c * m3 + c * energy p1 m1) ^ 2 - (c * m2) ^ 2)
      = c * √((m0 - m3 + energy p1 m1) ^ 2 - m2 ^ 2) := sc_sqrt hc (by ring)
  rw [e1, e2, e3, e4, sc_max0 hc]
  split_ifs <;> ring

theorem sc_innerLimits (type : ℤ) (m0 m1 m2 m3 max3 p0 p1 : ℝ) (d : ℝ × ℝ) :
    innerLimits type (c * m0) (c * m1) (c * m2) (c * m3) (c * max3) (c * p0) (c * p1)
      (c * d.1, c * d.2)
      = (innerLimits type m0 m1 m2 m3 max3 p0 p1 d).map fun ab => (c * ab.1, c * ab.2) := by
  unfold innerLimits
  dsimp only
  rw [sc_p2MaxDec hc, sc_p2MinScat hc, sc_p2MaxScat hc, sc_energy hc, sc_energy hc, sc_energy hc]
  have e1 : c * energy max3 m3 - c * energy p0 m0 - c * energy p1 m1
      = c * (energy max3 m3 - energy p0 m0 - energy p1 m1) := by ring
  have e2 : c * m3 - c * energy p0 m0 - c * energy p1 m1
      = c * (m3 - energy p0 m0 - energy p1 m1) := by ring
  rw [e1, e2]
  generalize energy max3 m3 - energy p0 m0 - energy p1 m1 = mx
  generalize m3 - energy p0 m0 - energy p1 m1 = mn
  have q : ∀ x, (c * x) ^ 2 - (c * m2) ^ 2 = c ^ 2 * (x ^ 2 - m2 ^ 2) := fun x => by ring
  simp only [q, sc_nonpos hc, sc_nonpos_pow hc, sc_sqrt hc rfl]
  split_ifs <;> simp

omit hc in
/-- Context in other units. -/
def scaleCtx (c : ℝ) (x : LoopCtx) : LoopCtx :=
  ⟨x.type, c * x.m0, c * x.m1, c * x.m2, c * x.m3, c * x.max3⟩

theorem sc_outerLimits (x : LoopCtx) (p0 : ℝ) (st : ℝ × ℝ) :
    outerLimits (scaleCtx c x) (c * p0) (c * st.1, c * st.2)
      = ((c * (outerLimits x p0 st).1.1, c * (outerLimits x p0 st).1.2), (outerLimits x p0 st).2) := by
  have hmn : scatMin1 (scaleCtx c x) (c * p0) = c * scatMin1 x p0 := by
    unfold scatMin1 scaleCtx
    dsimp only
    rw [sc_energy hc]
    have e : c * x.m2 + c * x.m3 - c * energy p0 x.m0 = c * (x.m2 + x.m3 - energy p0 x.m0) := by ring
    rw [e]
    generalize x.m2 + x.m3 - energy p0 x.m0 = mn
    rw [show (c * mn) ^ 2 - (c * x.m1) ^ 2 = c ^ 2 * (mn ^ 2 - x.m1 ^ 2) by ring]
    simp only [sc_nonpos hc, sc_nonpos_pow hc, sc_sqrt hc rfl]
    split_ifs <;> simp
  unfold outerLimits
  dsimp only
  rw [hmn]
  unfold scaleCtx
  dsimp only
  rw [sc_energy hc, sc_energy hc]
  rw [sc_sqrt hc (a := (c * energy p0 x.m0 - c * x.m2 - c * x.m3) ^ 2 - (c * x.m1) ^ 2)
    (b := (energy p0 x.m0 - x.m2 - x.m3) ^ 2 - x.m1 ^ 2) (by ring)]
  have e : c * energy x.max3 x.m3 - c * x.m2 - c * energy p0 x.m0
      = c * (energy x.max3 x.m3 - x.m2 - energy p0 x.m0) := by ring
  rw [e]
  generalize energy x.max3 x.m3 - x.m2 - energy p0 x.m0 = mx
  rw [show (c * mx) ^ 2 - (c * x.m1) ^ 2 = c ^ 2 * (mx ^ 2 - x.m1 ^ 2) by ring]
  rw [show 3 * (c * scatMin1 x p0) = c * (3 * scatMin1 x p0) by ring]
  simp only [sc_nonpos hc, sc_nonpos_pow hc, sc_sqrt hc rfl, gt_iff_lt, sc_lt hc, sc_eq0 hc]
  split_ifs <;> simp

/-! ### The loop -/

omit hc in
theorem sc_runThread {k : ℝ} {lim lim' : ℝ → ℝ × ℝ → (ℝ × ℝ) × Bool} {quad quad' : ℝ → ℝ → ℝ → Except Err ℝ}
    (hl : ∀ p st, lim' (c * p) (c * st.1, c * st.2)
      = ((c * (lim p st).1.1, c * (lim p st).1.2), (lim p st).2))
    (hq : ∀ p a b, quad' (c * p) (c * a) (c * b) = (quad p a b).map (k * ·)) (ps : List ℝ) :
    ∀ (l : List ℕ) (st : ℝ × ℝ),
      runThread lim' quad' (ps.map (c * ·)) (c * st.1, c * st.2) l
        = (runThread lim quad ps st l).map fun e => (e.1, e.2.map (k * ·))
  | [], _ => rfl
  | i :: rest, st => by
    simp only [runThread, List.getElem?_map]
    cases hp : ps[i]? with
    | none =>
      simp only [Option.map_none, List.map_cons]
      rw [sc_runThread hl hq ps rest st]
      rfl
    | some p0 =>
      simp only [Option.map_some, List.map_cons]
      rw [hl, sc_runThread hl hq ps rest (lim p0 st).1, hq]
      congr 2
      split_ifs <;> simp [Except.map]

omit hc in
theorem lookup_mapVal {k : ℝ} (i : ℕ) : ∀ l : List (ℕ × Except Err ℝ),
    (l.map fun e => (e.1, e.2.map (k * ·))).lookup i = (l.lookup i).map fun v => v.map (k * ·)
  | [] => rfl
  | (j, v) :: t => by
    simp only [List.map_cons, List.lookup_cons]
    split
    · rfl
    · exact lookup_mapVal i t

omit hc in
theorem sc_parallelLoop {k : ℝ} {lim lim' : ℝ → ℝ × ℝ → (ℝ × ℝ) × Bool}
    {quad quad' : ℝ → ℝ → ℝ → Except Err ℝ}
    (hl : ∀ p st, lim' (c * p) (c * st.1, c * st.2)
      = ((c * (lim p st).1.1, c * (lim p st).1.2), (lim p st).2))
    (hq : ∀ p a b, quad' (c * p) (c * a) (c * b) = (quad p a b).map (k * ·)) (ps : List ℝ)
    (st : ℝ × ℝ) (sched : List (List ℕ)) :
    parallelLoop lim' quad' (ps.map (c * ·)) (c * st.1, c * st.2) sched
      = (parallelLoop lim quad ps st sched).map fun v => v.map (k * ·) := by
  unfold parallelLoop
  simp only [List.length_map, List.map_map, sc_runThread hl hq]
  apply List.map_congr_left
  intro i _
  have hfl : (sched.map fun t => (runThread lim quad ps st t).map
      fun e => (e.1, e.2.map (k * ·))).flatten
      = ((sched.map fun t => runThread lim quad ps st t).flatten).map
        fun e => (e.1, e.2.map (k * ·)) := by
    rw [List.map_flatten, List.map_map]; rfl
  rw [hfl, lookup_mapVal]
  simp only [Function.comp]
  cases (sched.map fun t => runThread lim quad ps st t).flatten.lookup i <;> simp [Except.map]

omit hc in
theorem mapM_id_map {k : ℝ} : ∀ l : List (Except Err ℝ),
    (l.map fun v => v.map (k * ·)).mapM id = (l.mapM id).map fun r : List ℝ => r.map (k * ·)
  | [] => rfl
  | v :: t => by
    simp only [List.map_cons, List.mapM_cons, mapM_id_map t]
    cases v with
    | error e => rfl
    | ok a =>
      cases t.mapM id with
      | error e => rfl
      | ok r => rfl

theorem sc_exactQuad4 (r : Fin 4 → Reactant) (Ms : List CM) (kind : ℤ) (max3 : ℝ) (d : ℝ × ℝ)
    (hK : ∀ M ∈ Ms.head?, M.K = 0) (p0 lo hi : ℝ) :
    exactQuad4 (fun i => scaleR c (r i)) Ms kind (c * max3) (c * d.1, c * d.2) (c * p0) (c * lo) (c * hi)
      = (exactQuad4 r Ms kind max3 d p0 lo hi).map (c ^ 5 * ·) := by
  unfold exactQuad4
  simp only [Except.map]
  congr 1
  have ht : reactionTypeSum [scaleR c (r 0), scaleR c (r 1), scaleR c (r 2), scaleR c (r 3)]
      = reactionTypeSum [r 0, r 1, r 2, r 3] := rfl
  rw [ht]
  rw [← intervalIntegral.mul_integral_comp_mul_left, ← intervalIntegral.integral_const_mul,
    ← intervalIntegral.integral_const_mul]
  apply intervalIntegral.integral_congr
  intro p1 _
  simp only [scaleR, scaleC, sc_innerLimits hc]
  cases innerLimits (reactionTypeSum [r 0, r 1, r 2, r 3]) (r 0).specie.m (r 1).specie.m
      (r 2).specie.m (r 3).specie.m max3 p0 p1 d with
  | none => simp
  | some ab =>
    simp only [Option.map_some]
    rw [← intervalIntegral.mul_integral_comp_mul_left, ← intervalIntegral.integral_const_mul,
      ← intervalIntegral.integral_const_mul, ← intervalIntegral.integral_const_mul]
    apply intervalIntegral.integral_congr
    intro p2 _
    have h := sc_integrand4 hc r Ms kind p0 p1 p2 hK
    simp only [scaleR, scaleC] at h
    simp only [h]
    cases integrandFull4 p0 p1 p2 r Ms kind with
    | error e => simp [Except.map]
    | ok v => simp only [Except.map]; ring

/-- **The four-particle loop is homogeneous of degree 5.** -/
theorem sc_integration4 (r : Fin 4 → Reactant) (Ms : List CM) (kind : ℤ) (ps : List ℝ)
    (a b x y z : ℝ) (sched : List (List ℕ)) (hK : ∀ M ∈ Ms.head?, M.K = 0) :
    integration4Exact (fun i => scaleR c (r i)) Ms kind (ps.map (c * ·)) (c * a) (c * b) (c * x) (c * y)
      (c * z) sched
      = (integration4Exact r Ms kind ps a b x y z sched).map fun l => l.map (c ^ 5 * ·) := by
  unfold integration4Exact integration4
  rw [← mapM_id_map]
  congr 1
  exact sc_parallelLoop (sc_outerLimits hc (loopCtx4 r z))
    (fun p lo hi => sc_exactQuad4 hc r Ms kind z (x, y) hK p lo hi) ps (a, b) sched

end
/-! ### Couplings -/

/-- All couplings multiplied by `k`. -/
noncomputable def scaleM (k : ℝ) (M : CM) : CM :=
  { order := M.order, K1 := k * M.K1, K2 := k * M.K2, K := k * M.K }

section
variable {k : ℝ} (hk : k ≠ 0)
include hk

theorem cp_D (p E m : Fin 4 → ℝ) (K1 K2 : ℝ) (o : Fin 4 → Fin 4) (s : Fin 4 → ℤ) :
    D p E m (k * K1) (k * K2) o s = k * D p E m K1 K2 o s := by
  unfold D
  simp only [ne_eq, mul_eq_zero, hk, false_or]
  split_ifs <;> ring

theorem cp_Db (p E m : Fin 4 → ℝ) (K1 K2 : ℝ) (o : Fin 4 → Fin 4) (s : Fin 4 → ℤ) :
    Db p E m (k * K1) (k * K2) o s = k * Db p E m K1 K2 o s := by
  unfold Db
  simp only [ne_eq, mul_eq_zero, hk, false_or]
  split_ifs <;> ring

theorem cp_kernel4 (r : Fin 4 → Reactant) (Ms : List CM) (p E : Fin 4 → ℝ) :
    kernel4 r (Ms.map (scaleM k)) p E = (kernel4 r Ms p E).map (k * ·) := by
  cases Ms with
  | nil => rfl
  | cons M0 t =>
    have e1 : (((M0 :: t).map (scaleM k)).map fun M => D p E (fun i => (r i).specie.m) M.K1 M.K2
        M.order fun i => (r i).side).sum = k * ((M0 :: t).map fun M => D p E (fun i => (r i).specie.m)
          M.K1 M.K2 M.order fun i => (r i).side).sum := by
      simp only [List.map_map, Function.comp_def, scaleM]
      exact sum_sc (M0 :: t) (fun M => D p E (fun i => (r i).specie.m) (k * M.K1) (k * M.K2)
        M.order fun i => (r i).side) (fun M => D p E (fun i => (r i).specie.m) M.K1 M.K2
        M.order fun i => (r i).side) k fun M => cp_D hk p E _ M.K1 M.K2 M.order _
    have e2 : (((M0 :: t).map (scaleM k)).map fun M => Db p E (fun i => (r i).specie.m) M.K1 M.K2
        M.order fun i => (r i).side).sum = k * ((M0 :: t).map fun M => Db p E (fun i => (r i).specie.m)
          M.K1 M.K2 M.order fun i => (r i).side).sum := by
      simp only [List.map_map, Function.comp_def, scaleM]
      exact sum_sc (M0 :: t) (fun M => Db p E (fun i => (r i).specie.m) (k * M.K1) (k * M.K2)
        M.order fun i => (r i).side) (fun M => Db p E (fun i => (r i).specie.m) M.K1 M.K2
        M.order fun i => (r i).side) k fun M => cp_Db hk p E _ M.K1 M.K2 M.order _
    simp only [List.map_cons] at e1 e2
    have hK : (scaleM k M0).K = k * M0.K := rfl
    simp only [kernel4, List.map_cons, e1, e2, hK, ne_eq, mul_eq_zero, hk, false_or]
    split_ifs
    · rfl
    · simp only [Except.map, mul_div_assoc]
    · rfl

theorem cp_integrand4 (r : Fin 4 → Reactant) (Ms : List CM) (kind : ℤ) (p0 p1 p2 : ℝ) :
    integrandFull4 p0 p1 p2 r (Ms.map (scaleM k)) kind
      = (integrandFull4 p0 p1 p2 r Ms kind).map (k * ·) := by
  unfold integrandFull4
  simp only [cp_kernel4 hk]
  split_ifs
  · simp [Except.map]
  · simp [Except.map]
  · cases kernel4 r Ms (momenta4 r p0 p1 p2) (energies4 r p0 p1 p2) with
    | error e => rfl
    | ok ds =>
      simp only [Except.map, bind, Except.bind]
      have : jacobian4 r (momenta4 r p0 p1 p2) (energies4 r p0 p1 p2) * (k * ds) = 0 ↔
          jacobian4 r (momenta4 r p0 p1 p2) (energies4 r p0 p1 p2) * ds = 0 := by
        simp [hk]
      simp only [this]
      split_ifs
      · simp
      · cases occAt (r 0).specie (momenta4 r p0 p1 p2 0) <;> try rfl
        cases occAt (r 1).specie (momenta4 r p0 p1 p2 1) <;> try rfl
        cases occAt (r 2).specie (momenta4 r p0 p1 p2 2) <;> try rfl
        cases occAt (r 3).specie (momenta4 r p0 p1 p2 3) <;> try rfl
        simp only
        rename_i f0 f1 f2 f3
        cases kindFactor (Kind.ofInt kind) [r 0, r 1, r 2, r 3] [f0, f1, f2, f3] <;> try rfl
        simp only
        congr 1
        ring
  · simp [Except.map]

theorem cp_exactQuad4 (r : Fin 4 → Reactant) (Ms : List CM) (kind : ℤ) (max3 : ℝ) (d : ℝ × ℝ)
    (p0 lo hi : ℝ) :
    exactQuad4 r (Ms.map (scaleM k)) kind max3 d p0 lo hi
      = (exactQuad4 r Ms kind max3 d p0 lo hi).map (k * ·) := by
  unfold exactQuad4
  simp only [Except.map]
  congr 1
  rw [← intervalIntegral.integral_const_mul]
  apply intervalIntegral.integral_congr
  intro p1 _
  dsimp only
  cases innerLimits (reactionTypeSum [r 0, r 1, r 2, r 3]) (r 0).specie.m (r 1).specie.m
      (r 2).specie.m (r 3).specie.m max3 p0 p1 d with
  | none => simp
  | some ab =>
    dsimp only
    rw [← intervalIntegral.integral_const_mul]
    apply intervalIntegral.integral_congr
    intro p2 _
    simp only [cp_integrand4 hk]
    cases integrandFull4 p0 p1 p2 r Ms kind with
    | error e => simp [Except.map]
    | ok v => simp only [Except.map]

/-- **The four-particle loop is linear in the couplings.** -/
theorem cp_integration4 (r : Fin 4 → Reactant) (Ms : List CM) (kind : ℤ) (ps : List ℝ)
    (a b x y z : ℝ) (sched : List (List ℕ)) :
    integration4Exact r (Ms.map (scaleM k)) kind ps a b x y z sched
      = (integration4Exact r Ms kind ps a b x y z sched).map fun l => l.map (k * ·) := by
  unfold integration4Exact integration4
  rw [← mapM_id_map]
  congr 1
  have h := sc_parallelLoop (c := 1) (k := k) (lim := outerLimits (loopCtx4 r z))
    (lim' := outerLimits (loopCtx4 r z)) (quad := exactQuad4 r Ms kind z (x, y))
    (quad' := exactQuad4 r (Ms.map (scaleM k)) kind z (x, y)) (fun p st => by simp)
    (fun p lo hi => by simp only [one_mul, cp_exactQuad4 hk]) ps (a, b) sched
  simpa using h

end
end PyBBN
