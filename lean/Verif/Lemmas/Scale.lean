import Verif.Model.Assembly
import Mathlib.Tactic.Ring
import Mathlib.Tactic.FieldSimp
import Mathlib.Tactic.Positivity
import Mathlib.MeasureTheory.Integral.IntervalIntegral.Basic
/-!
# Homogeneity of the collision integrands

Lemmas for the statement that the collision terms do not depend on the unit of momentum.
-/
namespace PyBBN

/-- A species in other units: masses, momenta and temperature multiplied by `c`. -/
def scaleC (c : ℝ) (s : CParticle) : CParticle :=
  { s with m := c * s.m, grid := s.grid.map (c * ·), T := c * s.T }

/-- A reactant in other units. -/
def scaleR (c : ℝ) (r : Reactant) : Reactant := ⟨scaleC c r.specie, r.side⟩

section
variable {c : ℝ} (hc : 0 < c)
include hc

theorem sc_lt {a b : ℝ} : c * a < c * b ↔ a < b := mul_lt_mul_iff_right₀ hc
theorem sc_le {a b : ℝ} : c * a ≤ c * b ↔ a ≤ b := mul_le_mul_iff_right₀ hc
theorem sc_eq {a b : ℝ} : c * a = c * b ↔ a = b := mul_right_inj' hc.ne'
theorem sc_eq0 {a : ℝ} : c * a = 0 ↔ a = 0 := by simp [hc.ne']
theorem sc_pos {a : ℝ} : 0 < c * a ↔ 0 < a := mul_pos_iff_of_pos_left hc
theorem sc_nonpos {a : ℝ} : c * a ≤ 0 ↔ a ≤ 0 := by
  constructor
  · intro h; by_contra h'; push Not at h'; nlinarith [mul_pos hc h']
  · intro h; nlinarith
theorem sc_neg {a : ℝ} : c * a < 0 ↔ a < 0 := by
  rw [← not_le, ← not_le]
  exact not_congr ⟨fun h => by by_contra h'; push Not at h'; nlinarith [mul_neg_of_pos_of_neg hc h'],
    fun h => mul_nonneg hc.le h⟩

theorem sc_abs (a : ℝ) : |c * a| = c * |a| := by rw [abs_mul, abs_of_pos hc]

theorem sc_sgn (a : ℝ) : sgn (c * a) = sgn a := by
  unfold sgn
  simp only [gt_iff_lt, sc_pos hc, sc_neg hc]

theorem sc_max (a b : ℝ) : max (c * a) (c * b) = c * max a b := (mul_max_of_nonneg _ _ hc.le).symm
theorem sc_min (a b : ℝ) : min (c * a) (c * b) = c * min a b := (mul_min_of_nonneg _ _ hc.le).symm

theorem sc_ordMax (a b : ℝ) : ordMax (c * a) (c * b) = c * ordMax a b := by
  unfold ordMax; simp only [sc_lt hc]; split_ifs <;> rfl
theorem sc_ordMin (a b : ℝ) : ordMin (c * a) (c * b) = c * ordMin a b := by
  unfold ordMin; simp only [sc_lt hc]; split_ifs <;> rfl

theorem sc_sqrt {a b : ℝ} (h : a = c ^ 2 * b) : √a = c * √b := by
  rw [h, Real.sqrt_mul (by positivity), Real.sqrt_sq hc.le]

theorem sc_sqrt3 {a b : ℝ} (h : a = c ^ 6 * b) : √a = c ^ 3 * √b := by
  rw [h, Real.sqrt_mul (by positivity), show c ^ 6 = (c ^ 3) ^ 2 by ring,
    Real.sqrt_sq (by positivity)]

theorem sc_sqrt2 {a b : ℝ} (h : a = c ^ 4 * b) : √a = c ^ 2 * √b := by
  rw [h, Real.sqrt_mul (by positivity), show c ^ 4 = (c ^ 2) ^ 2 by ring,
    Real.sqrt_sq (by positivity)]

theorem sc_energy (p m : ℝ) : energy (c * p) (c * m) = c * energy p m :=
  sc_sqrt hc (by ring)

theorem sc_D1 (q1 q2 q3 q4 : ℝ) : D1 (c * q1) (c * q2) (c * q3) (c * q4) = c * D1 q1 q2 q3 q4 := by
  unfold D1
  simp only [← mul_neg, ← mul_add, ← mul_sub, sc_abs hc]
  ring

theorem sc_D2core (q1 q2 q3 q4 : ℝ) :
    D2core (c * q1) (c * q2) (c * q3) (c * q4) = c ^ 3 * D2core q1 q2 q3 q4 := by
  have h1 : c * q1 + c * q2 - c * q3 - c * q4 = c * (q1 + q2 - q3 - q4) := by ring
  have h2 : c * q1 - c * q2 - c * q3 + c * q4 = c * (q1 - q2 - q3 + q4) := by ring
  have h3 : c * q1 + c * q2 - c * q3 + c * q4 = c * (q1 + q2 - q3 + q4) := by ring
  have h4 : -(c * q1) + c * q2 + c * q3 + c * q4 = c * (-q1 + q2 + q3 + q4) := by ring
  have h5 : c * q1 - c * q2 - c * q3 - c * q4 = c * (q1 - q2 - q3 - q4) := by ring
  have h6 : c * q1 - c * q2 + c * q3 - c * q4 = c * (q1 - q2 + q3 - q4) := by ring
  have h7 : c * q1 + c * q2 + c * q3 - c * q4 = c * (q1 + q2 + q3 - q4) := by ring
  have h8 : c * q1 - c * q2 + c * q3 + c * q4 = c * (q1 - q2 + q3 + q4) := by ring
  have h9 : c * q1 + c * q2 + c * q3 + c * q4 = c * (q1 + q2 + q3 + q4) := by ring
  unfold D2core
  rw [h1, h2, h3, h4, h5, h6, h7, h8, h9]
  simp only [sc_abs hc, sc_sgn hc]
  ring

theorem sc_D2 (q1 q2 q3 q4 : ℝ) :
    D2 (c * q1) (c * q2) (c * q3) (c * q4) = c ^ 3 * D2 q1 q2 q3 q4 := by
  unfold D2
  simp only [sc_ordMax hc, sc_ordMin hc, sc_D2core hc]

theorem sc_D3core (q1 q2 q3 q4 : ℝ) :
    D3core (c * q1) (c * q2) (c * q3) (c * q4) = c ^ 5 * D3core q1 q2 q3 q4 := by
  unfold D3core
  simp only [← mul_add, gt_iff_lt, ge_iff_le, sc_lt hc, sc_le hc]
  split_ifs <;> ring

theorem sc_D3 (q1 q2 q3 q4 : ℝ) :
    D3 (c * q1) (c * q2) (c * q3) (c * q4) = c ^ 5 * D3 q1 q2 q3 q4 := by
  unfold D3
  simp only [sc_ordMax hc, sc_ordMin hc, sc_D3core hc]

theorem sc_D (p E m : Fin 4 → ℝ) (K1 K2 : ℝ) (o : Fin 4 → Fin 4) (s : Fin 4 → ℤ) :
    D (fun i => c * p i) (fun i => c * E i) (fun i => c * m i) K1 K2 o s = c ^ 5 * D p E m K1 K2 o s := by
  unfold D
  simp only [sc_D1 hc, sc_D2 hc, sc_D3 hc]
  split_ifs <;> ring

theorem sc_Db1 (q2 q3 q4 : ℝ) : Db1 (c * q2) (c * q3) (c * q4) = Db1 q2 q3 q4 := by
  unfold Db1
  simp only [sc_max hc, sc_min hc, ← mul_add, ← mul_sub, sc_sgn hc]

theorem sc_Db2core (q2 q3 q4 : ℝ) :
    Db2core (c * q2) (c * q3) (c * q4) = c ^ 2 * Db2core q2 q3 q4 := by
  have h1 : c * q2 - c * q3 + c * q4 = c * (q2 - q3 + q4) := by ring
  have h2 : -(c * q2) + c * q3 + c * q4 = c * (-q2 + q3 + q4) := by ring
  have h3 : c * q2 - c * q3 - c * q4 = c * (q2 - q3 - q4) := by ring
  have h4 : c * q2 + c * q3 - c * q4 = c * (q2 + q3 - q4) := by ring
  unfold Db2core
  rw [h1, h2, h3, h4]
  simp only [sc_abs hc, sc_sgn hc]
  ring

theorem sc_Db2 (q2 q3 q4 : ℝ) : Db2 (c * q2) (c * q3) (c * q4) = c ^ 2 * Db2 q2 q3 q4 := by
  unfold Db2
  simp only [sc_ordMax hc, sc_ordMin hc, sc_Db2core hc]

theorem sc_Db (p E m : Fin 4 → ℝ) (K1 K2 : ℝ) (o : Fin 4 → Fin 4) (s : Fin 4 → ℤ) :
    Db (fun i => c * p i) (fun i => c * E i) (fun i => c * m i) K1 K2 o s
      = c ^ 3 * Db p E m K1 K2 o s := by
  unfold Db
  simp only [sc_Db1 hc, sc_Db2 hc]
  split_ifs <;> ring

theorem sc_inBounds4 (p E m : Fin 4 → ℝ) :
    inBounds4 (fun i => c * p i) (fun i => c * E i) (fun i => c * m i) ↔ inBounds4 p E m := by
  unfold inBounds4
  simp only [sc_ordMax hc, sc_ordMin hc, ← mul_add, ge_iff_le, sc_le hc]

theorem sc_lastEnergy4 (r : Fin 4 → Reactant) (p0 p1 p2 : ℝ) :
    lastEnergy4 (fun i => scaleR c (r i)) (c * p0) (c * p1) (c * p2) = c * lastEnergy4 r p0 p1 p2 := by
  unfold lastEnergy4
  simp only [scaleR, scaleC, sc_energy hc]
  ring

theorem sc_momenta4 (r : Fin 4 → Reactant) (p0 p1 p2 : ℝ) :
    momenta4 (fun i => scaleR c (r i)) (c * p0) (c * p1) (c * p2)
      = fun i => c * momenta4 r p0 p1 p2 i := by
  unfold momenta4
  rw [sc_lastEnergy4 hc]
  have : √((c * lastEnergy4 r p0 p1 p2) ^ 2 - (scaleR c (r 3)).specie.m ^ 2)
      = c * √(lastEnergy4 r p0 p1 p2 ^ 2 - (r 3).specie.m ^ 2) :=
    sc_sqrt hc (by simp only [scaleR, scaleC]; ring)
  rw [this]
  funext i
  fin_cases i <;> simp

theorem sc_energies4 (r : Fin 4 → Reactant) (p0 p1 p2 : ℝ) :
    energies4 (fun i => scaleR c (r i)) (c * p0) (c * p1) (c * p2)
      = fun i => c * energies4 r p0 p1 p2 i := by
  unfold energies4
  rw [sc_lastEnergy4 hc]
  funext i
  fin_cases i <;> simp [scaleR, scaleC, sc_energy hc]

theorem sc_jacobian4 (r : Fin 4 → Reactant) (p E : Fin 4 → ℝ) :
    jacobian4 (fun i => scaleR c (r i)) (fun i => c * p i) (fun i => c * E i) = jacobian4 r p E := by
  unfold jacobian4
  simp only [scaleR, scaleC, ne_eq, sc_eq0 hc, mul_div_mul_left _ _ hc.ne']

omit hc in
theorem sum_sc (l : List CM) (a b : CM → ℝ) (k : ℝ) (h : ∀ M, a M = k * b M) :
    (l.map a).sum = k * (l.map b).sum := by
  induction l with
  | nil => simp
  | cons x t ih => simp only [List.map_cons, List.sum_cons, ih, h]; ring

theorem sc_kernel4 (r : Fin 4 → Reactant) (Ms : List CM) (p E : Fin 4 → ℝ)
    (hK : ∀ M ∈ Ms.head?, M.K = 0) :
    kernel4 (fun i => scaleR c (r i)) Ms (fun i => c * p i) (fun i => c * E i)
      = (kernel4 r Ms p E).map (c ^ 3 * ·) := by
  cases Ms with
  | nil => rfl
  | cons M0 t =>
    have h0 : M0.K = 0 := hK M0 (by simp)
    have hm : (fun i => (scaleR c (r i)).specie.m) = fun i => c * (r i).specie.m := rfl
    have hs : (fun i => (scaleR c (r i)).side) = fun i => (r i).side := rfl
    simp only [kernel4, h0, ne_eq, not_true_eq_false, if_false, sc_eq0 hc]
    rw [hm, hs]
    by_cases hp : p 0 = 0
    · simp only [hp, not_true_eq_false, if_false, Except.map]
      rw [sum_sc (M0 :: t) _ _ (c ^ 3) (fun M => sc_Db hc p E (fun i => (r i).specie.m) M.K1 M.K2
        M.order (fun i => (r i).side))]
    · simp only [hp, not_false_eq_true, if_true, Except.map]
      rw [sum_sc (M0 :: t) _ _ (c ^ 5) (fun M => sc_D hc p E (fun i => (r i).specie.m) M.K1 M.K2
        M.order (fun i => (r i).side))]
      congr 1
      by_cases hE : E 0 = 0
      · simp [hE]
      · field_simp

/-! ### Grid look-up -/

theorem sc_bfLoop (grid : List ℝ) (x : ℝ) : ∀ (n head tail : ℕ), tail - head ≤ n →
    bfLoop (grid.map (c * ·)) (c * x) head tail = bfLoop grid x head tail := by
  intro n
  induction n with
  | zero => intro h t hn; conv_lhs => rw [bfLoop]
            conv_rhs => rw [bfLoop]
            simp [show ¬ 1 < t - h by omega]
  | succ n ih =>
    intro h t hn
    conv_lhs => rw [bfLoop]
    conv_rhs => rw [bfLoop]
    by_cases h1 : t - h > 1
    · simp only [h1, dite_true, List.getElem?_map]
      cases hg : grid[(t + h) / 2]? with
      | none => rfl
      | some g =>
        simp only [Option.map_some, gt_iff_lt, sc_lt hc]
        split_ifs
        · exact ih _ _ (by omega)
        · exact ih _ _ (by omega)
    · simp only [h1, dite_false]

theorem sc_binaryFind (grid : List ℝ) (x : ℝ) :
    binaryFind (grid.map (c * ·)) (c * x) = binaryFind grid x := by
  unfold binaryFind
  simp only [List.length_map, List.getElem?_map]
  cases grid[grid.length - 1]? <;> cases grid[0]? <;> simp only [Option.map_some, Option.map_none]
  simp only [sc_lt hc, gt_iff_lt, sc_bfLoop hc grid x _ _ _ le_rfl]
  split_ifs
  · rfl
  · rfl
  · cases bfLoop grid x 0 (grid.length - 1) with
    | error e => rfl
    | ok ht =>
      obtain ⟨h, t⟩ := ht
      simp only
      cases grid[t]? <;> cases grid[h]? <;> simp [hc.ne']

theorem sc_interpCell (a b fa fb p m : ℝ) (eta : ℤ) :
    interpCell (c * a) (c * b) fa fb (c * p) (c * m) eta = interpCell a b fa fb p m eta := by
  unfold interpCell
  simp only [sc_energy hc, ← mul_sub]
  congr 1
  congr 1
  congr 1
  congr 3
  rw [mul_assoc, mul_assoc, ← mul_add, mul_div_mul_left _ _ hc.ne']

theorem sc_lookupAt (f : Except Err (ℤ × ℤ)) (grid dist : List ℝ) (p m T : ℝ) (eta : ℤ) :
    lookupAt f (grid.map (c * ·)) dist (c * p) (c * m) eta (c * T)
      = lookupAt f grid dist p m eta T := by
  unfold lookupAt
  cases f with
  | error e => rfl
  | ok ht =>
    obtain ⟨lo, hi⟩ := ht
    simp only [List.length_map, List.getElem?_map]
    split_ifs
    · rfl
    · cases dist[grid.length - 1]? <;> cases grid[grid.length - 1]? <;>
        simp only [Option.map_some, Option.map_none]
      rw [sc_energy hc, sc_energy hc, ← mul_sub, mul_div_mul_left _ _ hc.ne']
    · rfl
    · cases grid[lo.toNat]? <;> cases grid[hi.toNat]? <;> cases dist[lo.toNat]? <;>
        cases dist[hi.toNat]? <;> simp only [Option.map_some, Option.map_none, sc_interpCell hc]

theorem sc_occAt (s : CParticle) (p : ℝ) : occAt (scaleC c s) (c * p) = occAt s p := by
  unfold occAt distributionInterpolation
  simp only [scaleC, sc_energy hc, mul_div_mul_left _ _ hc.ne', sc_binaryFind hc, sc_lookupAt hc]

omit hc in
theorem sc_fLoop (side skip : ℤ) : ∀ (l : List (Reactant × ℝ)) (i : ℕ) (t : ℝ),
    fLoop side skip i (l.map fun x => (scaleR c x.1, x.2)) t = fLoop side skip i l t
  | [], _, _ => rfl
  | (r, f) :: rest, i, t => by
    simp only [List.map_cons, fLoop, sc_fLoop side skip rest]
    rfl

omit hc in
theorem sc_kindFactor (k : Kind) (r : List Reactant) (f : List ℝ) :
    kindFactor k (r.map (scaleR c)) f = kindFactor k r f := by
  have hz : (r.map (scaleR c)).zip f = (r.zip f).map fun x => (scaleR c x.1, x.2) := by
    rw [List.zip_map_left]; rfl
  have hA : ∀ s, F_A (r.map (scaleR c)) f s = F_A r f s := fun s => by
    unfold F_A; rw [hz, sc_fLoop]
  have hB : ∀ s, F_B (r.map (scaleR c)) f s = F_B r f s := fun s => by
    unfold F_B; rw [hz, sc_fLoop]
  have hf : F_f (r.map (scaleR c)) f = F_f r f := by
    unfold F_f
    rw [List.getElem?_map]
    cases r[0]? with
    | none => rfl
    | some x => simp only [Option.map_some, hA, hB]; rfl
  unfold kindFactor F_1 F_creation F_decay
  simp only [hA, hB, hf]

theorem sc_integrand4 (r : Fin 4 → Reactant) (Ms : List CM) (kind : ℤ) (p0 p1 p2 : ℝ)
    (hK : ∀ M ∈ Ms.head?, M.K = 0) :
    integrandFull4 (c * p0) (c * p1) (c * p2) (fun i => scaleR c (r i)) Ms kind
      = (integrandFull4 p0 p1 p2 r Ms kind).map (c ^ 3 * ·) := by
  have hm : (fun i => (scaleR c (r i)).specie.m) = fun i => c * (r i).specie.m := rfl
  have hm3 : (scaleR c (r 3)).specie.m = c * (r 3).specie.m := rfl
  have hb : inBounds4 (momenta4 (fun i => scaleR c (r i)) (c * p0) (c * p1) (c * p2))
      (energies4 (fun i => scaleR c (r i)) (c * p0) (c * p1) (c * p2))
      (fun i => (scaleR c (r i)).specie.m) ↔
      inBounds4 (momenta4 r p0 p1 p2) (energies4 r p0 p1 p2) (fun i => (r i).specie.m) := by
    rw [hm, sc_momenta4 hc, sc_energies4 hc, sc_inBounds4 hc]
  unfold integrandFull4
  simp only [hb]
  simp only [hm3, sc_lastEnergy4 hc, sc_momenta4 hc, sc_energies4 hc, sc_lt hc,
    sc_jacobian4 hc, sc_kernel4 hc r Ms _ _ hK]
  have hl : [scaleR c (r 0), scaleR c (r 1), scaleR c (r 2), scaleR c (r 3)]
      = [r 0, r 1, r 2, r 3].map (scaleR c) := rfl
  simp only [hl, sc_kindFactor]
  have ho : ∀ (i : Fin 4) (p : ℝ), occAt (scaleR c (r i)).specie (c * p) = occAt (r i).specie p :=
    fun i p => sc_occAt hc _ _
  simp only [ho]
  split_ifs with h1 h2 h3 h4 h4 h3 h4
  all_goals first
    | exact absurd (hb.1 h2) h4
    | exact absurd (hb.2 h4) h2
    | exact absurd (hb.2 h3) h2
    | exact absurd (hb.1 h2) h3
    | skip
  · simp [Except.map]
  · simp [Except.map]
  · cases kernel4 r Ms (momenta4 r p0 p1 p2) (energies4 r p0 p1 p2) with
    | error e => rfl
    | ok ds =>
      simp only [Except.map, bind, Except.bind]
      have : jacobian4 r (momenta4 r p0 p1 p2) (energies4 r p0 p1 p2) * (c ^ 3 * ds) = 0 ↔
          jacobian4 r (momenta4 r p0 p1 p2) (energies4 r p0 p1 p2) * ds = 0 := by
        simp [hc.ne']
      simp only [this]
      split_ifs
      · simp
      · cases occAt (r 0).specie (momenta4 r p0 p1 p2 0) <;> try rfl
        cases occAt (r 1).specie (momenta4 r p0 p1 p2 1) <;> try rfl
        cases occAt (r 2).specie (momenta4 r p0 p1 p2 2) <;> try rfl
        cases occAt (r 3).specie (momenta4 r p0 p1 p2 3) <;> try rfl
        simp only
        rename_i f0 f1 f2 f3
        cases kindFactor (Kind.ofInt kind) [r 0, r 1, r 2, r 3] [f0, f1, f2, f3] <;> try rfl
        simp only
        congr 1
        ring
  · simp [Except.map]

end
end PyBBN
