import Verif.Model.Units
import Verif.Props.Evolution
import Verif.Props.Master
/-!
# Independence of the choice of units (C61) and the metre (C76)

`k` is the factor by which the unit of energy is rescaled; a quantity of energy dimension `d` has to be
multiplied by `k ^ d`.
-/
namespace PyBBN

/-- **C61 (chain).** -/
theorem C61_chain (e : ℝ) :
    (Units.reset e).keV = 1000 * e ∧ (Units.reset e).MeV = 1000 ^ 2 * e ∧
    (Units.reset e).GeV = 1000 ^ 3 * e ∧ (Units.reset e).TeV = 1000 ^ 4 * e := by
  unfold Units.reset
  refine ⟨?_, ?_, ?_, ?_⟩ <;> dsimp only <;> norm_num <;> ring

/-- Reduced Planck constant in eV s, elementary charge in C (joule per electronvolt), Boltzmann constant in
eV/K and speed of light in m/s, from the CODATA tables. -/
noncomputable def codataHbar : ℝ := 6.582119569e-16
noncomputable def codataE : ℝ := 1.602176634e-19
noncomputable def codataKB : ℝ := 8.617333262e-5
noncomputable def codataC : ℝ := 299792458

/-- **C61 (tables).** Whatever the energy unit, a second is `1/ħ`, 10⁹ kelvin the energy `10⁹ k_B`, a kilogram the
energy `c²` joules, and a gram per cubic centimetre the corresponding density, to one part in ten
thousand; the couplings differ by one half. -/
theorem C61_tables (e : ℝ) (he : 0 < e) :
    let u := Units.reset e
    |u.s - 1 / (codataHbar * e)| ≤ 1e-4 * u.s ∧
    |u.K9 - codataKB * 1e9 * e| ≤ 1e-4 * u.K9 ∧
    |u.kg - codataC ^ 2 / codataE * e| ≤ 1e-4 * u.kg ∧
    |u.g_cm3 - codataC ^ 2 / codataE * 1e-3 * e * (1e2 * (codataC * codataHbar * e)) ^ 3| ≤ 1e-4 * u.g_cm3 ∧
    (PConst.of u).g_L = (PConst.of u).g_R + 1 / 2 := by
  unfold Units.reset PConst.of codataHbar codataE codataKB codataC
  dsimp only
  have e4 : 0 < e ^ 4 := by positivity
  refine ⟨?_, ?_, ?_, ?_, by norm_num⟩
  · rw [show 1e22 / 6.582119 / (e * 1e3 * 1e3) - 1 / (6.582119569e-16 * e) =
      (1e16 / 6.582119 - 1 / 6.582119569e-16) * e⁻¹ by field_simp; norm_num,
      show (1e-4 : ℝ) * (1e22 / 6.582119 / (e * 1e3 * 1e3)) = (1e-4 * (1e16 / 6.582119)) * e⁻¹ by
        field_simp; norm_num, abs_mul, abs_of_pos (inv_pos.mpr he)]
    apply mul_le_mul_of_nonneg_right _ (inv_pos.mpr he).le
    rw [abs_le]; norm_num
  · rw [abs_le]; constructor <;> norm_num <;> linarith
  · rw [abs_le]; constructor <;> norm_num <;> linarith
  · rw [abs_le]; constructor <;> norm_num <;> ring_nf <;> linarith

/-- The default energy unit of the project. -/
example : |(Units.reset defaultEV).s - 1 / (codataHbar * defaultEV)| ≤ 1e-4 * (Units.reset defaultEV).s :=
  (C61_tables defaultEV (by unfold defaultEV; norm_num)).1

/-- **C61 (units).** Energy, mass and temperature units scale with the energy unit, time and length with
its inverse, force with its square, energy density with its fourth power. -/
theorem C61_units (k e : ℝ) :
    let u := Units.reset e
    let v := Units.reset (k * e)
    v.eV = k * u.eV ∧ v.keV = k * u.keV ∧ v.MeV = k * u.MeV ∧ v.GeV = k * u.GeV ∧
    v.TeV = k * u.TeV ∧ v.s = u.s / k ∧ v.kg = k * u.kg ∧ v.m = u.m / k ∧ v.N = k ^ 2 * u.N ∧
    v.K9 = k * u.K9 ∧ v.g_cm3 = k ^ 4 * u.g_cm3 := by
  unfold Units.reset
  dsimp only
  refine ⟨rfl, by ring, by ring, by ring, by ring, ?_, by ring, ?_, by ring, by ring, by ring⟩
  · rw [show k * e * 1e3 * 1e3 = (e * 1e3 * 1e3) * k by ring, ← div_div]
  · rw [show k * e * 1e3 * 1e3 * 1e3 = (e * 1e3 * 1e3 * 1e3) * k by ring, ← div_div]

/-- **C61 (constants).** The physical constants scale with their energy dimension. -/
theorem C61_constants (k e : ℝ) (hk : k ≠ 0) (he : e ≠ 0) :
    let u := PConst.of (Units.reset e)
    let v := PConst.of (Units.reset (k * e))
    v.M_p = k * u.M_p ∧ v.G = u.G / k ^ 2 ∧ v.G_F = u.G_F / k ^ 2 ∧ v.H = k * u.H ∧
    v.sin2 = u.sin2 ∧ v.g_R = u.g_R ∧ v.g_L = u.g_L ∧ v.f_K = k * u.f_K ∧
    v.lambda_QCD = k * u.lambda_QCD ∧ v.M_W = k * u.M_W ∧ v.dm12 = k ^ 2 * u.dm12 ∧
    v.dm13 = k ^ 2 * u.dm13 ∧ v.rateNorm = u.rateNorm / k ^ 5 ∧ v.MSW = u.MSW / k ^ 4 := by
  obtain ⟨h1, h2, h3, h4, h5, h6, -⟩ := C61_units k e
  have hM : (Units.reset e).MeV ≠ 0 := by rw [(C61_chain e).2.1]; positivity
  have hG : (Units.reset e).GeV ≠ 0 := by rw [(C61_chain e).2.2.1]; positivity
  have hs : (Units.reset e).s ≠ 0 := by
    have : (Units.reset e).s = 1e22 / 6.582119 / (Units.reset e).MeV := rfl
    rw [this]; exact div_ne_zero (by norm_num) hM
  unfold PConst.of
  simp only [h1, h3, h4, h6]
  have hpi := Real.pi_pos.ne'
  refine ⟨by ring, ?_, ?_, ?_, trivial, trivial, trivial, by ring, by ring, by ring, by ring, by ring, ?_, ?_⟩ <;>
    field_simp

/-! ## Rescaling of states -/

/-- A parameter object in the new units. -/
noncomputable def Params.inUnits (k : ℝ) (p : Params) : Params :=
  { log := p.log, m := k * p.m, T := k * p.T, a := p.a, aIni := p.aIni, x := k * p.x, y := p.y
    aT := k * p.aT, t := p.t / k, H := k * p.H, rho := p.rho.map (k ^ 4 * ·),
    S := p.S.map (k ^ 3 * ·), Neff := p.Neff, dy := p.dy, dx := k * p.dx
    h := if p.log then p.h else k * p.h }

/-- The arguments of `Params` in the new units. -/
noncomputable def ParamsKw.inUnits (k : ℝ) (kw : ParamsKw) : ParamsKw :=
  { T := kw.T.map (k * ·), m := kw.m.map (k * ·), t := kw.t.map (· / k), rho := kw.rho.map (k ^ 4 * ·)
    dy := kw.dy, dx := kw.dx.map (k * ·) }

/-- The constants in the new units. -/
noncomputable def Consts.inUnits (k : ℝ) (c : Consts) : Consts := ⟨k * c.MeV, k * c.Mp⟩

/-- A record of the history in the new units; the slope has the dimension of energy when taken with
respect to `ln x` and none with respect to `x`. -/
noncomputable def Row.inUnits (k : ℝ) (log : Bool) (r : Row) : Row :=
  { aT := k * r.aT, T := k * r.T, a := r.a, x := k * r.x, t := r.t / k, rho := k ^ 4 * r.rho
    Neff := r.Neff, fraction := if log then k * r.fraction else r.fraction, S := k ^ 3 * r.S }

/-- A universe in the new units; `φ` rescales the particles. -/
noncomputable def Uni.inUnits {W W' : Type*} (k : ℝ) (φ : W → W') (u : Uni W) : Uni W' :=
  ⟨φ u.w, u.params.inUnits k, if u.params.log then k * u.fraction else u.fraction, u.step⟩

/-- The particle physics does not depend on the units: energy density and entropy have their dimensions,
both temperature terms scale by the same factor. -/
structure Covariant {W W' : Type*} (k : ℝ) (φ : W → W') (ph : Physics W) (ph' : Physics W') : Prop where
  state : ∀ w p, (ph'.terms (φ w) (p.inUnits k)).1 = φ (ph.terms w p).1
  num : ∀ w p, (ph'.terms (φ w) (p.inUnits k)).2.1 = k ^ 3 * (ph.terms w p).2.1
  den : ∀ w p, (ph'.terms (φ w) (p.inUnits k)).2.2 = k ^ 3 * (ph.terms w p).2.2
  rho : ∀ w p, ph'.rho (φ w) (p.inUnits k) = k ^ 4 * ph.rho w p
  S : ∀ w p, ph'.S (φ w) (p.inUnits k) = k ^ 3 * ph.S w p

section
variable {W W' : Type*} {k : ℝ} {φ : W → W'} {ph : Physics W} {ph' : Physics W'}

/-- `Except.map` on both components of a run. -/
noncomputable def runInUnits (k : ℝ) (φ : W → W') (log : Bool) (s : List Row × Uni W) :
    List Row × Uni W' := (s.1.map (Row.inUnits k log), s.2.inUnits k φ)

theorem falsy_scale (hk : k ≠ 0) (v : Option ℝ) : falsy (v.map (k * ·)) ↔ falsy v := by
  unfold falsy
  cases v <;> simp [hk]

/-- **C61 (creation).** Creating the parameters from rescaled arguments gives the rescaled object (or
the same exception). -/
theorem C61_creation (c : Consts) (log : Bool) (kw : ParamsKw) (hk : k ≠ 0) :
    Params.new (c.inUnits k) log (kw.inUnits k) =
      (Params.new c log kw).map (Params.inUnits k) := by
  unfold Params.new
  cases hT : kw.T with
  | none => simp [ParamsKw.inUnits, hT, Except.map]
  | some T =>
    have e1 : (kw.inUnits k).T = some (k * T) := by simp [ParamsKw.inUnits, hT]
    have e2 : (kw.inUnits k).dy = kw.dy := rfl
    have e3 : (kw.inUnits k).dx = kw.dx.map (k * ·) := rfl
    have e4 : (kw.inUnits k).m.getD (1 * (c.inUnits k).MeV) = k * kw.m.getD (1 * c.MeV) := by
      cases h : kw.m <;> simp [ParamsKw.inUnits, Consts.inUnits, h]
    have e5 : (kw.dx.map (k * ·)).getD (0.005 * (c.inUnits k).MeV) = k * kw.dx.getD (0.005 * c.MeV) := by
      cases h : kw.dx <;> simp [Consts.inUnits]; ring
    have e6 : (kw.inUnits k).t.getD 0 = kw.t.getD 0 / k := by
      cases h : kw.t <;> simp [ParamsKw.inUnits, h]
    have e7 : (kw.inUnits k).rho = kw.rho.map (k ^ 4 * ·) := rfl
    simp only [e1, e2, e3, e4, e5, e6, e7, falsy_scale hk, mul_eq_zero, hk, false_or]
    by_cases hT0 : T = 0
    · simp [hT0, Except.map]
    · simp only [hT0, if_false]
      have ha : 1 * (k * kw.m.getD (1 * c.MeV)) / (k * T) = 1 * kw.m.getD (1 * c.MeV) / T := by
        field_simp
      simp only [ha]
      by_cases h1 : log = true ∧ falsy kw.dy
      · rw [if_pos h1, if_pos (show log = true ∧ falsy (kw.inUnits k).dy from h1)]; rfl
      rw [if_neg h1, if_neg (show ¬(log = true ∧ falsy (kw.inUnits k).dy) from h1)]
      have f2 : (log = false ∧ falsy (kw.inUnits k).dx) ↔ (log = false ∧ falsy kw.dx) := by
        rw [e3, falsy_scale hk]
      by_cases h2 : log = false ∧ falsy kw.dx
      · rw [if_pos h2, if_pos (f2.mpr h2)]; rfl
      rw [if_neg h2, if_neg (f2.not.mpr h2)]
      simp only [Except.map, Params.inUnits, mul_zero, Option.map_none]
      have hx : 1 * kw.m.getD (1 * c.MeV) / T * (k * kw.m.getD (1 * c.MeV)) =
        k * (1 * kw.m.getD (1 * c.MeV) / T * kw.m.getD (1 * c.MeV)) := by ring
      have hy : 1 * kw.m.getD (1 * c.MeV) / T * (k * T) =
        k * (1 * kw.m.getD (1 * c.MeV) / T * T) := by ring
      rw [hx, hy]
      cases log <;> simp [mul_assoc]

theorem update_inUnits (c : Consts) (p : Params) (rho S : ℝ) (hk : 0 < k) :
    (p.inUnits k).update (c.inUnits k) (k ^ 4 * rho) (k ^ 3 * S) = (p.update c rho S).inUnits k := by
  have hH : √(8 / 3 * Real.pi * (k ^ 4 * rho)) / (k * c.Mp) = k * (√(8 / 3 * Real.pi * rho) / c.Mp) := by
    rw [show 8 / 3 * Real.pi * (k ^ 4 * rho) = (k ^ 2) ^ 2 * (8 / 3 * Real.pi * rho) by ring,
      Real.sqrt_mul (by positivity), Real.sqrt_sq (by positivity)]
    field_simp
  have ha : k * p.x / (k * p.m) = p.x / p.m := mul_div_mul_left _ _ hk.ne'
  unfold Params.update Params.inUnits Consts.inUnits
  simp only [hH, ha, Option.map_some]
  congr 1
  · ring
  · rw [mul_comm k, ← div_div, ← add_div]
  · have e1 : k ^ 4 * rho - Real.pi ^ 2 / 15 * (k * p.T) ^ 4 =
      k ^ 4 * (rho - Real.pi ^ 2 / 15 * p.T ^ 4) := by ring
    have e2 : 7 / 8 * Real.pi ^ 2 / 15 * (k * p.T / 1.401) ^ 4 =
      k ^ 4 * (7 / 8 * Real.pi ^ 2 / 15 * (p.T / 1.401) ^ 4) := by ring
    rw [e1, e2, mul_div_mul_left _ _ (by positivity)]
  · split_ifs <;> ring

theorem initTime_inUnits (c : Consts) (p : Params) (rho : ℝ) (hk : 0 < k) :
    (p.inUnits k).initTime (c.inUnits k) (k ^ 4 * rho) = (p.initTime c rho).inUnits k := by
  have : √(3 / (32 * Real.pi * (c.inUnits k).G * (k ^ 4 * rho))) =
      √(3 / (32 * Real.pi * c.G * rho)) / k := by
    have e : 3 / (32 * Real.pi * (c.inUnits k).G * (k ^ 4 * rho)) =
        3 / (32 * Real.pi * c.G * rho) / k ^ 2 := by
      unfold Consts.G Consts.inUnits
      dsimp only
      rw [div_div]
      congr 1
      rw [mul_pow]
      by_cases h : c.Mp = 0
      · simp [h]
      · field_simp
    rw [e, Real.sqrt_div' _ (by positivity), Real.sqrt_sq hk.le]
  unfold Params.initTime
  rw [this]
  rfl

theorem integrand_inUnits (cov : Covariant k φ ph ph') (hk : 0 < k) (u : Uni W) :
    integrand ph' (u.inUnits k φ) = (integrand ph u).map (Uni.inUnits k φ) := by
  unfold integrand
  have h1 := cov.state u.w u.params
  have h2 := cov.num u.w u.params
  have h3 := cov.den u.w u.params
  have e1 : (u.inUnits k φ).w = φ u.w := rfl
  have e2 : (u.inUnits k φ).params = u.params.inUnits k := rfl
  simp only [e1, e2, h1, h2, h3, mul_eq_zero, (pow_pos hk 3).ne', false_or]
  by_cases hd : (ph.terms u.w u.params).2.2 = 0
  · simp [hd, Except.map]
  · simp only [hd, if_false, Except.map]
    congr 1
    unfold Uni.inUnits
    simp only
    congr 1
    have e3 : (u.params.inUnits k).log = u.params.log := rfl
    have e4 : (u.params.inUnits k).x = k * u.params.x := rfl
    rw [e3, e4]
    split_ifs
    · rw [show k * u.params.x * (k ^ 3 * (ph.terms u.w u.params).2.1) =
        k ^ 3 * (k * (u.params.x * (ph.terms u.w u.params).2.1)) by ring,
        mul_div_mul_left _ _ (pow_pos hk 3).ne', mul_div_assoc]
    · rw [mul_div_mul_left _ _ (pow_pos hk 3).ne']

theorem dotZip_scale (c : ℝ) (bs fs : List ℝ) : dotZip bs (fs.map (c * ·)) = c * dotZip bs fs := by
  unfold dotZip
  induction bs generalizing fs with
  | nil => simp
  | cons b bs ih =>
    cases fs with
    | nil => simp
    | cons f fs => simp only [List.map_cons, List.zipWith_cons_cons, List.sum_cons, ih]; ring

theorem pyLast_map {α β : Type*} (g : α → β) (l : List α) (n : ℕ) :
    pyLast (l.map g) n = (pyLast l n).map g := by
  unfold pyLast
  split_ifs <;> simp

theorem adamsBashforth_scale (c d : ℝ) (fs : List ℝ) (h : ℝ) :
    adamsBashforth (fs.map (c * ·)) (d * h) none = (adamsBashforth fs h none).map (c * d * ·) := by
  unfold adamsBashforth
  simp only [List.length_map, pyLast_map]
  split
  · rfl
  · split_ifs
    · simp only [Except.map, dotZip_scale]
      congr 1; ring
    · rfl

theorem makeStep_inUnits (cov : Covariant k φ ph ph') (hk : 0 < k) (c : Consts) (ab : Bool)
    (data : List Row) (u : Uni W) :
    makeStep ph' (c.inUnits k) ab (data.map (Row.inUnits k u.params.log)) (u.inUnits k φ) =
      (makeStep ph c ab data u).map (Uni.inUnits k φ) := by
  unfold makeStep
  rw [integrand_inUnits cov hk]
  cases hi : integrand ph u with
  | error e => rfl
  | ok v =>
    have hv : v.params = u.params := by
      unfold integrand at hi
      dsimp only at hi
      split_ifs at hi
      all_goals (injection hi with hi; rw [← hi])
    rw [← hv]
    simp only [Except.map]
    have efr : (data.map (Row.inUnits k v.params.log)).map Row.fraction =
        (data.map Row.fraction).map (if v.params.log then (k * ·) else id) := by
      rw [List.map_map, List.map_map]
      refine List.map_congr_left fun r _ => ?_
      simp only [Function.comp, Row.inUnits]
      split_ifs <;> rfl
    have efu : (v.inUnits k φ).fraction = (if v.params.log then (k * ·) else id) v.fraction := by
      simp only [Uni.inUnits]
      split_ifs <;> rfl
    have eh : (v.inUnits k φ).params.h = if v.params.log then v.params.h else k * v.params.h := rfl
    have hd : (if ab then adamsBashforth (pyLast ((data.map (Row.inUnits k v.params.log)).map
          Row.fraction) maxAB ++ [(v.inUnits k φ).fraction]) (v.inUnits k φ).params.h none
        else .ok ((v.inUnits k φ).fraction * (v.inUnits k φ).params.h)) =
        (if ab then adamsBashforth (pyLast (data.map Row.fraction) maxAB ++ [v.fraction])
          v.params.h none else .ok (v.fraction * v.params.h)).map (k * ·) := by
      rw [efr, efu, eh, pyLast_map, ← List.map_singleton (f := (if v.params.log then (k * ·) else id)),
        ← List.map_append]
      cases ab
      · simp only [Bool.false_eq_true, if_false, Except.map]
        congr 1
        split_ifs
        · ring
        · simp only [id]; ring
      · simp only [if_true]
        split_ifs
        · have := adamsBashforth_scale k 1 (pyLast (data.map Row.fraction) maxAB ++ [v.fraction]) v.params.h
          rw [one_mul, mul_one] at this
          exact this
        · have := adamsBashforth_scale 1 k (pyLast (data.map Row.fraction) maxAB ++ [v.fraction]) v.params.h
          simp only [one_mul] at this
          rw [← this]
          congr 1
    rw [hd]
    cases (if ab then adamsBashforth (pyLast (data.map Row.fraction) maxAB ++ [v.fraction])
          v.params.h none else .ok (v.fraction * v.params.h)) with
    | error e => rfl
    | ok d =>
      simp only [Except.map]
      congr 1
      have ep : ({ (v.inUnits k φ).params with
          aT := (v.inUnits k φ).params.aT + k * d, x := (v.inUnits k φ).params.x + (v.inUnits k φ).params.dx }
          : Params) = ({ v.params with aT := v.params.aT + d, x := v.params.x + v.params.dx } : Params).inUnits k := by
        simp only [Uni.inUnits, Params.inUnits, mul_add]
      have ew : (v.inUnits k φ).w = φ v.w := rfl
      rw [ep, ew, cov.rho, cov.S, update_inUnits _ _ _ _ hk]
      rfl

theorem saveParams_inUnits (data : List Row) (u : Uni W) :
    saveParams (data.map (Row.inUnits k u.params.log)) (u.inUnits k φ) =
      (saveParams data u).map (List.map (Row.inUnits k u.params.log)) := by
  unfold saveParams
  have e1 : (u.inUnits k φ).params.S = u.params.S.map (k ^ 3 * ·) := rfl
  have e2 : (u.inUnits k φ).params.rho = u.params.rho.map (k ^ 4 * ·) := rfl
  rw [e1, e2]
  cases u.params.S <;> cases u.params.rho <;> try rfl
  simp only [Option.map_some, Except.map, List.map_append, List.map_cons, List.map_nil]
  rfl

theorem makeStep_log {c : Consts} {ab : Bool} {data : List Row} {u v : Uni W}
    (h : makeStep ph c ab data u = .ok v) : v.params.log = u.params.log := by
  unfold makeStep at h
  split at h
  · simp at h
  · rename_i v' hi
    have hv : v'.params = u.params := by
      unfold integrand at hi
      dsimp only at hi
      split_ifs at hi
      all_goals (injection hi with hi; rw [← hi])
    dsimp only at h
    split at h
    · simp at h
    · injection h with h
      rw [← h, ← hv]; rfl

theorem loopBody_inUnits (cov : Covariant k φ ph ph') (hk : 0 < k) (c : Consts) (ab : Bool)
    (s : List Row × Uni W) :
    loopBody ph' (c.inUnits k) ab (runInUnits k φ s.2.params.log s) =
      (loopBody ph c ab s).map (runInUnits k φ s.2.params.log) := by
  unfold loopBody
  have h := makeStep_inUnits cov hk c ab s.1 s.2
  simp only [runInUnits]
  rw [h]
  cases hm : makeStep ph c ab s.1 s.2 with
  | error e => rfl
  | ok v =>
    simp only [Except.map]
    rw [← makeStep_log hm, saveParams_inUnits]
    cases saveParams s.1 v with
    | error e => rfl
    | ok d => rfl

theorem loopBody_log {c : Consts} {ab : Bool} {s s' : List Row × Uni W}
    (h : loopBody ph c ab s = .ok s') : s'.2.params.log = s.2.params.log := by
  unfold loopBody at h
  split at h
  · simp at h
  · rename_i v hm
    split at h
    · simp at h
    · injection h with h
      rw [← h, ← makeStep_log hm]

theorem evolveLoop_inUnits (cov : Covariant k φ ph ph') (hk : 0 < k) (c : Consts) (ab : Bool) (Tf : ℝ)
    (fuel : ℕ) : ∀ s : List Row × Uni W,
    evolveLoop ph' (c.inUnits k) ab (k * Tf) fuel (runInUnits k φ s.2.params.log s) =
      (evolveLoop ph c ab Tf fuel s).map (Option.map (runInUnits k φ s.2.params.log)) := by
  induction fuel with
  | zero =>
    intro s
    unfold evolveLoop
    have : (runInUnits k φ s.2.params.log s).2.params.T = k * s.2.params.T := rfl
    simp only [this, gt_iff_lt, mul_lt_mul_iff_right₀ hk]
    split_ifs <;> rfl
  | succ n ih =>
    intro s
    unfold evolveLoop
    have : (runInUnits k φ s.2.params.log s).2.params.T = k * s.2.params.T := rfl
    simp only [this, gt_iff_lt, mul_lt_mul_iff_right₀ hk]
    by_cases hT : Tf < s.2.params.T
    · rw [if_pos hT, if_pos hT, loopBody_inUnits cov hk]
      cases hb : loopBody ph c ab s with
      | error e => rfl
      | ok s' =>
        simp only [Except.map]
        have := ih s'
        rw [loopBody_log hb] at this
        rw [this]
        rfl
    · rw [if_neg hT, if_neg hT]; rfl

/-- Clock initialisation of `evolveStart`. -/
noncomputable def startClock (ph : Physics W) (c : Consts) (init : Bool) (u : Uni W) : Uni W :=
  if init then { u with params := u.params.initTime c (ph.rho u.w u.params) } else u

/-- First update of `evolveStart`. -/
noncomputable def startUpdate (ph : Physics W) (c : Consts) (u : Uni W) : Uni W :=
  match u.params.rho with
  | none => { u with params := u.params.update c (ph.rho u.w u.params) (ph.S u.w u.params) }
  | some _ => u

theorem evolveStart_eq (c : Consts) (init : Bool) (s : List Row × Uni W) :
    evolveStart ph c init s = (saveParams s.1 (startUpdate ph c (startClock ph c init s.2))).map
      fun d => (d, startUpdate ph c (startClock ph c init s.2)) := by
  unfold evolveStart
  change (match saveParams s.1 (startUpdate ph c (startClock ph c init s.2)) with
    | .error e => Except.error e
    | .ok data => .ok (data, startUpdate ph c (startClock ph c init s.2))) = _
  cases saveParams s.1 (startUpdate ph c (startClock ph c init s.2)) <;> rfl

theorem startClock_inUnits (cov : Covariant k φ ph ph') (hk : 0 < k) (c : Consts) (init : Bool)
    (u : Uni W) : startClock ph' (c.inUnits k) init (u.inUnits k φ) =
      (startClock ph c init u).inUnits k φ := by
  unfold startClock
  cases init
  · rfl
  · have ew : (u.inUnits k φ).w = φ u.w := rfl
    have ep : (u.inUnits k φ).params = u.params.inUnits k := rfl
    simp only [if_true]
    rw [ew, ep, cov.rho, initTime_inUnits _ _ _ hk]
    rfl

theorem startUpdate_inUnits (cov : Covariant k φ ph ph') (hk : 0 < k) (c : Consts)
    (u : Uni W) : startUpdate ph' (c.inUnits k) (u.inUnits k φ) =
      (startUpdate ph c u).inUnits k φ := by
  unfold startUpdate
  have er : (u.inUnits k φ).params.rho = u.params.rho.map (k ^ 4 * ·) := rfl
  rw [er]
  cases u.params.rho with
  | some r => rfl
  | none =>
    have ew : (u.inUnits k φ).w = φ u.w := rfl
    have ep : (u.inUnits k φ).params = u.params.inUnits k := rfl
    simp only [Option.map_none]
    rw [ew, ep, cov.rho, cov.S, update_inUnits _ _ _ _ hk]
    rfl

theorem start_log (c : Consts) (init : Bool) (u : Uni W) :
    (startUpdate ph c (startClock ph c init u)).params.log = u.params.log := by
  have h1 : ∀ u : Uni W, (startUpdate ph c u).params.log = u.params.log := by
    intro u
    unfold startUpdate
    cases u.params.rho <;> rfl
  rw [h1]
  cases init <;> rfl

/-- **C61 (evolution).** If the particle physics is covariant, a whole run in other units (constants,
initial state, final temperature and history rescaled by their dimensions) is the rescaled run: same
exceptions, same number of steps, every recorded quantity multiplied by the power of the factor that its
dimension requires.  Both stepping modes, with and without the Adams–Bashforth correction. -/
theorem C61_evolve (cov : Covariant k φ ph ph') (hk : 0 < k) (c : Consts) (ab : Bool) (Tf : ℝ)
    (init : Bool) (fuel : ℕ) (s : List Row × Uni W) :
    evolve ph' (c.inUnits k) ab (k * Tf) init fuel (runInUnits k φ s.2.params.log s) =
      (evolve ph c ab Tf init fuel s).map (Option.map (runInUnits k φ s.2.params.log)) := by
  have hs : evolveStart ph' (c.inUnits k) init (runInUnits k φ s.2.params.log s) =
      (evolveStart ph c init s).map (runInUnits k φ s.2.params.log) ∧
      ∀ s', evolveStart ph c init s = .ok s' → s'.2.params.log = s.2.params.log := by
    constructor
    · rw [evolveStart_eq, evolveStart_eq]
      simp only [runInUnits]
      rw [startClock_inUnits cov hk, startUpdate_inUnits cov hk, ← start_log (ph := ph) c init s.2,
        saveParams_inUnits]
      cases saveParams s.1 (startUpdate ph c (startClock ph c init s.2)) <;> rfl
    · intro s' h
      rw [evolveStart_eq] at h
      cases hh : saveParams s.1 (startUpdate ph c (startClock ph c init s.2)) with
      | error e => rw [hh] at h; simp [Except.map] at h
      | ok d =>
        rw [hh] at h
        simp only [Except.map] at h
        injection h with h
        rw [← h, ← start_log (ph := ph) c init s.2]
  obtain ⟨hs, hl⟩ := hs
  unfold evolve
  rw [hs]
  cases he : evolveStart ph c init s with
  | error e => rfl
  | ok s' =>
    simp only [Except.map]
    have := evolveLoop_inUnits cov hk c ab Tf fuel s'
    rw [hl s' he] at this
    rw [this]
    cases evolveLoop ph c ab Tf fuel s' with
    | error e => rfl
    | ok o =>
      cases o with
      | none => rfl
      | some s'' =>
        simp only [Except.map, Option.map_some]
        have : (runInUnits k φ s.2.params.log s'').2.params.T = k * s''.2.params.T := rfl
        rw [this]
        have hp : k * s''.2.params.T > 0 ↔ s''.2.params.T > 0 := mul_pos_iff_of_pos_left hk
        by_cases h0 : s''.2.params.T > 0
        · rw [if_pos h0, if_pos (hp.mpr h0)]; rfl
        · rw [if_neg h0, if_neg (hp.not.mpr h0)]

end

/-! ## The thermodynamic quantities are covariant -/

/-- A species in the new units. -/
noncomputable def Species.inUnits (k : ℝ) (sp : Species) : Species :=
  { sp with mass := k * sp.mass, grid := sp.grid.map (k * ·), lifetime := sp.lifetime / k }

/-- A momentum grid in the new units. -/
noncomputable def NGrid.inUnits (k : ℝ) (g : NGrid) : NGrid :=
  { n := g.n, w := fun i => k * g.w i, y := fun i => k * g.y i }

/-- A particle in the new units; the collision integral is a rate per `ln x` or per `x`. -/
noncomputable def TPart.inUnits (k : ℝ) (log : Bool) (t : TPart) : TPart :=
  { sp := t.sp.inUnits k, aT := k * t.aT, ymin := k * t.ymin, ymax := k * t.ymax, regime := t.regime
    grid := t.grid.inUnits k, coll := fun i => if log then t.coll i else t.coll i / k }

section
variable {k : ℝ}

theorem gaussian_units (rule : Rule) (f g : ℝ → ℝ) (a b c : ℝ) (hk : k ≠ 0)
    (h : ∀ y, g (k * y) = c * f y) : gaussian rule g (k * a) (k * b) = k * c * gaussian rule f a b := by
  unfold gaussian
  dsimp only
  have e1 : (k * b - k * a) / 2 = k * ((b - a) / 2) := by ring
  have e2 : (k * b + k * a) / 2 = k * ((b + a) / 2) := by ring
  rw [e1, e2]
  by_cases h0 : (b - a) / 2 = 0
  · rw [if_pos (by rw [h0, mul_zero]), if_pos h0, mul_zero]
  · rw [if_neg (mul_ne_zero hk h0), if_neg h0]
    have : (rule.map fun xw => g (k * ((b - a) / 2) * xw.1 + k * ((b + a) / 2)) * xw.2).sum =
        c * (rule.map fun xw => f ((b - a) / 2 * xw.1 + (b + a) / 2) * xw.2).sum := by
      rw [← List.sum_map_mul_left]
      congr 1
      refine List.map_congr_left fun xw _ => ?_
      rw [show k * ((b - a) / 2) * xw.1 + k * ((b + a) / 2) = k * ((b - a) / 2 * xw.1 + (b + a) / 2) by ring,
        h]
      ring
    rw [this]; ring

theorem physEnergy_units (sp : Species) (p : ℝ) (hk : 0 < k) :
    physEnergy (sp.inUnits k) (k * p) = k * physEnergy sp p := by
  unfold physEnergy Species.inUnits
  simp only [gt_iff_lt, mul_pos_iff_of_pos_left hk]
  split_ifs
  · rw [show (k * p) ^ 2 + (k * sp.mass) ^ 2 = k ^ 2 * (p ^ 2 + sp.mass ^ 2) by ring,
      Real.sqrt_mul (by positivity), Real.sqrt_sq hk.le]
  · rw [abs_mul, abs_of_pos hk]

theorem conformalEnergy_units (sp : Species) (y M : ℝ) (hk : 0 < k) :
    conformalEnergy (sp.inUnits k) (k * y) (k * M) = k * conformalEnergy sp y M := by
  unfold conformalEnergy Species.inUnits
  simp only [gt_iff_lt, mul_pos_iff_of_pos_left hk]
  split_ifs
  · rw [show (k * y) ^ 2 + (k * M) ^ 2 = k ^ 2 * (y ^ 2 + M ^ 2) by ring,
      Real.sqrt_mul (by positivity), Real.sqrt_sq hk.le]
  · rw [abs_mul, abs_of_pos hk]

theorem stat_units (sp : Species) : (sp.inUnits k).stat = sp.stat := rfl
theorem eta_units (sp : Species) : (sp.inUnits k).eta = sp.eta := rfl
theorem dof_units (sp : Species) : (sp.inUnits k).dof = sp.dof := rfl
theorem mass_units (sp : Species) : (sp.inUnits k).mass = k * sp.mass := rfl

theorem entropy_units {rho pr rho' pr' T : ℝ} (hk : k ≠ 0) (h1 : rho' = k ^ 4 * rho)
    (h2 : pr' = k ^ 4 * pr) : (rho' + pr') / (k * T) = k ^ 3 * ((rho + pr) / T) := by
  rw [h1, h2]; field_simp

/-- **C61 (densities).** Number density, energy density, pressure and entropy of all regimes scale with
the third, fourth, fourth and third power. -/
theorem C61_densities (rule : Rule) (g : NGrid) (sp : Species) (T : ℝ) (p : Params) (f : ℕ → ℝ)
    (hk : 0 < k) :
    (radDensity (sp.inUnits k) (k * T) = k ^ 3 * radDensity sp T ∧
      dustDensity (sp.inUnits k) (k * T) = k ^ 3 * dustDensity sp T ∧
      intDensity rule (sp.inUnits k) (k * T) = k ^ 3 * intDensity rule sp T ∧
      neqDensity (g.inUnits k) (sp.inUnits k) (p.inUnits k) f = k ^ 3 * neqDensity g sp p f) ∧
    (radEnergyDensity (sp.inUnits k) (k * T) = k ^ 4 * radEnergyDensity sp T ∧
      dustEnergyDensity (sp.inUnits k) (k * T) = k ^ 4 * dustEnergyDensity sp T ∧
      intEnergyDensity rule (sp.inUnits k) (k * T) = k ^ 4 * intEnergyDensity rule sp T ∧
      neqEnergyDensity (g.inUnits k) (sp.inUnits k) (p.inUnits k) f = k ^ 4 * neqEnergyDensity g sp p f) ∧
    (radPressure (sp.inUnits k) (k * T) = k ^ 4 * radPressure sp T ∧
      dustPressure (sp.inUnits k) (k * T) = k ^ 4 * dustPressure sp T ∧
      intPressure rule (sp.inUnits k) (k * T) = k ^ 4 * intPressure rule sp T ∧
      neqPressure (g.inUnits k) (sp.inUnits k) (p.inUnits k) f = k ^ 4 * neqPressure g sp p f) ∧
    (radEntropy (sp.inUnits k) (k * T) (p.inUnits k) = k ^ 3 * radEntropy sp T p ∧
      dustEntropy (sp.inUnits k) (k * T) (p.inUnits k) = k ^ 3 * dustEntropy sp T p ∧
      intEntropy rule (sp.inUnits k) (k * T) (p.inUnits k) = k ^ 3 * intEntropy rule sp T p ∧
      neqEntropy (g.inUnits k) (sp.inUnits k) (p.inUnits k) f = k ^ 3 * neqEntropy g sp p f) := by
  have hk' := hk.ne'
  have hpT : (p.inUnits k).T = k * p.T := rfl
  have hpa : (p.inUnits k).a = p.a := rfl
  have hgn : (g.inUnits k).n = g.n := rfl
  have hgw : (g.inUnits k).w = fun i => k * g.w i := rfl
  have hgy : (g.inUnits k).y = fun i => k * g.y i := rfl
  have hfe : (sp.inUnits k).fermion = sp.fermion := rfl
  have hsimps : ∀ (v v' : ℕ → ℝ) (c : ℝ), (∀ i, v' i = c * v i) →
      simps g.n (fun i => k * g.w i) v' = k * c * simps g.n g.w v := by
    intro v v' c h
    unfold simps
    rw [Finset.mul_sum]
    refine Finset.sum_congr rfl fun i _ => ?_
    rw [h]; ring
  have rE : radEnergyDensity (sp.inUnits k) (k * T) = k ^ 4 * radEnergyDensity sp T := by
    unfold radEnergyDensity
    rw [hfe, dof_units]
    dsimp only
    split_ifs <;> ring
  have dD : dustDensity (sp.inUnits k) (k * T) = k ^ 3 * dustDensity sp T := by
    unfold dustDensity
    rw [dof_units, mass_units, show k * sp.mass * (k * T) / 2 / Real.pi =
      k ^ 2 * (sp.mass * T / 2 / Real.pi) by ring, Real.sqrt_mul (by positivity), Real.sqrt_sq hk.le,
      show -(k * sp.mass) / (k * T) = -sp.mass / T by
        rw [← mul_neg, mul_div_mul_left _ _ hk']]
    ring
  have statE : ∀ y, (sp.inUnits k).stat (physEnergy (sp.inUnits k) (k * y) / (k * T)) =
      sp.stat (physEnergy sp y / T) := by
    intro y
    rw [physEnergy_units _ _ hk, mul_div_mul_left _ _ hk', stat_units]
  have iE : intEnergyDensity rule (sp.inUnits k) (k * T) = k ^ 4 * intEnergyDensity rule sp T := by
    unfold intEnergyDensity
    have := gaussian_units (k := k) rule (fun p => sp.stat (physEnergy sp p / T) * p ^ 2 * physEnergy sp p
      * sp.dof / 2 / Real.pi ^ 2) (fun p => (sp.inUnits k).stat (physEnergy (sp.inUnits k) p / (k * T))
      * p ^ 2 * physEnergy (sp.inUnits k) p * (sp.inUnits k).dof / 2 / Real.pi ^ 2) 0 (20 * T) (k ^ 3) hk'
      (fun y => by beta_reduce; rw [statE, physEnergy_units _ _ hk, dof_units]; ring)
    rw [mul_zero] at this
    rw [show 20 * (k * T) = k * (20 * T) by ring, this]
    ring
  have iP : intPressure rule (sp.inUnits k) (k * T) = k ^ 4 * intPressure rule sp T := by
    unfold intPressure
    have := gaussian_units (k := k) rule (fun p => sp.stat (physEnergy sp p / T) * p ^ 4 / physEnergy sp p
      * sp.dof / 6 / Real.pi ^ 2) (fun p => (sp.inUnits k).stat (physEnergy (sp.inUnits k) p / (k * T))
      * p ^ 4 / physEnergy (sp.inUnits k) p * (sp.inUnits k).dof / 6 / Real.pi ^ 2) 0 (20 * T) (k ^ 3) hk'
      (fun y => by
        beta_reduce
        rw [statE, physEnergy_units _ _ hk, dof_units,
          show sp.stat (physEnergy sp y / T) * (k * y) ^ 4 =
            k * (k ^ 3 * (sp.stat (physEnergy sp y / T) * y ^ 4)) by ring, mul_div_mul_left _ _ hk']
        ring)
    rw [mul_zero] at this
    rw [show 20 * (k * T) = k * (20 * T) by ring, this]
    ring
  have confE : ∀ i, conformalEnergy (sp.inUnits k) (k * g.y i) ((sp.inUnits k).mass * p.a) =
      k * conformalEnergy sp (g.y i) (sp.mass * p.a) := by
    intro i
    rw [mass_units, mul_assoc, conformalEnergy_units _ _ _ hk]
  refine ⟨⟨?_, dD, ?_, ?_⟩, ⟨rE, ?_, iE, ?_⟩, ⟨?_, ?_, iP, ?_⟩, ?_, ?_, ?_, ?_⟩
  · unfold radDensity
    rw [hfe, dof_units]
    dsimp only
    split_ifs <;> ring
  · unfold intDensity
    have := gaussian_units (k := k) rule (fun p => sp.stat (physEnergy sp p / T) * p ^ 2
      * sp.dof / 2 / Real.pi ^ 2) (fun p => (sp.inUnits k).stat (physEnergy (sp.inUnits k) p / (k * T))
      * p ^ 2 * (sp.inUnits k).dof / 2 / Real.pi ^ 2) 0 (20 * T) (k ^ 2) hk'
      (fun y => by beta_reduce; rw [statE, dof_units]; ring)
    rw [mul_zero] at this
    rw [show 20 * (k * T) = k * (20 * T) by ring, this]
    ring
  · unfold neqDensity
    rw [hgn, hgw, hgy, hpa, dof_units, hsimps _ _ (k ^ 2) fun i => ?_]
    · ring
    · ring
  · unfold dustEnergyDensity
    rw [dD, mass_units]; ring
  · unfold neqEnergyDensity
    rw [hgn, hgw, hgy, hpa, dof_units, hsimps _ _ (k ^ 3) fun i => ?_]
    · ring
    · beta_reduce
      rw [confE]; ring
  · unfold radPressure
    rw [rE]; ring
  · unfold dustPressure
    rw [dD]; ring
  · unfold neqPressure
    rw [hgn, hgw, hgy, hpa, dof_units]
    have hm0 : (sp.inUnits k).mass = 0 ↔ sp.mass = 0 := by simp [mass_units, hk']
    by_cases h : sp.mass = 0
    · rw [if_pos h, if_pos (hm0.mpr h), hsimps _ _ (k ^ 3) fun i => ?_]
      · ring
      · ring
    · rw [if_neg h, if_neg (hm0.not.mpr h), hsimps _ _ (k ^ 3) fun i => ?_]
      · ring
      · beta_reduce
        rw [confE, show f i * (k * g.y i) ^ 4 = k * (k ^ 3 * (f i * g.y i ^ 4)) by ring,
          mul_div_mul_left _ _ hk']
        ring
  · unfold radEntropy
    rw [rE, hpT]; field_simp
  · unfold dustEntropy
    rw [dD, mass_units, hpT, mul_div_mul_left _ _ hk']; ring
  · unfold intEntropy
    rw [hpT]
    exact entropy_units hk' iE iP
  · unfold neqEntropy
    rw [hgn, hgw, hgy, hpa, dof_units, eta_units, hsimps _ _ (k ^ 2) fun i => ?_]
    · ring
    · beta_reduce
      split_ifs <;> ring

theorem intLegendre_units (rule : Rule) (sp : Species) (ymin ymax : ℝ) (p : Params) (n : ℕ) (hk : 0 < k) :
    intLegendre rule (sp.inUnits k) (k * ymin) (k * ymax) (p.inUnits k) n =
      k ^ (n + 1) * intLegendre rule sp ymin ymax p n := by
  unfold intLegendre
  have hpa : (p.inUnits k).a = p.a := rfl
  have hpaT : (p.inUnits k).aT = k * p.aT := rfl
  rw [hpa, hpaT, gaussian_units (k := k) rule _ _ _ _ (k ^ n) hk.ne' fun y => ?_]
  · rw [dof_units, pow_succ]; ring
  · beta_reduce
    rw [mass_units, mul_assoc k, conformalEnergy_units _ _ _ hk, mul_div_mul_left _ _ hk.ne', mul_pow,
      eta_units]
    ring

theorem terms_units (rule : Rule) (p : Params) (t : TPart) (lg : Bool) (hk : 0 < k)
    (hmode : lg = true ∨ t.regime ≠ .noneq) :
    (t.inUnits k lg).numerator (intLegendre rule) (p.inUnits k) =
      k ^ 3 * t.numerator (intLegendre rule) p ∧
    (t.inUnits k lg).denominator (intLegendre rule) (p.inUnits k) =
      k ^ 3 * t.denominator (intLegendre rule) p := by
  have hI : ∀ n, intLegendre rule (t.inUnits k lg).sp (t.inUnits k lg).ymin (t.inUnits k lg).ymax
      (p.inUnits k) n = k ^ (n + 1) * intLegendre rule t.sp t.ymin t.ymax p n := fun n =>
    intLegendre_units rule t.sp t.ymin t.ymax p n hk
  have hk' := hk.ne'
  have hN : intNumerator (t.inUnits k lg).sp (p.inUnits k) (intLegendre rule (t.inUnits k lg).sp
      (t.inUnits k lg).ymin (t.inUnits k lg).ymax (p.inUnits k)) =
      k ^ 3 * intNumerator t.sp p (intLegendre rule t.sp t.ymin t.ymax p) := by
    unfold intNumerator
    rw [hI]
    simp only [TPart.inUnits, Params.inUnits, mass_units]
    rw [show (k * t.sp.mass) ^ 2 * (k * p.x) = k * (k ^ 2 * (t.sp.mass ^ 2 * p.x)) by ring,
      show (k * p.m) ^ 2 = k ^ 2 * p.m ^ 2 by ring, mul_div_assoc, mul_div_mul_left _ _ (pow_pos hk 2).ne',
      mul_div_mul_left _ _ hk']
    ring
  have hD : intDenominator (t.inUnits k lg).sp (p.inUnits k) (intLegendre rule (t.inUnits k lg).sp
      (t.inUnits k lg).ymin (t.inUnits k lg).ymax (p.inUnits k)) =
      k ^ 3 * intDenominator t.sp p (intLegendre rule t.sp t.ymin t.ymax p) := by
    unfold intDenominator
    rw [hI, hI]
    simp only [TPart.inUnits, Params.inUnits, mass_units]
    rw [show k ^ (4 + 1) * intLegendre rule t.sp t.ymin t.ymax p 4 +
        (k * t.sp.mass * p.a) ^ 2 * (k ^ (2 + 1) * intLegendre rule t.sp t.ymin t.ymax p 2) =
        k ^ 2 * (k ^ 3 * (intLegendre rule t.sp t.ymin t.ymax p 4 +
          (t.sp.mass * p.a) ^ 2 * intLegendre rule t.sp t.ymin t.ymax p 2)) by ring,
      show (k * p.aT) ^ 2 = k ^ 2 * p.aT ^ 2 by ring, mul_div_mul_left _ _ (pow_pos hk 2).ne', mul_div_assoc]
  unfold TPart.numerator TPart.denominator
  have hreg : (t.inUnits k lg).regime = t.regime := rfl
  rw [hreg]
  cases hr : t.regime with
  | radiation =>
    refine ⟨by simp, ?_⟩
    change radDenominator (t.sp.inUnits k) (k * t.aT) = k ^ 3 * radDenominator t.sp t.aT
    unfold radDenominator
    rw [dof_units, show (t.sp.inUnits k).fermion = t.sp.fermion from rfl]
    dsimp only
    split_ifs <;> ring
  | intermediate => exact ⟨hN, hD⟩
  | dust => exact ⟨hN, hD⟩
  | noneq =>
    have hlog : lg = true := hmode.resolve_right (fun h => h hr)
    refine ⟨?_, by simp⟩
    simp only [neqNumerator, simps, TPart.inUnits, NGrid.inUnits, Params.inUnits, hlog, if_true, mass_units,
      dof_units]
    rw [Finset.mul_sum]
    refine Finset.sum_congr rfl fun i _ => ?_
    rw [mul_assoc k t.sp.mass, conformalEnergy_units _ _ _ hk,
      show -1 * t.sp.dof / 2 / Real.pi ^ 2 * (k * t.grid.y i) ^ 2 *
        (k * conformalEnergy t.sp (t.grid.y i) (t.sp.mass * p.a)) * t.coll i =
        k * (k ^ 2 * (-1 * t.sp.dof / 2 / Real.pi ^ 2 * t.grid.y i ^ 2 *
        conformalEnergy t.sp (t.grid.y i) (t.sp.mass * p.a) * t.coll i)) by ring,
      mul_div_mul_left _ _ hk']
    ring

/-- **C61 (terms).** Numerator and denominator of the temperature equation scale with the third power for
every species in logarithmic mode and every equilibrium species in linear mode. -/
theorem C61_terms (rule : Rule) (p : Params) (t : TPart) (hk : 0 < k)
    (hmode : p.log = true ∨ t.regime ≠ .noneq) :
    (t.inUnits k p.log).numerator (intLegendre rule) (p.inUnits k) =
      k ^ 3 * t.numerator (intLegendre rule) p ∧
    (t.inUnits k p.log).denominator (intLegendre rule) (p.inUnits k) =
      k ^ 3 * t.denominator (intLegendre rule) p := terms_units rule p t p.log hk hmode

/-- **C70 (dimension).** In linear mode the numerator of a non-equilibrium species has the wrong
dimension: it scales with the second power, unlike all other terms it is added to. -/
theorem C70_dimension (rule : Rule) (p : Params) (t : TPart) (hk : 0 < k)
    (hlog : p.log = false) (hr : t.regime = .noneq) :
    (t.inUnits k p.log).numerator (intLegendre rule) (p.inUnits k) =
      k ^ 2 * t.numerator (intLegendre rule) p := by
  have hk' := hk.ne'
  unfold TPart.numerator
  have hreg : (t.inUnits k p.log).regime = t.regime := rfl
  rw [hreg, hr]
  simp only [neqNumerator, simps, TPart.inUnits, NGrid.inUnits, Params.inUnits, hlog, mass_units,
    dof_units, Bool.false_eq_true, if_false]
  rw [Finset.mul_sum]
  refine Finset.sum_congr rfl fun i _ => ?_
  rw [mul_assoc k t.sp.mass, conformalEnergy_units _ _ _ hk,
    show -1 * t.sp.dof / 2 / Real.pi ^ 2 * (k * t.grid.y i) ^ 2 *
      (k * conformalEnergy t.sp (t.grid.y i) (t.sp.mass * p.a)) * (t.coll i / k) =
      (k * k⁻¹) * (k ^ 2 * (-1 * t.sp.dof / 2 / Real.pi ^ 2 * t.grid.y i ^ 2 *
      conformalEnergy t.sp (t.grid.y i) (t.sp.mass * p.a) * t.coll i)) by ring,
    mul_inv_cancel₀ hk', one_mul, mul_div_assoc, ← div_div]
  field_simp

end

/-! ## An equilibrium universe -/

/-- Equilibrium particles. -/
abbrev EqPart := {t : TPart // t.regime ≠ .noneq}

/-- The energy density of a particle, by regime. -/
noncomputable def eqEnergyDensity (rule : Rule) (T : ℝ) (t : EqPart) : ℝ :=
  match t.1.regime with
  | .radiation => radEnergyDensity t.1.sp T
  | .dust => dustEnergyDensity t.1.sp T
  | _ => intEnergyDensity rule t.1.sp T

/-- The entropy of a particle, by regime. -/
noncomputable def eqEntropy (rule : Rule) (T : ℝ) (p : Params) (t : EqPart) : ℝ :=
  match t.1.regime with
  | .radiation => radEntropy t.1.sp T p
  | .dust => dustEntropy t.1.sp T p
  | _ => intEntropy rule t.1.sp T p

/-- The physics of a plasma in equilibrium (particles with fixed regimes and momentum bounds, all with
the temperature of the plasma), built from the modelled thermodynamic functions. -/
noncomputable def plasma (rule : Rule) : Physics (List EqPart) where
  terms w p := (w, temperatureTerms (intLegendre rule) p (w.map fun t => { t.1 with aT := p.aT }))
  rho w p := (w.map (eqEnergyDensity rule p.T)).sum
  S w p := (w.map (eqEntropy rule p.T p)).sum

/-- A particle in the new units. -/
noncomputable def EqPart.inUnits (k : ℝ) (t : EqPart) : EqPart := ⟨t.1.inUnits k true, t.2⟩

/-- The equilibrium plasma is covariant. -/
theorem plasma_covariant (rule : Rule) (k : ℝ) (hk : 0 < k) :
    Covariant k (List.map (EqPart.inUnits k)) (plasma rule) (plasma rule) where
  state w p := rfl
  num w p := by
    simp only [plasma]
    rw [temperatureTerms_eq, temperatureTerms_eq, ← List.sum_map_mul_left]
    simp only [List.map_map]
    refine congrArg List.sum (List.map_congr_left fun t _ => ?_)
    exact (terms_units rule p { t.1 with aT := p.aT } true hk (Or.inl rfl)).1
  den w p := by
    simp only [plasma]
    rw [temperatureTerms_eq, temperatureTerms_eq, ← List.sum_map_mul_left]
    simp only [List.map_map]
    refine congrArg List.sum (List.map_congr_left fun t _ => ?_)
    exact (terms_units rule p { t.1 with aT := p.aT } true hk (Or.inl rfl)).2
  rho w p := by
    simp only [plasma]
    rw [← List.sum_map_mul_left, List.map_map]
    refine congrArg List.sum (List.map_congr_left fun t _ => ?_)
    obtain ⟨-, ⟨h1, h2, h3, -⟩, -⟩ := C61_densities rule t.1.grid t.1.sp p.T p (fun _ => 0) hk
    obtain ⟨t, ht⟩ := t
    simp only [Function.comp, EqPart.inUnits, eqEnergyDensity]
    have hreg : (t.inUnits k true).regime = t.regime := rfl
    rw [hreg]
    cases t.regime
    · exact h1
    · exact h3
    · exact h2
    · exact h3
  S w p := by
    simp only [plasma]
    rw [← List.sum_map_mul_left, List.map_map]
    refine congrArg List.sum (List.map_congr_left fun t _ => ?_)
    obtain ⟨-, -, -, h1, h2, h3, -⟩ := C61_densities rule t.1.grid t.1.sp p.T p (fun _ => 0) hk
    obtain ⟨t, ht⟩ := t
    simp only [Function.comp, EqPart.inUnits, eqEntropy]
    have hreg : (t.inUnits k true).regime = t.regime := rfl
    rw [hreg]
    cases t.regime
    · exact h1
    · exact h3
    · exact h2
    · exact h3

/-- **C61 (plasma).** A run of an equilibrium plasma does not depend on the units. -/
theorem C61_plasma (rule : Rule) (k : ℝ) (hk : 0 < k) (c : Consts) (ab : Bool) (Tf : ℝ)
    (init : Bool) (fuel : ℕ) (s : List Row × Uni (List EqPart)) :
    evolve (plasma rule) (c.inUnits k) ab (k * Tf) init fuel
        (runInUnits k (List.map (EqPart.inUnits k)) s.2.params.log s) =
      (evolve (plasma rule) c ab Tf init fuel s).map
        (Option.map (runInUnits k (List.map (EqPart.inUnits k)) s.2.params.log)) :=
  C61_evolve (plasma_covariant rule k hk) hk c ab Tf init fuel s

/-- The constants of the program scale as `C61_evolve` requires. -/
theorem C61_consts (k e : ℝ) (hk : k ≠ 0) (he : e ≠ 0) :
    Consts.ofUnits (Units.reset (k * e)) = (Consts.ofUnits (Units.reset e)).inUnits k := by
  unfold Consts.ofUnits Consts.inUnits
  rw [(C61_units k e).2.2.1, (C61_constants k e hk he).1]

/-! ## C76: the metre -/

/-- **C76.** In natural units the speed of light is 1; with the code's metre and second 299 792 458 m/s
is between 0.159 and 0.16 (the metre contains `h c` instead of `ħ c`, a factor `2π`), whatever the base
value. -/
theorem C76_light (e : ℝ) (he : 0 < e) :
    0.159 < 299792458 * (Units.reset e).m / (Units.reset e).s ∧
    299792458 * (Units.reset e).m / (Units.reset e).s < 0.16 := by
  have : 299792458 * (Units.reset e).m / (Units.reset e).s =
      299792458 * (1e15 / 1.239842) * (6.582119 / 1e22) / 1e3 := by
    unfold Units.reset
    dsimp only
    field_simp
  rw [this]
  constructor <;> norm_num

/-- **C76.** The units of force and of mass density, given separately, are not the combinations of the
units of mass, length and time: `N` is more than six times `kg m / s²`, `g/cm³` is less than 1/200 of
`1000 kg/m³`. -/
theorem C76_force (e : ℝ) (he : 0 < e) :
    6 < (Units.reset e).N / ((Units.reset e).kg * (Units.reset e).m / (Units.reset e).s ^ 2) ∧
    200 * (Units.reset e).g_cm3 < 1000 * (Units.reset e).kg / (Units.reset e).m ^ 3 := by
  have h1 : (Units.reset e).N / ((Units.reset e).kg * (Units.reset e).m / (Units.reset e).s ^ 2) =
      1e-5 / 8.19 * 1e6 / ((1e27 / 1.782662) * (1e15 / 1.239842)) * (1e22 / 6.582119) ^ 2 := by
    unfold Units.reset
    dsimp only
    field_simp
    norm_num
  have h2 : 1000 * (Units.reset e).kg / (Units.reset e).m ^ 3 - 200 * (Units.reset e).g_cm3 =
      (e * 1e3 * 1e3) ^ 4 * (1000 * (1e27 / 1.782662) * (1e3) ^ 4 / (1e15 / 1.239842) ^ 3
        - 200 / 2.32011575e5) := by
    unfold Units.reset
    dsimp only
    field_simp
  constructor
  · rw [h1]; norm_num
  · have : 0 < (e * 1e3 * 1e3) ^ 4 * (1000 * (1e27 / 1.782662) * (1e3) ^ 4 / (1e15 / 1.239842) ^ 3
        - 200 / 2.32011575e5) := mul_pos (by positivity) (by norm_num)
    linarith

/-- **C76 (partial).** What does hold: with a metre `2π` times larger the speed of light is 1 within
10⁻⁵, the newton is `kg m / s²` within 1 % and `g/cm³` is `1000 kg/m³` within 0.1 %.  Missing: the metre
of the code itself. -/
theorem C76_two_pi_partial (e : ℝ) (he : 0 < e) :
    let u := Units.reset e
    let m := 2 * Real.pi * u.m
    |299792458 * m / u.s - 1| < 1e-5 ∧ |u.N / (u.kg * m / u.s ^ 2) - 1| < 1e-2 ∧
    |u.g_cm3 / (1000 * u.kg / m ^ 3) - 1| < 1e-3 := by
  have p1 := Real.pi_gt_d6
  have p2 := Real.pi_lt_d6
  have hpi := Real.pi_pos
  have h0 : 299792458 * (2 * Real.pi * (Units.reset e).m) / (Units.reset e).s =
      Real.pi * (2 * 299792458 * (1e15 / 1.239842) * (6.582119 / 1e22) / 1e3) := by
    unfold Units.reset
    dsimp only
    field_simp
  have h1 : (Units.reset e).N / ((Units.reset e).kg * (2 * Real.pi * (Units.reset e).m) / (Units.reset e).s ^ 2) =
      1e-5 / 8.19 * (1e3) ^ 2 / ((1e27 / 1.782662) * (1e15 / 1.239842)) * (1e22 / 6.582119) ^ 2 / 2 / Real.pi := by
    unfold Units.reset
    dsimp only
    field_simp
  have h2 : (Units.reset e).g_cm3 / (1000 * (Units.reset e).kg / (2 * Real.pi * (Units.reset e).m) ^ 3) =
      Real.pi ^ 3 * (8 / 2.32011575e5 / (1000 * (1e27 / 1.782662) * (1e3) ^ 4 / (1e15 / 1.239842) ^ 3)) := by
    unfold Units.reset
    dsimp only
    field_simp
    norm_num
  have q1 : (3.141592 : ℝ) ^ 3 < Real.pi ^ 3 := by gcongr
  have q2 : Real.pi ^ 3 < (3.141593 : ℝ) ^ 3 := by gcongr
  refine ⟨?_, ?_, ?_⟩
  · rw [h0, abs_lt]
    constructor <;> norm_num <;> linarith
  · rw [h1, abs_lt]
    constructor
    · rw [lt_sub_iff_add_lt, lt_div_iff₀ hpi]; norm_num; linarith
    · rw [sub_lt_iff_lt_add, div_lt_iff₀ hpi]; norm_num; linarith
  · rw [h2, abs_lt]
    norm_num at q1 q2 ⊢
    constructor <;> linarith

/-- Non-vacuity: photons and electrons. -/
noncomputable example : List EqPart :=
  [⟨demoPhoton 1, by simp [demoPhoton]⟩, ⟨demoElectron 1, by simp [demoElectron]⟩]

end PyBBN
