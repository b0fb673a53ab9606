import Verif.Props.Evolution
import Verif.Props.Units
import Verif.Props.Particle
/-!
# C77–C79: what the recorded table satisfies
-/
namespace PyBBN

variable {W : Type*}

/-- Textbook Adams–Bashforth weights, newest slope first. -/
noncomputable def abWeights : ℕ → List ℝ
  | 1 => [1]
  | 2 => [3 / 2, -1 / 2]
  | 3 => [23 / 12, -4 / 3, 5 / 12]
  | 4 => [55 / 24, -59 / 24, 37 / 24, -3 / 8]
  | _ => [1901 / 720, -1387 / 360, 109 / 30, -637 / 360, 251 / 720]

/-- Weighted sum of the slopes, newest first, with as many as are available, at most five. -/
noncomputable def abSlope (newestFirst : List ℝ) : ℝ :=
  (List.zipWith (· * ·) (abWeights newestFirst.length) newestFirst).sum

theorem pyLast_of_append {α : Type*} (pre l : List α) (k : ℕ) (hk : 0 < k) (hl : l.length = k) :
    pyLast (pre ++ l) k = l := by
  unfold pyLast
  rw [if_neg hk.ne', List.length_append, hl, Nat.add_sub_cancel, List.drop_left]

/-- What the code computes from past slopes and the current one. -/
theorem adamsBashforth_weights (past : List ℝ) (f h d : ℝ)
    (hd : adamsBashforth (pyLast past maxAB ++ [f]) h none = .ok d) :
    d = h * abSlope ((f :: past.reverse).take 5) := by
  obtain ⟨rev, rfl⟩ : ∃ rev : List ℝ, past = rev.reverse := ⟨past.reverse, by simp⟩
  simp only [List.reverse_reverse]
  match rev, hd with
  | [], hd =>
    simp [pyLast, maxAB, adamsBashforth, abCoefficients, dotZip] at hd
    simp [abSlope, abWeights, ← hd]
  | [a], hd =>
    simp [pyLast, maxAB, adamsBashforth, abCoefficients, dotZip] at hd
    simp [abSlope, abWeights, ← hd]; ring
  | [a, b], hd =>
    simp [pyLast, maxAB, adamsBashforth, abCoefficients, dotZip] at hd
    simp [abSlope, abWeights, ← hd]; ring
  | [a, b, e], hd =>
    simp [pyLast, maxAB, adamsBashforth, abCoefficients, dotZip] at hd
    simp [abSlope, abWeights, ← hd]; ring
  | [a, b, e, g], hd =>
    simp [pyLast, maxAB, adamsBashforth, abCoefficients, dotZip] at hd
    simp [abSlope, abWeights, ← hd]; ring
  | a :: b :: e :: g :: k :: rest, hd =>
    have h1 : pyLast ((a :: b :: e :: g :: k :: rest).reverse) maxAB = [k, g, e, b, a] := by
      have : (a :: b :: e :: g :: k :: rest).reverse = rest.reverse ++ [k, g, e, b, a] := by simp
      rw [this]
      exact pyLast_of_append _ _ 5 (by norm_num) rfl
    rw [h1] at hd
    simp [pyLast, maxAB, adamsBashforth, abCoefficients, dotZip] at hd
    simp [abSlope, abWeights, ← hd]; ring

/-- **C77.** The table alone satisfies the difference equations of the expansion: for consecutive rows of
one `evolve` call, `x` advances by the step, `a = x/m`, `T = aT/a`, the time by the Friedmann step for
the density of the later row, `N_eff` is the excess over the photons in units of a neutrino species at
`T/1.401` for the temperature of the earlier row, and `aT` by the Adams–Bashforth sum of all recorded
slopes including the later row's own (or by `h` times that slope). -/
theorem C77_table {ph : Physics W} {c : Consts} {ab init : Bool} {Tf : ℝ} {fuel : ℕ}
    {data d' : List Row} {u u' : Uni W} (hr : u.params.Reg)
    (h : evolve ph c ab Tf init fuel (data, u) = .ok (some (d', u'))) :
    ∃ rows, d' = data ++ rows ∧
      (∃ r, rows[0]? = some r ∧ r.x = u.params.x ∧ r.aT = u.params.aT ∧ r.a = u.params.a ∧
        r.T = u.params.T ∧ r.fraction = u.fraction) ∧
      ∀ (i : ℕ) (r r' : Row), rows[i]? = some r → rows[i + 1]? = some r' →
        r'.x = (if u.params.log then r.x * (1 + u.params.dy) else r.x + u.params.dx) ∧
        r'.a = r'.x / u.params.m ∧ r'.T = r'.aT / r'.a ∧
        r'.t = r.t + (1 - r.a / r'.a) / (√(8 * Real.pi / 3 * r'.rho) / c.Mp) ∧
        r'.Neff = (r'.rho - Real.pi ^ 2 / 15 * r.T ^ 4) /
          (7 / 8 * Real.pi ^ 2 / 15 * (r.T / 1.401) ^ 4) ∧
        r'.aT = r.aT + u.params.h * (if ab then
          abSlope ((r'.fraction :: ((data ++ rows.take (i + 1)).map Row.fraction).reverse).take 5)
          else r'.fraction) := by
  obtain ⟨n, st, rows, hn, hl, hd, hlast, hstart, hstep, hreg, hrows, hT, _⟩ := evolve_trace hr h
  obtain ⟨-, -, ef, eaT, ex, edx, em, eh, edy, elog, eT, ea, -, -, r0, hrow0, hd0⟩ :=
    evolveStart_spec hstart hr
  have inv : ∀ i, i ≤ n → (st i).2.params.m = u.params.m ∧ (st i).2.params.log = u.params.log ∧
      (st i).2.params.dy = u.params.dy ∧ (st i).2.params.h = u.params.h ∧
      (u.params.log = false → (st i).2.params.dx = u.params.dx) ∧
      (st i).1.length = data.length + i + 1 ∧ (∀ j, i ≤ j → j ≤ n → (st i).1 <+: (st j).1) := by
    intro i
    induction i with
    | zero =>
      intro _
      refine ⟨em, elog, edy, eh, fun _ => edx, by simp [hd0], ?_⟩
      intro j _
      induction j with
      | zero => intro _; exact List.prefix_rfl
      | succ j ihj =>
        intro hj
        obtain ⟨r, -, e⟩ := (hstep j (by omega)).row
        exact (ihj (by omega) (by omega)).trans (by rw [e]; exact List.prefix_append _ _)
    | succ i ih =>
      intro hi
      obtain ⟨a, b, d, e, f, g, -⟩ := ih (by omega)
      have s := hstep i (by omega)
      refine ⟨by rw [s.m, a], by rw [s.log, b], by rw [s.dy, d], by rw [s.h, e], ?_, ?_, ?_⟩
      · intro hl
        rw [s.dx, b, hl]; simpa using f hl
      · obtain ⟨r, -, e⟩ := s.row
        rw [e, List.length_append, g]; simp; omega
      · intro j hij
        induction j with
        | zero => omega
        | succ j ihj =>
          intro hj
          rcases Nat.lt_or_ge j (i + 1) with hlt | hge
          · have : j = i := by omega
            subst this; exact List.prefix_rfl
          · obtain ⟨r, -, e⟩ := (hstep j (by omega)).row
            exact (ihj hge (by omega)).trans (by rw [e]; exact List.prefix_append _ _)
  have hpast : ∀ i, i ≤ n → (st i).1 = data ++ rows.take (i + 1) := by
    intro i hi
    obtain ⟨-, -, -, -, -, g, hp⟩ := inv i hi
    have := hp n hi (le_refl _)
    rw [hlast, hd] at this
    rw [List.prefix_iff_eq_take.mp this, g, List.take_append]
    congr 1
    · exact List.take_of_length_le (by omega)
    · congr 1; omega
  refine ⟨rows, hd, ?_, ?_⟩
  · have h0 : rows[0]? = some (rows[0]'(by omega)) := List.getElem?_eq_getElem _
    obtain ⟨_, q1, q2, q3, q4, -, -, -, q8, -⟩ := hrows 0 _ h0
    exact ⟨_, h0, by rw [q4, ex], by rw [q1, eaT], by rw [q3, ea], by rw [q2, eT], by rw [q8, ef]⟩
  intro i r r' hi hi'
  obtain ⟨_, a1, a2, a3, a4, a5, a6, a7, a8, -⟩ := hrows i r hi
  obtain ⟨hin, b1, b2, b3, b4, b5, b6, b7, b8, -⟩ := hrows (i + 1) r' hi'
  obtain ⟨im, il, idy, ih, idx, -, -⟩ := inv i (by omega)
  have s := hstep i (by omega)
  refine ⟨?_, ?_, ?_, ?_, ?_, ?_⟩
  · rw [b4, s.x, a4]
    split
    · rename_i hl
      rw [(hreg i (by omega)).step (by rw [il]; exact hl), idy]; ring
    · rename_i hl
      rw [idx (by simpa using hl)]
  · rw [b3, b4, s.a, s.m, im]
  · rw [b2, b1, b3, s.T]
  · obtain ⟨q, hq, -, hH, ht⟩ := s.rho
    rw [b6] at hq; injection hq with hq; subst hq
    rw [b5, ht, a5, a3, b3, hH]
    congr 4; ring
  · obtain ⟨q, hq, hN⟩ := s.Neff
    rw [b6] at hq; injection hq with hq; subst hq
    rw [b7, hN, a2]
  · obtain ⟨d, hd1, hd2, hd3⟩ := s.aT
    rw [b1, hd1, a1]
    cases ab
    · simp only [Bool.false_eq_true, if_false]
      rw [hd2 rfl, b8, ih]; ring
    · simp only [if_true]
      have := adamsBashforth_weights _ _ _ _ (hd3 rfl)
      rw [this, ih, b8, hpast i (by omega)]

/-- **C78.** The density column lags the temperature column by one row: in an equilibrium plasma the
density recorded with a new row is that of the temperature of the row before it. -/
theorem C78_density_lags {rule : Rule} {c : Consts} {ab init : Bool} {Tf : ℝ} {fuel : ℕ}
    {data d' : List Row} {u u' : Uni (List EqPart)} (hr : u.params.Reg)
    (h : evolve (plasma rule) c ab Tf init fuel (data, u) = .ok (some (d', u'))) :
    ∃ rows, d' = data ++ rows ∧ ∀ (i : ℕ) (r r' : Row), rows[i]? = some r → rows[i + 1]? = some r' →
      r'.rho = (u.w.map (eqEnergyDensity rule r.T)).sum := by
  obtain ⟨n, st, rows, hn, hl, hd, hlast, hstart, hstep, hreg, hrows, hT, _⟩ := evolve_trace hr h
  obtain ⟨-, ew, -⟩ := evolveStart_spec hstart hr
  have hw : ∀ i, i ≤ n → (st i).2.w = u.w := by
    intro i
    induction i with
    | zero => intro _; exact ew
    | succ i ih => intro hi; rw [(hstep i (by omega)).w]; exact ih (by omega)
  refine ⟨rows, hd, ?_⟩
  intro i r r' hi hi'
  obtain ⟨_, a1, a2, -⟩ := hrows i r hi
  obtain ⟨hin, b1, b2, b3, b4, b5, b6, -⟩ := hrows (i + 1) r' hi'
  obtain ⟨q, hq, hq2, -⟩ := (hstep i (by omega)).rho
  rw [b6] at hq; injection hq with hq; subst hq
  rw [hq2, hw (i + 1) hin, a2]
  rfl

theorem radiation_T4 (sp : Species) (T T' : ℝ) (hT' : T' ≠ 0) :
    radEnergyDensity sp T = (T / T') ^ 4 * radEnergyDensity sp T' := by
  unfold radEnergyDensity
  dsimp only
  split_ifs <;> field_simp

/-- **C78.** How far off it is for radiation: the recorded density exceeds the density at the row's own
temperature by the fourth power of the ratio of successive temperatures. -/
theorem C78_radiation_excess {rule : Rule} {c : Consts} {ab init : Bool} {Tf : ℝ} {fuel : ℕ}
    {data d' : List Row} {u u' : Uni (List EqPart)} (hr : u.params.Reg)
    (hrad : ∀ t ∈ u.w, t.1.regime = .radiation)
    (h : evolve (plasma rule) c ab Tf init fuel (data, u) = .ok (some (d', u'))) :
    ∃ rows, d' = data ++ rows ∧ ∀ (i : ℕ) (r r' : Row), rows[i]? = some r → rows[i + 1]? = some r' →
      r'.T ≠ 0 →
      r'.rho = (r.T / r'.T) ^ 4 * (u.w.map fun t => radEnergyDensity t.1.sp r'.T).sum := by
  obtain ⟨rows, hd, hrows⟩ := C78_density_lags hr h
  refine ⟨rows, hd, fun i r r' hi hi' hT => ?_⟩
  rw [hrows i r r' hi hi', ← List.sum_map_mul_left]
  refine congrArg List.sum (List.map_congr_left fun t ht => ?_)
  unfold eqEnergyDensity
  rw [hrad t ht]
  exact radiation_T4 _ _ _ hT

/-- **C78.** What `N_eff` measures: if the density recorded with a row is that of photons at the
temperature of the row before and of `N` two-component massless fermions at `Tν`, the recorded value is
`N` times the fourth power of `1.401 Tν/T`. -/
theorem C78_neff {ph : Physics W} {c : Consts} {ab init : Bool} {Tf : ℝ} {fuel : ℕ}
    {data d' : List Row} {u u' : Uni W} (hr : u.params.Reg)
    (h : evolve ph c ab Tf init fuel (data, u) = .ok (some (d', u'))) (γ ν : Species)
    (hγ : γ.fermion = false ∧ γ.dof = 2) (hν : ν.fermion = true ∧ ν.dof = 2) :
    ∃ rows, d' = data ++ rows ∧ ∀ (i : ℕ) (r r' : Row) (N : ℕ) (Tν : ℝ), rows[i]? = some r →
      rows[i + 1]? = some r' → r.T ≠ 0 →
      r'.rho = radEnergyDensity γ r.T + N * radEnergyDensity ν Tν →
      r'.Neff = N * (1.401 * Tν / r.T) ^ 4 := by
  obtain ⟨rows, hd, -, hrows⟩ := C77_table hr h
  refine ⟨rows, hd, fun i r r' N Tν hi hi' hT hrho => ?_⟩
  obtain ⟨-, -, -, -, hN, -⟩ := hrows i r r' hi hi'
  rw [hN, hrho]
  simp only [radEnergyDensity, hγ.1, hγ.2, hν.1, hν.2, Bool.false_eq_true, if_false, if_true]
  have := Real.pi_pos.ne'
  field_simp
  ring

/-- The constructor keeps the density it is given and knows no entropy. -/
theorem params_new_rho_S {c : Consts} {log : Bool} {kw : ParamsKw} {p : Params}
    (hp : Params.new c log kw = .ok p) : p.rho = kw.rho ∧ p.S = none := by
  unfold Params.new at hp
  split at hp
  · cases hp
  · split at hp
    · cases hp
    · dsimp only at hp
      split at hp
      · cases hp
      · split at hp
        · cases hp
        · injection hp with hp; subst hp; exact ⟨rfl, rfl⟩

/-- **C79.** A universe whose `Params` were given a density explicitly cannot be evolved: no entropy is
known when the first row is stored. -/
theorem C79_rho_given_raises {ph : Physics W} {c : Consts} {log ab init : Bool} {kw : ParamsKw}
    {p : Params} {w : W} {Tf : ℝ} {fuel : ℕ} {data : List Row} (hp : Params.new c log kw = .ok p)
    (hrho : kw.rho ≠ none) :
    evolve ph c ab Tf init fuel (data, Uni.new w p) = .error .attributeError := by
  obtain ⟨h1, h2⟩ := params_new_rho_S hp
  obtain ⟨q, hq⟩ := Option.ne_none_iff_exists'.mp hrho
  rw [hq] at h1
  have : evolveStart ph c init (data, Uni.new w p) = .error .attributeError := by
    unfold evolveStart
    cases init <;> simp [Uni.new, h1, h2, saveParams, Params.initTime]
  unfold evolve
  rw [this]

/-- **C79.** Without a density the first phase always succeeds: it stores one row, with the density and
entropy of the particles at the initial temperature and slope zero. -/
theorem C79_rho_absent_starts (ph : Physics W) {c : Consts} {log : Bool} {kw : ParamsKw}
    {p : Params} (w : W) (data : List Row) (hp : Params.new c log kw = .ok p)
    (hrho : kw.rho = none) :
    ∃ s, evolveStart ph c false (data, Uni.new w p) = .ok s ∧ ∃ r, s.1 = data ++ [r] ∧
      r.rho = ph.rho w p ∧ r.S = ph.S w p ∧ r.fraction = 0 ∧ s.2.w = w := by
  obtain ⟨h1, h2⟩ := params_new_rho_S hp
  rw [hrho] at h1
  refine ⟨_, by simp [evolveStart, Uni.new, h1, saveParams, Params.update]; rfl, _, rfl, ?_⟩
  simp

/-! ## Concrete cases -/

/-- A run of one step. -/
theorem still_one_step : ∃ r, evolve stillPhysics ⟨1, 1⟩ true 9.6 true 2
    ([], Uni.new () demoParams) = .ok (some r) ∧ r.1.length = 2 := by
  simp [evolve, evolveStart, Uni.new, demoParams, saveParams, Params.update, Params.initTime,
    evolveLoop, loopBody, makeStep, integrand, stillPhysics, pyLast, maxAB, adamsBashforth,
    abCoefficients, dotZip]
  norm_num

/-- The run of `still_one_step` through `C77_table`: the second row is at `x = 0.105`. -/
example : ∃ d u, evolve stillPhysics ⟨1, 1⟩ true 9.6 true 2 ([], Uni.new () demoParams) =
    .ok (some (d, u)) ∧ ∃ r r', d = [r, r'] ∧ r'.x = 0.105 ∧ r'.a = 0.105 := by
  obtain ⟨⟨d, u⟩, h, hl⟩ := still_one_step
  obtain ⟨rows, hd, ⟨r, h0, hx, -⟩, hrows⟩ := C77_table (u := Uni.new () demoParams) demoParams_reg h
  rw [List.nil_append] at hd
  subst hd
  match d, hl with
  | [q, q'], _ =>
    have e0 : q = r := Option.some.inj h0
    obtain ⟨a, b, -⟩ := hrows 0 q q' rfl rfl
    have e : q'.x = 0.105 := by
      rw [a, e0, hx]; norm_num [Uni.new, demoParams]
    exact ⟨_, _, h, q, q', rfl, e, by rw [b, e]; norm_num [Uni.new, demoParams]⟩

/-- A plasma of photons only. -/
noncomputable def photonGas : List EqPart :=
  [⟨{ sp := { demoSpecies with name := "photon", fermion := false }, aT := 1, ymin := 0, ymax := 20,
      regime := .radiation, grid := ⟨0, fun _ => 0, fun _ => 0⟩, coll := fun _ => 0 }, by simp⟩]

theorem photon_one_step (rule : Rule) : ∃ r, evolve (plasma rule) ⟨1, 1⟩ true 9.6 true 2
    ([], Uni.new photonGas demoParams) = .ok (some r) ∧ r.1.length = 2 := by
  simp [evolve, evolveStart, Uni.new, demoParams, saveParams, Params.update, Params.initTime,
    evolveLoop, loopBody, makeStep, integrand, plasma, photonGas, temperatureTerms, addTerms,
    TPart.numerator, TPart.denominator, radDenominator, demoSpecies, pyLast, maxAB, adamsBashforth,
    abCoefficients, dotZip, Real.pi_ne_zero]
  norm_num

/-- In a run of a photon gas the second row has `ρ(T₀)`, not the density at its own temperature, and
`N_eff = 0`. -/
example (rule : Rule) : ∃ d u, evolve (plasma rule) ⟨1, 1⟩ true 9.6 true 2
    ([], Uni.new photonGas demoParams) = .ok (some (d, u)) ∧ ∃ r r', d = [r, r'] ∧
      r'.rho = Real.pi ^ 2 / 15 * 10 ^ 4 ∧ r'.Neff = 0 := by
  obtain ⟨⟨d, u⟩, h, hl⟩ := photon_one_step rule
  obtain ⟨rows, hd, ⟨r, h0, -, -, -, hT, -⟩, -⟩ :=
    C77_table (u := Uni.new photonGas demoParams) demoParams_reg h
  obtain ⟨rows₁, hd₁, hr₁⟩ := C78_density_lags (u := Uni.new photonGas demoParams) demoParams_reg h
  obtain ⟨rows₂, hd₂, hr₂⟩ := C78_neff (u := Uni.new photonGas demoParams) demoParams_reg h
    { demoSpecies with fermion := false } demoSpecies ⟨rfl, rfl⟩ ⟨rfl, rfl⟩
  rw [List.nil_append] at hd hd₁ hd₂
  subst hd hd₁ hd₂
  match d, hl with
  | [q, q'], _ =>
    have e0 : q = r := Option.some.inj h0
    have hq : q.T = 10 := by rw [e0, hT]; rfl
    have hrho := hr₁ 0 q q' rfl rfl
    rw [hq] at hrho
    simp only [Uni.new, photonGas, List.map_cons, List.map_nil, List.sum_cons, List.sum_nil,
      eqEnergyDensity, add_zero] at hrho
    refine ⟨_, _, h, q, q', rfl, ?_, ?_⟩
    · rw [hrho]; norm_num [radEnergyDensity, demoSpecies]; ring
    · have := hr₂ 0 q q' 0 1 rfl rfl (by rw [hq]; norm_num) (by
        rw [hrho, hq]; simp [radEnergyDensity])
      simpa using this

/-- `Params(T=10, rho=1)` can be created but not evolved. -/
example : ∃ p, Params.new ⟨1, 1⟩ true { T := some 10, rho := some 1, dy := some 0.05 } = .ok p ∧
    evolve stillPhysics ⟨1, 1⟩ true 1 true 7 ([], Uni.new () p) = .error .attributeError := by
  have : ∃ p, Params.new ⟨1, 1⟩ true { T := some 10, rho := some 1, dy := some 0.05 } = .ok p := by
    simp [Params.new, falsy]; norm_num
  obtain ⟨p, hp⟩ := this
  exact ⟨p, hp, C79_rho_given_raises hp (by simp)⟩

end PyBBN
