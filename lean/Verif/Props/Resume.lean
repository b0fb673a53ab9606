import Verif.Props.Evolution
/-!
# C121: a run continued by a second call of `evolve`
-/
namespace PyBBN

variable {W : Type*}

/-! ## The loop -/

theorem evolveLoop_more (ph : Physics W) (c : Consts) (ab : Bool) (Tf : ℝ) (n k : ℕ) (s s' : List Row × Uni W)
    (h : evolveLoop ph c ab Tf n s = .ok (some s')) : evolveLoop ph c ab Tf (n + k) s = .ok (some s') := by
  induction n generalizing s with
  | zero =>
    unfold evolveLoop at h
    by_cases hT : s.2.params.T > Tf
    · rw [if_pos hT] at h; simp at h
    · rw [if_neg hT] at h
      cases k <;> unfold evolveLoop <;> rw [if_neg hT] <;> exact h
  | succ n ih =>
    rw [show n + 1 + k = (n + k) + 1 by omega]
    unfold evolveLoop at h ⊢
    by_cases hT : s.2.params.T > Tf
    · rw [if_pos hT] at h ⊢
      cases hb : loopBody ph c ab s with
      | error e => simp only [hb] at h; cases h
      | ok t => simp only [hb] at h ⊢; exact ih t h
    · rw [if_neg hT] at h ⊢; exact h

/-- Going to `T₁` and on to a lower `T₂` is going to `T₂`. -/
theorem evolveLoop_trans (ph : Physics W) (c : Consts) (ab : Bool) (T₁ T₂ : ℝ) (hT : T₂ ≤ T₁) (n k : ℕ)
    (s s₁ s₂ : List Row × Uni W) (h₁ : evolveLoop ph c ab T₁ n s = .ok (some s₁))
    (h₂ : evolveLoop ph c ab T₂ k s₁ = .ok (some s₂)) : evolveLoop ph c ab T₂ (n + k) s = .ok (some s₂) := by
  induction n generalizing s with
  | zero =>
    unfold evolveLoop at h₁
    by_cases hs : s.2.params.T > T₁
    · rw [if_pos hs] at h₁; simp at h₁
    · rw [if_neg hs] at h₁
      simp only [Except.ok.injEq, Option.some.injEq] at h₁
      subst h₁
      rw [Nat.zero_add]; exact h₂
  | succ n ih =>
    unfold evolveLoop at h₁
    by_cases hs : s.2.params.T > T₁
    · rw [if_pos hs] at h₁
      rw [show n + 1 + k = (n + k) + 1 by omega]
      unfold evolveLoop
      rw [if_pos (lt_of_le_of_lt hT hs)]
      cases hb : loopBody ph c ab s with
      | error e => simp only [hb] at h₁; cases h₁
      | ok t => simp only [hb] at h₁ ⊢; exact ih t h₁
    · rw [if_neg hs] at h₁
      simp only [Except.ok.injEq, Option.some.injEq] at h₁
      subst h₁
      rw [show n + 1 + k = k + (n + 1) by omega]
      exact evolveLoop_more ph c ab T₂ k (n + 1) s s₂ h₂

/-- Conversely, on the way to `T₂` the loop passes through the state where it would have stopped at `T₁`. -/
theorem evolveLoop_through (ph : Physics W) (c : Consts) (ab : Bool) (T₁ T₂ : ℝ) (hT : T₂ ≤ T₁) (n : ℕ)
    (s s₂ : List Row × Uni W) (h : evolveLoop ph c ab T₂ n s = .ok (some s₂)) :
    ∃ s₁, evolveLoop ph c ab T₁ n s = .ok (some s₁) ∧ evolveLoop ph c ab T₂ n s₁ = .ok (some s₂) := by
  induction n generalizing s with
  | zero =>
    by_cases hs : s.2.params.T > T₁
    · unfold evolveLoop at h
      rw [if_pos (lt_of_le_of_lt hT hs)] at h; simp at h
    · exact ⟨s, by unfold evolveLoop; rw [if_neg hs], h⟩
  | succ n ih =>
    by_cases hs : s.2.params.T > T₁
    · unfold evolveLoop at h
      rw [if_pos (lt_of_le_of_lt hT hs)] at h
      cases hb : loopBody ph c ab s with
      | error e => simp only [hb] at h; cases h
      | ok t =>
        simp only [hb] at h
        obtain ⟨s₁, e1, e2⟩ := ih t h
        refine ⟨s₁, ?_, evolveLoop_more ph c ab T₂ n 1 s₁ s₂ e2⟩
        unfold evolveLoop
        rw [if_pos hs]
        simp only [hb]
        exact e1
    · exact ⟨s, by unfold evolveLoop; rw [if_neg hs], h⟩

/-- The explicit step does not look at the table. -/
theorem loopBody_euler (ph : Physics W) (c : Consts) (d d' : List Row) (u u' : Uni W)
    (h : loopBody ph c false (d, u) = .ok (d', u')) :
    ∃ r, d' = d ++ [r] ∧ ∀ e, loopBody ph c false (e, u) = .ok (e ++ [r], u') := by
  unfold loopBody at h
  simp only at h
  have hm : ∀ e, makeStep ph c false e u = makeStep ph c false d u := fun e => rfl
  cases hs : makeStep ph c false d u with
  | error e => simp only [hs] at h; cases h
  | ok v =>
    simp only [hs] at h
    unfold saveParams at h
    split at h
    · cases h
    · rename_i data hd
      split at hd
      · rename_i S rho hS hr
        simp only [Except.ok.injEq] at hd
        simp only [Except.ok.injEq, Prod.mk.injEq] at h
        obtain ⟨h1, h2⟩ := h
        refine ⟨_, by rw [← h1, ← hd], fun e => ?_⟩
        unfold loopBody
        simp only [hm, hs]
        unfold saveParams
        simp only [hS, hr, h2]
      · cases hd
      · cases hd

theorem evolveLoop_euler (ph : Physics W) (c : Consts) (Tf : ℝ) (n : ℕ) (d d' : List Row) (u u' : Uni W)
    (h : evolveLoop ph c false Tf n (d, u) = .ok (some (d', u'))) :
    ∃ rest, d' = d ++ rest ∧ ∀ e, evolveLoop ph c false Tf n (e, u) = .ok (some (e ++ rest, u')) := by
  induction n generalizing d u with
  | zero =>
    unfold evolveLoop at h
    by_cases hs : u.params.T > Tf
    · rw [if_pos hs] at h; simp at h
    · rw [if_neg hs] at h
      simp only [Except.ok.injEq, Option.some.injEq, Prod.mk.injEq] at h
      obtain ⟨rfl, rfl⟩ := h
      refine ⟨[], by simp, fun e => ?_⟩
      unfold evolveLoop
      rw [if_neg hs]; simp
  | succ n ih =>
    unfold evolveLoop at h
    by_cases hs : u.params.T > Tf
    · rw [if_pos hs] at h
      cases hb : loopBody ph c false (d, u) with
      | error e => simp only [hb] at h; cases h
      | ok t =>
        simp only [hb] at h
        obtain ⟨r, e1, e2⟩ := loopBody_euler ph c d t.1 u t.2 hb
        obtain ⟨rest, f1, f2⟩ := ih t.1 t.2 h
        refine ⟨r :: rest, by rw [f1, e1]; simp, fun e => ?_⟩
        unfold evolveLoop
        rw [if_pos hs]
        simp only [e2 e, f2 (e ++ [r])]
        simp
    · rw [if_neg hs] at h
      simp only [Except.ok.injEq, Option.some.injEq, Prod.mk.injEq] at h
      obtain ⟨rfl, rfl⟩ := h
      refine ⟨[], by simp, fun e => ?_⟩
      unfold evolveLoop
      rw [if_neg hs]; simp

/-- What a successful call went through. -/
theorem evolve_parts {ph : Physics W} {c : Consts} {ab init : Bool} {Tf : ℝ} {fuel : ℕ} {s s' : List Row × Uni W}
    (h : evolve ph c ab Tf init fuel s = .ok (some s')) :
    ∃ s₀, evolveStart ph c init s = .ok s₀ ∧ evolveLoop ph c ab Tf fuel s₀ = .ok (some s') ∧ 0 < s'.2.params.T := by
  unfold evolve at h
  split at h
  · simp at h
  rename_i s0 h0
  split at h
  · simp at h
  · simp at h
  rename_i s1 h1
  split at h
  · rename_i hT
    injection h with h; injection h with h
    subst h
    exact ⟨s0, h0, h1, hT⟩
  · simp at h

theorem evolve_of_parts {ph : Physics W} {c : Consts} {ab init : Bool} {Tf : ℝ} {fuel : ℕ}
    {s s₀ s' : List Row × Uni W} (h0 : evolveStart ph c init s = .ok s₀)
    (h1 : evolveLoop ph c ab Tf fuel s₀ = .ok (some s')) (hT : 0 < s'.2.params.T) :
    evolve ph c ab Tf init fuel s = .ok (some s') := by
  unfold evolve
  simp only [h0, h1]
  rw [if_pos hT]

theorem IsRow.unique {u : Uni W} {r r' : Row} (h : u.IsRow r) (h' : u.IsRow r') : r = r' := by
  obtain ⟨a1, a2, a3, a4, a5, a6, a7, a8, a9⟩ := h
  obtain ⟨b1, b2, b3, b4, b5, b6, b7, b8, b9⟩ := h'
  rw [a6, Option.some.injEq] at b6
  rw [a9, Option.some.injEq] at b9
  cases r; cases r'
  simp only at *
  simp [a1, a2, a3, a4, a5, a7, a8, b1, b2, b3, b4, b5, b7, b8, b6, b9]

/-- After a call, the last row of the table is the state of the universe. -/
theorem evolve_last {ph : Physics W} {c : Consts} {ab init : Bool} {Tf : ℝ} {fuel : ℕ}
    {d d' : List Row} {u u' : Uni W} (hr : u.params.Reg)
    (h : evolve ph c ab Tf init fuel (d, u) = .ok (some (d', u'))) :
    ∃ pre r, d' = pre ++ [r] ∧ u'.IsRow r := by
  obtain ⟨n, st, rows, hn, hl, hd, hst, -, -, -, hrow, -⟩ := evolve_trace hr h
  have hb : n < rows.length := by omega
  obtain ⟨-, hrr⟩ := hrow n rows[n] (List.getElem?_eq_getElem hb)
  rw [hst] at hrr
  refine ⟨d ++ rows.take n, rows[n], ?_, hrr⟩
  have hdrop : rows.drop n = [rows[n]] := by
    rw [List.drop_eq_getElem_cons hb, List.drop_eq_nil_of_le (by omega)]
  rw [hd, List.append_assoc, ← hdrop, List.take_append_drop]

/-- The state with which a second call starts. -/
theorem second_start {ph : Physics W} {c : Consts} {ab init : Bool} {Tf : ℝ} {fuel : ℕ}
    {d d' : List Row} {u u' : Uni W} (hr : u.params.Reg)
    (h : evolve ph c ab Tf init fuel (d, u) = .ok (some (d', u'))) (again : Bool) :
    ∃ pre r, d' = pre ++ [r] ∧ u'.IsRow r ∧
      evolveStart ph c again (d', u') = .ok (d' ++ [{ r with
        t := if again then Real.sqrt (3 / (32 * Real.pi * c.G * ph.rho u'.w u'.params)) else r.t }],
        if again then { u' with params := u'.params.initTime c (ph.rho u'.w u'.params) } else u') := by
  obtain ⟨pre, r, e, hrow⟩ := evolve_last hr h
  refine ⟨pre, r, e, hrow, ?_⟩
  obtain ⟨b1, b2, b3, b4, b5, b6, b7, b8, b9⟩ := hrow
  unfold evolveStart saveParams
  cases again
  · simp only [Bool.false_eq_true, if_false, b6, b9]
    rw [← b1, ← b2, ← b3, ← b4, ← b5, ← b7, ← b8]
  · simp only [if_true, Params.initTime, b6, b9]
    rw [← b1, ← b2, ← b3, ← b4, ← b7, ← b8]

/-! ## C121 -/

/-- **C121 (partial).** Explicit Euler steps and `init_time=False` in the second call: stopping at `T₁` and continuing to
`T₂` leaves the universe in the state of a single call; the table holds one row twice, the one at which the run was
stopped. -/
theorem C121_resume_partial {ph : Physics W} {c : Consts} {init : Bool} {T₁ T₂ : ℝ} (hT : T₂ ≤ T₁) {n k : ℕ}
    {d d₁ d₂ : List Row} {u u₁ u₂ : Uni W} (hr : u.params.Reg)
    (h₁ : evolve ph c false T₁ init n (d, u) = .ok (some (d₁, u₁)))
    (h₂ : evolve ph c false T₂ false k (d₁, u₁) = .ok (some (d₂, u₂))) :
    ∃ pre r rest, d₁ = pre ++ [r] ∧ d₂ = pre ++ [r, r] ++ rest ∧
      evolve ph c false T₂ init (n + k) (d, u) = .ok (some (pre ++ [r] ++ rest, u₂)) := by
  obtain ⟨pre, r, e, -, hs⟩ := second_start hr h₁ false
  obtain ⟨s₀, a1, a2, -⟩ := evolve_parts h₁
  obtain ⟨t₀, b1, b2, b3⟩ := evolve_parts h₂
  rw [hs] at b1
  simp only [Bool.false_eq_true, if_false, Except.ok.injEq] at b1
  subst b1
  obtain ⟨rest, f1, f2⟩ := evolveLoop_euler ph c T₂ k _ _ _ _ b2
  refine ⟨pre, r, rest, e, by rw [f1, e]; simp, ?_⟩
  have := evolveLoop_trans ph c false T₁ T₂ hT n k _ _ _ a2 (f2 d₁)
  rw [e] at this
  exact evolve_of_parts a1 this b3

/-- **C121 (partial), conversely.** A single call to `T₂` that completes could have been stopped at any `T₁` above `T₂`
and continued: both calls complete, and they end with the same universe. -/
theorem C121_stop_partial {ph : Physics W} {c : Consts} {init : Bool} {T₁ T₂ : ℝ} (hT : T₂ ≤ T₁) (hT2 : 0 ≤ T₂) {n : ℕ}
    {d d₂ : List Row} {u u₂ : Uni W} (hr : u.params.Reg)
    (h : evolve ph c false T₂ init n (d, u) = .ok (some (d₂, u₂))) :
    ∃ pre r rest u₁, d₂ = pre ++ [r] ++ rest ∧
      evolve ph c false T₁ init n (d, u) = .ok (some (pre ++ [r], u₁)) ∧
      evolve ph c false T₂ false n (pre ++ [r], u₁) = .ok (some (pre ++ [r, r] ++ rest, u₂)) := by
  obtain ⟨s₀, a1, a2, a3⟩ := evolve_parts h
  obtain ⟨s₁, b1, b2⟩ := evolveLoop_through ph c false T₁ T₂ hT n _ _ a2
  have hpos : 0 < s₁.2.params.T := by
    by_cases hs : s₁.2.params.T > T₂
    · linarith
    · have : s₁ = (d₂, u₂) := by
        cases n <;> (unfold evolveLoop at b2; rw [if_neg hs] at b2; simpa using b2)
      rw [this]; exact a3
  have h1 := evolve_of_parts a1 b1 hpos
  obtain ⟨d₁, u₁⟩ := s₁
  obtain ⟨pre, r, e, -, hs⟩ := second_start hr h1 false
  obtain ⟨rest, f1, f2⟩ := evolveLoop_euler ph c T₂ n _ _ _ _ b2
  subst e
  refine ⟨pre, r, rest, u₁, f1, h1, ?_⟩
  simp only [Bool.false_eq_true, if_false] at hs
  have := evolve_of_parts hs (f2 _) a3
  simpa using this

/-- **C121 (the table).** In every mode the second call records the row of the stop once more.  With the default
`init_time` the new copy carries a new time, computed from the density as if the universe had only ever held radiation;
the two agree only if the elapsed time happens to be that one. -/
theorem C121_duplicate {ph : Physics W} {c : Consts} {ab ab' init again : Bool} {T₁ T₂ : ℝ} {n k : ℕ}
    {d d₁ d₂ : List Row} {u u₁ u₂ : Uni W} (hr : u.params.Reg)
    (h₁ : evolve ph c ab T₁ init n (d, u) = .ok (some (d₁, u₁)))
    (h₂ : evolve ph c ab' T₂ again k (d₁, u₁) = .ok (some (d₂, u₂))) :
    ∃ pre r r' rest, d₁ = pre ++ [r] ∧ d₂ = pre ++ [r, r'] ++ rest ∧ r' = { r with t := r'.t } ∧
      (again = false → r'.t = r.t) ∧
      (again = true → 0 < c.Mp → 0 < ph.rho u₁.w u₁.params → 0 ≤ r.t →
        (r'.t = r.t ↔ 32 * Real.pi * c.G * ph.rho u₁.w u₁.params * r.t ^ 2 = 3)) := by
  obtain ⟨pre, r, e, -, hs⟩ := second_start hr h₁ again
  have hr₁ : u₁.params.Reg := by
    obtain ⟨m, st, rows, -, -, -, hst, -, -, hreg, -⟩ := evolve_trace hr h₁
    have := hreg m le_rfl
    rwa [hst] at this
  obtain ⟨m, st, rows, hm, hl, hd, hst, hstart, hstep, -⟩ := evolve_trace hr₁ h₂
  rw [hs, Except.ok.injEq] at hstart
  have hpre : ∀ i, i ≤ m → ∃ rest, (st i).1 = (st 0).1 ++ rest := by
    intro i
    induction i with
    | zero => intro _; exact ⟨[], by simp⟩
    | succ i ih =>
      intro hi
      obtain ⟨rest, hrest⟩ := ih (by omega)
      obtain ⟨q, -, hq⟩ := (hstep i hi).row
      exact ⟨rest ++ [q], by rw [hq, hrest, List.append_assoc]⟩
  obtain ⟨rest, hrest⟩ := hpre m le_rfl
  rw [hst, ← hstart] at hrest
  simp only at hrest
  refine ⟨pre, r, { r with
    t := if again then Real.sqrt (3 / (32 * Real.pi * c.G * ph.rho u₁.w u₁.params)) else r.t }, rest, e,
    by rw [hrest, e]; simp, rfl, ?_, ?_⟩
  · intro ha; subst ha; simp
  · intro ha hMp hρ ht
    subst ha
    simp only [if_true]
    have hG : 0 < c.G := by rw [Consts.G]; positivity
    have hp : 0 < 32 * Real.pi * c.G * ph.rho u₁.w u₁.params := by
      have := Real.pi_pos; positivity
    rw [Real.sqrt_eq_iff_mul_self_eq (by positivity) ht, ← pow_two, div_eq_iff hp.ne', mul_comm (r.t ^ 2)]
    exact eq_comm

theorem ab_last (pre : List ℝ) (a b c d f h : ℝ) :
    adamsBashforth (pyLast (pre ++ [a, b, c, d]) maxAB ++ [f]) h none =
      .ok (h * (251 * a - 1274 * b + 2616 * c - 2774 * d + 1901 * f) / 720) := by
  have e0 : pyLast (pre ++ [a, b, c, d]) maxAB = pre.drop (pre.length - 1) ++ [a, b, c, d] := by
    unfold pyLast maxAB
    simp only [List.length_append, List.length_cons, List.length_nil]
    rw [if_neg (by norm_num), List.drop_append]
    have e1 : pre.length + (0 + 1 + 1 + 1 + 1) - 5 = pre.length - 1 := by omega
    have e2 : pre.length - 1 - pre.length = 0 := by omega
    rw [e1, e2]; rfl
  rw [e0, List.append_assoc]
  generalize pre.drop (pre.length - 1) = pre'
  change adamsBashforth (pre' ++ [a, b, c, d, f]) h none = _
  have e : min maxAB (pre' ++ [a, b, c, d, f]).length = 5 := by
    unfold maxAB; simp
  have e2 : pyLast (pre' ++ [a, b, c, d, f]) 5 = [a, b, c, d, f] :=
    pyLast_append pre' _ 5 (by norm_num) rfl
  unfold adamsBashforth
  simp only [e, abCoefficients, e2]
  rw [if_pos (by simp)]
  simp only [dotZip, List.zipWith_cons_cons, List.zipWith_nil_left, List.sum_cons, List.sum_nil]
  congr 2
  ring

/-- **C121 (failure, multistep mode).** With the Adams–Bashforth correction, the repeated row enters the multistep
formula as if it were a step of its own: the first step after resuming misses the uninterrupted one by a combination of
the last changes of the slope, although the slope and `x` are the same. -/
theorem C121_ab_step {ph : Physics W} {c : Consts} {init : Bool} {T₁ : ℝ} {n : ℕ}
    {d d₁ : List Row} {u u₁ : Uni W} (hr : u.params.Reg)
    (h₁ : evolve ph c true T₁ init n (d, u) = .ok (some (d₁, u₁)))
    {pre : List ℝ} {f₁ f₂ f₃ f₄ : ℝ} (hf : d₁.map Row.fraction = pre ++ [f₁, f₂, f₃, f₄])
    {one start two : List Row × Uni W} (hone : loopBody ph c true (d₁, u₁) = .ok one)
    (hstart : evolveStart ph c false (d₁, u₁) = .ok start) (htwo : loopBody ph c true start = .ok two) :
    two.2.params.x = one.2.params.x ∧ two.2.fraction = one.2.fraction ∧ two.2.w = one.2.w ∧
      two.2.params.aT - one.2.params.aT =
        u₁.params.h * (251 * (f₂ - f₁) - 1274 * (f₃ - f₂) + 2616 * (f₄ - f₃)) / 720 := by
  obtain ⟨pr, r, e, hrow, hs⟩ := second_start hr h₁ false
  rw [hs, Except.ok.injEq] at hstart
  simp only [Bool.false_eq_true, if_false] at hstart
  subst hstart
  have s1 := loopBody_spec hone
  have s2 := loopBody_spec htwo
  have hfrac : two.2.fraction = one.2.fraction := by rw [s2.frac, s1.frac]
  obtain ⟨g1, a1, -, b1⟩ := s1.aT
  obtain ⟨g2, a2, -, b2⟩ := s2.aT
  have b1 := b1 rfl
  have b2 := b2 rfl
  have hlast : r.fraction = f₄ := by
    rw [e, List.map_append] at hf
    have := congrArg List.getLast? hf
    simpa using this
  simp only [List.map_append, hf, List.map_cons, List.map_nil] at b1 b2
  rw [show pre ++ [f₁, f₂, f₃, f₄] ++ [r.fraction] = (pre ++ [f₁]) ++ [f₂, f₃, f₄, r.fraction] by simp, hlast,
    ab_last, Except.ok.injEq] at b2
  rw [ab_last, Except.ok.injEq] at b1
  refine ⟨by rw [s2.x, s1.x], hfrac, by rw [s2.w, s1.w], ?_⟩
  rw [a1, a2, ← b1, ← b2, hfrac]
  ring

/-- A universe whose slope is 1/10 throughout. -/
noncomputable def tenthPhysics : Physics Unit :=
  ⟨fun w p => (w, 1 / 10 / p.x, 1), fun _ _ => 1, fun _ _ => 1⟩

theorem tenth_step (ab : Bool) (s : List Row × Uni Unit) (hl : s.2.params.log = true) (hx : 0 < s.2.params.x) :
    ∃ s', loopBody tenthPhysics ⟨1, 1⟩ ab s = .ok s' ∧ StepSpec tenthPhysics ⟨1, 1⟩ ab s s' ∧
      s'.2.fraction = 1 / 10 := by
  obtain ⟨s', h⟩ := loopBody_ok tenthPhysics ⟨1, 1⟩ ab s (by simp [tenthPhysics])
  refine ⟨s', h, loopBody_spec h, ?_⟩
  rw [(loopBody_spec h).frac, if_pos hl]
  simp only [tenthPhysics]
  field_simp

theorem tenth_start : ∃ s0,
    evolveStart tenthPhysics ⟨1, 1⟩ true ([], Uni.new () demoParams) = .ok s0 ∧ s0.2.params.log = true ∧
    s0.2.params.x = 1 / 10 ∧ s0.2.params.dx = 1 / 10 * 0.05 ∧ s0.2.params.h = 0.05 ∧ s0.2.params.dy = 0.05 ∧
    s0.2.params.m = 1 ∧ s0.2.params.aT = 1 ∧ s0.2.params.T = 10 ∧ s0.1.map Row.fraction = [0] := by
  refine ⟨_, rfl, rfl, rfl, rfl, rfl, rfl, rfl, rfl, ?_, rfl⟩
  norm_num [Uni.new, demoParams, Params.update, Params.initTime]

theorem loop_once {ph : Physics W} {c : Consts} {ab : Bool} {Tf : ℝ} {n : ℕ} {s s' : List Row × Uni W}
    (hT : Tf < s.2.params.T) (h : loopBody ph c ab s = .ok s') :
    evolveLoop ph c ab Tf (n + 1) s = evolveLoop ph c ab Tf n s' := by
  conv_lhs => unfold evolveLoop
  rw [if_pos hT]
  simp only [h]

theorem loop_stop {ph : Physics W} {c : Consts} {ab : Bool} {Tf : ℝ} {n : ℕ} {s : List Row × Uni W}
    (hT : ¬ Tf < s.2.params.T) : evolveLoop ph c ab Tf n s = .ok (some s) := by
  unfold evolveLoop
  rw [if_neg hT]

set_option maxHeartbeats 1000000 in
/-- **C121 (refutation).** With the multistep correction, stopping after the first step and resuming, even with
`init_time=False`, ends with a conformal temperature other than that of the uninterrupted run. -/
theorem C121_ab_refuted : ∃ d₁ u₁ d₂ u₂ d u,
    evolve tenthPhysics ⟨1, 1⟩ true 9.6 true 1 ([], Uni.new () demoParams) = .ok (some (d₁, u₁)) ∧
    evolve tenthPhysics ⟨1, 1⟩ true 9.3 false 1 (d₁, u₁) = .ok (some (d₂, u₂)) ∧
    evolve tenthPhysics ⟨1, 1⟩ true 9.3 true 2 ([], Uni.new () demoParams) = .ok (some (d, u)) ∧
    u.params.aT = 1 + 0.05 / 10 * (3 / 2 + 7 / 12) ∧ u₂.params.aT = 1 + 0.05 / 10 * (3 / 2 + 11 / 8) ∧
    u.params.x = u₂.params.x := by
  obtain ⟨s0, h0, l0, x0, dx0, h0', dy0, m0, aT0, T0, fr0⟩ := tenth_start
  obtain ⟨s1, h1, p1, f1⟩ := tenth_step true s0 l0 (by rw [x0]; norm_num)
  have x1 : s1.2.params.x = 0.105 := by rw [p1.x, x0, dx0]; norm_num
  have dx1 : s1.2.params.dx = 0.105 * 0.05 := by rw [p1.dx, if_pos l0, x1, dy0]
  have l1 : s1.2.params.log = true := by rw [p1.log, l0]
  have fr1 : s1.1.map Row.fraction = [0, 1 / 10] := by
    obtain ⟨r, hr, e⟩ := p1.row
    rw [e, List.map_append, fr0]
    simp [hr.2.2.2.2.2.2.2.1, f1]
  have aT1 : s1.2.params.aT = 1.0075 := by
    obtain ⟨g, e, -, hg⟩ := p1.aT
    have hg := hg rfl
    rw [fr0, f1, h0'] at hg
    simp [pyLast, maxAB, adamsBashforth, abCoefficients, dotZip] at hg
    rw [e, aT0, ← hg]; norm_num
  have T1 : s1.2.params.T = 1.0075 / 0.105 := by rw [p1.T, p1.a, p1.m, m0, aT1, x1]; norm_num
  have e1 : evolve tenthPhysics ⟨1, 1⟩ true 9.6 true 1 ([], Uni.new () demoParams) = .ok (some s1) := by
    refine evolve_of_parts h0 ?_ (by rw [T1]; norm_num)
    rw [loop_once (by rw [T0]; norm_num) h1, loop_stop (by rw [T1]; norm_num)]
  obtain ⟨s2, h2, p2, f2⟩ := tenth_step true s1 l1 (by rw [x1]; norm_num)
  have x2 : s2.2.params.x = 0.11025 := by rw [p2.x, x1, dx1]; norm_num
  have aT2 : s2.2.params.aT = 1 + 0.05 / 10 * (3 / 2 + 7 / 12) := by
    obtain ⟨g, e, -, hg⟩ := p2.aT
    have hg := hg rfl
    rw [fr1, f2, p1.h, h0'] at hg
    simp [pyLast, maxAB, adamsBashforth, abCoefficients, dotZip] at hg
    rw [e, aT1, ← hg]; norm_num
  have T2 : s2.2.params.T = (1 + 0.05 / 10 * (3 / 2 + 7 / 12)) / 0.11025 := by
    rw [p2.T, p2.a, p2.m, p1.m, m0, aT2, x2]; norm_num
  obtain ⟨pre, r, e, hrow, hs⟩ := second_start demoParams_reg e1 false
  simp only [Bool.false_eq_true, if_false] at hs
  obtain ⟨s3, h3, p3, f3⟩ := tenth_step true (s1.1 ++ [r], s1.2) l1 (by rw [x1]; norm_num)
  have x3 : s3.2.params.x = 0.11025 := by rw [p3.x]; simp only; rw [x1, dx1]; norm_num
  have aT3 : s3.2.params.aT = 1 + 0.05 / 10 * (3 / 2 + 11 / 8) := by
    obtain ⟨g, e, -, hg⟩ := p3.aT
    have hg := hg rfl
    simp only [List.map_append, fr1, List.map_cons, List.map_nil, hrow.2.2.2.2.2.2.2.1, f1] at hg
    rw [f3, p1.h, h0'] at hg
    simp [pyLast, maxAB, adamsBashforth, abCoefficients, dotZip] at hg
    rw [e]
    simp only
    rw [aT1, ← hg]; norm_num
  have T3 : s3.2.params.T = (1 + 0.05 / 10 * (3 / 2 + 11 / 8)) / 0.11025 := by
    rw [p3.T, p3.a, p3.m]
    simp only
    rw [p1.m, m0, aT3, x3]; norm_num
  refine ⟨s1.1, s1.2, s3.1, s3.2, s2.1, s2.2, e1, ?_, ?_, aT2, aT3, by rw [x2, x3]⟩
  · refine evolve_of_parts hs ?_ (by rw [T3]; norm_num)
    rw [loop_once (by simp only; rw [T1]; norm_num) h3, loop_stop (by rw [T3]; norm_num)]
  · refine evolve_of_parts h0 ?_ (by rw [T2]; norm_num)
    rw [loop_once (by rw [T0]; norm_num) h1, loop_once (by rw [T1]; norm_num) h2, loop_stop (by rw [T2]; norm_num)]

/-! ## Concrete cases -/

theorem euler_two : ∃ s, evolve tenthPhysics ⟨1, 1⟩ false 9.3 true 2 ([], Uni.new () demoParams) = .ok (some s) := by
  obtain ⟨s0, h0, l0, x0, dx0, h0', dy0, m0, aT0, T0, fr0⟩ := tenth_start
  obtain ⟨s1, h1, p1, f1⟩ := tenth_step false s0 l0 (by rw [x0]; norm_num)
  have x1 : s1.2.params.x = 0.105 := by rw [p1.x, x0, dx0]; norm_num
  have dx1 : s1.2.params.dx = 0.105 * 0.05 := by rw [p1.dx, if_pos l0, x1, dy0]
  have aT1 : s1.2.params.aT = 1.005 := by
    obtain ⟨g, e, hg, -⟩ := p1.aT
    rw [e, aT0, hg rfl, f1, h0']; norm_num
  have T1 : s1.2.params.T = 1.005 / 0.105 := by rw [p1.T, p1.a, p1.m, m0, aT1, x1]; norm_num
  obtain ⟨s2, h2, p2, f2⟩ := tenth_step false s1 (by rw [p1.log, l0]) (by rw [x1]; norm_num)
  have x2 : s2.2.params.x = 0.11025 := by rw [p2.x, x1, dx1]; norm_num
  have aT2 : s2.2.params.aT = 1.01 := by
    obtain ⟨g, e, hg, -⟩ := p2.aT
    rw [e, aT1, hg rfl, f2, p1.h, h0']; norm_num
  have T2 : s2.2.params.T = 1.01 / 0.11025 := by rw [p2.T, p2.a, p2.m, p1.m, m0, aT2, x2]; norm_num
  refine ⟨s2, evolve_of_parts h0 ?_ (by rw [T2]; norm_num)⟩
  rw [loop_once (by rw [T0]; norm_num) h1, loop_once (by rw [T1]; norm_num) h2, loop_stop (by rw [T2]; norm_num)]

/-- Explicit steps: the run to 9.3 can be stopped at 9.6 and resumed, and the two calls together are the one. -/
example : ∃ d₁ u₁ d₂ d u,
    evolve tenthPhysics ⟨1, 1⟩ false 9.6 true 2 ([], Uni.new () demoParams) = .ok (some (d₁, u₁)) ∧
    evolve tenthPhysics ⟨1, 1⟩ false 9.3 false 2 (d₁, u₁) = .ok (some (d₂, u)) ∧
    evolve tenthPhysics ⟨1, 1⟩ false 9.3 true (2 + 2) ([], Uni.new () demoParams) = .ok (some (d, u)) := by
  obtain ⟨⟨d, u⟩, h⟩ := euler_two
  obtain ⟨pre, r, rest, u₁, -, h1, h2⟩ := C121_stop_partial (T₁ := 9.6) (by norm_num) (by norm_num) demoParams_reg h
  obtain ⟨pre', r', rest', -, -, h3⟩ := C121_resume_partial (by norm_num) demoParams_reg h1 h2
  exact ⟨_, _, _, _, _, h1, h2, h3⟩

/-- The two calls of `C121_ab_refuted` through `C121_duplicate`. -/
example : ∃ (d₂ : List Row) (pre : List Row) (r : Row) (rest : List Row), d₂ = pre ++ [r, r] ++ rest ∧
    ∃ d₁ u₁ u₂, evolve tenthPhysics ⟨1, 1⟩ true 9.3 false 1 (d₁, u₁) = .ok (some (d₂, u₂)) := by
  obtain ⟨d₁, u₁, d₂, u₂, d, u, h1, h2, -⟩ := C121_ab_refuted
  obtain ⟨pre, r, r', rest, -, e, e', ht, -⟩ := C121_duplicate demoParams_reg h1 h2
  have : r' = r := by rw [e', ht rfl]
  subst this
  exact ⟨d₂, pre, r', rest, e, d₁, u₁, u₂, h2⟩

theorem tenth_three : ∃ d u, evolve tenthPhysics ⟨1, 1⟩ true 8.8 true 3 ([], Uni.new () demoParams) = .ok (some (d, u)) ∧
    d.map Row.fraction = [] ++ [0, 1 / 10, 1 / 10, 1 / 10] ∧ u.params.h = 0.05 ∧ u.params.log = true ∧ 0 < u.params.x := by
  obtain ⟨s0, h0, l0, x0, dx0, h0', dy0, m0, aT0, T0, fr0⟩ := tenth_start
  obtain ⟨s1, h1, p1, f1⟩ := tenth_step true s0 l0 (by rw [x0]; norm_num)
  have x1 : s1.2.params.x = 0.105 := by rw [p1.x, x0, dx0]; norm_num
  have dx1 : s1.2.params.dx = 0.105 * 0.05 := by rw [p1.dx, if_pos l0, x1, dy0]
  have l1 : s1.2.params.log = true := by rw [p1.log, l0]
  have fr1 : s1.1.map Row.fraction = [0, 1 / 10] := by
    obtain ⟨r, hr, e⟩ := p1.row
    rw [e, List.map_append, fr0]
    simp [hr.2.2.2.2.2.2.2.1, f1]
  have aT1 : s1.2.params.aT = 1.0075 := by
    obtain ⟨g, e, -, hg⟩ := p1.aT
    have hg := hg rfl
    rw [fr0, f1, h0'] at hg
    simp [pyLast, maxAB, adamsBashforth, abCoefficients, dotZip] at hg
    rw [e, aT0, ← hg]; norm_num
  have T1 : s1.2.params.T = 1.0075 / 0.105 := by rw [p1.T, p1.a, p1.m, m0, aT1, x1]; norm_num
  obtain ⟨s2, h2, p2, f2⟩ := tenth_step true s1 l1 (by rw [x1]; norm_num)
  have x2 : s2.2.params.x = 0.11025 := by rw [p2.x, x1, dx1]; norm_num
  have dx2 : s2.2.params.dx = 0.11025 * 0.05 := by rw [p2.dx, if_pos l1, x2, p1.dy, dy0]
  have l2 : s2.2.params.log = true := by rw [p2.log, l1]
  have fr2 : s2.1.map Row.fraction = [0, 1 / 10, 1 / 10] := by
    obtain ⟨r, hr, e⟩ := p2.row
    rw [e, List.map_append, fr1]
    simp [hr.2.2.2.2.2.2.2.1, f2]
  have aT2 : s2.2.params.aT = 1 + 0.05 / 10 * (3 / 2 + 7 / 12) := by
    obtain ⟨g, e, -, hg⟩ := p2.aT
    have hg := hg rfl
    rw [fr1, f2, p1.h, h0'] at hg
    simp [pyLast, maxAB, adamsBashforth, abCoefficients, dotZip] at hg
    rw [e, aT1, ← hg]; norm_num
  have T2 : s2.2.params.T = (1 + 0.05 / 10 * (3 / 2 + 7 / 12)) / 0.11025 := by
    rw [p2.T, p2.a, p2.m, p1.m, m0, aT2, x2]; norm_num
  obtain ⟨s3, h3, p3, f3⟩ := tenth_step true s2 l2 (by rw [x2]; norm_num)
  have x3 : s3.2.params.x = 0.1157625 := by rw [p3.x, x2, dx2]; norm_num
  have fr3 : s3.1.map Row.fraction = [0, 1 / 10, 1 / 10, 1 / 10] := by
    obtain ⟨r, hr, e⟩ := p3.row
    rw [e, List.map_append, fr2]
    simp [hr.2.2.2.2.2.2.2.1, f3]
  have aT3 : s3.2.params.aT = 1 + 0.05 / 10 * (3 / 2 + 7 / 12 + 11 / 8) := by
    obtain ⟨g, e, -, hg⟩ := p3.aT
    have hg := hg rfl
    rw [fr2, f3, p2.h, p1.h, h0'] at hg
    simp [pyLast, maxAB, adamsBashforth, abCoefficients, dotZip] at hg
    rw [e, aT2, ← hg]; norm_num
  have T3 : s3.2.params.T = (1 + 0.05 / 10 * (3 / 2 + 7 / 12 + 11 / 8)) / 0.1157625 := by
    rw [p3.T, p3.a, p3.m, p2.m, p1.m, m0, aT3, x3]; norm_num
  refine ⟨s3.1, s3.2, evolve_of_parts h0 ?_ (by rw [T3]; norm_num), fr3, by rw [p3.h, p2.h, p1.h, h0'],
    by rw [p3.log, l2], by rw [x3]; norm_num⟩
  rw [loop_once (by rw [T0]; norm_num) h1, loop_once (by rw [T1]; norm_num) h2,
    loop_once (by rw [T2]; norm_num) h3, loop_stop (by rw [T3]; norm_num)]

/-- Resuming after three steps: the next step is off by `0.05 · 25.1 / 720`. -/
example : ∃ (d₁ : List Row) (u₁ : Uni Unit) (one start two : List Row × Uni Unit),
    loopBody tenthPhysics ⟨1, 1⟩ true (d₁, u₁) = .ok one ∧
    evolveStart tenthPhysics ⟨1, 1⟩ false (d₁, u₁) = .ok start ∧ loopBody tenthPhysics ⟨1, 1⟩ true start = .ok two ∧
    two.2.params.aT - one.2.params.aT = 0.05 * 25.1 / 720 := by
  obtain ⟨d, u, h, hf, hh, hl, hx⟩ := tenth_three
  obtain ⟨one, h1, -, -⟩ := tenth_step true (d, u) hl hx
  obtain ⟨pre, r, e, hrow, hs⟩ := second_start demoParams_reg h false
  obtain ⟨two, h2, -, -⟩ := tenth_step true (d ++ [r], u) hl hx
  refine ⟨d, u, one, _, two, h1, hs, h2, ?_⟩
  rw [(C121_ab_step demoParams_reg h hf h1 hs h2).2.2.2, hh]
  norm_num

end PyBBN
