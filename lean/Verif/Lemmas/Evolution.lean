import Verif.Model.Evolution
import Verif.Props.Integrators
import Verif.Props.Params
/-!
# Lemmas about the evolution loop
-/
namespace PyBBN

variable {W : Type*}

/-- `n` iterations of the loop body without looking at the stopping condition. -/
noncomputable def runN (ph : Physics W) (c : Consts) (ab : Bool) :
    ℕ → List Row × Uni W → Except Err (List Row × Uni W)
  | 0, s => .ok s
  | n + 1, s =>
    match runN ph c ab n s with
    | .error e => .error e
    | .ok s' => loopBody ph c ab s'

/-- The row describing the current state of a universe. -/
def Uni.IsRow (u : Uni W) (r : Row) : Prop :=
  r.aT = u.params.aT ∧ r.T = u.params.T ∧ r.a = u.params.a ∧ r.x = u.params.x ∧ r.t = u.params.t ∧
  u.params.rho = some r.rho ∧ r.Neff = u.params.Neff ∧ r.fraction = u.fraction ∧
  u.params.S = some r.S

/-- Regular parameters: positive normalisation, `x` and step, consistent step and ratios. -/
structure Params.Reg (p : Params) : Prop where
  m : 0 < p.m
  x : 0 < p.x
  dx : 0 < p.dx
  step : p.log = true → p.dx = p.x * p.dy
  cons : p.Consistent

theorem saveParams_spec {data data' : List Row} {u : Uni W} (h : saveParams data u = .ok data') :
    ∃ r, u.IsRow r ∧ data' = data ++ [r] := by
  unfold saveParams at h
  split at h
  · rename_i S rho hS hr
    injection h with h
    exact ⟨_, ⟨rfl, rfl, rfl, rfl, rfl, hr, rfl, rfl, hS⟩, h.symm⟩
  · simp at h
  · simp at h

theorem adamsBashforth_auto_ok (fs : List ℝ) (h : ℝ) (hne : fs ≠ []) :
    ∃ v, adamsBashforth fs h none = .ok v := by
  have hl : 0 < fs.length := List.length_pos_of_ne_nil hne
  have : min maxAB fs.length = 1 ∨ min maxAB fs.length = 2 ∨ min maxAB fs.length = 3 ∨
      min maxAB fs.length = 4 ∨ min maxAB fs.length = 5 := by unfold maxAB; omega
  have hlen : ∀ k, min maxAB fs.length = k → 0 < k → (pyLast fs k).length = k := by
    intro k hk h0
    simp only [pyLast, if_neg (Nat.pos_iff_ne_zero.mp h0), List.length_drop]
    unfold maxAB at hk; omega
  unfold adamsBashforth
  rcases this with e | e | e | e | e <;> simp only [e, abCoefficients] <;>
    simp [hlen _ e (by norm_num)]

/-- Everything one loop iteration does. -/
structure StepSpec (ph : Physics W) (c : Consts) (ab : Bool) (s s' : List Row × Uni W) : Prop where
  den : (ph.terms s.2.w s.2.params).2.2 ≠ 0
  w : s'.2.w = (ph.terms s.2.w s.2.params).1
  frac : s'.2.fraction = if s.2.params.log then
      s.2.params.x * (ph.terms s.2.w s.2.params).2.1 / (ph.terms s.2.w s.2.params).2.2
    else (ph.terms s.2.w s.2.params).2.1 / (ph.terms s.2.w s.2.params).2.2
  aT : ∃ d, s'.2.params.aT = s.2.params.aT + d ∧
    (ab = false → d = s'.2.fraction * s.2.params.h) ∧
    (ab = true → adamsBashforth (pyLast (s.1.map Row.fraction) maxAB ++ [s'.2.fraction])
      s.2.params.h none = .ok d)
  x : s'.2.params.x = s.2.params.x + s.2.params.dx
  m : s'.2.params.m = s.2.params.m
  log : s'.2.params.log = s.2.params.log
  dy : s'.2.params.dy = s.2.params.dy
  h : s'.2.params.h = s.2.params.h
  dx : s'.2.params.dx = if s.2.params.log then s'.2.params.x * s.2.params.dy else s.2.params.dx
  a : s'.2.params.a = s'.2.params.x / s'.2.params.m
  T : s'.2.params.T = s'.2.params.aT / s'.2.params.a
  rho : ∃ r, s'.2.params.rho = some r ∧
    r = ph.rho s'.2.w { s.2.params with aT := s'.2.params.aT, x := s'.2.params.x } ∧
    s'.2.params.H = Real.sqrt (8 / 3 * Real.pi * r) / c.Mp ∧
    s'.2.params.t = s.2.params.t + (1 - s.2.params.a / s'.2.params.a) / s'.2.params.H
  Neff : ∃ r, s'.2.params.rho = some r ∧
    s'.2.params.Neff = (r - Real.pi ^ 2 / 15 * s.2.params.T ^ 4) /
      (7 / 8 * Real.pi ^ 2 / 15 * (s.2.params.T / 1.401) ^ 4)
  S : s'.2.params.S =
    some (ph.S s'.2.w { s.2.params with aT := s'.2.params.aT, x := s'.2.params.x })
  row : ∃ r, s'.2.IsRow r ∧ s'.1 = s.1 ++ [r]
  step : s'.2.step = s.2.step + 1

theorem loopBody_spec {ph : Physics W} {c : Consts} {ab : Bool} {s s' : List Row × Uni W}
    (h : loopBody ph c ab s = .ok s') : StepSpec ph c ab s s' := by
  unfold loopBody at h
  split at h
  · simp at h
  rename_i u1 hu
  split at h
  · simp at h
  rename_i data hd
  injection h with h
  subst h
  obtain ⟨r, hr, hrd⟩ := saveParams_spec hd
  unfold makeStep integrand at hu
  simp only at hu
  by_cases hden : (ph.terms s.2.w s.2.params).2.2 = 0
  · simp [hden] at hu
  simp only [if_neg hden] at hu
  split at hu
  · simp at hu
  rename_i d hdd
  injection hu with hu
  subst hu
  refine ⟨hden, rfl, rfl, ⟨d, rfl, ?_, ?_⟩, rfl, rfl, rfl, rfl, rfl, rfl, rfl, rfl, ⟨_, rfl, rfl, rfl, rfl⟩,
    ⟨_, rfl, rfl⟩, rfl, ⟨r, hr, hrd⟩, rfl⟩
  · intro hab
    subst hab
    simp only [Bool.false_eq_true, if_false] at hdd
    injection hdd with hdd
    exact hdd.symm
  · intro hab
    subst hab
    simpa using hdd

/-- One iteration succeeds exactly when the denominator of the temperature equation is non-zero. -/
theorem loopBody_ok (ph : Physics W) (c : Consts) (ab : Bool) (s : List Row × Uni W)
    (hden : (ph.terms s.2.w s.2.params).2.2 ≠ 0) : ∃ s', loopBody ph c ab s = .ok s' := by
  unfold loopBody makeStep integrand
  simp only [if_neg hden]
  cases ab
  · simp [saveParams, Params.update]
  · simp only [if_true]
    obtain ⟨v, hv⟩ := adamsBashforth_auto_ok
      (pyLast (s.1.map Row.fraction) maxAB ++
        [if s.2.params.log then
          s.2.params.x * (ph.terms s.2.w s.2.params).2.1 / (ph.terms s.2.w s.2.params).2.2
         else (ph.terms s.2.w s.2.params).2.1 / (ph.terms s.2.w s.2.params).2.2])
      s.2.params.h (by simp)
    simp only [hv]
    simp [saveParams, Params.update]

theorem StepSpec.reg {ph : Physics W} {c : Consts} {ab : Bool} {s s' : List Row × Uni W}
    (h : StepSpec ph c ab s s') (hr : s.2.params.Reg) : s'.2.params.Reg := by
  have hx : 0 < s'.2.params.x := by rw [h.x]; linarith [hr.x, hr.dx]
  have hm : 0 < s'.2.params.m := by rw [h.m]; exact hr.m
  have ha : 0 < s'.2.params.a := by rw [h.a]; positivity
  refine ⟨hm, hx, ?_, ?_, ?_, ?_⟩
  · rw [h.dx]
    split
    · rename_i hl
      have h1 := hr.step hl
      have h2 := hr.dx
      rw [h1] at h2
      have : 0 < s.2.params.dy := by
        by_contra hc
        have := hr.x
        nlinarith
      positivity
    · exact hr.dx
  · intro hl
    rw [h.log] at hl
    rw [h.dx, if_pos hl, h.dy]
  · rw [h.a]; field_simp
  · rw [h.T]; field_simp

theorem runN_invariant {ph : Physics W} {c : Consts} {ab : Bool} (I : ℕ → List Row × Uni W → Prop)
    (s : List Row × Uni W) (h0 : I 0 s)
    (hs : ∀ n a b, I n a → StepSpec ph c ab a b → I (n + 1) b) :
    ∀ n s', runN ph c ab n s = .ok s' → I n s' := by
  intro n
  induction n with
  | zero =>
    intro s' h
    simp only [runN] at h
    injection h with h
    rwa [← h]
  | succ n ih =>
    intro s' h
    simp only [runN] at h
    split at h
    · simp at h
    · rename_i s1 h1
      exact hs n s1 s' (ih s1 h1) (loopBody_spec h)

theorem runN_reg {ph : Physics W} {c : Consts} {ab : Bool} {n : ℕ} {s s' : List Row × Uni W}
    (h : runN ph c ab n s = .ok s') (hr : s.2.params.Reg) : s'.2.params.Reg :=
  runN_invariant (fun _ a => a.2.params.Reg) s hr (fun _ _ _ ha hb => hb.reg ha) n s' h

theorem runN_add (ph : Physics W) (c : Consts) (ab : Bool) (n k : ℕ) (s : List Row × Uni W) :
    runN ph c ab (n + k) s = match runN ph c ab n s with
      | .error e => .error e
      | .ok s' => runN ph c ab k s' := by
  induction k with
  | zero => cases h : runN ph c ab n s <;> simp [runN, h]
  | succ k ih =>
    rw [← add_assoc]
    simp only [runN, ih]
    cases h : runN ph c ab n s <;> simp

theorem runN_succ' (ph : Physics W) (c : Consts) (ab : Bool) (n : ℕ) (s : List Row × Uni W) :
    runN ph c ab (n + 1) s = match loopBody ph c ab s with
      | .error e => .error e
      | .ok s' => runN ph c ab n s' := by
  rw [add_comm, runN_add]
  cases h : loopBody ph c ab s <;> simp [runN, h]

/-- The loop, characterised: it performs exactly the iterations up to the first state at or below the
final temperature. -/
theorem evolveLoop_spec {ph : Physics W} {c : Consts} {ab : Bool} {Tf : ℝ} {fuel : ℕ}
    {s s' : List Row × Uni W} (h : evolveLoop ph c ab Tf fuel s = .ok (some s')) :
    ∃ n ≤ fuel, runN ph c ab n s = .ok s' ∧ s'.2.params.T ≤ Tf ∧
      ∀ k < n, ∃ sk, runN ph c ab k s = .ok sk ∧ Tf < sk.2.params.T := by
  induction fuel generalizing s with
  | zero =>
    unfold evolveLoop at h
    split at h
    · simp at h
    · rename_i hT
      injection h with h; injection h with h; subst h
      exact ⟨0, le_refl _, rfl, not_lt.mp hT, by simp⟩
  | succ n ih =>
    unfold evolveLoop at h
    split at h
    · rename_i hT
      simp only at h
      split at h
      · simp at h
      · rename_i s1 h1
        obtain ⟨k, hk, hrun, hle, hlt⟩ := ih h
        refine ⟨k + 1, by omega, by rw [runN_succ', h1]; exact hrun, hle, ?_⟩
        intro j hj
        match j with
        | 0 => exact ⟨s, rfl, hT⟩
        | j + 1 =>
          obtain ⟨sk, e, l⟩ := hlt j (by omega)
          exact ⟨sk, by rw [runN_succ', h1]; exact e, l⟩
    · rename_i hT
      injection h with h; injection h with h; subst h
      exact ⟨0, Nat.zero_le _, rfl, not_lt.mp hT, by simp⟩

/-- Conversely, such a number of iterations makes the loop return. -/
theorem evolveLoop_of_run {ph : Physics W} {c : Consts} {ab : Bool} {Tf : ℝ} {n : ℕ}
    {s s' : List Row × Uni W} (h : runN ph c ab n s = .ok s') (hle : s'.2.params.T ≤ Tf)
    (hlt : ∀ k < n, ∀ sk, runN ph c ab k s = .ok sk → Tf < sk.2.params.T) :
    ∀ fuel, n ≤ fuel → evolveLoop ph c ab Tf fuel s = .ok (some s') := by
  induction n generalizing s with
  | zero =>
    intro fuel _
    simp only [runN] at h
    injection h with h
    subst h
    unfold evolveLoop
    rw [if_neg (not_lt.mpr hle)]
  | succ n ih =>
    intro fuel hf
    match fuel, hf with
    | fuel + 1, hf =>
      have hT := hlt 0 (by omega) s rfl
      rw [runN_succ'] at h
      split at h
      · simp at h
      · rename_i s1 h1
        unfold evolveLoop
        rw [if_pos hT]
        simp only [h1]
        refine ih h ?_ fuel (by omega)
        intro k hk sk hsk
        exact hlt (k + 1) (by omega) sk (by rw [runN_succ', h1]; exact hsk)

/-- The first phase of `evolve`. -/
theorem evolveStart_spec {ph : Physics W} {c : Consts} {init : Bool} {s s' : List Row × Uni W}
    (h : evolveStart ph c init s = .ok s') (hr : s.2.params.Reg) :
    s'.2.params.Reg ∧ s'.2.w = s.2.w ∧ s'.2.fraction = s.2.fraction ∧
    s'.2.params.aT = s.2.params.aT ∧ s'.2.params.x = s.2.params.x ∧ s'.2.params.dx = s.2.params.dx ∧
    s'.2.params.m = s.2.params.m ∧ s'.2.params.h = s.2.params.h ∧ s'.2.params.dy = s.2.params.dy ∧
    s'.2.params.log = s.2.params.log ∧ s'.2.params.T = s.2.params.T ∧
    s'.2.params.a = s.2.params.a ∧
    s'.2.params.t = (if init then Real.sqrt (3 / (32 * Real.pi * c.G * ph.rho s.2.w s.2.params))
      else s.2.params.t) ∧
    (s.2.params.rho.isSome → s'.2.params.rho = s.2.params.rho) ∧
    ∃ r, s'.2.IsRow r ∧ s'.1 = s.1 ++ [r] := by
  have hm := hr.m
  have hx := hr.x
  have ha : s.2.params.x / s.2.params.m = s.2.params.a := by
    rw [← hr.cons.1]; field_simp
  have ha0 : 0 < s.2.params.a := by rw [← ha]; positivity
  have hT : s.2.params.aT / s.2.params.a = s.2.params.T := by
    rw [← hr.cons.2]; field_simp
  have hdx : (if s.2.params.log then s.2.params.x * s.2.params.dy else s.2.params.dx) =
      s.2.params.dx := by
    split
    · rename_i hl; exact (hr.step hl).symm
    · rfl
  unfold evolveStart at h
  simp only at h
  split at h
  · simp at h
  rename_i data hd
  injection h with h
  subst h
  obtain ⟨r, hrow, hdata⟩ := saveParams_spec hd
  cases init
  · simp only [Bool.false_eq_true, if_false] at hd hrow ⊢
    cases hrho : s.2.params.rho with
    | some v =>
      simp only [hrho] at hrow ⊢
      refine ⟨hr, ?_, ?_, ?_, ?_, ?_, ?_, ?_, ?_, ?_, ?_, ?_, ?_, ?_,
        r, hrow, hdata⟩ <;> first | rfl | trivial | simp
    | none =>
      simp only [hrho] at hrow ⊢
      have e1 : ∀ r S, (s.2.params.update c r S).Reg := by
        intro r S
        refine ⟨hm, hx, ?_, ?_, ?_, ?_⟩
        · show 0 < ite _ _ _; rw [hdx]; exact hr.dx
        · intro hl; show ite _ _ _ = _; rw [if_pos (show s.2.params.log = true from hl)]; rfl
        · show s.2.params.x / s.2.params.m * s.2.params.m = s.2.params.x; field_simp
        · show s.2.params.aT / (s.2.params.x / s.2.params.m) * (s.2.params.x / s.2.params.m) = _
          rw [ha, hT]; exact hr.cons.2
      refine ⟨e1 _ _, trivial, trivial, rfl, rfl, hdx, rfl, rfl, rfl, rfl, ?_, ha, ?_, by simp, r, hrow, hdata⟩
      · show s.2.params.aT / (s.2.params.x / s.2.params.m) = _; rw [ha, hT]
      · show s.2.params.t + (1 - s.2.params.a / (s.2.params.x / s.2.params.m)) / _ = _
        rw [ha, div_self ha0.ne']; simp
  · simp only [if_true] at hd hrow ⊢
    have hir : ∀ v, (s.2.params.initTime c v).Reg := fun v => ⟨hm, hx, hr.dx, hr.step, hr.cons⟩
    cases hrho : s.2.params.rho with
    | some v =>
      have : ∀ v', (s.2.params.initTime c v').rho = some v := fun _ => hrho
      simp only [this] at hrow ⊢
      refine ⟨hir _, ?_, ?_, ?_, ?_, ?_, ?_, ?_, ?_, ?_, ?_, ?_, ?_, ?_,
        r, hrow, hdata⟩ <;> first | rfl | trivial | simp
    | none =>
      have : ∀ v', (s.2.params.initTime c v').rho = none := fun _ => hrho
      simp only [this] at hrow ⊢
      have e1 : ∀ v r S, ((s.2.params.initTime c v).update c r S).Reg := by
        intro v r S
        refine ⟨hm, hx, ?_, ?_, ?_, ?_⟩
        · show 0 < ite _ _ _
          exact lt_of_lt_of_eq hr.dx hdx.symm
        · intro hl; show ite (s.2.params.log = true) _ _ = _; rw [if_pos (show s.2.params.log = true from hl)]; rfl
        · show s.2.params.x / s.2.params.m * s.2.params.m = s.2.params.x; field_simp
        · show s.2.params.aT / (s.2.params.x / s.2.params.m) * (s.2.params.x / s.2.params.m) = _
          rw [ha, hT]; exact hr.cons.2
      refine ⟨e1 _ _ _, trivial, trivial, rfl, rfl, hdx, rfl, rfl, rfl, rfl, ?_, ha, ?_, by simp, r, hrow, hdata⟩
      · show s.2.params.aT / (s.2.params.x / s.2.params.m) = _; rw [ha, hT]
      · show (s.2.params.initTime c _).t + (1 - s.2.params.a / (s.2.params.x / s.2.params.m)) / _ = _
        rw [ha, div_self ha0.ne']; simp [Params.initTime]

theorem evolveStart_step {ph : Physics W} {c : Consts} {init : Bool} {s s' : List Row × Uni W}
    (h : evolveStart ph c init s = .ok s') : s'.2.step = s.2.step := by
  unfold evolveStart at h
  simp only at h
  split at h
  · simp at h
  injection h with h
  subst h
  cases init
  · simp only [Bool.false_eq_true, if_false]
    cases hrho : s.2.params.rho <;> simp [hrho]
  · simp only [if_true]
    cases hrho : s.2.params.rho <;> simp [hrho, Params.initTime]

/-- The first phase only fails when a density was supplied but no entropy is known. -/
theorem evolveStart_ok (ph : Physics W) (c : Consts) (init : Bool) (s : List Row × Uni W)
    (hS : s.2.params.rho.isSome → s.2.params.S.isSome) : ∃ s', evolveStart ph c init s = .ok s' := by
  unfold evolveStart
  cases init <;> cases hrho : s.2.params.rho <;> cases hSS : s.2.params.S <;>
    simp_all [saveParams, Params.update, Params.initTime]

/-- A freshly created parameter object with positive temperature, normalisation and step is regular. -/
theorem Params.new_reg {c : Consts} {log : Bool} {kw : ParamsKw} {p : Params}
    (h : Params.new c log kw = .ok p) (hm : 0 < p.m) (hT : 0 < p.T) (hh : 0 < p.h) : p.Reg := by
  obtain ⟨hc, haT, _, _, _, _, hl, hl'⟩ := C22_creation c log kw p h
  have hlog : p.log = log := by
    unfold Params.new at h
    split at h
    · simp at h
    split at h
    · simp at h
    simp only at h
    split at h
    · simp at h
    split at h
    · simp at h
    injection h with h
    rw [← h]
  have ha : 0 < p.a := by
    have := hc.2
    rw [haT] at this
    by_contra hn
    nlinarith [not_lt.mp hn]
  have hx : 0 < p.x := by rw [← hc.1]; positivity
  refine ⟨hm, hx, ?_, ?_, hc⟩
  · cases log
    · obtain ⟨d, _, _, e1, e2⟩ := hl' rfl
      rw [e2, ← e1]; exact hh
    · obtain ⟨d, _, _, e1, _, e2⟩ := hl rfl
      rw [e2, ← e1]; positivity
  · intro hlt
    rw [hlog] at hlt
    obtain ⟨d, _, _, e1, e3, e2⟩ := hl hlt
    rw [e2, e3]

end PyBBN
