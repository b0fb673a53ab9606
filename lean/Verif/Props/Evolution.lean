import Verif.Lemmas.Evolution
/-!
# C23–C26: the evolution loop
-/
namespace PyBBN

variable {W : Type*}

theorem runN_prefix {ph : Physics W} {c : Consts} {ab : Bool} {n k : ℕ} {s s' : List Row × Uni W}
    (h : runN ph c ab n s = .ok s') (hk : k ≤ n) : ∃ sk, runN ph c ab k s = .ok sk := by
  obtain ⟨j, rfl⟩ := Nat.exists_eq_add_of_le hk
  rw [runN_add] at h
  split at h
  · simp at h
  · rename_i sk hsk; exact ⟨sk, hsk⟩

/-- Every successful `evolve` call is a trace of states, one recorded row per state. -/
theorem evolve_trace {ph : Physics W} {c : Consts} {ab init : Bool} {Tf : ℝ} {fuel : ℕ}
    {data d' : List Row} {u u' : Uni W} (hr : u.params.Reg)
    (h : evolve ph c ab Tf init fuel (data, u) = .ok (some (d', u'))) :
    ∃ (n : ℕ) (st : ℕ → List Row × Uni W) (rows : List Row),
      n ≤ fuel ∧ rows.length = n + 1 ∧ d' = data ++ rows ∧ st n = (d', u') ∧
      evolveStart ph c init (data, u) = .ok (st 0) ∧
      (∀ i, i < n → StepSpec ph c ab (st i) (st (i + 1))) ∧
      (∀ i, i ≤ n → (st i).2.params.Reg) ∧
      (∀ (i : ℕ) (r : Row), rows[i]? = some r → i ≤ n ∧ (st i).2.IsRow r) ∧
      (∀ i, i < n → Tf < (st i).2.params.T) ∧ u'.params.T ≤ Tf ∧ 0 < u'.params.T := by
  unfold evolve at h
  split at h
  · simp at h
  rename_i s0 h0
  split at h
  · simp at h
  · simp at h
  rename_i s1 h1
  split at h
  swap
  · simp at h
  rename_i hT
  injection h with h; injection h with h
  subst h
  obtain ⟨n, hn, hrun, hle, hlt⟩ := evolveLoop_spec h1
  obtain ⟨hr0, -, -, -, -, -, -, -, -, -, -, -, -, -, r0, hrow0, hd0⟩ := evolveStart_spec h0 hr
  haveI : Nonempty (List Row × Uni W) := ⟨s0⟩
  choose! st hst using fun k (hk : k ≤ n) => runN_prefix hrun hk
  have hst0 : st 0 = s0 := by
    have := hst 0 (Nat.zero_le _); simp only [runN] at this; injection this with this; exact this.symm
  have hstn : st n = (d', u') := by
    have := hst n (le_refl _); rw [hrun] at this; injection this with this; exact this.symm
  have hstep : ∀ i, i < n → StepSpec ph c ab (st i) (st (i + 1)) := by
    intro i hi
    have h2 := hst (i + 1) hi
    simp only [runN, hst i (by omega)] at h2
    exact loopBody_spec h2
  have hrows : ∀ k, k ≤ n → ∃ rows : List Row, rows.length = k + 1 ∧ (st k).1 = data ++ rows ∧
      ∀ i r, rows[i]? = some r → i ≤ k ∧ (st i).2.IsRow r := by
    intro k
    induction k with
    | zero =>
      intro _
      refine ⟨[r0], rfl, by rw [hst0]; exact hd0, ?_⟩
      intro i r hi
      match i with
      | 0 =>
        simp only [List.getElem?_cons_zero, Option.some.injEq] at hi
        subst hi
        exact ⟨le_refl _, by rw [hst0]; exact hrow0⟩
      | i + 1 => simp at hi
    | succ k ih =>
      intro hk
      obtain ⟨rows, hl, hd, hi⟩ := ih (by omega)
      obtain ⟨r, hr, hdr⟩ := (hstep k hk).row
      refine ⟨rows ++ [r], by simp [hl], by rw [hdr, hd, List.append_assoc], ?_⟩
      intro i q hq
      rcases Nat.lt_or_ge i rows.length with hlt | hge
      · rw [List.getElem?_append_left hlt] at hq
        obtain ⟨a, b⟩ := hi i q hq
        exact ⟨by omega, b⟩
      · rw [List.getElem?_append_right hge] at hq
        obtain ⟨hb, he⟩ := List.getElem?_eq_some_iff.mp hq
        simp only [List.length_singleton] at hb
        have : i = k + 1 := by omega
        subst this
        simp only [hl, Nat.sub_self, List.getElem_cons_zero] at he
        subst he
        exact ⟨le_refl _, hr⟩
  obtain ⟨rows, hl, hd, hi⟩ := hrows n (le_refl _)
  refine ⟨n, st, rows, hn, hl, by rw [← hd, hstn], hstn, by rw [hst0]; exact h0, hstep, ?_, hi, ?_, hle,
    hT⟩
  · intro i hi
    exact runN_reg (hst i hi) hr0
  · intro i hi
    obtain ⟨sk, e, l⟩ := hlt i hi
    rw [hst i (by omega)] at e
    injection e with e
    rwa [e]

/-! ## C23 -/

/-- **C23.** Logarithmic stepping: the `i`-th recorded row of a run has `x = x₀ (1+dy)^i` and
`a = a₀ (1+dy)^i`; linear stepping: `x = x₀ + i dx`. -/
theorem C23_stepping {ph : Physics W} {c : Consts} {ab init : Bool} {Tf : ℝ} {fuel : ℕ}
    {data d' : List Row} {u u' : Uni W} (hr : u.params.Reg)
    (h : evolve ph c ab Tf init fuel (data, u) = .ok (some (d', u'))) :
    ∃ rows, d' = data ++ rows ∧ ∀ (i : ℕ) (r : Row), rows[i]? = some r →
      r.a * u.params.m = r.x ∧
      (u.params.log = true → r.x = u.params.x * (1 + u.params.dy) ^ i ∧
        r.a = u.params.a * (1 + u.params.dy) ^ i) ∧
      (u.params.log = false → r.x = u.params.x + i * u.params.dx) := by
  obtain ⟨n, st, rows, hn, hl, hd, hlast, hstart, hstep, hreg, hrows, hT, _⟩ := evolve_trace hr h
  obtain ⟨-, -, -, -, ex, edx, em, -, edy, elog, -⟩ := evolveStart_spec hstart hr
  have inv : ∀ i, i ≤ n → (st i).2.params.m = u.params.m ∧ (st i).2.params.log = u.params.log ∧
      (st i).2.params.dy = u.params.dy ∧
      (u.params.log = true → (st i).2.params.x = u.params.x * (1 + u.params.dy) ^ i) ∧
      (u.params.log = false → (st i).2.params.x = u.params.x + i * u.params.dx ∧
        (st i).2.params.dx = u.params.dx) := by
    intro i
    induction i with
    | zero => intro _; exact ⟨em, elog, edy, fun _ => by rw [ex]; simp, fun _ => ⟨by rw [ex]; simp, edx⟩⟩
    | succ i ih =>
      intro hi
      obtain ⟨a, b, d, e, f⟩ := ih (by omega)
      have s := hstep i hi
      refine ⟨by rw [s.m, a], by rw [s.log, b], by rw [s.dy, d], ?_, ?_⟩
      · intro hl
        have hs := (hreg i (by omega)).step (by rw [b]; exact hl)
        rw [s.x, hs, d, e hl]; ring
      · intro hl
        obtain ⟨f1, f2⟩ := f hl
        refine ⟨by rw [s.x, f1, f2]; push_cast; ring, ?_⟩
        rw [s.dx, b, hl]; simpa using f2
  refine ⟨rows, hd, ?_⟩
  intro i r hir
  obtain ⟨hi, hrow⟩ := hrows i r hir
  obtain ⟨a, b, d, e, f⟩ := inv i hi
  have hc := (hreg i hi).cons.1
  obtain ⟨-, -, ra, rx, -⟩ := hrow
  have hax : r.a * u.params.m = r.x := by rw [ra, rx, ← a]; exact hc
  refine ⟨hax, ?_, ?_⟩
  · intro hl
    have hx := e hl
    refine ⟨by rw [rx]; exact hx, ?_⟩
    have h1 := hr.cons.1
    have hm := hr.m
    rw [rx, hx, ← h1] at hax
    have : r.a * u.params.m = u.params.a * (1 + u.params.dy) ^ i * u.params.m := by
      rw [hax]; ring
    exact mul_right_cancel₀ hm.ne' this
  · intro hl; rw [rx]; exact (f hl).1

/-! ## C24 -/

/-- **C24.** Within one `evolve` call: consecutive rows have strictly increasing scale factor and, where
the recorded density is positive, strictly increasing time, the increment being the implicit Friedmann
step `Δt · H = 1 - a_old / a_new`; the first time is the radiation-era age or the previous clock. -/
theorem C24_time_increases {ph : Physics W} {c : Consts} {ab init : Bool} {Tf : ℝ} {fuel : ℕ}
    {data d' : List Row} {u u' : Uni W} (hr : u.params.Reg) (hMp : 0 < c.Mp)
    (h : evolve ph c ab Tf init fuel (data, u) = .ok (some (d', u'))) :
    ∃ rows, d' = data ++ rows ∧
      (∃ r, rows[0]? = some r ∧ r.t = if init then
        Real.sqrt (3 / (32 * Real.pi * c.G * ph.rho u.w u.params)) else u.params.t) ∧
      ∀ (i : ℕ) (r r' : Row), rows[i]? = some r → rows[i + 1]? = some r' → 0 < r'.rho →
        r.a < r'.a ∧ r.t < r'.t ∧
        (r'.t - r.t) * Real.sqrt (8 * Real.pi / 3 * c.G * r'.rho) = 1 - r.a / r'.a := by
  obtain ⟨n, st, rows, hn, hl, hd, hlast, hstart, hstep, hreg, hrows, hT, _⟩ := evolve_trace hr h
  obtain ⟨-, -, -, -, -, -, -, -, -, -, -, -, et, -⟩ := evolveStart_spec hstart hr
  refine ⟨rows, hd, ?_, ?_⟩
  · have h0 : rows[0]? = some (rows[0]'(by omega)) := List.getElem?_eq_getElem _
    refine ⟨_, h0, ?_⟩
    obtain ⟨_, -, -, -, -, rt, -⟩ := hrows 0 _ h0
    rw [rt]; exact et
  · intro i r r' hi hi' hrho
    obtain ⟨_, -, -, ra, -, rt, -, -⟩ := hrows i r hi
    obtain ⟨hin, -, -, ra', -, rt', rrho, -⟩ := hrows (i + 1) r' hi'
    have s := hstep i (by omega)
    have hreg0 := hreg i (by omega)
    have hreg1 := hreg (i + 1) (by omega)
    have ha0 : 0 < r.a := by
      have := hreg0.cons.1
      rw [ra]; by_contra hn
      nlinarith [hreg0.x, hreg0.m, not_lt.mp hn]
    have hlt : r.a < r'.a := by
      have h1 := hreg0.cons.1
      have h2 := hreg1.cons.1
      have h3 := s.x
      have h4 := hreg0.dx
      have h5 := hreg0.m
      rw [s.m] at h2
      rw [ra, ra']
      by_contra hn
      nlinarith [not_lt.mp hn]
    obtain ⟨q, hq, -, hH, ht⟩ := s.rho
    rw [rrho] at hq
    injection hq with hq
    subst hq
    have hG : Real.sqrt (8 * Real.pi / 3 * c.G * r'.rho) = (st (i + 1)).2.params.H := by
      rw [hH]
      have e : 8 * Real.pi / 3 * c.G * r'.rho = 8 / 3 * Real.pi * r'.rho / c.Mp ^ 2 := by
        rw [Consts.G]; ring
      rw [e, Real.sqrt_div' _ (sq_nonneg _), Real.sqrt_sq hMp.le]
    have hpos : 0 < (st (i + 1)).2.params.H := by
      rw [hH]
      have := Real.sqrt_pos.mpr (by have := Real.pi_pos; positivity : 0 < 8 / 3 * Real.pi * r'.rho)
      positivity
    have hdt : r'.t - r.t = (1 - r.a / r'.a) / (st (i + 1)).2.params.H := by
      rw [rt', rt, ht, ra, ra']; ring
    have hfrac : 0 < 1 - r.a / r'.a := by
      rw [sub_pos, div_lt_one (by linarith)]; exact hlt
    refine ⟨hlt, ?_, ?_⟩
    · have : 0 < r'.t - r.t := by rw [hdt]; positivity
      linarith
    · rw [hG, hdt]; field_simp

/-- **C24 (failure across runs).** With a constant positive density, a second `evolve` call with the
default arguments after a run of at least one step records a time earlier than the last recorded one. -/
theorem C24_second_run_goes_back {ph : Physics W} {c : Consts} {ab : Bool} {Tf Tf' ρ : ℝ}
    {fuel fuel' : ℕ} {d' d'' : List Row} {u u' u'' : Uni W} (hr : u.params.Reg) (hMp : 0 < c.Mp)
    (hρ : 0 < ρ) (hconst : ∀ w p, ph.rho w p = ρ)
    (h : evolve ph c ab Tf true fuel ([], u) = .ok (some (d', u'))) (hsteps : 2 ≤ d'.length)
    (h2 : evolve ph c ab Tf' true fuel' (d', u') = .ok (some (d'', u''))) :
    ∃ r r', d''[d'.length - 1]? = some r ∧ d''[d'.length]? = some r' ∧ r'.t < r.t := by
  obtain ⟨rows, hd, ⟨r0, h0, ht0⟩, hinc⟩ := C24_time_increases hr hMp h
  obtain ⟨n, st, rows1, hn, hl, hd1, hlast, hstart, hstep, hreg, hrows, hT, _⟩ := evolve_trace hr h
  have hr' : u'.params.Reg := by have := hreg n le_rfl; rwa [hlast] at this
  obtain ⟨rows2, hd2, ⟨r2, h2, ht2⟩, _⟩ := C24_time_increases hr' hMp h2
  simp only [List.nil_append] at hd hd1
  subst hd
  subst hd1
  simp only [if_true, hconst] at ht0 ht2
  have hrho : ∀ (i : ℕ) (r : Row), d'[i + 1]? = some r → 0 < r.rho := by
    intro i r hi
    obtain ⟨hin, -, -, -, -, -, rrho, -⟩ := hrows (i + 1) r hi
    obtain ⟨q, hq, hq2, -⟩ := (hstep i (by omega)).rho
    rw [rrho] at hq
    injection hq with hq
    rw [hq, hq2, hconst]; exact hρ
  have hmono : ∀ (i : ℕ) (r : Row), d'[i + 1]? = some r → r0.t < r.t := by
    intro i
    induction i with
    | zero => intro r hi; exact (hinc 0 r0 r h0 hi (hrho 0 r hi)).2.1
    | succ i ih =>
      intro r hi
      have hb : i + 1 < d'.length := by
        have := (List.getElem?_eq_some_iff.mp hi).1; omega
      have hg : d'[i + 1]? = some d'[i + 1] := List.getElem?_eq_getElem hb
      exact lt_trans (ih _ hg) (hinc (i + 1) _ r hg hi (hrho _ r hi)).2.1
  have hlast' : d'[d'.length - 1]? = some (d'[d'.length - 1]'(by omega)) :=
    List.getElem?_eq_getElem _
  refine ⟨d'[d'.length - 1]'(by omega), r2, ?_, ?_, ?_⟩
  · rw [hd2, List.getElem?_append_left (by omega)]; exact hlast'
  · rw [hd2, List.getElem?_append_right le_rfl, Nat.sub_self]; exact h2
  · have e : d'.length - 1 = (d'.length - 2) + 1 := by omega
    have := hmono (d'.length - 2) (d'[d'.length - 1]'(by omega)) (by rw [← e]; exact hlast')
    rw [ht2, ← ht0]; exact this

/-! ## C25 -/

/-- **C25 (result).** Whenever `evolve` returns: the final temperature is positive and at most the
requested one, the call has added `steps + 1` rows, and all of them except the last are above it. -/
theorem C25_result {ph : Physics W} {c : Consts} {ab init : Bool} {Tf : ℝ} {fuel : ℕ}
    {data d' : List Row} {u u' : Uni W} (hr : u.params.Reg)
    (h : evolve ph c ab Tf init fuel (data, u) = .ok (some (d', u'))) :
    0 < u'.params.T ∧ u'.params.T ≤ Tf ∧ ∃ rows, d' = data ++ rows ∧
      u'.step + 1 = u.step + rows.length ∧
      (∀ (i : ℕ) (r : Row), rows[i]? = some r → i + 1 < rows.length → Tf < r.T) ∧
      (∃ r, rows.getLast? = some r ∧ r.T = u'.params.T ∧ r.T ≤ Tf) := by
  obtain ⟨n, st, rows, hn, hl, hd, hlast, hstart, hstep, hreg, hrows, hT, hle, hpos⟩ :=
    evolve_trace hr h
  refine ⟨hpos, hle, rows, hd, ?_, ?_, ?_⟩
  · have h0 : (st 0).2.step = u.step := evolveStart_step hstart
    have : ∀ i, i ≤ n → (st i).2.step = u.step + i := by
      intro i
      induction i with
      | zero => intro _; exact h0
      | succ i ih => intro hi; rw [(hstep i hi).step, ih (by omega)]; omega
    have := this n le_rfl
    rw [hlast] at this
    simp only at this
    rw [this, hl]; omega
  · intro i r hi hlt
    obtain ⟨_, -, rT, -⟩ := hrows i r hi
    rw [rT]; exact hT i (by omega)
  · have hg : rows.getLast? = some (rows[rows.length - 1]'(by omega)) := by
      rw [List.getLast?_eq_getElem?]; exact List.getElem?_eq_getElem _
    have hg' : rows[n]? = some (rows[rows.length - 1]'(by omega)) := by
      rw [List.getElem?_eq_getElem (by omega)]; congr 1; congr 1; omega
    obtain ⟨_, -, rT, -⟩ := hrows n _ hg'
    rw [hlast] at rT
    exact ⟨_, hg, rT, by rw [rT]; exact hle⟩

/-- **C25 (termination).** If the conformal temperature stays below `K` along the run, the denominators
do not vanish and the final temperature is positive, then `evolve` ends — after at most `N` steps, for
any `N` with `K m ≤ T_final (x₀ + N dx₀)` — either normally or, if the last temperature is not positive,
by `sys.exit`. -/
theorem C25_terminates {ph : Physics W} {c : Consts} {ab init : Bool} {Tf K : ℝ} {N : ℕ}
    {data : List Row} {u : Uni W} (hr : u.params.Reg)
    (hTf : 0 < Tf)
    (hS : u.params.rho.isSome → u.params.S.isSome)
    (hK : ∀ s0, evolveStart ph c init (data, u) = .ok s0 → ∀ n s', runN ph c ab n s0 = .ok s' →
      s'.2.params.aT ≤ K ∧ (ph.terms s'.2.w s'.2.params).2.2 ≠ 0)
    (hN : K * u.params.m ≤ Tf * (u.params.x + N * u.params.dx)) :
    (∃ r, ∀ fuel, N ≤ fuel → evolve ph c ab Tf init fuel (data, u) = .ok (some r)) ∨
    (∀ fuel, N ≤ fuel → evolve ph c ab Tf init fuel (data, u) = .error .systemExit) := by
  obtain ⟨s0, h0⟩ := evolveStart_ok ph c init (data, u) hS
  obtain ⟨hr0, -, -, eaT, ex, edx, em, -⟩ := evolveStart_spec h0 hr
  have hrun : ∀ n, ∃ s', runN ph c ab n s0 = .ok s' := by
    intro n
    induction n with
    | zero => exact ⟨s0, rfl⟩
    | succ n ih =>
      obtain ⟨s', h'⟩ := ih
      obtain ⟨s'', h''⟩ := loopBody_ok ph c ab s' (hK s0 h0 n s' h').2
      exact ⟨s'', by simp only [runN, h']; exact h''⟩
  have hgrow : ∀ n s', runN ph c ab n s0 = .ok s' →
      s'.2.params.m = u.params.m ∧ u.params.dx ≤ s'.2.params.dx ∧ s'.2.params.Reg ∧
      u.params.x + n * u.params.dx ≤ s'.2.params.x := by
    intro n s' hs
    refine runN_invariant (ph := ph) (c := c) (ab := ab)
      (fun n a => a.2.params.m = u.params.m ∧ u.params.dx ≤ a.2.params.dx ∧ a.2.params.Reg ∧
        u.params.x + n * u.params.dx ≤ a.2.params.x) s0 ?_ ?_ n s' hs
    · exact ⟨em, edx.ge, hr0, by rw [ex]; simp⟩
    · rintro n a b ⟨i1, i2, i3, i4⟩ st
      refine ⟨by rw [st.m, i1], ?_, st.reg i3, ?_⟩
      · rw [st.dx]
        split
        · rename_i hl
          have := i3.step hl
          rw [st.x]
          have h2 := i3.dx
          have h3 := i3.x
          have hdy : 0 ≤ a.2.params.dy := by
            by_contra hn
            nlinarith [not_le.mp hn]
          nlinarith
        · exact i2
      · rw [st.x]; push_cast; linarith
  have hex : ∃ n, n ≤ N ∧ ∃ s', runN ph c ab n s0 = .ok s' ∧ s'.2.params.T ≤ Tf := by
    obtain ⟨s', h'⟩ := hrun N
    obtain ⟨g1, g2, g3, g4⟩ := hgrow N s' h'
    refine ⟨N, le_rfl, s', h', ?_⟩
    have hk := (hK s0 h0 N s' h').1
    have c1 := g3.cons.1
    have c2 := g3.cons.2
    have hx := g3.x
    have hm := g3.m
    have ha : 0 < s'.2.params.a := by
      by_contra hn
      nlinarith [not_lt.mp hn]
    have hTx : s'.2.params.T * s'.2.params.x = s'.2.params.aT * s'.2.params.m := by
      rw [← c1, ← c2]; ring
    have : s'.2.params.T * s'.2.params.x ≤ Tf * s'.2.params.x := by
      rw [hTx]
      calc s'.2.params.aT * s'.2.params.m ≤ K * s'.2.params.m :=
            mul_le_mul_of_nonneg_right hk hm.le
        _ = K * u.params.m := by rw [g1]
        _ ≤ Tf * (u.params.x + N * u.params.dx) := hN
        _ ≤ Tf * s'.2.params.x := mul_le_mul_of_nonneg_left g4 hTf.le
    exact le_of_mul_le_mul_right this hx
  classical
  have hmin := Nat.find_spec hex
  have hminl := fun {k} => Nat.find_min hex (m := k)
  set n := Nat.find hex
  obtain ⟨hnN, s', hs', hle⟩ := hmin
  have hloop := evolveLoop_of_run hs' hle (by
    intro k hk sk hsk
    by_contra hc
    exact hminl hk ⟨by omega, sk, hsk, not_lt.mp hc⟩)
  by_cases hT : 0 < s'.2.params.T
  · left
    refine ⟨s', fun fuel hf => ?_⟩
    unfold evolve
    simp only [h0, hloop fuel (by omega)]
    rw [if_pos hT]
  · right
    intro fuel hf
    unfold evolve
    simp only [h0, hloop fuel (by omega)]
    rw [if_neg hT]

/-- A bound `N` as in `C25_terminates` always exists. -/
theorem C25_bound_exists {Tf K m x dx : ℝ} (hTf : 0 < Tf) (hdx : 0 < dx) :
    ∃ N : ℕ, K * m ≤ Tf * (x + N * dx) := by
  obtain ⟨N, hN⟩ := exists_nat_ge ((K * m - Tf * x) / (Tf * dx))
  rw [div_le_iff₀ (by positivity)] at hN
  exact ⟨N, by linarith⟩

/-! A concrete universe: radiation with constant conformal temperature and unit density. -/

/-- Physics of a universe in which nothing heats: `N = 0`, `D = 1`, density and entropy 1. -/
noncomputable def stillPhysics : Physics Unit := ⟨fun w _ => (w, 0, 1), fun _ _ => 1, fun _ _ => 1⟩

/-- `Params(T=10, dy=0.05)` in units with `MeV = 1`. -/
noncomputable def demoParams : Params :=
  { log := true, m := 1, T := 10, a := 1 / 10, aIni := 1 / 10, x := 1 / 10, y := none, aT := 1, t := 0,
    H := 0, rho := none, S := none, Neff := 0, dy := 0.05, dx := 1 / 10 * 0.05, h := 0.05 }

theorem demoParams_reg : demoParams.Reg := by
  constructor <;> simp [demoParams, Params.Consistent] <;> norm_num

theorem still_aT {c : Consts} {ab init : Bool} {data : List Row} {u : Uni Unit} (hr : u.params.Reg)
    (hz : ∀ r ∈ data, r.fraction = 0) (hf : u.fraction = 0) {s0 : List Row × Uni Unit}
    (h0 : evolveStart stillPhysics c init (data, u) = .ok s0) (n : ℕ) (s' : List Row × Uni Unit)
    (h : runN stillPhysics c ab n s0 = .ok s') : s'.2.params.aT = u.params.aT := by
  obtain ⟨hr0, -, ef, eaT, ex, edx, em, -, -, -, -, -, -, -, r, hrow, hd⟩ := evolveStart_spec h0 hr
  refine (runN_invariant (fun _ a => a.2.params.aT = u.params.aT ∧ ∀ r ∈ a.1, r.fraction = 0) s0
    ⟨eaT, ?_⟩ ?_ n s' h).1
  · intro q hq
    rw [hd] at hq
    rcases List.mem_append.mp hq with hq | hq
    · exact hz q hq
    · rw [List.mem_singleton] at hq
      subst hq
      obtain ⟨-, -, -, -, -, -, -, rf, -⟩ := hrow
      rw [rf, ef]; exact hf
  · rintro n a b ⟨i1, i2⟩ st
    have hfr : b.2.fraction = 0 := by rw [st.frac]; simp [stillPhysics]
    refine ⟨?_, ?_⟩
    · obtain ⟨d, hd, he, hab⟩ := st.aT
      rw [hd, i1]
      have : d = 0 := by
        cases ab
        · rw [he rfl, hfr]; simp
        · have := hab rfl
          unfold adamsBashforth at this
          simp only at this
          split at this
          · simp at this
          · split at this
            · injection this with this
              rw [← this]
              have hz0 : ∀ bs : List ℝ, ∀ fs : List ℝ, (∀ f ∈ fs, f = 0) → dotZip bs fs = 0 := by
                intro bs
                induction bs with
                | nil => intro fs _; simp [dotZip]
                | cons b bs ih =>
                  intro fs hfs
                  cases fs with
                  | nil => simp [dotZip]
                  | cons f fs =>
                    have := ih fs (fun g hg => hfs g (List.mem_cons_of_mem _ hg))
                    unfold dotZip at this ⊢
                    simp [this, hfs f (by simp)]
              rw [hz0]
              · simp
              · intro f hf
                have hsub : ∀ (l : List ℝ) (k : ℕ), ∀ z ∈ pyLast l k, z ∈ l := by
                  intro l k z hz
                  unfold pyLast at hz
                  split at hz
                  · exact hz
                  · exact List.mem_of_mem_drop hz
                have := hsub _ _ f hf
                rcases List.mem_append.mp this with h1 | h1
                · have := hsub _ _ f h1
                  obtain ⟨q, hq, rfl⟩ := List.mem_map.mp this
                  exact i2 q hq
                · rw [List.mem_singleton] at h1; rw [h1, hfr]
            · simp at this
      rw [this, add_zero]
    · obtain ⟨r, hr, hd⟩ := st.row
      intro q hq
      rw [hd] at hq
      rcases List.mem_append.mp hq with hq | hq
      · exact i2 q hq
      · rw [List.mem_singleton] at hq
        subst hq
        obtain ⟨-, -, -, -, -, -, -, rf, -⟩ := hr
        rw [rf, hfr]

/-- The demo universe, evolved to `T = 1`, terminates within 1800 steps (hypotheses of C25). -/
example : (∃ r, ∀ fuel, 1800 ≤ fuel →
      evolve stillPhysics ⟨1, 1⟩ true 1 true fuel ([], Uni.new () demoParams) = .ok (some r)) ∨
    (∀ fuel, 1800 ≤ fuel →
      evolve stillPhysics ⟨1, 1⟩ true 1 true fuel ([], Uni.new () demoParams) =
        .error .systemExit) := by
  refine C25_terminates (K := 1) demoParams_reg one_pos (by simp [Uni.new, demoParams]) ?_ ?_
  · intro s0 h0 n s' h
    have := still_aT (u := Uni.new () demoParams) demoParams_reg (by simp) rfl h0 n s' h
    refine ⟨?_, by simp [stillPhysics]⟩
    rw [this]; simp [Uni.new, demoParams]
  · simp [Uni.new, demoParams]; norm_num

/-! ## C26 -/

theorem pyLast_four (pre : List ℝ) (c : ℝ) :
    ∃ pre', pyLast (pre ++ [c, c, c, c]) maxAB = pre' ++ [c, c, c, c] := by
  refine ⟨pre.drop (pre.length - 1), ?_⟩
  unfold pyLast maxAB
  simp only [List.length_append, List.length_cons, List.length_nil]
  rw [if_neg (by norm_num), List.drop_append]
  have e1 : pre.length + (0 + 1 + 1 + 1 + 1) - 5 = pre.length - 1 := by omega
  have e2 : pre.length - 1 - pre.length = 0 := by omega
  rw [e1, e2]; rfl

theorem ab_five (pre : List ℝ) (c h : ℝ) :
    adamsBashforth (pre ++ [c, c, c, c, c]) h none = .ok (h * c) := by
  have e : min maxAB (pre ++ [c, c, c, c, c]).length = 5 := by
    unfold maxAB; simp
  have e2 : pyLast (pre ++ [c, c, c, c, c]) 5 = [c, c, c, c, c] :=
    pyLast_append pre _ 5 (by norm_num) rfl
  unfold adamsBashforth
  simp only [e, abCoefficients, e2]
  simp [dotZip]
  ring

/-- A physics with constant slope `q` of the temperature equation. -/
def ConstSlope (ph : Physics W) (q : ℝ) : Prop :=
  ∀ w (p : Params), p.Reg → (ph.terms w p).2.2 ≠ 0 ∧
    (if p.log then p.x * (ph.terms w p).2.1 / (ph.terms w p).2.2
      else (ph.terms w p).2.1 / (ph.terms w p).2.2) = q

/-- **C26 (plain Euler mode).** With a constant slope `q`, `n` steps add exactly `n h q`. -/
theorem C26_euler {ph : Physics W} {q : ℝ} (hq : ConstSlope ph q) {c : Consts} {n : ℕ}
    {s s' : List Row × Uni W} (hr : s.2.params.Reg) (h : runN ph c false n s = .ok s') :
    s'.2.params.aT = s.2.params.aT + n * s.2.params.h * q := by
  refine (runN_invariant (fun n a => a.2.params.aT = s.2.params.aT + n * s.2.params.h * q ∧
    a.2.params.h = s.2.params.h ∧ a.2.params.Reg) s ⟨by simp, rfl, hr⟩ ?_ n s' h).1
  rintro n a b ⟨i1, i2, ireg⟩ st
  obtain ⟨d, hd, he, _⟩ := st.aT
  refine ⟨?_, by rw [st.h, i2], st.reg ireg⟩
  rw [hd, he rfl, i1, i2, st.frac, (hq _ _ ireg).2]
  push_cast; ring

/-- **C26 (Adams–Bashforth mode, partial).** Once the last four recorded slopes are genuine, every
further step adds exactly `h q`. Missing: the first steps of a run, see `C26_first_run`. -/
theorem C26_settled_partial {ph : Physics W} {q : ℝ} (hq : ConstSlope ph q) {c : Consts} {n : ℕ}
    {s s' : List Row × Uni W} (hr : s.2.params.Reg) (pre : List ℝ)
    (hpre : s.1.map Row.fraction = pre ++ [q, q, q, q])
    (h : runN ph c true n s = .ok s') :
    s'.2.params.aT = s.2.params.aT + n * s.2.params.h * q := by
  refine (runN_invariant (fun n a => a.2.params.aT = s.2.params.aT + n * s.2.params.h * q ∧
    a.2.params.h = s.2.params.h ∧ a.2.params.Reg ∧
    ∃ pre, a.1.map Row.fraction = pre ++ [q, q, q, q]) s
    ⟨by simp, rfl, hr, pre, hpre⟩ ?_ n s' h).1
  rintro n a b ⟨i1, i2, ireg, pr, i3⟩ st
  have hf : b.2.fraction = q := by rw [st.frac]; exact (hq _ _ ireg).2
  obtain ⟨d, hd, _, he⟩ := st.aT
  have he := he rfl
  obtain ⟨pr', hp⟩ := pyLast_four pr q
  rw [i3, hp, hf, List.append_assoc] at he
  have : d = a.2.params.h * q := by
    have h5 := ab_five pr' q a.2.params.h
    have e : pr' ++ ([q, q, q, q] ++ [q]) = pr' ++ [q, q, q, q, q] := rfl
    rw [e, h5] at he
    injection he with he
    exact he.symm
  refine ⟨?_, by rw [st.h, i2], st.reg ireg, ?_⟩
  · rw [hd, this, i1, i2]; push_cast; ring
  · obtain ⟨r, ⟨-, -, -, -, -, -, -, rf, -⟩, hr⟩ := st.row
    refine ⟨pr ++ [q], ?_⟩
    rw [hr, List.map_append, i3]
    simp [rf, hf]

/-- Accumulated weight of the slopes after `n` steps of a first run: the table starts with a row whose
slope is 0. -/
noncomputable def firstRunWeight : ℕ → ℝ
  | 0 => 0
  | 1 => 3 / 2
  | 2 => 3 / 2 + 7 / 12
  | 3 => 3 / 2 + 7 / 12 + 33 / 24
  | n => n + 79 / 720

/-- **C26 (failure).** In the default Adams–Bashforth mode, in a fresh process, `n` steps with constant
slope `q` add `firstRunWeight n · h q`: the first step adds `1.5 h q`, and from the fourth step on the
total is `(n + 79/720) h q` instead of `n h q`, for ever. -/
theorem C26_first_run {ph : Physics W} {q : ℝ} (hq : ConstSlope ph q) {c : Consts} {init : Bool}
    {w : W} {p : Params} (hr : p.Reg) {s0 : List Row × Uni W}
    (h0 : evolveStart ph c init ([], Uni.new w p) = .ok s0) {n : ℕ} {s' : List Row × Uni W}
    (h : runN ph c true n s0 = .ok s') :
    s'.2.params.aT = p.aT + firstRunWeight n * (p.h * q) := by
  have hr : (Uni.new w p).params.Reg := hr
  have hfr : (Uni.new w p).fraction = 0 := rfl
  change s'.2.params.aT = (Uni.new w p).params.aT + firstRunWeight n * ((Uni.new w p).params.h * q)
  set u := Uni.new w p
  obtain ⟨hr0, -, ef, eaT, ex, edx, em, eh, -, -, -, -, -, -, r, hrow, hd⟩ := evolveStart_spec h0 hr
  have key : s'.2.params.aT = u.params.aT + firstRunWeight n * (u.params.h * q) ∧
      s'.2.params.h = u.params.h ∧ s'.2.params.Reg ∧
      s'.1.map Row.fraction = 0 :: List.replicate n q := by
    refine runN_invariant (fun n a => a.2.params.aT = u.params.aT + firstRunWeight n * (u.params.h * q)
      ∧ a.2.params.h = u.params.h ∧ a.2.params.Reg ∧
      a.1.map Row.fraction = 0 :: List.replicate n q) s0
      ⟨by rw [eaT]; simp [firstRunWeight], eh, hr0, ?_⟩ ?_ n s' h
    · obtain ⟨-, -, -, -, -, -, -, rf, -⟩ := hrow
      rw [hd]; simp [rf, ef, hfr]
    · rintro n a b ⟨i1, i2, ireg, i3⟩ st
      have hf : b.2.fraction = q := by rw [st.frac]; exact (hq _ _ ireg).2
      refine ⟨?_, by rw [st.h, i2], st.reg ireg, ?_⟩
      · obtain ⟨d, hd, _, he⟩ := st.aT
        have he := he rfl
        rw [i3, hf, i2] at he
        rw [hd, i1, add_assoc]
        congr 1
        match n with
        | 0 =>
          simp [pyLast, maxAB, adamsBashforth, abCoefficients, dotZip] at he
          rw [← he]; simp [firstRunWeight]; ring
        | 1 =>
          simp [pyLast, maxAB, adamsBashforth, abCoefficients, dotZip] at he
          rw [← he]; simp [firstRunWeight]; ring
        | 2 =>
          simp [pyLast, maxAB, adamsBashforth, abCoefficients, dotZip, List.replicate] at he
          rw [← he]; simp [firstRunWeight]; ring
        | 3 =>
          simp [pyLast, maxAB, adamsBashforth, abCoefficients, dotZip, List.replicate] at he
          rw [← he]; simp [firstRunWeight]; ring
        | k + 4 =>
          have e : 0 :: List.replicate (k + 4) q = (0 :: List.replicate k q) ++ [q, q, q, q] := by
            rw [List.replicate_add]; rfl
          obtain ⟨pr', hp⟩ := pyLast_four (0 :: List.replicate k q) q
          rw [e, hp, List.append_assoc] at he
          have h5 := ab_five pr' q u.params.h
          have e : pr' ++ ([q, q, q, q] ++ [q]) = pr' ++ [q, q, q, q, q] := rfl
          rw [e, h5] at he
          injection he with he
          rw [← he]
          simp only [firstRunWeight]
          push_cast; ring
      · obtain ⟨r, ⟨-, -, -, -, -, -, -, rf, -⟩, hr⟩ := st.row
        rw [hr, List.map_append, i3, List.replicate_succ']
        simp [rf, hf]
  exact key.1

/-- Constant slope 1, in either stepping mode. -/
noncomputable def unitSlopePhysics : Physics Unit :=
  ⟨fun w p => (w, 1, if p.log then p.x else 1), fun _ _ => 1, fun _ _ => 1⟩

theorem unitSlope_const : ConstSlope unitSlopePhysics 1 := by
  intro w p hp
  have := hp.x.ne'
  cases h : p.log <;> simp [unitSlopePhysics, h, this]

/-- Five steps of the demo universe with slope 1 run, and add `(5 + 79/720) h`. -/
example : ∃ s0 s', evolveStart unitSlopePhysics ⟨1, 1⟩ true ([], Uni.new () demoParams) = .ok s0 ∧
    runN unitSlopePhysics ⟨1, 1⟩ true 5 s0 = .ok s' ∧
    s'.2.params.aT = 1 + (5 + 79 / 720) * 0.05 := by
  obtain ⟨s0, h0⟩ := evolveStart_ok unitSlopePhysics ⟨1, 1⟩ true ([], Uni.new () demoParams)
    (by simp [Uni.new, demoParams])
  have hr0 := (evolveStart_spec h0 demoParams_reg).1
  have hrun : ∀ n, ∃ s', runN unitSlopePhysics ⟨1, 1⟩ true n s0 = .ok s' := by
    intro n
    induction n with
    | zero => exact ⟨s0, rfl⟩
    | succ n ih =>
      obtain ⟨s', h'⟩ := ih
      obtain ⟨s'', h''⟩ := loopBody_ok unitSlopePhysics ⟨1, 1⟩ true s'
        (unitSlope_const _ _ (runN_reg h' hr0)).1
      exact ⟨s'', by simp only [runN, h']; exact h''⟩
  obtain ⟨s', hs⟩ := hrun 5
  refine ⟨s0, s', h0, hs, ?_⟩
  rw [C26_first_run unitSlope_const demoParams_reg h0 hs]
  simp [firstRunWeight, demoParams]

end PyBBN
