import Verif.Model.Table
import Verif.Props.DynArray
import Verif.Props.Evolution
import Verif.Props.Units
import Verif.Props.History

/-! # C119: the history of a run in memory and in `evolution.txt` -/

namespace PyBBN

open DynArr

variable {W : Type*}

/-! ## Specification -/

/-- A line of the file: the record in MeV and seconds. -/
noncomputable def fileLine (un : Units) (r : Row) : List ℝ :=
  [r.aT / un.MeV, r.T / un.MeV, r.a, r.x / un.MeV, r.t / un.s, r.rho / un.MeV ^ 4, r.Neff, r.fraction,
    r.S / un.MeV ^ 3]

def fileHeading : List String :=
  ["aT, MeV", "T, MeV", "a", "x, MeV", "t, s", "rho, MeV^4", "N_eff", "fraction", "S, MeV^3"]

noncomputable def fileOf (un : Units) (rows : List Row) : TextTable := ⟨fileHeading, rows.map (fileLine un)⟩

/-- The table holds the history `d`: it was made by appending and removing rows, whatever for. -/
def Holds (t : DynArr Row) (d : List Row) : Prop :=
  ∃ ops, specRun [] ops = some d ∧ (DynArr.empty Row.zero).run Row.zero ops = .ok t

theorem Holds.rep {t : DynArr Row} {d : List Row} (h : Holds t d) : Rep t d := by
  obtain ⟨ops, h1, h2⟩ := h
  obtain ⟨s, e, r⟩ := rep_run Row.zero (rep_empty Row.zero) ops h1
  rw [e] at h2
  obtain rfl := Except.ok.inj h2
  exact r

/-! ## The table and the list -/

theorem rep_column {α β : Type*} {s : DynArr α} {l : List α} (r : Rep s l) (col : α → β) :
    s.column col = l.map col := by
  unfold DynArr.column pySliceTo
  rw [r.len]
  simp only [Int.natCast_nonneg, if_true, Int.toNat_natCast, ← List.map_take, r.pre]

theorem saveText_rep (un : Units) {t : DynArr Row} {d : List Row} (r : Rep t d) :
    saveText un t = fileOf un d := by
  unfold saveText fileOf
  rw [r.data]
  congr 1
  refine List.map_congr_left fun r _ => ?_
  simp [Row.tuple, tableUnits, fileLine]

theorem saveTable_sim {t : DynArr Row} {d : List Row} (r : Rep t d) (u : Uni W) :
    (∀ e, saveParams d u = .error e → saveTable t u = .error e) ∧
    (∀ d', saveParams d u = .ok d' → ∃ t', saveTable t u = .ok t' ∧ Rep t' d' ∧ d'.length = d.length + 1 ∧
      d <+: d') := by
  unfold saveParams saveTable
  cases hS : u.params.S with
  | none => simp
  | some S =>
    cases hr : u.params.rho with
    | none => simp
    | some rho =>
      refine ⟨by simp, fun d' h => ?_⟩
      obtain rfl := Except.ok.inj h
      have hm : tableColumns.mapM (u.record rho S) = some [u.params.aT, u.params.T, u.params.a, u.params.x,
          u.params.t, rho, u.params.Neff, u.fraction, S] := by
        simp [tableColumns, Uni.record]
      obtain ⟨t', e, r'⟩ := rep_append Row.zero r ⟨u.params.aT, u.params.T, u.params.a, u.params.x, u.params.t,
        rho, u.params.Neff, u.fraction, S⟩
      refine ⟨t', ?_, r', by simp, List.prefix_append _ _⟩
      unfold DynArr.appendDict
      simp only [hm]
      exact e

theorem makeStepTable_eq (ph : Physics W) (c : Consts) (ab : Bool) {t : DynArr Row} {d : List Row} (r : Rep t d)
    (u : Uni W) : makeStepTable ph c ab t u = makeStep ph c ab d u := by
  unfold makeStepTable makeStep
  rw [rep_column r]
  rfl

theorem loopBodyTable_sim (ph : Physics W) (c : Consts) (ab : Bool) (io : Output)
    (hio : io.folder = true → io.freq ≠ 0) (s : Running W) (d : List Row) (r : Rep s.table d) :
    (∀ e, loopBody ph c ab (d, s.uni) = .error e → loopBodyTable ph c ab io s = .error e) ∧
    (∀ q, loopBody ph c ab (d, s.uni) = .ok q → ∃ s', loopBodyTable ph c ab io s = .ok s' ∧
      Rep s'.table q.1 ∧ s'.uni = q.2 ∧ q.1.length = d.length + 1 ∧ d <+: q.1 ∧ q.2.step = s.uni.step + 1 ∧
      s'.file = if io.folder ∧ (s.uni.step + 1) % io.freq = 0 then some (fileOf io.units q.1) else s.file) := by
  unfold loopBody loopBodyTable
  rw [makeStepTable_eq ph c ab r]
  cases hm : makeStep ph c ab d s.uni with
  | error e => simp
  | ok u =>
    obtain ⟨g1, g2⟩ := saveTable_sim r u
    simp only
    cases hs : saveParams d u with
    | error e => rw [g1 e hs]; simp
    | ok d' =>
      obtain ⟨t', e, r', hl, hp⟩ := g2 d' hs
      rw [e]
      refine ⟨by simp, fun q h => ?_⟩
      obtain rfl := Except.ok.inj h
      have hb : loopBody ph c ab (d, s.uni) = .ok (d', { u with step := u.step + 1 }) := by
        unfold loopBody; simp only [hm, hs]
      have hu : u.step = s.uni.step := Nat.succ.inj (loopBody_spec hb).step
      dsimp only
      rw [hu]
      by_cases hf : io.folder = true
      · rw [if_pos hf, if_neg (hio hf)]
        by_cases hz : (s.uni.step + 1) % io.freq = 0
        · rw [if_pos hz, if_pos ⟨hf, hz⟩]
          exact ⟨_, rfl, r', rfl, hl, hp, rfl, by rw [saveText_rep _ r']⟩
        · rw [if_neg hz, if_neg (fun h => hz h.2)]
          exact ⟨_, rfl, r', rfl, hl, hp, rfl, rfl⟩
      · rw [if_neg hf, if_neg (fun h => hf h.1)]
        exact ⟨_, rfl, r', rfl, hl, hp, rfl, rfl⟩

theorem evolveLoopTable_sim (ph : Physics W) (c : Consts) (ab : Bool) (io : Output)
    (hio : io.folder = true → io.freq ≠ 0) (Tf : ℝ) (fuel : ℕ) (s : Running W) (d : List Row) (r : Rep s.table d) :
    (∀ e, evolveLoop ph c ab Tf fuel (d, s.uni) = .error e → evolveLoopTable ph c ab io Tf fuel s = .error e) ∧
    (evolveLoop ph c ab Tf fuel (d, s.uni) = .ok none → evolveLoopTable ph c ab io Tf fuel s = .ok none) ∧
    (∀ q, evolveLoop ph c ab Tf fuel (d, s.uni) = .ok (some q) →
      ∃ s', evolveLoopTable ph c ab io Tf fuel s = .ok (some s') ∧ Rep s'.table q.1 ∧ s'.uni = q.2) := by
  induction fuel generalizing s d with
  | zero =>
    unfold evolveLoop evolveLoopTable
    by_cases hT : s.uni.params.T > Tf
    · simp [hT]
    · simp only [hT, if_false]
      refine ⟨by simp, by simp, fun q h => ?_⟩
      obtain rfl := Option.some.inj (Except.ok.inj h)
      exact ⟨s, rfl, r, rfl⟩
  | succ n ih =>
    unfold evolveLoop evolveLoopTable
    by_cases hT : s.uni.params.T > Tf
    · simp only [hT, if_true]
      obtain ⟨g1, g2⟩ := loopBodyTable_sim ph c ab io hio s d r
      cases hb : loopBody ph c ab (d, s.uni) with
      | error e => rw [g1 e hb]; simp
      | ok q =>
        obtain ⟨s', e, r', eu, -⟩ := g2 q hb
        rw [e]
        have := ih s' q.1 r'
        rw [eu] at this
        exact this
    · simp only [hT, if_false]
      refine ⟨by simp, by simp, fun q h => ?_⟩
      obtain rfl := Option.some.inj (Except.ok.inj h)
      exact ⟨s, rfl, r, rfl⟩

theorem evolveStartTable_eq (ph : Physics W) (c : Consts) (init : Bool) (s : Running W) :
    evolveStartTable ph c init s =
      match saveTable s.table (startUpdate ph c (startClock ph c init s.uni)) with
      | .error e => .error e
      | .ok data => .ok ⟨data, startUpdate ph c (startClock ph c init s.uni), s.file⟩ := rfl

theorem evolveStartTable_sim (ph : Physics W) (c : Consts) (init : Bool) (s : Running W) (d : List Row)
    (r : Rep s.table d) :
    (∀ e, evolveStart ph c init (d, s.uni) = .error e → evolveStartTable ph c init s = .error e) ∧
    (∀ q, evolveStart ph c init (d, s.uni) = .ok q →
      ∃ s', evolveStartTable ph c init s = .ok s' ∧ Rep s'.table q.1 ∧ s'.uni = q.2 ∧ s'.file = s.file ∧
        q.1.length = d.length + 1 ∧ d <+: q.1 ∧ q.2.step = s.uni.step) := by
  rw [evolveStart_eq, evolveStartTable_eq]
  have hstep : (startUpdate ph c (startClock ph c init s.uni)).step = s.uni.step := by
    unfold startUpdate startClock
    cases init
    · simp only [Bool.false_eq_true, if_false]; split <;> rfl
    · simp only [if_true]; split <;> rfl
  revert hstep
  generalize startUpdate ph c (startClock ph c init s.uni) = u
  intro hstep
  obtain ⟨g1, g2⟩ := saveTable_sim r u
  cases hs : saveParams d u with
  | error e => rw [g1 e hs]; simp [Except.map]
  | ok d' =>
    obtain ⟨t', e, r', hl, hp⟩ := g2 d' hs
    rw [e]
    refine ⟨by simp [Except.map], fun q h => ?_⟩
    obtain rfl := Except.ok.inj h
    exact ⟨_, rfl, r', rfl, rfl, hl, hp, hstep⟩

theorem exported (io : Output) (b : Bool) (s : Running W) :
    (if b then exportTable io s else s).table = s.table ∧ (if b then exportTable io s else s).uni = s.uni := by
  unfold exportTable
  cases b <;> cases io.folder <;> simp

/-- **C119 (memory).** `evolve` on the growing array of the program does what it does on a list of rows:
same exception, or same universe and the array shows exactly the rows recorded before the run followed by
those of the run.  If a folder is given and `export` not switched off, `evolution.txt` then contains every
row, in order, in MeV and seconds, under the right headings. -/
theorem C119_refines (ph : Physics W) (c : Consts) (ab : Bool) (io : Output)
    (hio : io.folder = true → io.freq ≠ 0) (Tf : ℝ) (doExport init : Bool) (fuel : ℕ) (s : Running W)
    (d : List Row) (h : Holds s.table d) :
    (∀ e, evolveTable ph c ab io Tf doExport init fuel s = .error e ↔
      evolve ph c ab Tf init fuel (d, s.uni) = .error e) ∧
    (evolveTable ph c ab io Tf doExport init fuel s = .ok none ↔
      evolve ph c ab Tf init fuel (d, s.uni) = .ok none) ∧
    (∀ d' u', evolve ph c ab Tf init fuel (d, s.uni) = .ok (some (d', u')) ↔
      ∃ s', evolveTable ph c ab io Tf doExport init fuel s = .ok (some s') ∧ s'.table.data = d' ∧
        s'.table.len = d'.length ∧ s'.uni = u' ∧
        (io.folder = true → doExport = true → s'.file = some (fileOf io.units d'))) := by
  have main : (∀ e, evolve ph c ab Tf init fuel (d, s.uni) = .error e →
      evolveTable ph c ab io Tf doExport init fuel s = .error e) ∧
    (evolve ph c ab Tf init fuel (d, s.uni) = .ok none →
      evolveTable ph c ab io Tf doExport init fuel s = .ok none) ∧
    (∀ d' u', evolve ph c ab Tf init fuel (d, s.uni) = .ok (some (d', u')) →
      ∃ s', evolveTable ph c ab io Tf doExport init fuel s = .ok (some s') ∧ s'.table.data = d' ∧
        s'.table.len = d'.length ∧ s'.uni = u' ∧
        (io.folder = true → doExport = true → s'.file = some (fileOf io.units d'))) := by
    unfold evolve evolveTable
    obtain ⟨g1, g2⟩ := evolveStartTable_sim ph c init s d h.rep
    cases h0 : evolveStart ph c init (d, s.uni) with
    | error e => rw [g1 e h0]; simp
    | ok q =>
      obtain ⟨s₁, e₁, r₁, eu, -⟩ := g2 q h0
      rw [e₁]
      obtain ⟨k1, k2, k3⟩ := evolveLoopTable_sim ph c ab io hio Tf fuel s₁ q.1 r₁
      rw [eu] at k1 k2 k3
      simp only
      cases hl : evolveLoop ph c ab Tf fuel q with
      | error e => rw [k1 e hl]; simp
      | ok o =>
        cases o with
        | none => rw [k2 hl]; simp
        | some q' =>
          obtain ⟨s₂, e₂, r₂, eu₂⟩ := k3 q' hl
          rw [e₂]
          simp only [eu₂]
          by_cases hT : q'.2.params.T > 0
          · rw [if_pos hT, if_pos hT]
            refine ⟨by simp, by simp, fun d' u' hq => ?_⟩
            obtain rfl := Option.some.inj (Except.ok.inj hq)
            refine ⟨_, rfl, ?_, ?_, ?_, ?_⟩
            · rw [(exported io doExport s₂).1]; exact r₂.data
            · rw [(exported io doExport s₂).1]; exact r₂.len
            · rw [(exported io doExport s₂).2]; exact eu₂
            · intro hf he
              simp [he, exportTable, hf, saveText_rep _ r₂]
          · rw [if_neg hT, if_neg hT]; simp
  obtain ⟨m1, m2, m3⟩ := main
  refine ⟨fun e => ⟨fun h' => ?_, m1 e⟩, ⟨fun h' => ?_, m2⟩, fun d' u' => ⟨m3 d' u', ?_⟩⟩
  · cases hE : evolve ph c ab Tf init fuel (d, s.uni) with
    | error e' => rw [m1 e' hE] at h'; rw [Except.error.inj h']
    | ok o =>
      cases o with
      | none => rw [m2 hE] at h'; cases h'
      | some q => obtain ⟨s', e', -⟩ := m3 q.1 q.2 hE; rw [e'] at h'; cases h'
  · cases hE : evolve ph c ab Tf init fuel (d, s.uni) with
    | error e' => rw [m1 e' hE] at h'; cases h'
    | ok o =>
      cases o with
      | none => rfl
      | some q => obtain ⟨s', e', -⟩ := m3 q.1 q.2 hE; rw [e'] at h'; cases h'
  · rintro ⟨s', e', hd, -, hu, -⟩
    cases hE : evolve ph c ab Tf init fuel (d, s.uni) with
    | error e'' => rw [m1 e'' hE] at e'; cases e'
    | ok o =>
      cases o with
      | none => rw [m2 hE] at e'; cases e'
      | some q =>
        obtain ⟨s'', e'', hd', -, hu', -⟩ := m3 q.1 q.2 hE
        rw [e''] at e'
        obtain rfl := Option.some.inj (Except.ok.inj e')
        rw [hd'] at hd; rw [hu'] at hu
        rw [← hd, ← hu]

/-! ## A run cut short -/

/-- `n` iterations of the loop. -/
noncomputable def runTable (ph : Physics W) (c : Consts) (ab : Bool) (io : Output) :
    ℕ → Running W → Except Err (Running W)
  | 0, s => .ok s
  | n + 1, s =>
    match runTable ph c ab io n s with
    | .error e => .error e
    | .ok s' => loopBodyTable ph c ab io s'

theorem runTable_file (ph : Physics W) (c : Consts) (ab : Bool) (io : Output) (hf : io.folder = true)
    (hfreq : io.freq ≠ 0) (s : Running W) (d : List Row) (r : Rep s.table d) (n : ℕ) :
    ∀ s', runTable ph c ab io n s = .ok s' →
      ∃ d', Rep s'.table d' ∧ d'.length = d.length + n ∧ s'.uni.step = s.uni.step + n ∧ d <+: d' ∧
        ((s'.file = s.file ∧ ∀ j, 0 < j → j ≤ n → (s.uni.step + j) % io.freq ≠ 0) ∨
         ∃ k, 0 < k ∧ k ≤ n ∧ (s.uni.step + k) % io.freq = 0 ∧
          (∀ j, k < j → j ≤ n → (s.uni.step + j) % io.freq ≠ 0) ∧
          s'.file = some (fileOf io.units (d'.take (d.length + k)))) := by
  induction n with
  | zero =>
    intro s' h
    obtain rfl := Except.ok.inj h
    exact ⟨d, r, rfl, rfl, List.prefix_rfl, Or.inl ⟨rfl, fun j h1 h2 => by omega⟩⟩
  | succ n ih =>
    intro s' h
    unfold runTable at h
    cases hr : runTable ph c ab io n s with
    | error e => rw [hr] at h; cases h
    | ok s₁ =>
      rw [hr] at h
      obtain ⟨d₁, r₁, hl, hst, hpre, hfile⟩ := ih s₁ hr
      obtain ⟨g1, g2⟩ := loopBodyTable_sim ph c ab io (fun _ => hfreq) s₁ d₁ r₁
      simp only at h
      cases hb : loopBody ph c ab (d₁, s₁.uni) with
      | error e => rw [g1 e hb] at h; cases h
      | ok q =>
        obtain ⟨s₂, e, r₂, eu, hl2, hp2, hs2, hfl⟩ := g2 q hb
        rw [e] at h
        obtain rfl := Except.ok.inj h
        refine ⟨q.1, r₂, by omega, by rw [eu]; omega, hpre.trans hp2, ?_⟩
        rw [hst, show s.uni.step + n + 1 = s.uni.step + (n + 1) by ring] at hfl
        by_cases hz : (s.uni.step + (n + 1)) % io.freq = 0
        · rw [if_pos ⟨hf, hz⟩] at hfl
          refine Or.inr ⟨n + 1, by omega, le_rfl, hz, fun j h1 h2 => by omega, ?_⟩
          rw [hfl, List.take_of_length_le (by omega)]
        · rw [if_neg (fun h => hz h.2)] at hfl
          rcases hfile with ⟨f1, f2⟩ | ⟨k, k1, k2, k3, k4, k5⟩
          · refine Or.inl ⟨by rw [hfl, f1], fun j h1 h2 => ?_⟩
            rcases Nat.lt_or_ge n j with h3 | h3
            · rw [show j = n + 1 by omega]; exact hz
            · exact f2 j h1 h3
          · refine Or.inr ⟨k, k1, by omega, k3, fun j h1 h2 => ?_, ?_⟩
            · rcases Nat.lt_or_ge n j with h3 | h3
              · rw [show j = n + 1 by omega]; exact hz
              · exact k4 j h1 h3
            · rw [hfl, k5]
              congr 2
              obtain ⟨t, ht⟩ := hp2
              rw [← ht, List.take_append_of_le_length (by omega)]

/-- **C119 (interruption).** If a run is stopped (by an exception or from the keyboard) after `n` completed
iterations of the loop, the file holds a beginning of the history: it was last written when the step counter
was a multiple of `export_freq`, so that after at least `export_freq` iterations fewer than `export_freq`
rows are missing; before the counter reaches a multiple the file is untouched.  The table in memory has all
rows: those before the run, the initial one and one per iteration. -/
theorem C119_interrupted (ph : Physics W) (c : Consts) (ab : Bool) (io : Output) (hf : io.folder = true)
    (hfreq : io.freq ≠ 0) (init : Bool) (s₀ s s' : Running W) (d : List Row) (h : Holds s₀.table d) (n : ℕ)
    (hstart : evolveStartTable ph c init s₀ = .ok s) (hrun : runTable ph c ab io n s = .ok s') :
    (io.freq ≤ n → ∃ missing, missing < io.freq ∧
      s'.file = some (fileOf io.units (s'.table.data.take (d.length + 1 + n - missing)))) ∧
    (s₀.uni.step % io.freq + n < io.freq → s'.file = s₀.file) ∧
    s'.table.len = ((d.length + 1 + n : ℕ) : ℤ) ∧ d <+: s'.table.data := by
  obtain ⟨d₁, r₁, hl₁, hp₁, hf₁, hst₁⟩ : ∃ d₁, Rep s.table d₁ ∧ d₁.length = d.length + 1 ∧ d <+: d₁ ∧
      s.file = s₀.file ∧ s.uni.step = s₀.uni.step := by
    obtain ⟨g1, g2⟩ := evolveStartTable_sim ph c init s₀ d h.rep
    cases h0 : evolveStart ph c init (d, s₀.uni) with
    | error e => rw [g1 e h0] at hstart; cases hstart
    | ok q =>
      obtain ⟨s₂, e, r, eu, ef, el, ep, es⟩ := g2 q h0
      rw [e] at hstart
      obtain rfl := Except.ok.inj hstart
      exact ⟨q.1, r, el, ep, ef, by rw [eu, es]⟩
  rw [← hl₁, ← hst₁, ← hf₁]
  obtain ⟨d', r, hl, -, hp, hfile⟩ := runTable_file ph c ab io hf hfreq s d₁ r₁ n s' hrun
  have hpos : 0 < io.freq := Nat.pos_of_ne_zero hfreq
  refine ⟨fun hn => ?_, fun hn => ?_, ?_, by rw [r.data]; exact hp₁.trans hp⟩
  · -- among `freq` consecutive counters one is a multiple
    have hex : ∀ b, ∃ j, b < j ∧ j ≤ b + io.freq ∧ (s.uni.step + j) % io.freq = 0 := by
      intro b
      have hm := Nat.mod_lt (s.uni.step + b) hpos
      refine ⟨b + (io.freq - (s.uni.step + b) % io.freq), by omega, by omega, ?_⟩
      have e := Nat.div_add_mod (s.uni.step + b) io.freq
      have : s.uni.step + (b + (io.freq - (s.uni.step + b) % io.freq)) =
          io.freq * ((s.uni.step + b) / io.freq + 1) := by
        rw [mul_add, mul_one]; omega
      rw [this, Nat.mul_mod_right]
    rcases hfile with ⟨-, f2⟩ | ⟨k, k1, k2, -, k4, k5⟩
    · obtain ⟨j, j1, j2, j3⟩ := hex 0
      exact absurd j3 (f2 j j1 (by omega))
    · refine ⟨n - k, ?_, ?_⟩
      · by_contra hc
        obtain ⟨j, j1, j2, j3⟩ := hex k
        exact k4 j j1 (by omega) j3
      · rw [k5, r.data]
        congr 3
        omega
  · rcases hfile with ⟨f1, -⟩ | ⟨k, k1, k2, k3, -, -⟩
    · exact f1
    · exfalso
      have : (s.uni.step + k) % io.freq = s.uni.step % io.freq + k := by
        rw [Nat.add_mod, Nat.mod_eq_of_lt (show k < io.freq by omega), Nat.mod_eq_of_lt (by omega)]
      omega
  · rw [DynArr.len, r.len, hl]

/-! ## Units of the file -/

theorem fileLine_inUnits (k e : ℝ) (hk : k ≠ 0) (he : e ≠ 0) (log : Bool) (r : Row) :
    fileLine (Units.reset (k * e)) (r.inUnits k log) =
      (fileLine (Units.reset e) r).set 7 ((if log then k else 1) * r.fraction) := by
  obtain ⟨-, -, h3, -, -, h6, -⟩ := C61_units k e
  have hM : (Units.reset e).MeV ≠ 0 := by rw [(C61_chain e).2.1]; positivity
  have hs : (Units.reset e).s ≠ 0 := by
    have : (Units.reset e).s = 1e22 / 6.582119 / (Units.reset e).MeV := rfl
    rw [this]; exact div_ne_zero (by norm_num) hM
  unfold fileLine Row.inUnits
  simp only [h3, h6, List.set_cons_succ, List.set_cons_zero, List.cons.injEq, and_true]
  refine ⟨?_, ?_, trivial, ?_, ?_, ?_, trivial, ?_, ?_⟩
  · field_simp
  · field_simp
  · field_simp
  · field_simp
  · field_simp
  · split_ifs <;> ring
  · field_simp

/-- **C119 (units of the file).** The file does not depend on the internal unit of energy: a run with the
base unit multiplied by `k` (all inputs in the new units, `C61_evolve`) leaves the same file, line by line
and column by column, except for the column `fraction` in logarithmic mode, which is written in internal
units and comes out multiplied by `k`. -/
theorem C119_units {W W' : Type*} {k e : ℝ} {φ : W → W'} {ph : Physics W} {ph' : Physics W'} (hk : 0 < k) (he : e ≠ 0)
    (cov : Covariant k φ ph ph') (ab : Bool) (freq : ℕ) (hfreq : freq ≠ 0) (Tf : ℝ)
    (init : Bool) (fuel : ℕ) (u : Uni W) (t t' : DynArr Row) (f f' : Option TextTable) (d d' : List Row) (v : Uni W)
    (ht : Holds t d) (ht' : Holds t' (d.map (Row.inUnits k u.params.log)))
    (hrun : evolve ph (Consts.ofUnits (Units.reset e)) ab Tf init fuel (d, u) = .ok (some (d', v))) :
    ∃ s s', evolveTable ph (Consts.ofUnits (Units.reset e)) ab ⟨true, freq, Units.reset e⟩ Tf true init fuel
        ⟨t, u, f⟩ = .ok (some s) ∧
      evolveTable ph' (Consts.ofUnits (Units.reset (k * e))) ab ⟨true, freq, Units.reset (k * e)⟩ (k * Tf) true
        init fuel ⟨t', u.inUnits k φ, f'⟩ = .ok (some s') ∧
      ∃ g g', s.file = some g ∧ s'.file = some g' ∧ g'.heading = g.heading ∧
        g'.lines = g.lines.map fun l => l.set 7 ((if u.params.log then k else 1) * l.getD 7 0) := by
  obtain ⟨-, -, m⟩ := C119_refines ph (Consts.ofUnits (Units.reset e)) ab ⟨true, freq, Units.reset e⟩
    (fun _ => hfreq) Tf true init fuel ⟨t, u, f⟩ d ht
  obtain ⟨s, hs, -, -, -, hfile⟩ := (m d' v).mp hrun
  have hrun' := C61_evolve cov hk (Consts.ofUnits (Units.reset e)) ab Tf init fuel (d, u)
  rw [hrun, ← C61_consts k e hk.ne' he] at hrun'
  obtain ⟨-, -, m'⟩ := C119_refines ph' (Consts.ofUnits (Units.reset (k * e))) ab
    ⟨true, freq, Units.reset (k * e)⟩ (fun _ => hfreq) (k * Tf) true init fuel ⟨t', u.inUnits k φ, f'⟩ _ ht'
  obtain ⟨s', hs', -, -, -, hfile'⟩ := (m' _ _).mp hrun'
  refine ⟨s, s', hs, hs', _, _, hfile rfl rfl, hfile' rfl rfl, rfl, ?_⟩
  simp only [fileOf, List.map_map]
  refine List.map_congr_left fun r _ => ?_
  simp only [Function.comp]
  rw [fileLine_inUnits k e hk.ne' he]
  rfl

/-! ## Examples -/

theorem holds_fresh : Holds (DynArr.empty Row.zero) [] := ⟨[], rfl, rfl⟩

/-- A photon gas of which one step is run: the file has two lines. -/
example (rule : Rule) (un : Units) : ∃ s' g, evolveTable (plasma rule) ⟨1, 1⟩ true ⟨true, 100, un⟩ 9.6 true true 2
    ⟨DynArr.empty Row.zero, Uni.new photonGas demoParams, none⟩ = .ok (some s') ∧ s'.file = some g ∧
    g.lines.length = 2 ∧ s'.table.data.length = 2 := by
  obtain ⟨⟨d, u⟩, h, hl⟩ := photon_one_step rule
  obtain ⟨-, -, m⟩ := C119_refines (plasma rule) ⟨1, 1⟩ true ⟨true, 100, un⟩ (by simp) 9.6 true true 2
    ⟨DynArr.empty Row.zero, Uni.new photonGas demoParams, none⟩ [] holds_fresh
  obtain ⟨s', e, hd, -, -, hf⟩ := (m d u).mp h
  exact ⟨s', _, e, hf rfl rfl, by simpa [fileOf] using hl, by rw [hd]; exact hl⟩

/-- The loop of the still universe never fails: twenty-five steps from a fresh table, the file written every
ten steps; fewer than ten of the rows are missing in the file. -/
example (un : Units) : ∃ s s', evolveStartTable stillPhysics ⟨1, 1⟩ true
      ⟨DynArr.empty Row.zero, Uni.new () demoParams, none⟩ = .ok s ∧
    runTable stillPhysics ⟨1, 1⟩ true ⟨true, 10, un⟩ 25 s = .ok s' ∧
    ∃ missing, missing < 10 ∧ s'.file = some (fileOf un (s'.table.data.take (26 - missing))) := by
  obtain ⟨q, h0⟩ := evolveStart_ok stillPhysics ⟨1, 1⟩ true ([], Uni.new () demoParams)
    (by simp [Uni.new, demoParams])
  obtain ⟨-, g2⟩ := evolveStartTable_sim stillPhysics ⟨1, 1⟩ true
    ⟨DynArr.empty Row.zero, Uni.new () demoParams, none⟩ [] holds_fresh.rep
  obtain ⟨s, e, r, -, -⟩ := g2 q h0
  have run : ∀ n, ∃ s' d', runTable stillPhysics ⟨1, 1⟩ true ⟨true, 10, un⟩ n s = .ok s' ∧ Rep s'.table d' := by
    intro n
    induction n with
    | zero => exact ⟨s, q.1, rfl, r⟩
    | succ n ih =>
      obtain ⟨s', d', h', r'⟩ := ih
      obtain ⟨q', hb⟩ := loopBody_ok stillPhysics ⟨1, 1⟩ true (d', s'.uni) (by simp [stillPhysics])
      obtain ⟨-, k2⟩ := loopBodyTable_sim stillPhysics ⟨1, 1⟩ true ⟨true, 10, un⟩ (by simp) s' d' r'
      obtain ⟨s'', e'', r'', -⟩ := k2 q' hb
      exact ⟨s'', q'.1, by simp only [runTable, h']; exact e'', r''⟩
  obtain ⟨s', d', h', r'⟩ := run 25
  refine ⟨s, s', e, h', ?_⟩
  exact (C119_interrupted stillPhysics ⟨1, 1⟩ true ⟨true, 10, un⟩ rfl (by simp) true
    ⟨DynArr.empty Row.zero, Uni.new () demoParams, none⟩ s s' [] holds_fresh 25 e h').1 (by simp)

theorem photon_one_step_any (rule : Rule) (c : Consts) : ∃ r, evolve (plasma rule) c true 9.6 true 2
    ([], Uni.new photonGas demoParams) = .ok (some r) ∧ r.1.length = 2 := by
  simp [evolve, evolveStart, Uni.new, demoParams, saveParams, Params.update, Params.initTime,
    evolveLoop, loopBody, makeStep, integrand, plasma, photonGas, temperatureTerms, addTerms,
    TPart.numerator, TPart.denominator, radDenominator, demoSpecies, pyLast, maxAB, adamsBashforth,
    abCoefficients, dotZip, Real.pi_ne_zero]
  norm_num

/-- The photon gas with the base unit doubled. -/
example (rule : Rule) : ∃ s s', evolveTable (plasma rule) (Consts.ofUnits (Units.reset defaultEV)) true
      ⟨true, 100, Units.reset defaultEV⟩ 9.6 true true 2
      ⟨DynArr.empty Row.zero, Uni.new photonGas demoParams, none⟩ = .ok (some s) ∧
    evolveTable (plasma rule) (Consts.ofUnits (Units.reset (2 * defaultEV))) true
      ⟨true, 100, Units.reset (2 * defaultEV)⟩ (2 * 9.6) true true 2
      ⟨DynArr.empty Row.zero, (Uni.new photonGas demoParams).inUnits 2 (List.map (EqPart.inUnits 2)), none⟩ =
        .ok (some s') ∧
    ∃ g g', s.file = some g ∧ s'.file = some g' ∧ g'.heading = g.heading ∧
      g'.lines = g.lines.map fun l => l.set 7 (2 * l.getD 7 0) := by
  obtain ⟨⟨d, u⟩, h, -⟩ := photon_one_step_any rule (Consts.ofUnits (Units.reset defaultEV))
  exact C119_units two_pos (by norm_num [defaultEV]) (plasma_covariant rule 2 two_pos) true 100 (by norm_num) 9.6
    true 2 (Uni.new photonGas demoParams) _ _ none none [] d u holds_fresh holds_fresh h

end PyBBN
