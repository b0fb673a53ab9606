import Verif.Model.KawanoFile
import Verif.Model.Particle
import Verif.Props.Kawano
import Verif.Lemmas.Quad
import Verif.Props.Evolution
import Verif.Props.Resume
/-!
# C128: the table handed to the nuclear network
-/
namespace PyBBN

variable {W : Type*}

/-! ## Specification -/

/-- Successive iterations of the loop of the plain program (without nuclear table) and the states after them. -/
inductive Iterates (ph : Physics W) (c : Consts) (ab : Bool) :
    List Row × Uni W → List (Uni W) → List Row × Uni W → Prop
  | stop (s : List Row × Uni W) : Iterates ph c ab s [] s
  | step {s s₁ s₂ : List Row × Uni W} {us : List (Uni W)} (h : loopBody ph c ab s = .ok s₁)
      (t : Iterates ph c ab s₁ us s₂) : Iterates ph c ab s (s₁.2 :: us) s₂

/-- What a row of the nuclear table should be for a universe in the state `u`: clock, `x`, temperature, its rate of
change, density, Hubble rate, and the six weak rates with the electrons and neutrinos of the universe `v`. -/
noncomputable def nuclearRow (k : KSetup W) (v u : Uni W) : List ℝ :=
  [u.params.t, u.params.x, u.params.T,
   if u.params.log then (u.fraction - u.params.aT) * u.params.H / u.params.a
   else (u.fraction - u.params.T / u.params.m) * u.params.H * u.params.m,
   u.params.rho.getD 0, u.params.H] ++ k.rates v u.params.a

/-- A row in seconds, MeV, 10⁹ K, g/cm³. -/
noncomputable def nuclearLine (un : Units) : List ℝ → List ℝ
  | [t, x, T, dT, rho, H, r1, r2, r3, r4, r5, r6] =>
    [t / un.s, x / un.MeV, T / un.K9, dT / (un.K9 / un.s), rho / un.g_cm3, H * un.s, r1, r2, r3, r4, r5, r6]
  | _ => []

open Classical in
/-- The states which belong into the nuclear table. -/
noncomputable def coldStates (k : KSetup W) (us : List (Uni W)) : List (Uni W) :=
  us.filter fun u => decide (u.params.T ≤ k.Tk)

/-- The rows a run adds. -/
noncomputable def nuclearRows (k : KSetup W) (src : Option (Uni W)) (us : List (Uni W)) : List (List ℝ) :=
  (coldStates k us).map fun u => nuclearRow k (src.getD u) u

/-! ## One iteration -/

theorem rates_six (k : KSetup W) (v : Uni W) (a : ℝ) :
    ∃ r1 r2 r3 r4 r5 r6, k.rates v a = [r1, r2, r3, r4, r5, r6] := ⟨_, _, _, _, _, _, rfl⟩

theorem kawanoLine_nuclear (k : KSetup W) (v u : Uni W) :
    kawanoLine k.units (nuclearRow k v u) = nuclearLine k.units (nuclearRow k v u) := by
  obtain ⟨r1, r2, r3, r4, r5, r6, e⟩ := rates_six k v u.params.a
  unfold nuclearRow
  rw [e]
  simp [kawanoLine, kawanoUnits, nuclearLine]

theorem kawanoRow_nuclear (k : KSetup W) (v u : Uni W) (rho : ℝ) (h : u.params.rho = some rho) :
    kawanoRow u.params rho u.fraction (k.rates v u.params.a) = nuclearRow k v u := by
  unfold kawanoRow nuclearRow kawanoDTdt
  rw [h]
  rfl

theorem saveParams_ok {d : List Row} {u : Uni W} {d' : List Row} (h : saveParams d u = .ok d') :
    ∃ rho, u.params.rho = some rho := by
  unfold saveParams at h
  split at h
  · rename_i S rho hS hr; exact ⟨rho, hr⟩
  · cases h
  · cases h

/-- A row for the table, if the file is there to be written to. -/
theorem saveKawano_cold (k : KSetup W) (src : Option (Uni W)) (s : KRun W) (u : Uni W) (d : List Row)
    (hs : saveParams s.hist u = .ok d) (hon : s.own.on = true) (hT : u.params.T ≤ k.Tk) :
    saveKawano k src s u = match s.own.log with
      | .absent => .error .attributeError
      | .closed _ => .error .valueError
      | .opened l => .ok ⟨d, { s.own with uni := u, rows := s.own.rows ++ [nuclearRow k (src.getD u) u],
                                          log := .opened (l ++ [nuclearLine k.units (nuclearRow k (src.getD u) u)]) }⟩ := by
  obtain ⟨rho, hrho⟩ := saveParams_ok hs
  unfold saveKawano
  simp only [hs]
  rw [if_pos ⟨hon, hT⟩]
  simp only [hrho]
  rw [kawanoRow_nuclear k _ u rho hrho, kawanoLine_nuclear]
  cases s.own.log <;> rfl

theorem saveKawano_hot (k : KSetup W) (src : Option (Uni W)) (s : KRun W) (u : Uni W) (d : List Row)
    (hs : saveParams s.hist u = .ok d) (hT : ¬ (s.own.on = true ∧ u.params.T ≤ k.Tk)) :
    saveKawano k src s u = .ok ⟨d, { s.own with uni := u }⟩ := by
  unfold saveKawano
  simp only [hs]
  rw [if_neg hT]

theorem saveKawano_error (k : KSetup W) (src : Option (Uni W)) (s : KRun W) (u : Uni W) (e : Err)
    (hs : saveParams s.hist u = .error e) : saveKawano k src s u = .error e := by
  unfold saveKawano
  simp only [hs]

/-- The output of the universe after an iteration which ends in the state `u`. -/
def RecordedRow (k : KSetup W) (src : Option (Uni W)) (o : KUni W) (us : List (Uni W)) (l : List (List ℝ)) (o' : KUni W) : Prop :=
  o'.folder = o.folder ∧ o'.on = o.on ∧
  o'.rows = o.rows ++ nuclearRows k src us ∧
  o'.log = .opened (l ++ (nuclearRows k src us).map (nuclearLine k.units))

theorem rates_step (k : KSetup W) (src : Option (Uni W)) (u : Uni W) (n : ℕ) :
    nuclearRow k (src.getD u) u = nuclearRow k (src.getD { u with step := n }) { u with step := n } := by
  cases src <;> rfl

theorem loopBodyK_opened (ph : Physics W) (c : Consts) (ab : Bool) (k : KSetup W) (freq : ℕ)
    (src : Option (Uni W)) (s : KRun W) (hf : s.own.folder = true → freq ≠ 0) (hon : s.own.on = true)
    (l : List (List ℝ)) (hl : s.own.log = .opened l) :
    (∀ e, loopBody ph c ab (s.hist, s.own.uni) = .error e → loopBodyK ph c ab k freq src s = .error e) ∧
    (∀ q, loopBody ph c ab (s.hist, s.own.uni) = .ok q → ∃ s', loopBodyK ph c ab k freq src s = .ok s' ∧
      s'.hist = q.1 ∧ s'.own.uni = q.2 ∧ RecordedRow k src s.own [q.2] l s'.own) := by
  unfold loopBody loopBodyK
  cases hm : makeStep ph c ab s.hist s.own.uni with
  | error e => simp
  | ok u =>
    simp only
    cases hs : saveParams s.hist u with
    | error e => rw [saveKawano_error k src s u e hs]; simp
    | ok d =>
      refine ⟨by simp, fun q hq => ?_⟩
      obtain rfl := Except.ok.inj hq
      have fin : ∀ o : KUni W, o.folder = s.own.folder → o.on = s.own.on →
          o.rows = s.own.rows ++ nuclearRows k src [{ u with step := u.step + 1 }] →
          o.log = .opened (l ++ (nuclearRows k src [{ u with step := u.step + 1 }]).map (nuclearLine k.units)) →
          ∃ s' : KRun W, (if o.folder = true then
              if freq = 0 then (.error .zeroDivision : Except Err (KRun W))
              else if (u.step + 1) % freq = 0 then .ok ⟨d, KUni.writeTxt k { o with uni := { u with step := u.step + 1 } }⟩
              else .ok ⟨d, { o with uni := { u with step := u.step + 1 } }⟩
            else .ok ⟨d, { o with uni := { u with step := u.step + 1 } }⟩) = .ok s' ∧ s'.hist = d ∧
            s'.own.uni = { u with step := u.step + 1 } ∧
            RecordedRow k src s.own [{ u with step := u.step + 1 }] l s'.own := by
        intro o h1 h2 h3 h4
        by_cases ho : o.folder = true
        · rw [if_pos ho, if_neg (hf (h1 ▸ ho))]
          by_cases hz : (u.step + 1) % freq = 0
          · rw [if_pos hz]
            refine ⟨_, rfl, rfl, ?_, ?_⟩
            · unfold KUni.writeTxt; split <;> rfl
            · unfold KUni.writeTxt
              split
              · exact ⟨h1, h2, h3, h4⟩
              · exact ⟨h1, h2, h3, h4⟩
          · rw [if_neg hz]
            exact ⟨_, rfl, rfl, rfl, h1, h2, h3, h4⟩
        · rw [if_neg ho]
          exact ⟨_, rfl, rfl, rfl, h1, h2, h3, h4⟩
      by_cases hT : u.params.T ≤ k.Tk
      · rw [saveKawano_cold k src s u d hs hon hT]
        simp only [hl]
        have hn : nuclearRows k src [{ u with step := u.step + 1 }] = [nuclearRow k (src.getD u) u] := by
          simp only [nuclearRows, coldStates, List.filter_cons, hT, decide_true, if_true, List.filter_nil, List.map_cons,
            List.map_nil]
          rw [← rates_step]
        exact fin ⟨u, s.own.folder, s.own.on, s.own.rows ++ [nuclearRow k (src.getD u) u],
          .opened (l ++ [nuclearLine k.units (nuclearRow k (src.getD u) u)]), s.own.txt⟩ rfl rfl (by rw [hn]) (by rw [hn]; rfl)
      · rw [saveKawano_hot k src s u d hs (fun h => hT h.2)]
        have hn : nuclearRows k src [{ u with step := u.step + 1 }] = [] := by
          simp [nuclearRows, coldStates, hT]
        exact fin { s.own with uni := u } rfl rfl (by rw [hn]; simp) (by rw [hn]; simp [hl])

/-! ## The loop -/

theorem nuclearRows_append (k : KSetup W) (src : Option (Uni W)) (us vs : List (Uni W)) :
    nuclearRows k src (us ++ vs) = nuclearRows k src us ++ nuclearRows k src vs := by
  simp [nuclearRows, coldStates]

theorem RecordedRow.trans {k : KSetup W} {src : Option (Uni W)} {o o₁ o₂ : KUni W} {us vs : List (Uni W)} {l : List (List ℝ)}
    (h : RecordedRow k src o us l o₁)
    (h' : RecordedRow k src o₁ vs (l ++ (nuclearRows k src us).map (nuclearLine k.units)) o₂) :
    RecordedRow k src o (us ++ vs) l o₂ := by
  obtain ⟨a1, a2, a3, a4⟩ := h
  obtain ⟨b1, b2, b3, b4⟩ := h'
  refine ⟨b1.trans a1, b2.trans a2, ?_, ?_⟩
  · rw [b3, a3, nuclearRows_append, List.append_assoc]
  · rw [b4, nuclearRows_append, List.map_append, List.append_assoc]

theorem evolveLoopK_opened (ph : Physics W) (c : Consts) (ab : Bool) (k : KSetup W) (freq : ℕ)
    (src : Option (Uni W)) (Tf : ℝ) (fuel : ℕ) (s : KRun W) (hf : s.own.folder = true → freq ≠ 0)
    (hon : s.own.on = true) (l : List (List ℝ)) (hl : s.own.log = .opened l) :
    (∀ e, evolveLoop ph c ab Tf fuel (s.hist, s.own.uni) = .error e →
      evolveLoopK ph c ab k freq src Tf fuel s = .error e) ∧
    (evolveLoop ph c ab Tf fuel (s.hist, s.own.uni) = .ok none →
      evolveLoopK ph c ab k freq src Tf fuel s = .ok none) ∧
    (∀ q, evolveLoop ph c ab Tf fuel (s.hist, s.own.uni) = .ok (some q) →
      ∃ s' us, evolveLoopK ph c ab k freq src Tf fuel s = .ok (some s') ∧ s'.hist = q.1 ∧ s'.own.uni = q.2 ∧
        Iterates ph c ab (s.hist, s.own.uni) us q ∧ RecordedRow k src s.own us l s'.own) := by
  induction fuel generalizing s l with
  | zero =>
    unfold evolveLoop evolveLoopK
    by_cases hT : s.own.uni.params.T > Tf
    · simp [hT]
    · simp only [hT, if_false]
      refine ⟨by simp, by simp, fun q h => ?_⟩
      obtain rfl := Option.some.inj (Except.ok.inj h)
      exact ⟨s, [], rfl, rfl, rfl, .stop _, rfl, rfl, by simp [nuclearRows, coldStates], by simp [nuclearRows, coldStates, hl]⟩
  | succ n ih =>
    unfold evolveLoop evolveLoopK
    by_cases hT : s.own.uni.params.T > Tf
    · simp only [hT, if_true]
      obtain ⟨g1, g2⟩ := loopBodyK_opened ph c ab k freq src s hf hon l hl
      cases hb : loopBody ph c ab (s.hist, s.own.uni) with
      | error e => rw [g1 e hb]; simp
      | ok q =>
        obtain ⟨s', e, e1, e2, r⟩ := g2 q hb
        rw [e]
        have := ih s' (fun h => hf (r.1 ▸ h)) (r.2.1.trans hon) _ r.2.2.2
        rw [e1, e2] at this
        obtain ⟨k1, k2, k3⟩ := this
        refine ⟨k1, k2, fun q' hq' => ?_⟩
        obtain ⟨s₂, us, f1, f2, f3, f4, f5⟩ := k3 q' hq'
        exact ⟨s₂, q.2 :: us, f1, f2, f3, .step hb f4, r.trans f5⟩
    · simp only [hT, if_false]
      refine ⟨by simp, by simp, fun q h => ?_⟩
      obtain rfl := Option.some.inj (Except.ok.inj h)
      exact ⟨s, [], rfl, rfl, rfl, .stop _, rfl, rfl, by simp [nuclearRows, coldStates], by simp [nuclearRows, coldStates, hl]⟩

/-! ## The two tables -/

/-- The rows of the two tables which belong together: same clock, `x`, temperature and density. -/
def SameState (r : Row) (n : List ℝ) : Prop :=
  n.length = 12 ∧ n[0]? = some r.t ∧ n[1]? = some r.x ∧ n[2]? = some r.T ∧ n[4]? = some r.rho

theorem loopBody_row {ph : Physics W} {c : Consts} {ab : Bool} {s s' : List Row × Uni W}
    (h : loopBody ph c ab s = .ok s') :
    ∃ r : Row, s'.1 = s.1 ++ [r] ∧ r.T = s'.2.params.T ∧ r.t = s'.2.params.t ∧ r.x = s'.2.params.x ∧
      s'.2.params.rho = some r.rho := by
  unfold loopBody at h
  cases hm : makeStep ph c ab s.1 s.2 with
  | error e => rw [hm] at h; cases h
  | ok u =>
    rw [hm] at h
    simp only at h
    cases hs : saveParams s.1 u with
    | error e => rw [hs] at h; cases h
    | ok d =>
      rw [hs] at h
      obtain rfl := Except.ok.inj h
      unfold saveParams at hs
      split at hs
      · rename_i S rho hS hr
        obtain rfl := Except.ok.inj hs
        exact ⟨_, rfl, rfl, rfl, rfl, hr⟩
      · cases hs
      · cases hs

open Classical in
theorem Iterates.rows {ph : Physics W} {c : Consts} {ab : Bool} {s s' : List Row × Uni W} {us : List (Uni W)}
    (h : Iterates ph c ab s us s') (k : KSetup W) (src : Option (Uni W)) :
    ∃ rows, s'.1 = s.1 ++ rows ∧ rows.length = us.length ∧
      List.Forall₂ SameState (rows.filter fun r => decide (r.T ≤ k.Tk)) (nuclearRows k src us) := by
  induction h with
  | stop s => exact ⟨[], by simp, rfl, by simp [nuclearRows, coldStates]⟩
  | @step s s₁ s₂ us hb t ih =>
    obtain ⟨rows, e, hl, hr⟩ := ih
    obtain ⟨r, e1, e2, e3, e4, e5⟩ := loopBody_row hb
    refine ⟨r :: rows, by rw [e, e1]; simp, by simp [hl], ?_⟩
    by_cases hT : r.T ≤ k.Tk
    · have h2 : s₁.2.params.T ≤ k.Tk := e2 ▸ hT
      have hn : nuclearRows k src (s₁.2 :: us) = nuclearRow k (src.getD s₁.2) s₁.2 :: nuclearRows k src us := by
        simp [nuclearRows, coldStates, h2]
      rw [hn, List.filter_cons_of_pos (by simpa using hT)]
      refine List.Forall₂.cons ?_ hr
      obtain ⟨r1, r2, r3, r4, r5, r6, er⟩ := rates_six k (src.getD s₁.2) s₁.2.params.a
      unfold SameState nuclearRow
      rw [er]
      simp [e2, e3, e4, e5]
    · have h2 : ¬ s₁.2.params.T ≤ k.Tk := e2 ▸ hT
      have hn : nuclearRows k src (s₁.2 :: us) = nuclearRows k src us := by
        simp [nuclearRows, coldStates, h2]
      rw [hn, List.filter_cons_of_neg (by simpa using hT)]
      exact hr

/-! ## The run -/

theorem kawanoLine_twelve (un : Units) (r : List ℝ) (h : r.length = 12) : kawanoLine un r = nuclearLine un r := by
  match r, h with
  | [a1, a2, a3, a4, a5, a6, a7, a8, a9, a10, a11, a12], _ => simp [kawanoLine, kawanoUnits, nuclearLine]

theorem nuclearRow_length (k : KSetup W) (v u : Uni W) : (nuclearRow k v u).length = 12 := rfl

open Classical in
/-- **C128 (the table and its files).** A universe with a folder whose `init_kawano` was called and whose log file is open:
`evolve` raises what it raises without the nuclear table, and otherwise ends in the same universe with the same history.  The
nuclear table has gained one row for each iteration that ended at or below `T_kawano`, in order, with the clock, `x`,
temperature and density of the row which that iteration added to the history; the row of the starting point is not in it.
`s4.dat` has gained the same rows in seconds, MeV, 10⁹ K and g/cm³, and after an export it is closed and `kawano.txt` holds
all rows. -/
theorem C128_table (ph : Physics W) (c : Consts) (ab : Bool) (k : KSetup W) (freq : ℕ) (hfreq : freq ≠ 0)
    (src : Option (Uni W)) (Tf : ℝ) (doExport init : Bool) (fuel : ℕ) (s : KRun W) (hf : s.own.folder = true)
    (hon : s.own.on = true) (l : List (List ℝ)) (hl : s.own.log = .opened l) (h12 : ∀ r ∈ s.own.rows, r.length = 12) :
    (∀ e, evolveK ph c ab k freq src Tf doExport init fuel s = .error e ↔
      evolve ph c ab Tf init fuel (s.hist, s.own.uni) = .error e) ∧
    (evolveK ph c ab k freq src Tf doExport init fuel s = .ok none ↔
      evolve ph c ab Tf init fuel (s.hist, s.own.uni) = .ok none) ∧
    (∀ d' u', evolve ph c ab Tf init fuel (s.hist, s.own.uni) = .ok (some (d', u')) ↔
      ∃ s', evolveK ph c ab k freq src Tf doExport init fuel s = .ok (some s') ∧ s'.hist = d' ∧ s'.own.uni = u') ∧
    (∀ s', evolveK ph c ab k freq src Tf doExport init fuel s = .ok (some s') →
      ∃ d₀ u₀ us rows, evolveStart ph c init (s.hist, s.own.uni) = .ok (d₀, u₀) ∧
        Iterates ph c ab (d₀, u₀) us (s'.hist, s'.own.uni) ∧
        s'.hist = d₀ ++ rows ∧ rows.length = us.length ∧
        List.Forall₂ SameState (rows.filter fun r => decide (r.T ≤ k.Tk)) (nuclearRows k src us) ∧
        s'.own.rows = s.own.rows ++ nuclearRows k src us ∧
        s'.own.log = (if doExport then LogFile.closed else LogFile.opened)
          (l ++ (nuclearRows k src us).map (nuclearLine k.units)) ∧
        (doExport = true → s'.own.txt = some (s'.own.rows.map (nuclearLine k.units)))) := by
  have main : (∀ e, evolve ph c ab Tf init fuel (s.hist, s.own.uni) = .error e →
      evolveK ph c ab k freq src Tf doExport init fuel s = .error e) ∧
    (evolve ph c ab Tf init fuel (s.hist, s.own.uni) = .ok none →
      evolveK ph c ab k freq src Tf doExport init fuel s = .ok none) ∧
    (∀ q, evolve ph c ab Tf init fuel (s.hist, s.own.uni) = .ok (some q) →
      ∃ s', evolveK ph c ab k freq src Tf doExport init fuel s = .ok (some s') ∧ s'.hist = q.1 ∧ s'.own.uni = q.2 ∧
      ∃ d₀ u₀ us rows, evolveStart ph c init (s.hist, s.own.uni) = .ok (d₀, u₀) ∧
        Iterates ph c ab (d₀, u₀) us (s'.hist, s'.own.uni) ∧
        s'.hist = d₀ ++ rows ∧ rows.length = us.length ∧
        List.Forall₂ SameState (rows.filter fun r => decide (r.T ≤ k.Tk)) (nuclearRows k src us) ∧
        s'.own.rows = s.own.rows ++ nuclearRows k src us ∧
        s'.own.log = (if doExport then LogFile.closed else LogFile.opened)
          (l ++ (nuclearRows k src us).map (nuclearLine k.units)) ∧
        (doExport = true → s'.own.txt = some (s'.own.rows.map (nuclearLine k.units)))) := by
    unfold evolve evolveK
    cases h0 : evolveStart ph c init (s.hist, s.own.uni) with
    | error e => simp
    | ok q =>
      obtain ⟨d₀, u₀⟩ := q
      simp only
      obtain ⟨k1, k2, k3⟩ := evolveLoopK_opened ph c ab k freq src Tf fuel ⟨d₀, { s.own with uni := u₀ }⟩
        (fun _ => hfreq) hon l hl
      dsimp only at k1 k2 k3
      cases hq : evolveLoop ph c ab Tf fuel (d₀, u₀) with
      | error e => rw [k1 e hq]; simp
      | ok o =>
        cases o with
        | none => rw [k2 hq]; simp
        | some q' =>
          obtain ⟨s₂, us, e₂, eh, eu, it, rf, ron, rr, rl⟩ := k3 q' hq
          rw [e₂]
          simp only [eu]
          by_cases hT : q'.2.params.T > 0
          · rw [if_pos hT, if_pos hT]
            refine ⟨by simp, ?_, fun q hq' => ?_⟩
            · simp
            obtain rfl := Option.some.inj (Except.ok.inj hq')
            obtain ⟨rows, t1, t2, t3⟩ := it.rows k src
            have it' : Iterates ph c ab (d₀, u₀) us (s₂.hist, s₂.own.uni) := by rw [eh, eu]; exact it
            have t1' : s₂.hist = d₀ ++ rows := by rw [eh, t1]
            have rf' : s₂.own.folder = true := rf.trans hf
            have ron' : s₂.own.on = true := ron.trans hon
            have r12 : ∀ r ∈ s₂.own.rows, r.length = 12 := by
              intro r hr
              rw [rr] at hr
              rcases List.mem_append.mp hr with h | h
              · exact h12 r h
              · obtain ⟨u, -, rfl⟩ := List.mem_map.mp h
                exact nuclearRow_length k _ u
            cases doExport with
            | false =>
              refine ⟨s₂, by simp, eh, eu, d₀, u₀, us, rows, rfl, it', t1', t2, t3, rr, rl, by simp⟩
            | true =>
              have ee : s₂.own.exportK k = .ok { s₂.own with
                  log := .closed (l ++ (nuclearRows k src us).map (nuclearLine k.units))
                  txt := some (s₂.own.rows.map (nuclearLine k.units)) } := by
                have tx : s₂.own.rows.map (kawanoLine k.units) = s₂.own.rows.map (nuclearLine k.units) :=
                  List.map_congr_left fun r hr => kawanoLine_twelve _ r (r12 r hr)
                unfold KUni.exportK
                rw [if_pos rf', if_pos ron', rl]
                simp only [KUni.writeTxt, ron', if_true, tx]
              rw [ee]
              exact ⟨⟨s₂.hist, ⟨s₂.own.uni, s₂.own.folder, s₂.own.on, s₂.own.rows,
                .closed (l ++ (nuclearRows k src us).map (nuclearLine k.units)),
                some (s₂.own.rows.map (nuclearLine k.units))⟩⟩, by simp, eh, eu, d₀, u₀, us, rows, rfl, it', t1', t2, t3,
                rr, rfl, fun _ => rfl⟩
          · rw [if_neg hT, if_neg hT]; simp
  obtain ⟨m1, m2, m3⟩ := main
  refine ⟨fun e => ⟨fun h' => ?_, m1 e⟩, ⟨fun h' => ?_, m2⟩, fun d' u' => ⟨fun h' => ?_, ?_⟩, fun s' h' => ?_⟩
  · cases hE : evolve ph c ab Tf init fuel (s.hist, s.own.uni) with
    | error e' => rw [m1 e' hE] at h'; rw [Except.error.inj h']
    | ok o =>
      cases o with
      | none => rw [m2 hE] at h'; cases h'
      | some q => obtain ⟨s', e', -⟩ := m3 q hE; rw [e'] at h'; cases h'
  · cases hE : evolve ph c ab Tf init fuel (s.hist, s.own.uni) with
    | error e' => rw [m1 e' hE] at h'; cases h'
    | ok o =>
      cases o with
      | none => rfl
      | some q => obtain ⟨s', e', -⟩ := m3 q hE; rw [e'] at h'; cases h'
  · obtain ⟨s', e', a1, a2, -⟩ := m3 _ h'
    exact ⟨s', e', a1, a2⟩
  · rintro ⟨s', e', hd, hu⟩
    cases hE : evolve ph c ab Tf init fuel (s.hist, s.own.uni) with
    | error e'' => rw [m1 e'' hE] at e'; cases e'
    | ok o =>
      cases o with
      | none => rw [m2 hE] at e'; cases e'
      | some q =>
        obtain ⟨s'', e'', a1, a2, -⟩ := m3 q hE
        rw [e''] at e'
        obtain rfl := Option.some.inj (Except.ok.inj e')
        rw [← hd, ← hu, a1, a2]
  · cases hE : evolve ph c ab Tf init fuel (s.hist, s.own.uni) with
    | error e'' => rw [m1 e'' hE] at h'; cases h'
    | ok o =>
      cases o with
      | none => rw [m2 hE] at h'; cases h'
      | some q =>
        obtain ⟨s'', e'', -, -, a3⟩ := m3 q hE
        rw [e''] at h'
        obtain rfl := Option.some.inj (Except.ok.inj h')
        exact a3

/-! ## Without an open file -/

/-- The exception of writing to what is in `kawano_log`. -/
def LogFile.failure : LogFile → Option Err
  | .absent => some .attributeError
  | .closed _ => some .valueError
  | .opened _ => none

theorem loopBodyK_failure (ph : Physics W) (c : Consts) (ab : Bool) (k : KSetup W) (freq : ℕ) (hfreq : freq ≠ 0)
    (src : Option (Uni W)) (s : KRun W) (hon : s.own.on = true) (e : Err) (hl : s.own.log.failure = some e)
    (q : List Row × Uni W) (h : loopBody ph c ab (s.hist, s.own.uni) = .ok q) :
    (q.2.params.T ≤ k.Tk → loopBodyK ph c ab k freq src s = .error e) ∧
    (¬ q.2.params.T ≤ k.Tk → ∃ s', loopBodyK ph c ab k freq src s = .ok s' ∧ s'.hist = q.1 ∧ s'.own.uni = q.2 ∧
      s'.own.on = true ∧ s'.own.log = s.own.log) := by
  unfold loopBody at h
  cases hm : makeStep ph c ab s.hist s.own.uni with
  | error e => simp only [hm] at h; cases h
  | ok u =>
    simp only [hm] at h
    cases hs : saveParams s.hist u with
    | error e => rw [hs] at h; cases h
    | ok d =>
      rw [hs] at h
      obtain rfl := Except.ok.inj h
      dsimp only
      unfold loopBodyK
      simp only [hm]
      refine ⟨fun hT => ?_, fun hT => ?_⟩
      · rw [saveKawano_cold k src s u d hs hon hT]
        cases hlog : s.own.log with
        | absent => rw [hlog] at hl; cases hl; rfl
        | closed l => rw [hlog] at hl; cases hl; rfl
        | opened l => rw [hlog] at hl; cases hl
      · rw [saveKawano_hot k src s u d hs (fun h => hT h.2)]
        dsimp only
        by_cases ho : s.own.folder = true
        · rw [if_pos ho, if_neg hfreq]
          by_cases hz : (u.step + 1) % freq = 0
          · rw [if_pos hz]
            refine ⟨_, rfl, rfl, ?_, ?_, ?_⟩ <;> · unfold KUni.writeTxt; split <;> first | rfl | exact hon
          · rw [if_neg hz]
            exact ⟨_, rfl, rfl, rfl, hon, rfl⟩
        · rw [if_neg ho]
          exact ⟨_, rfl, rfl, rfl, hon, rfl⟩

theorem evolveLoopK_failure (ph : Physics W) (c : Consts) (ab : Bool) (k : KSetup W) (freq : ℕ) (hfreq : freq ≠ 0)
    (src : Option (Uni W)) (Tf : ℝ) (fuel : ℕ) (s : KRun W) (hon : s.own.on = true) (e : Err)
    (hl : s.own.log.failure = some e) (q : List Row × Uni W)
    (h : evolveLoop ph c ab Tf fuel (s.hist, s.own.uni) = .ok (some q)) (hT : s.own.uni.params.T > Tf)
    (hq : q.2.params.T ≤ k.Tk) : evolveLoopK ph c ab k freq src Tf fuel s = .error e := by
  induction fuel generalizing s with
  | zero => unfold evolveLoop at h; simp [hT] at h
  | succ n ih =>
    unfold evolveLoop at h
    unfold evolveLoopK
    simp only [hT, if_true] at h ⊢
    cases hb : loopBody ph c ab (s.hist, s.own.uni) with
    | error e => rw [hb] at h; cases h
    | ok q₁ =>
      rw [hb] at h
      simp only at h
      obtain ⟨g1, g2⟩ := loopBodyK_failure ph c ab k freq hfreq src s hon e hl q₁ hb
      by_cases hc : q₁.2.params.T ≤ k.Tk
      · rw [g1 hc]
      · obtain ⟨s', e', e1, e2, e3, e4⟩ := g2 hc
        rw [e']
        by_cases hT' : q₁.2.params.T > Tf
        · refine ih s' e3 (e4 ▸ hl) ?_ (e2 ▸ hT')
          rw [e1, e2]; exact h
        · exfalso
          have : q = q₁ := by
            unfold evolveLoop at h
            cases n <;> · simp only [hT', if_false] at h; exact (Option.some.inj (Except.ok.inj h)).symm
          rw [this] at hq
          exact hc hq

theorem evolveStart_length {ph : Physics W} {c : Consts} {init : Bool} {s q : List Row × Uni W}
    (h : evolveStart ph c init s = .ok q) : q.1.length = s.1.length + 1 := by
  unfold evolveStart at h
  dsimp only at h
  split at h
  · cases h
  · rename_i d hd
    obtain rfl := Except.ok.inj h
    unfold saveParams at hd
    split at hd
    · obtain rfl := Except.ok.inj hd; simp
    · cases hd
    · cases hd

/-- **C128 (no file).** If the log was never opened, or was closed by an earlier export, every run which makes a step and gets
below `T_kawano` raises, at the first such step: `AttributeError` for the missing file, `ValueError` for the closed one. -/
theorem C128_no_file (ph : Physics W) (c : Consts) (ab : Bool) (k : KSetup W) (freq : ℕ) (hfreq : freq ≠ 0)
    (src : Option (Uni W)) (Tf : ℝ) (doExport init : Bool) (fuel : ℕ) (s : KRun W) (hon : s.own.on = true) (e : Err)
    (hl : s.own.log.failure = some e) (d' : List Row) (u' : Uni W)
    (h : evolve ph c ab Tf init fuel (s.hist, s.own.uni) = .ok (some (d', u')))
    (hsteps : s.hist.length + 1 < d'.length) (hT : u'.params.T ≤ k.Tk) :
    evolveK ph c ab k freq src Tf doExport init fuel s = .error e := by
  unfold evolve at h
  unfold evolveK
  cases h0 : evolveStart ph c init (s.hist, s.own.uni) with
  | error e => rw [h0] at h; cases h
  | ok q =>
    obtain ⟨d₀, u₀⟩ := q
    rw [h0] at h
    simp only at h ⊢
    cases hq : evolveLoop ph c ab Tf fuel (d₀, u₀) with
    | error e => rw [hq] at h; cases h
    | ok o =>
      rw [hq] at h
      cases o with
      | none => cases h
      | some q' =>
        simp only at h
        split at h
        · obtain rfl := Option.some.inj (Except.ok.inj h)
          by_cases hT0 : u₀.params.T > Tf
          · rw [evolveLoopK_failure ph c ab k freq hfreq src Tf fuel ⟨d₀, { s.own with uni := u₀ }⟩ hon e hl (d', u') hq hT0 hT]
          · exfalso
            have : (d', u') = (d₀, u₀) := by
              unfold evolveLoop at hq
              cases fuel <;> · simp only [hT0, if_false] at hq; exact (Option.some.inj (Except.ok.inj hq)).symm
            have := evolveStart_length h0
            simp_all
        · cases h

/-- **C128 (no folder), refuted.** A universe created without a folder raises as soon as it gets below `T_kawano` if
`init_kawano` was called, whatever its particles: the nuclear table cannot be had in memory only. -/
theorem C128_folder_refuted (ph : Physics W) (c : Consts) (ab : Bool) (k : KSetup W) (freq : ℕ) (hfreq : freq ≠ 0)
    (Tf : ℝ) (doExport init : Bool) (fuel : ℕ) (hist : List Row) (u : Uni W) (d' : List Row) (u' : Uni W)
    (h : evolve ph c ab Tf init fuel (hist, u) = .ok (some (d', u'))) (hsteps : hist.length + 1 < d'.length)
    (hT : u'.params.T ≤ k.Tk) :
    KProc.evolve ph c ab k freq Tf doExport init fuel (KProc.initKawano ⟨hist, [KUni.new u false], none⟩ 0) 0 =
      .error .attributeError := by
  have := C128_no_file ph c ab k freq hfreq none Tf doExport init fuel ⟨hist, ⟨u, false, true, [], .absent, none⟩⟩ rfl
    .attributeError rfl d' u' h hsteps hT
  simp [KProc.evolve, KProc.source, KProc.initKawano, KUni.new, this]

/-- **C128 (second call), refuted.** After a run which exported its results, a further call of `evolve` on the same universe
raises `ValueError` once it makes a step to a temperature below `T_kawano`. -/
theorem C128_again_refuted (ph : Physics W) (c : Consts) (ab : Bool) (k : KSetup W) (freq : ℕ) (hfreq : freq ≠ 0)
    (src src' : Option (Uni W)) (Tf Tf' : ℝ) (doExport init init' : Bool) (fuel fuel' : ℕ) (s s₁ : KRun W)
    (hf : s.own.folder = true) (hon : s.own.on = true) (l : List (List ℝ)) (hl : s.own.log = .opened l)
    (h₁ : evolveK ph c ab k freq src Tf true init fuel s = .ok (some s₁)) (d' : List Row) (u' : Uni W)
    (h : evolve ph c ab Tf' init' fuel' (s₁.hist, s₁.own.uni) = .ok (some (d', u')))
    (hsteps : s₁.hist.length + 1 < d'.length) (hT : u'.params.T ≤ k.Tk) :
    evolveK ph c ab k freq src' Tf' doExport init' fuel' s₁ = .error .valueError := by
  have key : s₁.own.on = true ∧ ∃ l', s₁.own.log = .closed l' := by
    unfold evolveK at h₁
    cases h0 : evolveStart ph c init (s.hist, s.own.uni) with
    | error e => rw [h0] at h₁; cases h₁
    | ok q =>
      obtain ⟨d₀, u₀⟩ := q
      rw [h0] at h₁
      simp only at h₁
      obtain ⟨k1, k2, k3⟩ := evolveLoopK_opened ph c ab k freq src Tf fuel ⟨d₀, { s.own with uni := u₀ }⟩
        (fun _ => hfreq) hon l hl
      cases hq : evolveLoop ph c ab Tf fuel (d₀, u₀) with
      | error e => rw [k1 e hq] at h₁; cases h₁
      | ok o =>
        cases o with
        | none => rw [k2 hq] at h₁; cases h₁
        | some q' =>
          obtain ⟨s₂, us, e₂, eh, eu, it, rf, ron, rr, rl⟩ := k3 q' hq
          rw [e₂] at h₁
          simp only at h₁
          split at h₁
          · simp only [if_true] at h₁
            unfold KUni.exportK at h₁
            have rf' : s₂.own.folder = true := rf.trans hf
            have ron' : s₂.own.on = true := ron.trans hon
            rw [if_pos rf', if_pos ron', rl] at h₁
            simp only [KUni.writeTxt, ron', if_true] at h₁
            obtain rfl := Option.some.inj (Except.ok.inj h₁)
            exact ⟨rfl, _, rfl⟩
          · cases h₁
  obtain ⟨k1, l', k2⟩ := key
  exact C128_no_file ph c ab k freq hfreq src' Tf' doExport init' fuel' s₁ k1 .valueError (by rw [k2]; rfl) d' u' h hsteps hT

/-! ## Without a nuclear table -/

theorem saveKawano_off (k : KSetup W) (src : Option (Uni W)) (s : KRun W) (u : Uni W) (hoff : s.own.on = false) :
    saveKawano k src s u = (saveParams s.hist u).map fun data => ⟨data, { s.own with uni := u }⟩ := by
  unfold saveKawano
  cases saveParams s.hist u with
  | error e => rfl
  | ok data => simp [hoff, Except.map]

theorem loopBodyK_off (ph : Physics W) (c : Consts) (ab : Bool) (k : KSetup W) (freq : ℕ) (hfreq : freq ≠ 0)
    (src : Option (Uni W)) (s : KRun W) (hoff : s.own.on = false) :
    loopBodyK ph c ab k freq src s =
      (loopBody ph c ab (s.hist, s.own.uni)).map fun q => ⟨q.1, { s.own with uni := q.2 }⟩ := by
  unfold loopBodyK loopBody
  simp only
  cases makeStep ph c ab s.hist s.own.uni with
  | error e => rfl
  | ok u =>
    simp only [saveKawano_off k src s u hoff]
    cases saveParams s.hist u with
    | error e => rfl
    | ok data =>
      simp only [Except.map, KUni.writeTxt, hoff, Bool.false_eq_true, if_false, hfreq]
      split_ifs <;> rfl

theorem evolveLoopK_off (ph : Physics W) (c : Consts) (ab : Bool) (k : KSetup W) (freq : ℕ) (hfreq : freq ≠ 0)
    (src : Option (Uni W)) (Tf : ℝ) (fuel : ℕ) (s : KRun W) (hoff : s.own.on = false) :
    evolveLoopK ph c ab k freq src Tf fuel s =
      (evolveLoop ph c ab Tf fuel (s.hist, s.own.uni)).map
        (Option.map fun q => ⟨q.1, { s.own with uni := q.2 }⟩) := by
  induction fuel generalizing s with
  | zero =>
    unfold evolveLoopK evolveLoop
    by_cases hT : s.own.uni.params.T > Tf
    · simp [hT, Except.map]
    · simp [hT, Except.map]
  | succ n ih =>
    unfold evolveLoopK evolveLoop
    by_cases hT : s.own.uni.params.T > Tf
    · simp only [hT, if_true, loopBodyK_off ph c ab k freq hfreq src s hoff]
      cases loopBody ph c ab (s.hist, s.own.uni) with
      | error e => rfl
      | ok q => exact ih ⟨q.1, { s.own with uni := q.2 }⟩ hoff
    · simp [hT, Except.map]

/-- **C128 (not asked for).** Without `init_kawano`, a run is the plain one and leaves table, log and `kawano.txt` alone, with or
without a folder and an export. -/
theorem C128_off (ph : Physics W) (c : Consts) (ab : Bool) (k : KSetup W) (freq : ℕ) (hfreq : freq ≠ 0)
    (src : Option (Uni W)) (Tf : ℝ) (doExport init : Bool) (fuel : ℕ) (s : KRun W) (hoff : s.own.on = false) :
    evolveK ph c ab k freq src Tf doExport init fuel s =
      (evolve ph c ab Tf init fuel (s.hist, s.own.uni)).map
        (Option.map fun q => ⟨q.1, { s.own with uni := q.2 }⟩) := by
  unfold evolveK evolve
  cases evolveStart ph c init (s.hist, s.own.uni) with
  | error e => rfl
  | ok q =>
    obtain ⟨d, u⟩ := q
    simp only [evolveLoopK_off ph c ab k freq hfreq src Tf fuel ⟨d, { s.own with uni := u }⟩ hoff]
    cases evolveLoop ph c ab Tf fuel (d, u) with
    | error e => rfl
    | ok o =>
      cases o with
      | none => rfl
      | some r =>
        simp only [Except.map, Option.map]
        by_cases hT : r.2.params.T > 0
        · cases doExport <;> simp [hT, KUni.exportK, hoff]
        · simp [hT]

/-! ## Several universes -/

/-- **C128 (own species).** If a universe is the last one for which `init_kawano` was called, the rates in its table are
computed from its own electrons and neutrinos.  If it was called for another one since, they are computed from the species of
that one, in the state in which they are. -/
theorem C128_species (ph : Physics W) (c : Consts) (ab : Bool) (k : KSetup W) (freq : ℕ) (hfreq : freq ≠ 0)
    (Tf : ℝ) (doExport init : Bool) (fuel : ℕ) (p p' : KProc W) (i j : ℕ) (o v : KUni W) (hi : p.unis[i]? = some o)
    (hj : p.unis[j]? = some v) (hf : o.folder = true)
    (h : KProc.evolve ph c ab k freq Tf doExport init fuel ((p.initKawano i).initKawano j) i = .ok (some p')) :
    ∃ o' us d₀ u₀, p'.unis[i]? = some o' ∧ evolveStart ph c init (p.hist, o.uni) = .ok (d₀, u₀) ∧
      Iterates ph c ab (d₀, u₀) us (p'.hist, o'.uni) ∧
      o'.rows = (coldStates k us).map fun u => nuclearRow k (if j = i then u else v.uni) u := by
  have hlen : i < p.unis.length := (List.getElem?_eq_some_iff.mp hi).1
  have hu : ((p.initKawano i).initKawano j).unis[i]? =
      some { o with on := true, rows := [], log := .opened [] } := by
    by_cases e : j = i
    · subst e
      simp [KProc.initKawano, hi, hf]
    · simp [KProc.initKawano, hi, hf, List.getElem?_modify, e]
  have hs : ((p.initKawano i).initKawano j).source i = if j = i then none else some v.uni := by
    by_cases e : j = i
    · simp [KProc.source, KProc.initKawano, e]
    · have e' : ¬ i = j := fun h => e h.symm
      simp [KProc.source, KProc.initKawano, e, e', hj]
  unfold KProc.evolve at h
  rw [hu] at h
  simp only at h
  rw [hs] at h
  have hh : ((p.initKawano i).initKawano j).hist = p.hist := rfl
  rw [hh] at h
  have hun : ((p.initKawano i).initKawano j).unis.length = p.unis.length := by simp [KProc.initKawano]
  cases hE : evolveK ph c ab k freq (if j = i then none else some v.uni) Tf doExport init fuel
      ⟨p.hist, { o with on := true, rows := [], log := .opened [] }⟩ with
  | error e => rw [hE] at h; cases h
  | ok r =>
    rw [hE] at h
    cases r with
    | none => cases h
    | some s' =>
      simp only at h
      obtain rfl := Option.some.inj (Except.ok.inj h)
      obtain ⟨-, -, -, m⟩ := C128_table ph c ab k freq hfreq (if j = i then none else some v.uni) Tf doExport init fuel
        ⟨p.hist, { o with on := true, rows := [], log := .opened [] }⟩ hf rfl [] rfl (by simp)
      obtain ⟨d₀, u₀, us, rows, a1, a2, a3, a4, a5, a6, -⟩ := m s' hE
      refine ⟨s'.own, us, d₀, u₀, ?_, a1, a2, ?_⟩
      · simp [List.getElem?_set, hun, hlen]
      · rw [a6]
        unfold nuclearRows
        by_cases e : j = i
        · simp [e]
        · simp [e]

/-- **C128 (other species), refuted.** Even if the electrons and neutrinos of the two universes agree, the rates computed from
those of the other universe are wrong by the fifth power of the ratio of the scale factors. -/
theorem C128_species_refuted (k : KSetup W) (u v : Uni W) (hw : v.w = u.w) (hfe : k.fe v.w v.params = k.fe u.w u.params)
    (hfn : k.fnu v.w v.params = k.fnu u.w u.params) (hu : u.params.a ≠ 0) (hv : v.params.a ≠ 0) :
    k.rates v u.params.a = (k.rates u u.params.a).map fun r => (u.params.a / v.params.a) ^ 5 * r := by
  unfold KSetup.rates KEnv.baryonicRates
  rw [hfe, hfn, hw, List.map_map]
  refine List.map_congr_left fun x _ => ?_
  simp only [Function.comp_apply]
  split_ifs
  · field_simp
  · simp

/-! ## The temperature of the rates -/

/-- **C128 (temperature of the rates).** As long as electrons and neutrinos are in equilibrium, the six rates of a row have the
ratios of thermal equilibrium at the temperature which the plasma had at the beginning of the step, red-shifted to its end: the
exponent is `q a₁ / (aT)₀`, with the scale factor after and the comoving temperature before the step.  It is the `q / T₁` of the
row exactly if the comoving temperature did not change. -/
theorem C128_temperature {ι : Type*} (spE spN : Species) (dE dN : PState ι → Params → ℝ) (p₀ p₁ : Params)
    (sE sN : PState ι) (q norm : ℝ) (Q : (ℝ → ℝ) → ℝ → ℝ → ℝ) (hQ : PosQuad Q) (ymin ymax : ℝ) (hy : 0 ≤ ymin)
    (hE1 : spE.fermion = true) (hE2 : 0 < spE.mass) (hN1 : spN.fermion = true) (hN2 : spN.mass = 0)
    (hqE : 0 ≤ q) (ha : 0 < p₁.a)
    (eqE : inEq spE sE = true) (eqN : inEq spN sN = true)
    (eqE' : inEq spE (particleUpdate spE dE p₀ sE) = true) (eqN' : inEq spN (particleUpdate spN dN p₀ sN) = true)
    (fe fn : ℝ → ℝ) (hfe : ∀ y, particleDistribution spE p₁ (particleUpdate spE dE p₀ sE) y = .ok (fe y))
    (hfn : ∀ y, particleDistribution spN p₁ (particleUpdate spN dN p₀ sN) y = .ok (fn y)) :
    (∃ r2 r4 r6, KEnv.baryonicRates ⟨q, spE.mass, p₁.a, fe, fn⟩ Q norm p₁.a ymin ymax =
      [Real.exp (q * p₁.a / p₀.aT) * r2, r2, Real.exp (q * p₁.a / p₀.aT) * r4, r4,
       Real.exp (q * p₁.a / p₀.aT) * r6, r6]) ∧
    (0 < q → 0 < p₀.aT → 0 < p₁.aT → p₁.T = p₁.aT / p₁.a →
      (Real.exp (q * p₁.a / p₀.aT) = Real.exp (q / p₁.T) ↔ p₁.aT = p₀.aT)) := by
  have upd : ∀ (sp : Species) (d : PState ι → Params → ℝ) (s : PState ι), inEq sp s = true →
      (particleUpdate sp d p₀ s).aT = p₀.aT := by
    intro sp d s h
    unfold particleUpdate
    simp only [h, true_or, if_true]
    split_ifs <;> simp [initDistribution] <;> split_ifs <;> rfl
  have e1 : ∀ y, fe y = 1 / (Real.exp (√(y ^ 2 + (spE.mass * p₁.a) ^ 2) / p₀.aT) + 1) := by
    intro y
    have := hfe y
    unfold particleDistribution at this
    rw [if_pos eqE', upd spE dE sE eqE] at this
    rw [← Except.ok.inj this]
    simp [conformalEnergy, hE2, Species.eta, hE1]
  have e2 : ∀ y, fn y = 1 / (Real.exp (|y| / p₀.aT) + 1) := by
    intro y
    have := hfn y
    unfold particleDistribution at this
    rw [if_pos eqN', upd spN dN sN eqN] at this
    rw [← Except.ok.inj this]
    simp [conformalEnergy, hN2, Species.eta, hN1]
  refine ⟨?_, fun hq h0 h1 hT => ?_⟩
  · let fn' : ℝ → ℝ := fun y => 1 / (Real.exp (y / p₀.aT) + 1)
    have th : KEnv.Thermal ⟨q, spE.mass, p₁.a, fe, fn'⟩ p₀.aT := ⟨e1, fun y => rfl⟩
    obtain ⟨r2, r4, r6, e⟩ := KEnv.C51_rates_balance ⟨q, spE.mass, p₁.a, fe, fn'⟩ Q hQ norm p₁.a ymin ymax p₀.aT
      (by positivity) th
    refine ⟨r2, r4, r6, ?_⟩
    rw [← e]
    have hnn : ∀ y, 0 ≤ y → fn y = fn' y := by
      intro y hy0
      rw [e2, abs_of_nonneg hy0]
    have hqm : 0 ≤ (q + spE.mass) * p₁.a := by positivity
    have cg : ∀ (f g : ℝ → ℝ) (a b : ℝ), 0 ≤ a → (∀ y, 0 ≤ y → f y = g y) →
        (if a < b then norm / p₁.a ^ 5 * Q f a b else 0) = if a < b then norm / p₁.a ^ 5 * Q g a b else 0 := by
      intro f g a b h0 hfg
      split_ifs with hab
      · rw [hQ.congr f g a b hab.le fun y h1 _ => hfg y (h0.trans h1)]
      · rfl
    unfold KEnv.baryonicRates KEnv.jobs
    simp only [List.map_cons, List.map_nil]
    refine congrArg₂ List.cons ?_ (congrArg₂ List.cons ?_ (congrArg₂ List.cons ?_ (congrArg₂ List.cons ?_
      (congrArg₂ List.cons ?_ (congrArg₂ List.cons ?_ rfl)))))
    · exact cg _ _ _ _ hy fun y h => by simp only [KEnv.rate1, KEnv.ye, hnn y h]
    · exact cg _ _ _ _ hy fun y h => by simp only [KEnv.rate2, KEnv.ye, hnn y h]
    · exact cg _ _ _ _ hy fun y h => by simp only [KEnv.rate3, KEnv.ye, hnn y h]
    · exact cg _ _ _ _ hy fun y h => by simp only [KEnv.rate4, KEnv.ye, hnn y h]
    · exact cg _ _ _ _ hqm fun y h => by simp only [KEnv.rate5, KEnv.ye, hnn y h]
    · exact cg _ _ _ _ hqm fun y h => by simp only [KEnv.rate6, KEnv.ye, hnn y h]
  · rw [Real.exp_eq_exp, hT, div_div_eq_mul_div, div_eq_div_iff h0.ne' h1.ne']
    constructor
    · intro h
      exact mul_left_cancel₀ (mul_pos hq ha).ne' h
    · intro h
      rw [h]

/-! ## Cases meeting the hypotheses -/

/-- Empty states, so the weak rates are those of the decay in vacuum; everything in MeV, threshold 10 MeV. -/
noncomputable def emptyKawano (un : Units) : KSetup Unit where
  q := 1.3
  me := 0.5
  Tk := 10
  norm := 1
  Q f a b := (b - a) * f ((a + b) / 2)
  ymin _ := 0
  ymax _ := 20
  fe _ _ _ := 0
  fnu _ _ _ := 0
  units := un

theorem evolve_below {ph : Physics W} {c : Consts} {ab : Bool} {Tf : ℝ} {init : Bool} {fuel : ℕ}
    {s q : List Row × Uni W} (h : evolve ph c ab Tf init fuel s = .ok (some q)) : q.2.params.T ≤ Tf := by
  have loop : ∀ (n : ℕ) (s q : List Row × Uni W), evolveLoop ph c ab Tf n s = .ok (some q) → q.2.params.T ≤ Tf := by
    intro n
    induction n with
    | zero =>
      intro s q h
      unfold evolveLoop at h
      by_cases hT : s.2.params.T > Tf
      · simp [hT] at h
      · simp only [hT, if_false] at h
        rw [← Option.some.inj (Except.ok.inj h)]
        exact not_lt.mp hT
    | succ n ih =>
      intro s q h
      unfold evolveLoop at h
      by_cases hT : s.2.params.T > Tf
      · simp only [hT, if_true] at h
        cases hb : loopBody ph c ab s with
        | error e => rw [hb] at h; cases h
        | ok t => rw [hb] at h; exact ih t q h
      · simp only [hT, if_false] at h
        rw [← Option.some.inj (Except.ok.inj h)]
        exact not_lt.mp hT
  unfold evolve at h
  cases h0 : evolveStart ph c init s with
  | error e => rw [h0] at h; cases h
  | ok t =>
    rw [h0] at h
    simp only at h
    cases hq : evolveLoop ph c ab Tf fuel t with
    | error e => rw [hq] at h; cases h
    | ok o =>
      rw [hq] at h
      cases o with
      | none => cases h
      | some r =>
        simp only at h
        split at h
        · rw [← Option.some.inj (Except.ok.inj h)]; exact loop _ _ _ hq
        · cases h

/-- Three steps from 10 MeV with a folder: the files are closed with one line per row of the nuclear table, and the main
table has one more. -/
example (un : Units) : ∃ s' l, evolveK tenthPhysics ⟨1, 1⟩ true (emptyKawano un) 100 none 8.8 true true 3
      ⟨[], ⟨Uni.new () demoParams, true, true, [], .opened [], none⟩⟩ = .ok (some s') ∧ s'.own.log = .closed l ∧
    s'.own.txt = some l ∧ s'.hist.length = 4 := by
  obtain ⟨d, u, h, hf, -⟩ := tenth_three
  obtain ⟨-, -, m3, m4⟩ := C128_table tenthPhysics ⟨1, 1⟩ true (emptyKawano un) 100 (by norm_num) none 8.8 true true 3
    ⟨[], ⟨Uni.new () demoParams, true, true, [], .opened [], none⟩⟩ rfl rfl [] rfl (by simp)
  obtain ⟨s', e, e1, e2⟩ := (m3 d u).mp h
  obtain ⟨d₀, u₀, us, rows, -, -, -, -, -, a6, a7, a8⟩ := m4 s' e
  refine ⟨s', _, e, a7, ?_, ?_⟩
  · rw [a8 rfl, a6]; simp [emptyKawano]
  · rw [e1]
    have := congrArg List.length hf
    simpa using this

/-- The same without a folder raises. -/
example (un : Units) : KProc.evolve tenthPhysics ⟨1, 1⟩ true (emptyKawano un) 100 8.8 true true 3
    (KProc.initKawano ⟨[], [KUni.new (Uni.new () demoParams) false], none⟩ 0) 0 = .error .attributeError := by
  obtain ⟨d, u, h, hf, -⟩ := tenth_three
  have hl : d.length = 4 := by have := congrArg List.length hf; simpa using this
  refine C128_folder_refuted tenthPhysics ⟨1, 1⟩ true (emptyKawano un) 100 (by norm_num) 8.8 true true 3 [] _ d u h
    (by rw [hl]; simp) ?_
  have := evolve_below h
  dsimp only at this
  simp only [emptyKawano]
  linarith

/-- Explicit steps to 9.6 MeV, then on to 9.3 MeV in a second call, which adds more than its initial row. -/
theorem euler_again : ∃ s1 s2, evolve tenthPhysics ⟨1, 1⟩ false 9.6 true 1 ([], Uni.new () demoParams) = .ok (some s1) ∧
    evolve tenthPhysics ⟨1, 1⟩ false 9.3 false 1 s1 = .ok (some s2) ∧ s1.1.length + 1 < s2.1.length := by
  obtain ⟨s0, h0, l0, x0, dx0, h0', dy0, m0, aT0, T0, fr0⟩ := tenth_start
  obtain ⟨s1, h1, p1, f1⟩ := tenth_step false s0 l0 (by rw [x0]; norm_num)
  have x1 : s1.2.params.x = 0.105 := by rw [p1.x, x0, dx0]; norm_num
  have dx1 : s1.2.params.dx = 0.105 * 0.05 := by rw [p1.dx, if_pos l0, x1, dy0]
  have aT1 : s1.2.params.aT = 1.005 := by
    obtain ⟨g, e, hg, -⟩ := p1.aT
    rw [e, aT0, hg rfl, f1, h0']; norm_num
  have T1 : s1.2.params.T = 1.005 / 0.105 := by rw [p1.T, p1.a, p1.m, m0, aT1, x1]; norm_num
  have e1 : evolve tenthPhysics ⟨1, 1⟩ false 9.6 true 1 ([], Uni.new () demoParams) = .ok (some s1) := by
    refine evolve_of_parts h0 ?_ (by rw [T1]; norm_num)
    rw [loop_once (by rw [T0]; norm_num) h1, loop_stop (by rw [T1]; norm_num)]
  obtain ⟨pre, r, e, hrow, hs⟩ := second_start demoParams_reg e1 false
  simp only [Bool.false_eq_true, if_false] at hs
  obtain ⟨s3, h3, p3, f3⟩ := tenth_step false (s1.1 ++ [r], s1.2) (by simp only; rw [p1.log, l0])
    (by simp only; rw [x1]; norm_num)
  have x3 : s3.2.params.x = 0.11025 := by rw [p3.x]; simp only; rw [x1, dx1]; norm_num
  have aT3 : s3.2.params.aT = 1.01 := by
    obtain ⟨g, e, hg, -⟩ := p3.aT
    rw [e, hg rfl, f3]; simp only; rw [aT1, p1.h, h0']; norm_num
  have T3 : s3.2.params.T = 1.01 / 0.11025 := by
    rw [p3.T, p3.a, p3.m]; simp only; rw [p1.m, m0, aT3, x3]; norm_num
  refine ⟨s1, s3, e1, evolve_of_parts hs ?_ (by rw [T3]; norm_num), ?_⟩
  · rw [loop_once (by simp only; rw [T1]; norm_num) h3, loop_stop (by rw [T3]; norm_num)]
  · obtain ⟨r', -, e'⟩ := p3.row
    rw [e']; simp

/-- The second call on a universe whose results have been exported raises. -/
example (un : Units) : ∃ s₁, evolveK tenthPhysics ⟨1, 1⟩ false (emptyKawano un) 100 none 9.6 true true 1
      ⟨[], ⟨Uni.new () demoParams, true, true, [], .opened [], none⟩⟩ = .ok (some s₁) ∧
    evolveK tenthPhysics ⟨1, 1⟩ false (emptyKawano un) 100 none 9.3 true false 1 s₁ = .error .valueError := by
  obtain ⟨⟨d₁, u₁⟩, ⟨d₂, u₂⟩, h1, h2, hl⟩ := euler_again
  obtain ⟨-, -, m3, -⟩ := C128_table tenthPhysics ⟨1, 1⟩ false (emptyKawano un) 100 (by norm_num) none 9.6 true true 1
    ⟨[], ⟨Uni.new () demoParams, true, true, [], .opened [], none⟩⟩ rfl rfl [] rfl (by simp)
  obtain ⟨s', e, rfl, rfl⟩ := (m3 d₁ u₁).mp h1
  refine ⟨s', e, C128_again_refuted tenthPhysics ⟨1, 1⟩ false (emptyKawano un) 100 (by norm_num) none none 9.6 9.3 true true
    false 1 1 _ s' rfl rfl [] rfl e d₂ u₂ h2 hl ?_⟩
  have := evolve_below h2
  dsimp only at this
  simp only [emptyKawano]
  linarith

/-- Without `init_kawano` the run of three steps needs no folder. -/
example (un : Units) : ∃ s', evolveK tenthPhysics ⟨1, 1⟩ true (emptyKawano un) 100 none 8.8 true true 3
      ⟨[], KUni.new (Uni.new () demoParams) false⟩ = .ok (some s') ∧ s'.own.rows = [] ∧ s'.hist.length = 4 := by
  obtain ⟨d, u, h, hf, -⟩ := tenth_three
  have e := C128_off tenthPhysics ⟨1, 1⟩ true (emptyKawano un) 100 (by norm_num) none 8.8 true true 3
    ⟨[], KUni.new (Uni.new () demoParams) false⟩ rfl
  simp only [KUni.new] at e ⊢
  rw [h] at e
  exact ⟨_, e, rfl, by have := congrArg List.length hf; simpa using this⟩

/-- Scale factors 1 and 2: rates too small by a factor 32. -/
example (un : Units) (v : Uni Unit) (hv : v.params.a = 2) (u : Uni Unit) (hu : u.params.a = 1) :
    (emptyKawano un).rates v 1 = ((emptyKawano un).rates u 1).map fun r => (1 / 2) ^ 5 * r := by
  have := C128_species_refuted (emptyKawano un) u v rfl rfl rfl (by rw [hu]; norm_num) (by rw [hv]; norm_num)
  rw [hu, hv] at this
  exact this

end PyBBN
