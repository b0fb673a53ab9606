import Verif.Model.Skip
import Verif.Props.Kinematics
import Verif.Props.Integrand
/-!
# C96, C97: consistency of skipping reactions; the cut left in the environment
-/
namespace PyBBN

/-! ## C96 -/

/-- **C96.** Scatterings: the decision is the same in the views of all four particles. -/
theorem C96_scattering (a b c d : SkipInfo) (relDec : Bool) (MeV : ℝ) (p : Params) :
    skip4 [b, a] [c, d] relDec MeV p = skip4 [a, b] [c, d] relDec MeV p ∧
    skip4 [a, b] [d, c] relDec MeV p = skip4 [a, b] [c, d] relDec MeV p ∧
    skip4 [c, d] [a, b] relDec MeV p = skip4 [a, b] [c, d] relDec MeV p ∧
    skip4 [d, c] [a, b] relDec MeV p = skip4 [a, b] [c, d] relDec MeV p := by
  cases a with | mk a1 a2 a3 a4 a5 a6 =>
  cases b with | mk b1 b2 b3 b4 b5 b6 =>
  cases c with | mk c1 c2 c3 c4 c5 c6 =>
  cases d with | mk d1 d2 d3 d4 d5 d6 =>
  simp only [skip4, neglect4, sideSum, List.cons_append, List.nil_append, pyCreation, pyScattering, pyDecay,
    List.length_cons, List.length_nil, Matrix.cons_val_zero, Matrix.cons_val_one, Matrix.cons_val]
  norm_num
  cases a2 <;> cases b2 <;> cases c2 <;> cases d2 <;> cases a5 <;> cases b5 <;> cases c5 <;> cases d5 <;> simp

/-- When a scattering is skipped: one particle on each side diluted, or a heavy neutrino takes part and the temperature is
below its scattering threshold. -/
theorem C96_scattering_iff (a b c d : SkipInfo) (relDec : Bool) (MeV : ℝ) (p : Params) :
    skip4 [a, b] [c, d] relDec MeV p = .ok true ↔
      ((a.diluted = true ∨ b.diluted = true) ∧ (c.diluted = true ∨ d.diluted = true)) ∨
      ((a.isHNL = true ∨ b.isHNL = true ∨ c.isHNL = true ∨ d.isHNL = true) ∧
        (relDec = true ∧ p.T < p.m / p.aIni / 15 ∨ p.T < MeV)) := by
  cases a with | mk a1 a2 a3 a4 a5 a6 =>
  cases b with | mk b1 b2 b3 b4 b5 b6 =>
  cases c with | mk c1 c2 c3 c4 c5 c6 =>
  cases d with | mk d1 d2 d3 d4 d5 d6 =>
  simp only [skip4, neglect4, sideSum, List.cons_append, List.nil_append, pyCreation, pyScattering, pyDecay,
    List.length_cons, List.length_nil, Matrix.cons_val_zero, Matrix.cons_val_one, Matrix.cons_val]
  norm_num
  cases a2 <;> cases b2 <;> cases c2 <;> cases d2 <;> cases a5 <;> cases b5 <;> cases c5 <;> cases d5 <;> simp

/-- **C96.** Three-body decays `X ⟶ a b c`: when the integral of `X` is skipped and when those of the products are. -/
theorem C96_decay_iff (X a b c : SkipInfo) (relDec : Bool) (MeV : ℝ) (p : Params) :
    (skip4 [X] [a, b, c] relDec MeV p = .ok true ↔ X.idle = true ∨ X.isHNL = true ∧ X.mass < p.T) ∧
    (skip4 [a, b, c] [X] relDec MeV p = .ok true ↔ X.decayed = true ∨ X.idle = true) := by
  cases X with | mk x1 x2 x3 x4 x5 x6 =>
  constructor
  · simp only [skip4, neglect4, sideSum, List.cons_append, List.nil_append, pyCreation, pyScattering, pyDecay,
      List.length_cons, List.length_nil, Matrix.cons_val_zero, Matrix.cons_val_one, Matrix.cons_val]
    norm_num
  · simp only [skip4, neglect4, sideSum, List.cons_append, List.nil_append, pyCreation, pyScattering, pyDecay,
      List.length_cons, List.length_nil, Matrix.cons_val_zero, Matrix.cons_val_one, Matrix.cons_val]
    norm_num

/-- **C96.** Decays of particles that have not been declared decayed, the heavy neutrino above its mass excepted: skipped for
all participants or for none. -/
theorem C96_decay_partial (X a b c : SkipInfo) (relDec : Bool) (MeV : ℝ) (p : Params) (h1 : X.decayed = false)
    (h2 : X.isHNL = true → p.T ≤ X.mass) :
    skip4 [X] [a, b, c] relDec MeV p = .ok true ↔ skip4 [a, b, c] [X] relDec MeV p = .ok true := by
  obtain ⟨e1, e2⟩ := C96_decay_iff X a b c relDec MeV p
  rw [e1, e2, h1]
  constructor
  · rintro (h | ⟨h, h'⟩)
    · exact Or.inr h
    · exact absurd (h2 h) (not_le.mpr h')
  · rintro (h | h)
    · cases h
    · exact Or.inl h

/-- **C96 fails for the heavy neutrino above its mass**: its own loss is skipped while its decay products are
produced. -/
theorem C96_HNL_hot (X a b c : SkipInfo) (relDec : Bool) (MeV : ℝ) (p : Params) (h1 : X.decayed = false)
    (h2 : X.idle = false) (h3 : X.isHNL = true) (h4 : X.mass < p.T) :
    skip4 [X] [a, b, c] relDec MeV p = .ok true ∧ skip4 [a, b, c] [X] relDec MeV p = .ok false := by
  obtain ⟨e1, e2⟩ := C96_decay_iff X a b c relDec MeV p
  refine ⟨e1.mpr (Or.inr ⟨h3, h4⟩), ?_⟩
  have : ∃ v, skip4 [a, b, c] [X] relDec MeV p = .ok v := ⟨_, rfl⟩
  obtain ⟨v, hv⟩ := this
  cases v with
  | false => exact hv
  | true => rw [hv, h1, h2] at e2; simp at e2

/-- **C96.** Two-body decays of a massive `X`, kind `Full`: skipped for `X` when it is idle, for the products also when it
has decayed; there is no exception for the heavy neutrino. -/
theorem C96_two_body (X a b : SkipInfo) (hX : X.mass ≠ 0) (kind : CKind) (hk : kind = .full ∨ kind = .fullVac) :
    (skip3 [X] [a, b] kind = .ok true ↔ X.idle = true) ∧
    (skip3 [a, b] [X] kind = .ok true ↔ X.decayed = true ∨ X.idle = true) := by
  cases X with | mk x1 x2 x3 x4 x5 x6 =>
  have hX : x6 ≠ 0 := hX
  constructor
  · simp only [skip3, neglect3, sideSum, List.cons_append, List.nil_append, pyCreation, pyDecay, List.length_cons, List.length_nil]
    rcases hk with rfl | rfl <;> norm_num [hX]
  · simp only [skip3, neglect3, sideSum, List.cons_append, List.nil_append, pyCreation, pyDecay, List.length_cons, List.length_nil]
    rcases hk with rfl | rfl <;> norm_num

/-- A heavy neutrino of 100 MeV in a plasma of 150 MeV. -/
example (p : Params) (hT : p.T = 150) :
    skip4 [⟨false, false, false, false, true, 100⟩] [⟨false, false, false, false, false, 0⟩, ⟨false, false, false, false, false, 0⟩,
      ⟨false, false, false, false, false, 0⟩] false 1 p = .ok true ∧
    skip4 [⟨false, false, false, false, false, 0⟩, ⟨false, false, false, false, false, 0⟩, ⟨false, false, false, false, false, 0⟩]
      [⟨false, false, false, false, true, 100⟩] false 1 p = .ok false :=
  C96_HNL_hot _ _ _ _ _ _ _ rfl rfl rfl (by rw [hT]; norm_num)

/-! ## C97 -/

theorem cutRun_append (dflt : ℝ) (cs ds : List CutCall) (env : Option ℝ) :
    (cutRun dflt (cs ++ ds) env).2 = (cutRun dflt cs env).2 ++ (cutRun dflt ds (cutRun dflt cs env).1).2 ∧
    (cutRun dflt (cs ++ ds) env).1 = (cutRun dflt ds (cutRun dflt cs env).1).1 := by
  induction cs generalizing env with
  | nil => exact ⟨rfl, rfl⟩
  | cons c cs ih =>
    simp only [List.cons_append, cutRun]
    exact ⟨by rw [(ih _).1], (ih _).2⟩

theorem cutRun_noHNL (dflt : ℝ) (cs : List CutCall) (h : ∀ c ∈ cs, c.isHNL = false) (env : Option ℝ) :
    (cutRun dflt cs env).1 = env := by
  induction cs generalizing env with
  | nil => rfl
  | cons c cs ih =>
    simp only [cutRun]
    rw [ih fun x hx => h x (by simp [hx])]
    simp [cutCall, storeEnergy, h c (by simp)]

/-- **C97.** After a call for the heavy neutrino the bound of any later call is that of its latest call, whatever happened
before (other universes of the process included). -/
theorem C97_fresh_partial (dflt : ℝ) (cs mid : List CutCall) (h c : CutCall) (hh : h.isHNL = true)
    (hmid : ∀ x ∈ mid, x.isHNL = false) (hc : c.isHNL = false) (env : Option ℝ) :
    (cutRun dflt (cs ++ h :: (mid ++ [c])) env).2.getLast? =
      some (hnlMaxMom (energyOf h.confMass (h.maxMom / 10)) c.confMass dflt) := by
  rw [(cutRun_append _ _ _ _).1]
  set e := (cutRun dflt cs env).1
  have h1 : (cutRun dflt (h :: (mid ++ [c])) e).2 =
      (cutCall dflt h e).2 :: (cutRun dflt (mid ++ [c]) (cutCall dflt h e).1).2 := rfl
  have henv : (cutCall dflt h e).1 = some (energyOf h.confMass (h.maxMom / 10)) := by
    simp [cutCall, storeEnergy, hh, energyOf]
  rw [h1, henv, (cutRun_append _ _ _ _).1, cutRun_noHNL dflt mid hmid]
  have h2 : (cutRun dflt [c] (some (energyOf h.confMass (h.maxMom / 10)))).2 =
      [hnlMaxMom (energyOf h.confMass (h.maxMom / 10)) c.confMass dflt] := by
    simp only [cutRun, cutCall, storeEnergy, hc, decayMaxMom, scatteringMaxMom]
    simp
  rw [h2, ← List.cons_append, ← List.append_assoc, List.getLast?_append]
  simp

/-- **C97.** Before any call for the heavy neutrino, the bounds are those of the value found in the environment; without
one they are the default for scatterings and the whole grid for decays. -/
theorem C97_inherited (dflt : ℝ) (cs : List CutCall) (c : CutCall) (hcs : ∀ x ∈ cs, x.isHNL = false) (hc : c.isHNL = false) :
    (cutRun dflt (cs ++ [c]) none).2.getLast? = some (some (if c.decay then c.maxMom else dflt)) ∧
    ∀ e, (cutRun dflt (cs ++ [c]) (some e)).2.getLast? = some (hnlMaxMom e c.confMass dflt) := by
  refine ⟨?_, fun e => ?_⟩
  · rw [(cutRun_append _ _ _ _).1, cutRun_noHNL dflt cs hcs]
    have : (cutRun dflt [c] none).2 = [some (if c.decay then c.maxMom else dflt)] := by
      simp only [cutRun, cutCall, storeEnergy, hc, decayMaxMom, scatteringMaxMom]
      cases c.decay <;> simp
    rw [this]; simp
  · rw [(cutRun_append _ _ _ _).1, cutRun_noHNL dflt cs hcs]
    have : (cutRun dflt [c] (some e)).2 = [hnlMaxMom e c.confMass dflt] := by
      simp only [cutRun, cutCall, storeEnergy, hc, decayMaxMom, scatteringMaxMom]
      simp
    rw [this]; simp

/-- **C97: the result of a universe depends on what ran before it in the process.**  A scattering on a grid reaching above
the default bound: entries evaluated after a run with a heavy neutrino are 0 without one.  `g` is any
grid momentum at least one point above the default. -/
theorem C97_depends_on_past (dflt m e : ℝ) (grid : List ℝ) (hs : StrictInc grid) (j : ℕ) (hj : j + 1 < grid.length)
    (h1 : dflt ≤ grid[j]) (h2 : grid[j + 1] ≤ √(e ^ 2 - m ^ 2)) (hpos : 0 < √(e ^ 2 - m ^ 2)) (maxMom : ℝ) :
    grid[j + 1] ∈ (gridCut4Nan grid (scatteringMaxMom false (some e) maxMom m dflt)).1 ∧
    grid[j + 1] ∉ (gridCut4Nan grid (scatteringMaxMom false none maxMom m dflt)).1 := by
  have hne : grid ≠ [] := by intro h; rw [h] at hj; simp at hj
  have hsq : ¬ e ^ 2 - m ^ 2 < 0 := by
    intro h
    rw [Real.sqrt_eq_zero_of_nonpos h.le] at hpos
    exact lt_irrefl _ hpos
  constructor
  · have hb : scatteringMaxMom false (some e) maxMom m dflt = some (max (√(e ^ 2 - m ^ 2)) dflt) := by
      simp [scatteringMaxMom, hnlMaxMom, hsq]
    rw [hb]
    change _ ∈ (gridCut4 grid _).1
    obtain ⟨k, -, hk, -, -, hk1, -⟩ := C47_four grid hne hs (max (√(e ^ 2 - m ^ 2)) dflt)
    rw [hk, List.mem_take_iff_getElem]
    have := hk1 (j + 1) hj (le_max_of_le_left h2)
    exact ⟨j + 1, by omega, rfl⟩
  · have hb : scatteringMaxMom false none maxMom m dflt = some dflt := by simp [scatteringMaxMom]
    rw [hb]
    change _ ∉ (gridCut4 grid _).1
    obtain ⟨k, -, hk, -, -, -, hk2⟩ := C47_four grid hne hs dflt
    rw [hk, List.mem_take_iff_getElem]
    rintro ⟨i, hi, he⟩
    have hi' : i = j + 1 := hs.inj (by omega) hj he
    subst hi'
    have := hk2 (j + 1) hj (by omega) (by omega)
    simp only [Nat.add_sub_cancel] at this
    linarith

/-- A second universe after one with a heavy neutrino of energy 300 MeV at the cut, default 100 MeV. -/
example : (200 : ℝ) ∈ (gridCut4Nan [0, 100, 200] (scatteringMaxMom false (some 300) 200 0 100)).1 ∧
    (200 : ℝ) ∉ (gridCut4Nan [0, 100, 200] (scatteringMaxMom false none 200 0 100)).1 :=
  C97_depends_on_past 100 0 300 [0, 100, 200] (by norm_num [StrictInc]) 1 (by simp) (by norm_num)
    (by apply Real.le_sqrt_of_sq_le; norm_num) (by apply Real.sqrt_pos.mpr; norm_num) 200

/-- **C97: particles heavier than the stored energy are not cut.**  The bound of a particle whose mass exceeds the energy is nan, and
all momenta are kept, for scatterings and decays, however large they are. -/
theorem C97_heavy_uncut (dflt m e maxMom : ℝ) (grid : List ℝ) (he : |e| < m) :
    gridCut4Nan grid (scatteringMaxMom false (some e) maxMom m dflt) = (grid, []) ∧
    gridCut4Nan grid (decayMaxMom false (some e) maxMom m dflt) = (grid, []) := by
  have h : e ^ 2 - m ^ 2 < 0 := by
    have := sq_lt_sq' (by linarith [abs_nonneg e] : -m < |e|) he
    rw [sq_abs] at this
    linarith
  simp [scatteringMaxMom, decayMaxMom, hnlMaxMom, h, gridCut4Nan]

/-- A muon and a heavy neutrino of 80 MeV: no cut, although the default is 100 MeV. -/
example : gridCut4Nan [0, 100, 200, 300] (scatteringMaxMom false (some 80) 300 105.7 100) = ([0, 100, 200, 300], []) :=
  (C97_heavy_uncut 100 105.7 80 300 _ (by norm_num [abs_of_pos])).1

/-- **C97: the cut of decays loses particles.**  A product of 300 MeV and momentum 343.75 MeV of a heavy neutrino on its own grid
is above the momentum (266 MeV) up to which such particles are made to decay. -/
theorem C97_decay_cut_loses : ∃ u pB,
    decayMaxMom false (some (energyOf 400 (300 / 10))) 1000 300 100 = some u ∧ 0 ≤ pB ∧
    energyOf 300 343.75 + energyOf 0 pB = energyOf 400 300 ∧ 343.75 = 300 + pB ∧ u < 343.75 := by
  refine ⟨max (√(energyOf 400 (300 / 10) ^ 2 - 300 ^ 2)) 100, 43.75, ?_, by norm_num, ?_, by norm_num, ?_⟩
  · have : energyOf 400 (300 / 10) ^ 2 = 160900 := by unfold energyOf; rw [Real.sq_sqrt (by norm_num)]; norm_num
    simp only [decayMaxMom, hnlMaxMom]
    rw [if_neg (by simp), if_neg (by rw [this]; norm_num)]
  · have e1 : energyOf 300 343.75 = 456.25 := by
      unfold energyOf; rw [show (343.75 : ℝ) ^ 2 + 300 ^ 2 = 456.25 ^ 2 by norm_num, Real.sqrt_sq (by norm_num)]
    have e2 : energyOf 0 43.75 = 43.75 := by
      unfold energyOf; rw [show (43.75 : ℝ) ^ 2 + 0 ^ 2 = 43.75 ^ 2 by norm_num, Real.sqrt_sq (by norm_num)]
    have e3 : energyOf 400 300 = 500 := by
      unfold energyOf; rw [show (300 : ℝ) ^ 2 + 400 ^ 2 = 500 ^ 2 by norm_num, Real.sqrt_sq (by norm_num)]
    rw [e1, e2, e3]; norm_num
  · have : energyOf 400 (300 / 10) ^ 2 = 160900 := by unfold energyOf; rw [Real.sq_sqrt (by norm_num)]; norm_num
    rw [this, max_lt_iff]
    refine ⟨?_, by norm_num⟩
    rw [Real.sqrt_lt' (by norm_num)]; norm_num

end PyBBN
