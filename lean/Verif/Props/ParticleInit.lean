import Verif.Props.Particle
import Verif.Props.Interpolation
/-!
# C81–C83: creation of a particle, fast decays, lookup of the distribution
-/
namespace PyBBN

variable {ι : Type*}

/-- The thermal occupation of a mode with momentum `y`, mass `m`, temperature `T`. -/
noncomputable def thermal (fermion : Bool) (y m T : ℝ) : ℝ :=
  1 / (Real.exp (√(y ^ 2 + m ^ 2) / T) + if fermion then 1 else -1)

theorem stat_thermal (sp : Species) (hm : 0 ≤ sp.mass) (y c T : ℝ) (hc : 0 ≤ c)
    (h0 : sp.mass = 0 → c = 0) :
    sp.stat (conformalEnergy sp y c / T) = thermal sp.fermion y c T := by
  have e : conformalEnergy sp y c = √(y ^ 2 + c ^ 2) := by
    unfold conformalEnergy
    split_ifs with h
    · rfl
    · rw [h0 (le_antisymm (not_lt.mp h) hm)]
      simp [Real.sqrt_sq_eq_abs]
  rw [e]
  unfold Species.stat thermal Fermi Bose
  cases sp.fermion <;> simp [sub_eq_add_neg]

/-! ## C81 -/

/-- An update that does not change the status leaves the decoupling time and the stored distributions
alone. -/
theorem update_same (sp : Species) (dens : PState ι → Params → ℝ) (p : Params) (s : PState ι)
    (h : inEq sp (particleUpdate sp dens p s) = inEq sp s) :
    (particleUpdate sp dens p s).tDec = s.tDec ∧
    (particleUpdate sp dens p s).histDist = s.histDist := by
  have hd : (particleUpdate sp dens p s).histDist = s.histDist := by
    simp only [particleUpdate, initDistribution]
    split_ifs <;> rfl
  refine ⟨?_, hd⟩
  obtain ⟨u1, u2, u3, -⟩ := update_spec sp dens p s
  have e : inEq sp (particleUpdate sp dens p s) = inEq sp { s with
      T := (if inEq sp s = true ∨ (sp.thermalDyn = false ∧ sp.Q ≠ 0) then p.aT else s.aT) / p.a } :=
    inEq_congr sp _ _ (by rw [u2, u1]) u3
  rw [h] at e
  unfold particleUpdate
  dsimp only
  by_cases hc : inEq sp s = true ∨ (sp.thermalDyn = false ∧ sp.Q ≠ 0)
  · rw [if_pos hc] at e
    simp only [if_pos hc]
    rw [if_neg]
    · simp
    · rintro ⟨h1, -⟩
      apply h1
      rw [e]
      exact inEq_congr sp _ _ rfl (by simp)
  · rw [if_neg hc] at e
    simp only [if_neg hc]
    rw [if_neg]
    rintro ⟨h1, -⟩
    exact h1 e.symm

/-- **C81.** After `set_params` the particle carries the temperatures of the universe, its distribution
is thermal (or zero for a non-thermal species), and it is in equilibrium exactly when it is thermal and
above its decoupling temperature; a non-thermal species without a decoupling temperature gets the
initial temperature of the universe. -/
theorem C81_set_params (sp : Species) (dens : PState ι → Params → ℝ) (p : Params) (s : PState ι)
    (hp : p.Consistent) (ha : 0 < p.a) (hm : 0 ≤ sp.mass) :
    let s' := setParams sp dens p s
    s'.T = p.T ∧ s'.aT = p.aT ∧ s'.tDec = 0 ∧
    s'.Tdec = (if sp.thermalDyn = false ∧ s.Tdec = 0 then p.T else s.Tdec) ∧
    s'.dist = (if sp.thermalDyn then sp.grid.map fun y => thermal sp.fermion y (sp.mass * p.a) p.aT
      else List.replicate sp.grid.length 0) ∧
    s'.coll = List.replicate sp.grid.length 0 ∧ s'.histDist = s.histDist ++ [s'.dist] ∧
    (inEq sp s' = true ↔ sp.thermalDyn = true ∧ s'.Tdec < p.T) := by
  intro s'
  have hT : p.aT / p.a = p.T := by rw [← hp.2]; field_simp
  have hmap : (sp.grid.map fun y => thermal sp.fermion y (sp.mass * p.a) p.aT) =
      eqDistribution sp p.aT (sp.mass * p.a) := by
    unfold eqDistribution
    refine List.map_congr_left fun y _ => ?_
    exact (stat_thermal sp hm y _ _ (by positivity) (by intro h; rw [h]; ring)).symm
  rw [hmap]
  obtain ⟨s₂, hs₂, b1, b2, b3, b4, b5, b6⟩ : ∃ s₂ : PState ι, s' = particleUpdate sp dens p s₂ ∧
      s₂.T = p.T ∧ s₂.aT = p.aT ∧ s₂.tDec = 0 ∧
      s₂.Tdec = (if sp.thermalDyn = false ∧ s.Tdec = 0 then p.T else s.Tdec) ∧
      s₂.dist = (if sp.thermalDyn then eqDistribution sp p.aT (sp.mass * p.a)
        else List.replicate sp.grid.length 0) ∧ s₂.histDist = s.histDist ++ [s₂.dist] := by
    refine ⟨_, rfl, ?_⟩
    cases ht : sp.thermalDyn
    · by_cases h1 : s.Tdec = 0 <;> simp [initDistribution, ht, h1, Species.zeros]
    · simp [initDistribution, ht]
  clear_value s'
  subst hs₂
  obtain ⟨u1, u2, u3, -, -, u6, -⟩ := update_spec sp dens p s₂
  have k2 : (particleUpdate sp dens p s₂).aT = p.aT := by rw [u1, b2, ite_self]
  have k1 : (particleUpdate sp dens p s₂).T = p.T := by rw [u2, k2, hT]
  have heq : inEq sp (particleUpdate sp dens p s₂) = inEq sp s₂ :=
    inEq_congr sp _ _ (by rw [k1, b1]) u3
  have k5 : (particleUpdate sp dens p s₂).dist = s₂.dist := by
    rw [(update_dist sp dens p s₂).1, heq, b2, b5]
    cases sp.thermalDyn <;> simp [Species.zeros]
  obtain ⟨k3, k7⟩ := update_same sp dens p s₂ heq
  have key : (particleUpdate sp dens p s₂).T = p.T ∧ (particleUpdate sp dens p s₂).aT = p.aT ∧
      (particleUpdate sp dens p s₂).tDec = 0 ∧
      (particleUpdate sp dens p s₂).Tdec =
        (if sp.thermalDyn = false ∧ s.Tdec = 0 then p.T else s.Tdec) ∧
      (particleUpdate sp dens p s₂).dist =
        (if sp.thermalDyn then eqDistribution sp p.aT (sp.mass * p.a)
          else List.replicate sp.grid.length 0) ∧
      (particleUpdate sp dens p s₂).coll = List.replicate sp.grid.length 0 ∧
      (particleUpdate sp dens p s₂).histDist =
        s.histDist ++ [(particleUpdate sp dens p s₂).dist] :=
    ⟨k1, k2, by rw [k3, b3], by rw [u3, b4], by rw [k5, b5], u6, by rw [k7, b6, k5]⟩
  obtain ⟨k1, k2, k3, k4, k5, k6, k7⟩ := key
  refine ⟨k1, k2, k3, k4, k5, k6, k7, ?_⟩
  rw [inEq_iff, k1]
  exact and_comm

/-- **C81.** Consequently the production reactions of a non-thermal species without a decoupling
temperature take part in a step exactly when the universe has cooled below its initial temperature. -/
theorem C81_nonthermal_registers (sp : Species) (dens : PState ι → Params → ℝ) (p q : Params)
    (ints : List ι) (s : PState ι) (hp : p.Consistent) (ha : 0 < p.a) (hm : 0 ≤ sp.mass)
    (hth : sp.thermalDyn = false) (h0 : s.Tdec = 0) (hi : s.integrals = []) :
    (ints.foldl (fun s i => registerIntegral sp q i s) (setParams sp dens p s)).integrals =
      if q.T < p.T then ints else [] := by
  obtain ⟨-, -, -, k4, -⟩ := C81_set_params sp dens p s hp ha hm
  have hi' : (setParams sp dens p s).integrals = [] := by
    simp only [setParams]
    rw [(update_spec sp dens p _).2.2.2.1]
    simp only [initDistribution_integrals]
    split_ifs <;> exact hi
  rw [C60_registered_iff _ _ _ _ hi', k4]
  simp [hth, h0, inEq]

/-! ## C82 -/

theorem thermal_nonneg (f : Bool) (y m T : ℝ) (hT : 0 < T) : 0 ≤ thermal f y m T := by
  unfold thermal
  have h : 1 ≤ Real.exp (√(y ^ 2 + m ^ 2) / T) := Real.one_le_exp (by positivity)
  apply div_nonneg zero_le_one
  split_ifs <;> linarith

/-- What one update of the distribution of a decoupled thermal fast-decaying species does. -/
theorem updateFast_spec {sp : Species} {p : Params} {coll : List CNum} {s s' : PState ι}
    (hm : 0 ≤ sp.mass) (hth : sp.thermalDyn = true) (ho : inEq sp s = false) (haT : 0 < s.aT)
    (hTd : 0 < s.Tdec) (h : updateDistributionFast sp p coll s = .ok s') :
    ∃ td, (s.tDec ≠ 0 → td = s.tDec) ∧ (s.tDec = 0 → s.histT[1]? = some td) ∧ s'.tDec = td ∧
      s'.dist = (sp.grid.map fun y => thermal sp.fermion y (sp.mass * s.aT / s.Tdec) s.aT *
        Real.exp (-(p.t - td) / sp.lifetime)) ∧
      s'.aT = s.aT ∧ s'.T = s.T ∧ s'.Tdec = s.Tdec ∧ s'.integrals = [] ∧ s'.histT = s.histT := by
  unfold updateDistributionFast at h
  rw [ho] at h
  simp only [Bool.false_eq_true, if_false] at h
  split at h
  · cases h
  · split at h
    · cases h
    · rename_i c _ o td htd
      cases h
      refine ⟨td, ?_, ?_, rfl, ?_, rfl, rfl, rfl, rfl, rfl⟩
      · intro hne
        rw [if_neg hne] at htd
        exact (Option.some.inj htd).symm
      · intro he
        rw [if_pos he] at htd
        exact htd
      · simp only [hth, if_true, eqDistribution, List.map_map]
        refine List.map_congr_left fun y _ => ?_
        have := stat_thermal sp hm y (sp.mass * s.aT / s.Tdec) s.aT (by positivity)
          (by intro h; rw [h]; ring)
        simp only [Function.comp, this]
        exact max_eq_left (mul_nonneg (thermal_nonneg _ _ _ _ haT) (Real.exp_pos _).le)

/-- **C82.** Once a fast-decaying species is marked as decayed, its collision integral is neither computed nor used: the outcome of
a step does not depend on it, and the stored integral is zero. -/
theorem C82_decayed (sp : Species) (dens : PState ι → Params → ℝ) (ints : List ι)
    (icoll icoll' : PState ι → Except Err (List ℝ)) (p : Params) (s : PState ι) (hd : s.decayed = true) :
    particleStepFast sp dens ints icoll p s = particleStepFast sp dens ints icoll' p s ∧
      ∀ s', particleStepFast sp dens ints icoll p s = .ok s' → s'.coll = sp.zeros := by
  obtain ⟨-, -, -, -, u5, u6, -⟩ := update_spec sp dens p s
  have hdec : (particleUpdate sp dens p s).decayed = true := u5.trans hd
  have sz : ∀ l : List ℝ, sanitize (l.map CNum.fin) = .ok l := by
    intro l
    induction l with
    | nil => rfl
    | cons x l ih => rw [List.map_cons]; simp only [sanitize, ih]
  have r : ∀ ic : PState ι → Except Err (List ℝ), particleStepFast sp dens ints ic p s =
      updateDistributionFast sp p (sp.zeros.map .fin)
        (ints.foldl (fun s i => registerIntegral sp p i s) (particleUpdate sp dens p s)) := by
    intro ic
    simp only [particleStepFast]
    rw [register_fold_fields]
    by_cases hi : (ints.foldl (fun s i => registerIntegral sp p i s) (particleUpdate sp dens p s)).integrals = []
    · simp only [hi, if_true, u6]
    · simp only [hi, if_false, hdec, if_true]
  refine ⟨by rw [r, r], fun s' h => ?_⟩
  rw [r, register_fold_fields] at h
  simp only [updateDistributionFast, sz] at h
  split at h
  · cases h; exact u6
  · split at h
    · cases h
    · cases h; rfl

/-- **C82.** A fast-decaying species that decoupled at the recorded time decays exponentially with its
lifetime: after any completed sequence of steps its distribution is the thermal one of decoupling times
`exp(-(t - t_dec)/τ)`, with `t` the time of the last step, whatever reactions are registered. -/
theorem C82_exponential (sp : Species) (dens : PState ι → Params → ℝ) (ints : List ι)
    (icoll : PState ι → Except Err (List ℝ)) (ps : List Params) (q : Params) (s s' : PState ι)
    (a₀ : ℝ) (hps : ScaleGrows a₀ (ps ++ [q])) (hT : s.T = s.aT / a₀) (haT : 0 < s.aT)
    (hTd : 0 < s.Tdec) (hm : 0 ≤ sp.mass) (hth : sp.thermalDyn = true) (hout : inEq sp s = false)
    (hd : s.tDec ≠ 0) (h : particleRunFast sp dens ints icoll (ps ++ [q]) s = .ok s') :
    s'.dist = (sp.grid.map fun y => thermal sp.fermion y (sp.mass * s.aT / s.Tdec) s.aT *
        Real.exp (-(q.t - s.tDec) / sp.lifetime)) ∧ s'.aT = s.aT ∧ s'.tDec = s.tDec := by
  have step : ∀ (p : Params) (s s₁ : PState ι) (a₀ : ℝ), 0 < a₀ → a₀ ≤ p.a → s.T = s.aT / a₀ →
      0 < s.aT → 0 < s.Tdec → inEq sp s = false → s.tDec ≠ 0 →
      particleStepFast sp dens ints icoll p s = .ok s₁ →
      s₁.dist = (sp.grid.map fun y => thermal sp.fermion y (sp.mass * s.aT / s.Tdec) s.aT *
        Real.exp (-(p.t - s.tDec) / sp.lifetime)) ∧ s₁.aT = s.aT ∧ s₁.tDec = s.tDec ∧
        s₁.T = s₁.aT / p.a ∧ s₁.Tdec = s.Tdec ∧ inEq sp s₁ = false := by
    intro p s s₁ a₀ h0 ha hT haT hTd hout hd h
    obtain ⟨-, -, u3, -⟩ := update_spec sp dens p s
    obtain ⟨e1, e2, -⟩ := C27_decoupled_frozen sp dens p s hout (Or.inl hth)
    have ho := update_stays_out sp dens p s a₀ h0 ha hT haT.le hout
    obtain ⟨e3, -⟩ := update_same sp dens p s (by rw [ho, hout])
    simp only [particleStepFast] at h
    rw [register_fold_fields] at h
    split at h
    · cases h
    · obtain ⟨td, t1, -, t3, t4, t5, t6, t7, -⟩ := updateFast_spec hm hth
        (by rw [← ho]; exact inEq_congr sp _ _ rfl rfl) (by simpa [e1] using haT)
        (by simpa [u3] using hTd) h
      have htd : td = s.tDec := by
        rw [t1 (by simpa [e3] using hd)]; exact e3
      simp only [e1, u3] at t4
      refine ⟨by rw [t4, htd], by rw [t5, e1], by rw [t3, htd], by rw [t6, t5, e1, e2],
        by rw [t7, u3], ?_⟩
      rw [← ho]; exact inEq_congr sp _ _ t6 t7
  induction ps generalizing s a₀ with
  | nil =>
    simp only [List.nil_append, particleRunFast] at h
    split at h
    · cases h
    · rename_i s₁ h1
      cases h
      obtain ⟨r1, r2, r3, -⟩ := step q s _ a₀ hps.1 hps.head.1 hT haT hTd hout hd h1
      exact ⟨r1, r2, r3⟩
  | cons p ps ih =>
    simp only [List.cons_append, particleRunFast] at h
    split at h
    · cases h
    · rename_i s₁ h1
      obtain ⟨-, r2, r3, r4, r5, r6⟩ := step p s _ a₀ hps.1 hps.head.1 hT haT hTd hout hd h1
      obtain ⟨i1, i2, i3⟩ := ih s₁ p.a hps.head.2 r4 (by rw [r2]; exact haT) (by rw [r5]; exact hTd)
        r6 (by rw [r3]; exact hd) h
      exact ⟨by rw [i1, r2, r3, r5], by rw [i2, r2], by rw [i3, r3]⟩

/-- **C82.** The time of decoupling is recorded by the update that takes the species out of
equilibrium. -/
theorem C82_decoupling_time (sp : Species) (dens : PState ι → Params → ℝ) (p : Params) (s : PState ι)
    (h : inEq sp s = true) (h' : inEq sp (particleUpdate sp dens p s) = false) :
    (particleUpdate sp dens p s).tDec = p.t := (update_dist sp dens p s).2 h h'

/-- **C82.** A species that was never in equilibrium counts from the second stored time. -/
theorem C82_never_thermalised {sp : Species} {p : Params} {coll : List CNum} {s s' : PState ι}
    (hm : 0 ≤ sp.mass) (hth : sp.thermalDyn = true) (ho : inEq sp s = false) (haT : 0 < s.aT)
    (hTd : 0 < s.Tdec) (h0 : s.tDec = 0) (h : updateDistributionFast sp p coll s = .ok s') :
    ∃ t₁, s.histT[1]? = some t₁ ∧
      s'.dist = sp.grid.map fun y => thermal sp.fermion y (sp.mass * s.aT / s.Tdec) s.aT *
        Real.exp (-(p.t - t₁) / sp.lifetime) := by
  obtain ⟨td, -, t2, -, t4, -⟩ := updateFast_spec hm hth ho haT hTd h
  exact ⟨td, t2 h0, t4⟩

/-! ## C83 -/

/-- **C83.** In equilibrium `distribution(p)` is the thermal occupation at the conformal mass. -/
theorem C83_equilibrium (sp : Species) (p : Params) (s : PState ι) (y : ℝ) (hm : 0 ≤ sp.mass)
    (ha : 0 < p.a) (h : inEq sp s = true) :
    particleDistribution sp p s y = .ok (thermal sp.fermion y (sp.mass * p.a) s.aT) := by
  have e := stat_thermal sp hm y (sp.mass * p.a) s.aT (by positivity) (by intro h; rw [h]; ring)
  unfold particleDistribution
  rw [if_pos h, ← e]
  unfold Species.stat Species.eta Fermi Bose
  cases sp.fermion <;> simp [sub_eq_add_neg]

/-- **C83.** A decoupled species whose stored values are thermal for the mass it had when the plasma
was at the decoupling temperature is looked up exactly at every momentum of the grid range, on and
between the grid points, at all later times. -/
theorem C83_frozen_thermal (sp : Species) (p : Params) (s : PState ι) (y : ℝ) (hm : 0 ≤ sp.mass)
    (hTd : 0 < s.Tdec) (haT : 0 < s.aT) (h : inEq sp s = false) (hg : sp.grid ≠ [])
    (hs : sp.grid.Pairwise (· < ·)) (h0 : 0 ≤ sp.grid.head hg)
    (hb : sp.fermion = true ∨ 0 < sp.mass)
    (hd : s.dist = sp.grid.map fun k => thermal sp.fermion k (sp.mass * s.aT / s.Tdec) s.aT)
    (h1 : sp.grid.head hg ≤ y) (h2 : y ≤ sp.grid.getLast hg) :
    particleDistribution sp p s y =
      .ok (thermal sp.fermion y (sp.mass * s.aT / s.Tdec) s.aT) := by
  have key : ∀ k m : ℝ, thermal sp.fermion k m s.aT =
      1 / (Real.exp (0 + 1 / s.aT * energy k m) + sp.eta) := by
    intro k m
    have : 0 + 1 / s.aT * energy k m = √(k ^ 2 + m ^ 2) / s.aT := by
      unfold energy; rw [← sq, ← sq]; ring
    rw [this]
    unfold thermal Species.eta
    cases sp.fermion <;> simp
  unfold particleDistribution
  rw [h, key]
  simp only [Bool.false_eq_true, if_false]
  refine C10_thermal_reproduced _ _ _ _ _ 0 (1 / s.aT) _ hg hs (by rw [hd]; simp) h0 ?_ ?_ h1 h2
  · intro k hk
    unfold Species.eta
    cases hf : sp.fermion
    · have hmm : 0 < sp.mass := by rcases hb with h | h; · rw [hf] at h; cases h
                                   · exact h
      have hE : 0 < energy k (sp.mass * s.aT / s.Tdec) := by
        unfold energy
        apply Real.sqrt_pos.mpr
        have : 0 < sp.mass * s.aT / s.Tdec := by positivity
        nlinarith [mul_self_nonneg k]
      have : 1 < Real.exp (0 + 1 / s.aT * energy k (sp.mass * s.aT / s.Tdec)) :=
        Real.one_lt_exp_iff.mpr (by positivity)
      simp; positivity
    · simp; positivity
  · intro i hi
    simp only [hd, List.getElem_map]
    exact key _ _

/-! ## Concrete cases -/

theorem demoP_consistent : demoP.Consistent := by norm_num [Params.Consistent, demoP]

/-- A neutrino created at `T = 1` below its decoupling temperature, and a sterile species created
without one: its reactions start at the first cooling. -/
example : (setParams demoSpecies (fun _ _ => 0) demoP demoState).T = 1 ∧
    inEq demoSpecies (setParams demoSpecies (fun _ _ => 0) demoP demoState) = false ∧
    ([7].foldl (fun s i => registerIntegral { demoSpecies with thermalDyn := false, mass := 3 }
      { demoP with T := 0.9 } i s)
      (setParams { demoSpecies with thermalDyn := false, mass := 3 } (fun _ _ => 0) demoP
        { demoState with Tdec := 0 })).integrals = [7] := by
  obtain ⟨h1, -, -, h4, -, -, -, h8⟩ := C81_set_params demoSpecies (fun _ _ => 0) demoP demoState
    demoP_consistent (by norm_num [demoP]) (by norm_num [demoSpecies])
  refine ⟨h1, ?_, ?_⟩
  · rw [Bool.eq_false_iff, Ne, h8, h4]
    norm_num [demoSpecies, demoState, demoP]
  · rw [C81_nonthermal_registers _ _ _ _ _ _ demoP_consistent (by norm_num [demoP])
      (by norm_num) rfl rfl rfl]
    norm_num [demoP]

/-- Two steps of a fast-decaying species of lifetime 1 decoupled at `t = 1`. -/
example : ∃ s', particleRunFast { demoSpecies with fastDecay := true } (fun _ _ => 0) []
    (fun _ => .error .attributeError) [demoP, { demoP with a := 3, t := 4 }]
    { demoState with tDec := 1 } = .ok s' ∧
    s'.dist = [0, 1].map fun y => thermal true y 0 1 * Real.exp (-3) := by
  have run : ∃ s', particleRunFast { demoSpecies with fastDecay := true } (fun _ _ => 0) []
      (fun _ => .error .attributeError) [demoP, { demoP with a := 3, t := 4 }]
      { demoState with tDec := 1 } = .ok s' := by
    have hs : sanitize [CNum.fin 0, CNum.fin 0] = .ok [0, 0] := rfl
    simp [particleRunFast, particleStepFast, particleUpdate, updateDistributionFast, inEq,
      demoSpecies, demoState, demoP, hs, Species.zeros]
    norm_num [hs]
  obtain ⟨s', h⟩ := run
  refine ⟨s', h, ?_⟩
  obtain ⟨h1, -⟩ := C82_exponential { demoSpecies with fastDecay := true } (fun _ _ => 0) []
    (fun _ => .error .attributeError) [demoP] { demoP with a := 3, t := 4 }
    { demoState with tDec := 1 } s' 1 (by norm_num [ScaleGrows, demoP]) (by norm_num [demoState])
    (by norm_num [demoState]) (by norm_num [demoState]) (by norm_num [demoSpecies]) rfl
    (by norm_num [inEq, demoState, demoSpecies]) (by norm_num) h
  rw [h1]
  norm_num [demoSpecies, demoState]

/-- A decayed species with a registered reaction whose integral would fail. -/
example : particleStepFast { demoSpecies with fastDecay := true } (fun _ _ => 0) [()] (fun _ => .error .attributeError) demoP
      { demoState with tDec := 1, decayed := true } =
    particleStepFast { demoSpecies with fastDecay := true } (fun _ _ => 0) [()] (fun _ => .ok []) demoP
      { demoState with tDec := 1, decayed := true } :=
  (C82_decayed _ _ _ _ _ _ _ rfl).1

/-- A massive relic frozen at `T_dec = 2`, looked up between its two grid points. -/
example : particleDistribution { demoSpecies with mass := 4 } demoP
    { demoState with dist := [0, 1].map fun k => thermal true k 2 1 } (1 / 3) =
      .ok (thermal true (1 / 3) 2 1) := by
  have := C83_frozen_thermal { demoSpecies with mass := 4 } demoP
    { demoState with dist := [0, 1].map fun k => thermal true k 2 1 } (1 / 3) (by norm_num)
    (by norm_num [demoState]) (by norm_num [demoState]) (by norm_num [inEq, demoState])
    (by simp [demoSpecies]) (by norm_num [demoSpecies]) (by norm_num [demoSpecies])
    (Or.inl rfl) (by norm_num [demoSpecies, demoState]) (by norm_num [demoSpecies])
    (by norm_num [demoSpecies])
  rw [this]
  norm_num [demoSpecies, demoState]

end PyBBN
