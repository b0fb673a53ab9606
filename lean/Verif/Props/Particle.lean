import Verif.Model.Particle
import Verif.Props.Interpolation
import Verif.Props.Params
import Verif.Props.Integrators
/-!
# C18, C27–C29, C49, C60: the particle state machine
-/
namespace PyBBN

variable {ι : Type*}

/-! ## Basic facts about `update` -/

theorem inEq_iff (sp : Species) (s : PState ι) :
    inEq sp s = true ↔ s.Tdec < s.T ∧ sp.thermalDyn = true := by
  simp [inEq]

theorem inEq_congr (sp : Species) (s t : PState ι) (h1 : s.T = t.T) (h2 : s.Tdec = t.Tdec) :
    inEq sp s = inEq sp t := by
  simp [inEq, h1, h2]

@[simp] theorem initDistribution_T (sp : Species) (p : Params) (s : PState ι) :
    (initDistribution sp p s).T = s.T := by unfold initDistribution; split <;> rfl
@[simp] theorem initDistribution_aT (sp : Species) (p : Params) (s : PState ι) :
    (initDistribution sp p s).aT = s.aT := by unfold initDistribution; split <;> rfl
@[simp] theorem initDistribution_Tdec (sp : Species) (p : Params) (s : PState ι) :
    (initDistribution sp p s).Tdec = s.Tdec := by unfold initDistribution; split <;> rfl
@[simp] theorem initDistribution_integrals (sp : Species) (p : Params) (s : PState ι) :
    (initDistribution sp p s).integrals = s.integrals := by unfold initDistribution; split <;> rfl
@[simp] theorem initDistribution_decayed (sp : Species) (p : Params) (s : PState ι) :
    (initDistribution sp p s).decayed = s.decayed := by unfold initDistribution; split <;> rfl
@[simp] theorem initDistribution_histColl (sp : Species) (p : Params) (s : PState ι) :
    (initDistribution sp p s).histColl = s.histColl := by unfold initDistribution; split <;> rfl
@[simp] theorem initDistribution_tDec (sp : Species) (p : Params) (s : PState ι) :
    (initDistribution sp p s).tDec = s.tDec := by unfold initDistribution; split <;> rfl
theorem initDistribution_dist (sp : Species) (p : Params) (s : PState ι) :
    (initDistribution sp p s).dist =
      if sp.thermalDyn then eqDistribution sp s.aT (sp.mass * p.a) else sp.zeros := by
  unfold initDistribution; split <;> rfl

/-- The temperature-related effect of `update`. -/
theorem update_spec (sp : Species) (dens : PState ι → Params → ℝ) (p : Params) (s : PState ι) :
    (particleUpdate sp dens p s).aT =
      (if inEq sp s = true ∨ (sp.thermalDyn = false ∧ sp.Q ≠ 0) then p.aT else s.aT) ∧
    (particleUpdate sp dens p s).T = (particleUpdate sp dens p s).aT / p.a ∧
    (particleUpdate sp dens p s).Tdec = s.Tdec ∧
    (particleUpdate sp dens p s).integrals = s.integrals ∧
    (particleUpdate sp dens p s).decayed = s.decayed ∧
    (particleUpdate sp dens p s).coll = sp.zeros ∧
    (particleUpdate sp dens p s).histColl = s.histColl := by
  simp only [particleUpdate]
  split_ifs <;> simp

/-- The effect of `update` on the distribution and the decoupling time. -/
theorem update_dist (sp : Species) (dens : PState ι → Params → ℝ) (p : Params) (s : PState ι) :
    (particleUpdate sp dens p s).dist =
      (if sp.thermalDyn = true then
        if inEq sp s = true then
          if inEq sp (particleUpdate sp dens p s) = true then eqDistribution sp s.aT (sp.mass * p.a)
          else eqDistribution sp p.aT (sp.mass * p.a)
        else s.dist
      else if sp.Q ≠ 0 then sp.zeros else s.dist) ∧
    (inEq sp s = true → inEq sp (particleUpdate sp dens p s) = false →
      (particleUpdate sp dens p s).tDec = p.t) := by
  obtain ⟨h1, h2, h3, -⟩ := update_spec sp dens p s
  cases ht : sp.thermalDyn
  · have hn : ∀ s : PState ι, inEq sp s = false := fun s => by simp [inEq, ht]
    by_cases hQ : sp.Q = 0
    · simp [particleUpdate, hn, hQ]
    · simp [particleUpdate, hn, ht, hQ, initDistribution]
  · cases he : inEq sp s
    · have e : inEq sp s = false := he
      constructor
      · simp only [particleUpdate, he, ht]
        simp
      · intro h; cases h
    · have hq : inEq sp (particleUpdate sp dens p s) =
          inEq sp { s with T := p.aT / p.a } := by
        apply inEq_congr
        · rw [h2, h1, he]; simp
        · exact h3
      cases hx : inEq sp { s with T := p.aT / p.a }
      · have hy : ∀ t : PState ι, t.T = p.aT / p.a → t.Tdec = s.Tdec → inEq sp t = false := by
          intro t a b
          rw [← hx]; exact inEq_congr sp _ _ a b
        rw [hq, hx]
        simp only [particleUpdate, he, ht]
        simp [hy, initDistribution_dist, ht]
      · have hy : ∀ t : PState ι, t.T = p.aT / p.a → t.Tdec = s.Tdec → inEq sp t = true := by
          intro t a b
          rw [← hx]; exact inEq_congr sp _ _ a b
        rw [hq, hx]
        simp only [particleUpdate, he, ht]
        simp [hy, initDistribution_dist, ht]

/-! ## C27 -/

/-- **C27.** A species in equilibrium takes the comoving temperature of the plasma. -/
theorem C27_equilibrium_follows (sp : Species) (dens : PState ι → Params → ℝ) (p : Params)
    (s : PState ι) (h : inEq sp s = true) :
    (particleUpdate sp dens p s).aT = p.aT ∧ (particleUpdate sp dens p s).T = p.aT / p.a := by
  obtain ⟨h1, h2, -⟩ := update_spec sp dens p s
  rw [h] at h1
  simp only [true_or, if_true] at h1
  exact ⟨h1, by rw [h2, h1]⟩

/-- **C27.** A species out of equilibrium (thermal, or neutral) keeps its comoving temperature and
its distribution through `update`; its temperature redshifts. -/
theorem C27_decoupled_frozen (sp : Species) (dens : PState ι → Params → ℝ) (p : Params)
    (s : PState ι) (h : inEq sp s = false) (hsp : sp.thermalDyn = true ∨ sp.Q = 0) :
    (particleUpdate sp dens p s).aT = s.aT ∧ (particleUpdate sp dens p s).T = s.aT / p.a ∧
    (particleUpdate sp dens p s).dist = s.dist := by
  obtain ⟨h1, h2, -⟩ := update_spec sp dens p s
  have h3 := (update_dist sp dens p s).1
  have hn : ¬ (inEq sp s = true ∨ (sp.thermalDyn = false ∧ sp.Q ≠ 0)) := by
    rw [h]; rcases hsp with e | e <;> simp [e]
  rw [if_neg hn] at h1
  refine ⟨h1, by rw [h2, h1], ?_⟩
  rw [h3, h]
  rcases hsp with e | e <;> simp [e]

/-- **C27.** The step at which a species decouples records the time and initialises its distribution
with the equilibrium shape at the plasma temperature of that step. -/
theorem C27_decoupling_step (sp : Species) (dens : PState ι → Params → ℝ) (p : Params)
    (s : PState ι) (h : inEq sp s = true) (h' : inEq sp (particleUpdate sp dens p s) = false) :
    (particleUpdate sp dens p s).tDec = p.t ∧
    (particleUpdate sp dens p s).dist =
      sp.grid.map fun y => sp.stat (conformalEnergy sp y (sp.mass * p.a) / p.aT) := by
  have ht := ((inEq_iff sp s).mp h).2
  obtain ⟨h3, h4⟩ := update_dist sp dens p s
  refine ⟨h4 h h', ?_⟩
  rw [h3, h, h', ht]
  simp [eqDistribution]

/-- **C27, exception.** A charged species declared non-thermal is never in equilibrium, yet each
update resets its distribution to zero and drags its `aT` to the plasma value. -/
theorem C27_nonthermal_charged_follows (sp : Species) (dens : PState ι → Params → ℝ) (p : Params)
    (s : PState ι) (ht : sp.thermalDyn = false) (hQ : sp.Q ≠ 0) :
    inEq sp s = false ∧ (particleUpdate sp dens p s).aT = p.aT ∧
    (particleUpdate sp dens p s).dist = List.replicate sp.grid.length 0 := by
  obtain ⟨h1, -⟩ := update_spec sp dens p s
  have h3 := (update_dist sp dens p s).1
  rw [if_pos (Or.inr ⟨ht, hQ⟩)] at h1
  refine ⟨by simp [inEq, ht], h1, ?_⟩
  rw [h3]; simp [ht, hQ, Species.zeros]

/-- Repeated `update` (one per step). -/
noncomputable def updates (sp : Species) (dens : PState ι → Params → ℝ) (ps : List Params)
    (s : PState ι) : PState ι := ps.foldl (fun s p => particleUpdate sp dens p s) s

/-- The scale factors are positive and do not decrease, starting from `a₀`. -/
def ScaleGrows (a₀ : ℝ) (ps : List Params) : Prop :=
  0 < a₀ ∧ (a₀ :: ps.map (·.a)).Pairwise (· ≤ ·)

theorem ScaleGrows.head {a₀ : ℝ} {p : Params} {ps : List Params} (h : ScaleGrows a₀ (p :: ps)) :
    a₀ ≤ p.a ∧ ScaleGrows p.a ps := by
  obtain ⟨h0, h1⟩ := h
  simp only [List.map_cons, List.pairwise_cons] at h1
  have h2 : a₀ ≤ p.a := h1.1 _ (by simp)
  exact ⟨h2, lt_of_lt_of_le h0 h2, by simpa [List.pairwise_cons] using h1.2⟩

/-- One update at a scale factor not smaller than the present one does not bring a species back. -/
theorem update_stays_out (sp : Species) (dens : PState ι → Params → ℝ) (p : Params) (s : PState ι)
    (a₀ : ℝ) (h0 : 0 < a₀) (ha : a₀ ≤ p.a) (hT : s.T = s.aT / a₀) (haT : 0 ≤ s.aT)
    (hout : inEq sp s = false) : inEq sp (particleUpdate sp dens p s) = false := by
  cases ht : sp.thermalDyn
  · simp [inEq, ht]
  · obtain ⟨e1, e2, -⟩ := C27_decoupled_frozen sp dens p s hout (Or.inl ht)
    obtain ⟨-, -, e3, -⟩ := update_spec sp dens p s
    simp only [inEq, ht, Bool.and_true, decide_eq_false_iff_not, not_lt, gt_iff_lt] at hout ⊢
    rw [e2, e3]
    refine le_trans ?_ hout
    rw [hT]
    exact div_le_div_of_nonneg_left haT h0 ha

/-- **C27.** Decoupling is irreversible: once a thermal species is out of equilibrium, any number of
updates along a non-decreasing scale factor leaves it out of equilibrium, with the same `aT` and the
same distribution. -/
theorem C27_irreversible (sp : Species) (dens : PState ι → Params → ℝ) (ps : List Params)
    (s : PState ι) (a₀ : ℝ) (hps : ScaleGrows a₀ ps) (hT : s.T = s.aT / a₀) (haT : 0 ≤ s.aT)
    (ht : sp.thermalDyn = true) (hout : inEq sp s = false) :
    inEq sp (updates sp dens ps s) = false ∧ (updates sp dens ps s).aT = s.aT ∧
    (updates sp dens ps s).dist = s.dist := by
  induction ps generalizing s a₀ with
  | nil => exact ⟨hout, rfl, rfl⟩
  | cons p ps ih =>
    obtain ⟨ha, hps'⟩ := hps.head
    obtain ⟨e1, e2, e3⟩ := C27_decoupled_frozen sp dens p s hout (Or.inl ht)
    have := ih (particleUpdate sp dens p s) p.a hps' (by rw [e2, e1]) (by rw [e1]; exact haT)
      (update_stays_out sp dens p s a₀ hps.1 ha hT haT hout)
    rw [e1, e3] at this
    exact this

theorem updates_succ (sp : Species) (dens : PState ι → Params → ℝ) (ps : List Params)
    (s : PState ι) (i : ℕ) (p : Params) (h : ps[i]? = some p) :
    updates sp dens (ps.take (i + 1)) s = particleUpdate sp dens p (updates sp dens (ps.take i) s) := by
  have hi : i < ps.length := (List.getElem?_eq_some_iff.mp h).1
  have hp : ps[i] = p := (List.getElem?_eq_some_iff.mp h).2
  unfold updates
  rw [List.take_succ_eq_append_getElem hi, List.foldl_append, hp]
  rfl

/-- **C27.** The complete history of a thermal species: there is one step `j` before which it is in
equilibrium and carries the plasma `aT`, and from which on it is out of equilibrium with a constant
`aT`. -/
theorem C27_history (sp : Species) (dens : PState ι → Params → ℝ) (ps : List Params)
    (s : PState ι) (a₀ : ℝ) (hps : ScaleGrows a₀ ps) (hT : s.T = s.aT / a₀) (haT : 0 ≤ s.aT)
    (hpl : ∀ p ∈ ps, 0 ≤ p.aT) (ht : sp.thermalDyn = true) :
    ∃ j ≤ ps.length + 1,
      (∀ i < j, inEq sp (updates sp dens (ps.take i) s) = true) ∧
      (∀ (i : ℕ) (p : Params), i < j → ps[i]? = some p →
        (updates sp dens (ps.take (i + 1)) s).aT = p.aT) ∧
      (∀ i, j ≤ i → inEq sp (updates sp dens (ps.take i) s) = false ∨ ps.length < j) ∧
      (∀ i, j ≤ i → (updates sp dens (ps.take i) s).aT = (updates sp dens (ps.take j) s).aT) := by
  induction ps generalizing s a₀ with
  | nil =>
    cases h : inEq sp s
    · exact ⟨0, by simp, by simp, by simp, by simp [updates, h], by simp [updates]⟩
    · refine ⟨1, by simp, ?_, by simp, by simp, by simp [updates]⟩
      intro i hi
      simp [updates, h]
  | cons p ps ih =>
    obtain ⟨ha, hps'⟩ := hps.head
    cases h : inEq sp s
    · refine ⟨0, by simp, by simp, by simp, ?_, ?_⟩
      · intro i _
        left
        refine (C27_irreversible sp dens _ s a₀ ⟨hps.1, ?_⟩ hT haT ht h).1
        refine hps.2.sublist ?_
        simpa using (List.take_sublist i (p :: ps)).map (·.a)
      · intro i _
        refine (C27_irreversible sp dens _ s a₀ ⟨hps.1, ?_⟩ hT haT ht h).2.1
        refine hps.2.sublist ?_
        simpa using (List.take_sublist i (p :: ps)).map (·.a)
    · obtain ⟨e1, e2⟩ := C27_equilibrium_follows sp dens p s h
      obtain ⟨j, hj, A, B, C, D⟩ := ih (particleUpdate sp dens p s) p.a hps' (by rw [e2, e1])
        (by rw [e1]; exact hpl p (by simp)) (fun q hq => hpl q (by simp [hq]))
      have hu : ∀ i, updates sp dens ((p :: ps).take (i + 1)) s =
          updates sp dens (ps.take i) (particleUpdate sp dens p s) := by
        intro i; simp [updates]
      refine ⟨j + 1, by simp; omega, ?_, ?_, ?_, ?_⟩
      · intro i hi
        cases i with
        | zero => simpa [updates] using h
        | succ i => rw [hu]; exact A i (by omega)
      · intro i q hi hq
        cases i with
        | zero =>
          simp only [List.getElem?_cons_zero, Option.some.injEq] at hq
          subst hq
          rw [hu]; simpa [updates] using e1
        | succ i => rw [hu]; exact B i q (by omega) (by simpa using hq)
      · intro i hi
        obtain ⟨i, rfl⟩ : ∃ k, i = k + 1 := ⟨i - 1, by omega⟩
        rw [hu]
        rcases C i (by omega) with c | c
        · exact Or.inl c
        · right; simp; omega
      · intro i hi
        obtain ⟨i, rfl⟩ : ∃ k, i = k + 1 := ⟨i - 1, by omega⟩
        rw [hu, hu]; exact D i (by omega)

/-! ## C28 -/

/-- Order in which regimes are passed as the Universe cools. -/
def Regime.rank : Regime → ℕ
  | .radiation => 0
  | .intermediate => 1
  | .dust => 2
  | .noneq => 3

/-- **C28.** The regime of an equilibrium species is decided by three mutually exclusive and
exhaustive conditions on the temperature. -/
theorem C28_conditions (f : ℝ) (sp : Species) (s : PState ι) (hf : 1 ≤ f) (hm : 0 ≤ sp.mass)
    (he : inEq sp s = true) :
    (regime f sp s = .radiation ↔ sp.mass * f < s.T) ∧
    (regime f sp s = .intermediate ↔ sp.mass / f ≤ s.T ∧ s.T ≤ sp.mass * f) ∧
    (regime f sp s = .dust ↔ s.T < sp.mass / f) := by
  have hf0 : 0 < f := by linarith
  have key : sp.mass / f ≤ sp.mass * f := by
    rw [div_le_iff₀ hf0]
    nlinarith [mul_nonneg hm (sub_nonneg.mpr hf), mul_nonneg (mul_nonneg hm (sub_nonneg.mpr hf)) hf0.le]
  have hd : s.T * f < sp.mass ↔ s.T < sp.mass / f := (lt_div_iff₀ hf0).symm
  unfold regime
  rw [he]
  simp only [gt_iff_lt, hd, Bool.true_eq_false, if_false]
  by_cases h1 : sp.mass * f < s.T
  · have : ¬ s.T < sp.mass / f := by linarith
    simp [h1, this]
  · by_cases h2 : s.T < sp.mass / f
    · simp [h1, h2]
    · simp only [h1, h2, if_false]
      simpa using ⟨not_lt.mp h2, not_lt.mp h1⟩

/-- **C28.** Out of equilibrium is a regime of its own. -/
theorem C28_noneq_iff (f : ℝ) (sp : Species) (s : PState ι) :
    regime f sp s = .noneq ↔ inEq sp s = false := by
  unfold regime
  split_ifs with h0 <;> simp_all

/-- **C28.** As the temperature falls, the regime only advances along
radiation, intermediate, dust, non-equilibrium. -/
theorem C28_one_way (f : ℝ) (sp : Species) (s s' : PState ι) (hf : 0 ≤ f)
    (hT : s'.T ≤ s.T) (hdec : s'.Tdec = s.Tdec) :
    (regime f sp s).rank ≤ (regime f sp s').rank := by
  have hTf : s'.T * f ≤ s.T * f := mul_le_mul_of_nonneg_right hT hf
  have hin : inEq sp s = false → inEq sp s' = false := by
    intro h
    cases ht : sp.thermalDyn
    · simp [inEq, ht]
    · simp only [inEq, ht, Bool.and_true, decide_eq_false_iff_not, not_lt, gt_iff_lt] at h ⊢
      linarith [hdec]
  unfold regime
  by_cases h0 : inEq sp s = false
  · simp [h0, hin h0, Regime.rank]
  · by_cases h0' : inEq sp s' = false
    · simp only [h0', if_true]
      split_ifs <;> simp [Regime.rank]
    · simp only [h0, h0', if_false]
      split_ifs <;> simp only [Regime.rank] <;> first | omega | (exfalso; linarith)

/-- **C28.** A massless species in equilibrium is radiation at any positive temperature. -/
theorem C28_massless (f : ℝ) (sp : Species) (s : PState ι) (hm : sp.mass = 0) (hT : 0 < s.T)
    (he : inEq sp s = true) : regime f sp s = .radiation := by
  unfold regime
  simp [he, hm, hT]

/-! ## C29 -/

/-- The value a collision entry contributes: not-a-number counts as zero. -/
def CNum.value : CNum → Option ℝ
  | .fin r => some r
  | .nan => some 0
  | .inf => none

theorem sanitize_spec (coll : List CNum) :
    sanitize coll = match coll.mapM CNum.value with
      | some l => .ok l
      | none => .error .assertionError := by
  induction coll with
  | nil => rfl
  | cons c l ih =>
    cases c <;> simp only [sanitize, ih, List.mapM_cons, CNum.value] <;>
      cases h : List.mapM CNum.value l <;> rfl

theorem sanitize_ok {coll : List CNum} {c : List ℝ} (h : sanitize coll = .ok c) :
    c.length = coll.length ∧ ∀ (k : ℕ) (x : CNum), coll[k]? = some x → x.value = c[k]? := by
  induction coll generalizing c with
  | nil => simp [sanitize] at h; subst h; simp
  | cons a l ih =>
    cases a with
    | inf => simp [sanitize] at h
    | fin r =>
      simp only [sanitize] at h
      cases hs : sanitize l with
      | error e => rw [hs] at h; cases h
      | ok c' =>
        rw [hs] at h; cases h
        obtain ⟨h1, h2⟩ := ih hs
        refine ⟨by simp [h1], ?_⟩
        intro k x hx
        cases k with
        | zero => simp at hx; subst hx; rfl
        | succ k => simpa using h2 k x (by simpa using hx)
    | nan =>
      simp only [sanitize] at h
      cases hs : sanitize l with
      | error e => rw [hs] at h; cases h
      | ok c' =>
        rw [hs] at h; cases h
        obtain ⟨h1, h2⟩ := ih hs
        refine ⟨by simp [h1], ?_⟩
        intro k x hx
        cases k with
        | zero => simp at hx; subst hx; rfl
        | succ k => simpa using h2 k x (by simpa using hx)

theorem sanitize_total {coll : List CNum} (h : CNum.inf ∉ coll) : ∃ c, sanitize coll = .ok c := by
  induction coll with
  | nil => exact ⟨_, rfl⟩
  | cons a l ih =>
    obtain ⟨c, hc⟩ := ih (fun hm => h (by simp [hm]))
    cases a with
    | inf => exact absurd (by simp) h
    | fin r => exact ⟨r :: c, by simp [sanitize, hc]⟩
    | nan => exact ⟨0 :: c, by simp [sanitize, hc]⟩

theorem sanitize_inf {coll : List CNum} (h : CNum.inf ∈ coll) :
    sanitize coll = .error .assertionError := by
  induction coll with
  | nil => cases h
  | cons a l ih =>
    cases a with
    | inf => rfl
    | fin r =>
      have : CNum.inf ∈ l := by simpa using h
      simp [sanitize, ih this]
    | nan =>
      have : CNum.inf ∈ l := by simpa using h
      simp [sanitize, ih this]

theorem sanitize_map_fin (l : List ℝ) : sanitize (l.map .fin) = .ok l := by
  induction l with
  | nil => rfl
  | cons a l ih => simp [sanitize, ih]

theorem updateDistribution_ok (sp : Species) (p : Params) (coll : List CNum) (s : PState ι)
    (c : List ℝ) (h : inEq sp s = false) (hc : sanitize coll = .ok c)
    (hl : c.length = s.dist.length) :
    updateDistribution sp p coll s = .ok
      { s with dist := List.zipWith (fun f i => max (f + i * p.h) 0) s.dist c, coll := c,
               integrals := [], histColl := s.histColl ++ [c],
               histDist := s.histDist ++
                 [List.zipWith (fun f i => max (f + i * p.h) 0) s.dist c] } := by
  simp [updateDistribution, h, hc, hl]

/-- **C29.** Species in equilibrium are not touched. -/
theorem C29_equilibrium_untouched (sp : Species) (p : Params) (coll : List CNum) (s : PState ι)
    (h : inEq sp s = true) : updateDistribution sp p coll s = .ok s := by
  simp [updateDistribution, h]

/-- **C29.** Out of equilibrium and without infinite entries, each occupation number becomes
`max(0, f + h·I)` (not-a-number counted as 0), one row is added to both histories and the registered
integrals are dropped. -/
theorem C29_pointwise (sp : Species) (p : Params) (coll : List CNum) (s : PState ι)
    (h : inEq sp s = false) (hinf : CNum.inf ∉ coll) (hlen : coll.length = s.dist.length) :
    ∃ s', updateDistribution sp p coll s = .ok s' ∧ s'.integrals = [] ∧
      s'.dist.length = s.dist.length ∧ s'.histDist = s.histDist ++ [s'.dist] ∧
      s'.histColl = s.histColl ++ [s'.coll] ∧ s'.coll.length = coll.length ∧
      (∀ (k : ℕ) (f r : ℝ), s.dist[k]? = some f →
        (coll[k]? = some (.fin r) →
          s'.coll[k]? = some r ∧ s'.dist[k]? = some (max 0 (f + p.h * r))) ∧
        (coll[k]? = some .nan → s'.coll[k]? = some 0 ∧ s'.dist[k]? = some (max 0 f))) := by
  obtain ⟨c, hc⟩ := sanitize_total hinf
  obtain ⟨h1, h2⟩ := sanitize_ok hc
  have hl : c.length = s.dist.length := by omega
  refine ⟨_, updateDistribution_ok sp p coll s c h hc hl, rfl, by simp [hl], rfl, rfl, h1, ?_⟩
  intro k f r hf
  constructor
  · intro hk
    have := h2 k _ hk
    simp only [CNum.value] at this
    refine ⟨this.symm, ?_⟩
    simp only [List.getElem?_zipWith, hf, ← this]
    rw [max_comm, mul_comm]
  · intro hk
    have := h2 k _ hk
    simp only [CNum.value] at this
    refine ⟨this.symm, ?_⟩
    simp only [List.getElem?_zipWith, hf, ← this]
    rw [max_comm]; simp

/-- **C29.** An infinite entry aborts the step. -/
theorem C29_infinite_raises (sp : Species) (p : Params) (coll : List CNum) (s : PState ι)
    (h : inEq sp s = false) (hinf : CNum.inf ∈ coll) :
    updateDistribution sp p coll s = .error .assertionError := by
  simp [updateDistribution, h, sanitize_inf hinf]

/-- **C29.** Whatever the collision term, a completed update of a non-equilibrium species leaves only
non-negative occupation numbers, also in the stored history row. -/
theorem C29_nonneg (sp : Species) (p : Params) (coll : List CNum) (s s' : PState ι)
    (h : inEq sp s = false)
    (hs : updateDistribution sp p coll s = .ok s' ∨ updateDistributionFast sp p coll s = .ok s') :
    (∀ f ∈ s'.dist, 0 ≤ f) ∧ s'.integrals = [] ∧ s'.histDist = s.histDist ++ [s'.dist] := by
  rcases hs with hs | hs
  · simp only [updateDistribution, h] at hs
    cases hc : sanitize coll with
    | error e => rw [hc] at hs; simp at hs
    | ok c =>
      rw [hc] at hs
      by_cases hl : c.length = s.dist.length
      · simp only [hl, ne_eq, not_true_eq_false, if_false, Bool.false_eq_true, Except.ok.injEq] at hs
        subst hs
        refine ⟨?_, rfl, rfl⟩
        intro f hf
        simp only at hf
        obtain ⟨n, hn, rfl⟩ := List.getElem_of_mem hf
        rw [List.getElem_zipWith]
        exact le_max_right _ _
      · simp [hl] at hs
  · simp only [updateDistributionFast, h] at hs
    cases hc : sanitize coll with
    | error e => rw [hc] at hs; simp at hs
    | ok c =>
      rw [hc] at hs
      simp only [Bool.false_eq_true, if_false] at hs
      split at hs
      · cases hs
      · simp only [Except.ok.injEq] at hs
        subst hs
        refine ⟨?_, rfl, rfl⟩
        intro f hf
        simp only [List.mem_map] at hf
        obtain ⟨g, -, rfl⟩ := hf
        exact le_max_right _ _

/-- A neutral massless fermion on a two-point grid. -/
def demoSpecies : Species :=
  { name := "nu", mass := 0, dof := 2, fermion := true, thermalDyn := true, Q := 0, grid := [0, 1],
    fastDecay := false, lifetime := 1 }

/-- A decoupled state of `demoSpecies`: `T = aT / a` at `a = 1`, below decoupling at `T = 2`. -/
noncomputable def demoState : PState ℕ :=
  { T := 1, aT := 1, Tdec := 2, dist := [1 / 2, 1 / 4], coll := [0, 0], integrals := [], tDec := 0,
    decayed := false, density := 1, histDist := [], histColl := [], histT := [], histDensity := [] }

theorem demoState_out : inEq demoSpecies demoState = false := by
  norm_num [inEq, demoSpecies, demoState]

/-- **C29, limitation.** Pauli blocking is not enforced: a fermion state with occupation numbers in
`[0, 1]` and a finite collision term can be moved to an occupation above 1. -/
theorem C29_pauli_not_enforced :
    ∃ (sp : Species) (p : Params) (coll : List CNum) (s s' : PState ℕ),
      sp.fermion = true ∧ (∀ f ∈ s.dist, 0 ≤ f ∧ f ≤ 1) ∧ 0 < p.h ∧
      updateDistribution sp p coll s = .ok s' ∧ ∃ f ∈ s'.dist, 1 < f := by
  refine ⟨demoSpecies,
    { log := true, m := 1, T := 1, a := 1, aIni := 1, x := 1, y := none, aT := 1, t := 0, H := 0,
      rho := none, S := none, Neff := 0, dy := 1, dx := 1, h := 1 }, [.fin 1, .fin 0], demoState, _,
    rfl, ?_, one_pos, updateDistribution_ok _ _ _ _ [1, 0] demoState_out rfl rfl, ?_⟩
  · norm_num [demoState]
  · norm_num [demoState]

example (p : Params) : ∃ s', updateDistribution demoSpecies p [.fin (-100), .nan] demoState = .ok s' ∧
    s'.dist[1]? = some (1 / 4) := by
  obtain ⟨s', h, -, -, -, -, -, hk⟩ := C29_pointwise demoSpecies p [.fin (-100), .nan] demoState
    demoState_out (by simp) rfl
  refine ⟨s', h, ?_⟩
  rw [((hk 1 (1 / 4) 0 (by simp [demoState])).2 rfl).2]
  norm_num

/-! ## The full step of one species -/

theorem register_fold (sp : Species) (p : Params) (ints : List ι) (s : PState ι) :
    ints.foldl (fun s i => registerIntegral sp p i s) s =
      if p.T < s.Tdec ∧ inEq sp s = false then { s with integrals := s.integrals ++ ints }
      else s := by
  induction ints generalizing s with
  | nil => simp
  | cons i l ih =>
    simp only [List.foldl_cons]
    rw [ih]
    by_cases h : p.T < s.Tdec ∧ inEq sp s = false
    · have e : registerIntegral sp p i s = { s with integrals := s.integrals ++ [i] } := by
        simp only [registerIntegral, if_pos h]
      rw [e]
      have h' : p.T < ({ s with integrals := s.integrals ++ [i] } : PState ι).Tdec ∧
          inEq sp { s with integrals := s.integrals ++ [i] } = false := h
      rw [if_pos h', if_pos h]
      simp
    · have e : registerIntegral sp p i s = s := by simp only [registerIntegral, if_neg h]
      rw [e, if_neg h, if_neg h]

/-- **C60.** After the registration phase a particle carries the integrals of the reactions in which
it comes first exactly when the plasma is below its decoupling temperature and it is out of
equilibrium; otherwise its list is as before. -/
theorem C60_registered_iff (sp : Species) (p : Params) (ints : List ι) (s : PState ι)
    (h0 : s.integrals = []) :
    (ints.foldl (fun s i => registerIntegral sp p i s) s).integrals =
      (if p.T < s.Tdec ∧ inEq sp s = false then ints else []) := by
  rw [register_fold]
  split_ifs <;> simp [h0]

theorem register_fold_fields (sp : Species) (p : Params) (ints : List ι) (s : PState ι) :
    (ints.foldl (fun s i => registerIntegral sp p i s) s) =
      { s with integrals := (ints.foldl (fun s i => registerIntegral sp p i s) s).integrals } := by
  rw [register_fold]
  split_ifs <;> rfl

theorem hasDecayed_false (sp : Species) (p : Params) (s : PState ι)
    (h : (hasDecayed sp p s).2 = false) : (hasDecayed sp p s).1 = s := by
  unfold hasDecayed at h ⊢
  cases hd : s.histDensity[0]? with
  | none => rfl
  | some d0 =>
    rw [hd] at h
    simp only at h ⊢
    by_cases hc : s.histDist.length > 1 ∧ sp.mass ≠ 0 ∧ d0 ≠ 0 ∧
        s.density / d0 < 1e-10 * (p.aIni / 10) ^ 3 ∧ sp.fastDecay = false
    · rw [if_pos hc] at h; cases h
    · rw [if_neg hc]

theorem calculateCollision_fields {sp : Species} {p : Params} {AB B : ℕ → ℝ} {s s' : PState ι}
    {c : List ℝ} (h : calculateCollision sp p AB B s = .ok (s', c)) :
    s'.T = s.T ∧ s'.aT = s.aT ∧ s'.Tdec = s.Tdec ∧ s'.integrals = s.integrals ∧
    (s.decayed = true → s'.decayed = true) ∧ (s' = s ∨ s'.decayed = true ∧ s'.dist = sp.zeros) := by
  simp only [calculateCollision] at h
  split_ifs at h with h1 h2
  · cases h; exact ⟨rfl, rfl, rfl, rfl, id, Or.inl rfl⟩
  · have hd : hasDecayed sp p s = (s', true) := by
      cases h
      exact Prod.ext rfl h2
    simp only [hasDecayed] at hd
    split at hd
    · cases hd
    · split_ifs at hd
      · cases hd; exact ⟨rfl, rfl, rfl, rfl, fun _ => rfl, Or.inr ⟨rfl, rfl⟩⟩
      · cases hd
  · have hd := hasDecayed_false sp p s (by simpa using h2)
    rw [hd] at h
    split at h
    · cases h
    · cases h; exact ⟨rfl, rfl, rfl, rfl, id, Or.inl rfl⟩

theorem updateDistribution_fields {sp : Species} {p : Params} {coll : List CNum} {s s' : PState ι}
    (h : updateDistribution sp p coll s = .ok s') :
    s'.T = s.T ∧ s'.aT = s.aT ∧ s'.Tdec = s.Tdec ∧ s'.decayed = s.decayed ∧
    s'.integrals = if inEq sp s = true then s.integrals else [] := by
  simp only [updateDistribution] at h
  split_ifs at h with h1
  · cases h; simp [h1]
  · split at h
    · cases h
    · split_ifs at h
      cases h; simp [h1]

/-- What one full step does to the temperature part of the state. -/
theorem step_fields {sp : Species} {dens : PState ι → Params → ℝ} {ints : List ι}
    {AB B : PState ι → ℕ → ℝ} {p : Params} {s s' : PState ι}
    (h : particleStep sp dens ints AB B p s = .ok s') :
    s'.T = (particleUpdate sp dens p s).T ∧ s'.aT = (particleUpdate sp dens p s).aT ∧
    s'.Tdec = s.Tdec ∧ (s.decayed = true → s'.decayed = true) ∧
    (s.integrals = [] → s'.integrals = []) := by
  obtain ⟨-, -, u3, u4, u5, -⟩ := update_spec sp dens p s
  simp only [particleStep] at h
  rw [register_fold_fields] at h
  set L := (ints.foldl (fun s i => registerIntegral sp p i s) (particleUpdate sp dens p s)).integrals
    with hL
  set u := particleUpdate sp dens p s with hu
  have hLc : s.integrals = [] → inEq sp u = true → L = [] := by
    intro hs he
    rw [hL, C60_registered_iff _ _ _ _ (by rw [u4, hs])]
    simp [he]
  split at h
  · cases h
  · rename_i r s₁ c hr
    obtain ⟨a1, a2, a3, a4, a5⟩ := updateDistribution_fields h
    have hf : s₁.T = u.T ∧ s₁.aT = u.aT ∧ s₁.Tdec = u.Tdec ∧ s₁.integrals = L ∧
        (u.decayed = true → s₁.decayed = true) := by
      split_ifs at hr with h1
      · cases hr; exact ⟨rfl, rfl, rfl, rfl, id⟩
      · obtain ⟨b1, b2, b3, b4, b5, -⟩ := calculateCollision_fields hr
        exact ⟨b1, b2, b3, b4, b5⟩
    obtain ⟨f1, f2, f3, f4, f5⟩ := hf
    refine ⟨by rw [a1, f1], by rw [a2, f2], by rw [a3, f3, u3], ?_, ?_⟩
    · intro hd; rw [a4]; exact f5 (by rw [u5]; exact hd)
    · intro hs
      rw [a5]
      split_ifs with he
      · rw [f4]; exact hLc hs ((inEq_congr sp _ _ f1 f3) ▸ he)
      · rfl

/-- **C60.** Registrations do not accumulate: after any number of completed steps the list is empty
again, whatever happened in between. -/
theorem C60_no_accumulation (sp : Species) (dens : PState ι → Params → ℝ) (ints : List ι)
    (AB B : PState ι → ℕ → ℝ) (ps : List Params) (s s' : PState ι) (h0 : s.integrals = [])
    (h : particleRun sp dens ints AB B ps s = .ok s') : s'.integrals = [] := by
  induction ps generalizing s with
  | nil => cases h; exact h0
  | cons p ps ih =>
    simp only [particleRun] at h
    split at h
    · cases h
    · rename_i s₁ hs
      exact ih s₁ ((step_fields hs).2.2.2.2 h0) h

/-- **C27.** Irreversibility holds for the complete step too (registration, collision term and
distribution update do not touch the temperature part). -/
theorem C27_irreversible_run (sp : Species) (dens : PState ι → Params → ℝ) (ints : List ι)
    (AB B : PState ι → ℕ → ℝ) (ps : List Params) (s s' : PState ι) (a₀ : ℝ) (hps : ScaleGrows a₀ ps)
    (hT : s.T = s.aT / a₀) (haT : 0 ≤ s.aT) (ht : sp.thermalDyn = true) (hout : inEq sp s = false)
    (h : particleRun sp dens ints AB B ps s = .ok s') :
    inEq sp s' = false ∧ s'.aT = s.aT := by
  induction ps generalizing s a₀ with
  | nil => cases h; exact ⟨hout, rfl⟩
  | cons p ps ih =>
    simp only [particleRun] at h
    split at h
    · cases h
    · rename_i s₁ hs
      obtain ⟨ha, hps'⟩ := hps.head
      obtain ⟨f1, f2, f3, -, -⟩ := step_fields hs
      obtain ⟨-, u2, u3, -⟩ := update_spec sp dens p s
      obtain ⟨e1, e2, e3⟩ := C27_decoupled_frozen sp dens p s hout (Or.inl ht)
      have ho := update_stays_out sp dens p s a₀ hps.1 ha hT haT hout
      have := ih s₁ p.a hps' (by rw [f1, f2, u2]) (by rw [f2, e1]; exact haT)
        (by rw [← ho]; exact inEq_congr sp _ _ f1 (by rw [f3, u3])) h
      rw [f2, e1] at this
      exact this

/-! ## C49 -/

/-- **C49.** When the collision term is computed, the species is declared decayed exactly when it has
a history, is massive, has no fast decay mode, and its density relative to the first stored one is
below the dilution threshold; then its distribution is zeroed. -/
theorem C49_detect (sp : Species) (p : Params) (s : PState ι) (d0 : ℝ)
    (h0 : s.histDensity[0]? = some d0) :
    ((hasDecayed sp p s).2 = true ↔
      1 < s.histDist.length ∧ sp.mass ≠ 0 ∧ d0 ≠ 0 ∧ sp.fastDecay = false ∧
        s.density / d0 < 1e-10 * (p.aIni / 10) ^ 3) ∧
    ((hasDecayed sp p s).2 = true → (hasDecayed sp p s).1.decayed = true ∧
      (hasDecayed sp p s).1.dist = List.replicate sp.grid.length 0) ∧
    ((hasDecayed sp p s).2 = false → (hasDecayed sp p s).1 = s) := by
  simp only [hasDecayed, h0]
  split_ifs with h
  · simp only [true_iff, forall_const, Species.zeros, and_self, true_and, Bool.true_eq_false,
      false_implies, and_true]
    tauto
  · simp only [Bool.false_eq_true, false_iff, false_implies, forall_const, and_true, true_and]
    tauto

theorem zipWith_zeros (n : ℕ) (h : ℝ) :
    List.zipWith (fun f i : ℝ => max (f + i * h) 0) (List.replicate n 0) (List.replicate n 0) =
      List.replicate n 0 := by
  induction n with
  | zero => rfl
  | succ n ih => simp [List.replicate_succ, ih]

/-- One step of a decayed species that stays out of equilibrium. -/
theorem step_decayed (sp : Species) (dens : PState ι → Params → ℝ) (ints : List ι)
    (AB B : PState ι → ℕ → ℝ) (p : Params) (s : PState ι) (hd : s.decayed = true)
    (hz : s.dist = sp.zeros) (ho : inEq sp s = false)
    (ho' : inEq sp (particleUpdate sp dens p s) = false) :
    ∃ s', particleStep sp dens ints AB B p s = .ok s' ∧ s'.decayed = true ∧ s'.dist = sp.zeros ∧
      s'.coll = sp.zeros := by
  obtain ⟨-, -, u3, u4, u5, u6, -⟩ := update_spec sp dens p s
  have ud : (particleUpdate sp dens p s).dist = sp.zeros := by
    rw [(update_dist sp dens p s).1, ho]; simp [hz]
  simp only [particleStep]
  rw [register_fold_fields]
  set L := (ints.foldl (fun s i => registerIntegral sp p i s) (particleUpdate sp dens p s)).integrals
  set u := particleUpdate sp dens p s with hu
  have hc : (if ({ u with integrals := L } : PState ι).integrals = [] then
        Except.ok ({ u with integrals := L }, ({ u with integrals := L } : PState ι).coll)
      else calculateCollision sp p (AB { u with integrals := L }) (B { u with integrals := L })
        { u with integrals := L }) = .ok ({ u with integrals := L }, sp.zeros) := by
    split_ifs with h1
    · simp [u6]
    · have : ({ u with integrals := L } : PState ι).decayed = true := by simp [u5, hd]
      rw [calculateCollision, if_pos (Or.inr this)]
  rw [hc]
  simp only
  rw [updateDistribution_ok sp p _ { u with integrals := L } sp.zeros ho' (sanitize_map_fin _)
    (by simp [ud])]
  refine ⟨_, rfl, ?_, ?_, rfl⟩
  · simp [u5, hd]
  · simp only [ud, Species.zeros, zipWith_zeros]

/-- **C49.** The latch: once decayed (flag set, distribution zero, out of equilibrium), every later
sequence of steps completes and leaves the flag set and the distribution and collision term zero,
whatever integrals are registered and whatever they would return. -/
theorem C49_latch (sp : Species) (dens : PState ι → Params → ℝ) (ints : List ι)
    (AB B : PState ι → ℕ → ℝ) (ps : List Params) (s : PState ι) (a₀ : ℝ) (hps : ScaleGrows a₀ ps)
    (hT : s.T = s.aT / a₀) (haT : 0 ≤ s.aT) (hout : inEq sp s = false)
    (hpl : ∀ p ∈ ps, 0 ≤ p.aT)
    (hd : s.decayed = true) (hz : s.dist = List.replicate sp.grid.length 0) :
    ∃ s', particleRun sp dens ints AB B ps s = .ok s' ∧ s'.decayed = true ∧
      s'.dist = List.replicate sp.grid.length 0 ∧
      (ps ≠ [] → s'.coll = List.replicate sp.grid.length 0) := by
  induction ps generalizing s a₀ with
  | nil => exact ⟨s, rfl, hd, hz, fun h => absurd rfl h⟩
  | cons p ps ih =>
    obtain ⟨ha, hps'⟩ := hps.head
    have ho := update_stays_out sp dens p s a₀ hps.1 ha hT haT hout
    obtain ⟨s₁, h1, h2, h3, h4⟩ := step_decayed sp dens ints AB B p s hd hz hout ho
    obtain ⟨f1, f2, f3, -, -⟩ := step_fields h1
    obtain ⟨u1, u2, u3, -⟩ := update_spec sp dens p s
    obtain ⟨s', r1, r2, r3, r4⟩ := ih s₁ p.a hps' (by rw [f1, f2, u2])
      (by rw [f2, u1]; split_ifs; exacts [hpl p (by simp), haT])
      (by rw [← ho]; exact inEq_congr sp _ _ f1 (by rw [f3, u3]))
      (fun q hq => hpl q (by simp [hq])) h2 h3
    refine ⟨s', by simp only [particleRun, h1]; exact r1, r2, r3, fun _ => ?_⟩
    cases ps with
    | nil => simp only [particleRun] at r1; cases r1; exact h4
    | cons q qs => exact r4 (by simp)

/-! ## C18 -/

theorem zipWith_zero_nonneg (l : List ℝ) (n : ℕ) (h : ℝ) (hn : l.length = n)
    (hl : ∀ f ∈ l, 0 ≤ f) :
    List.zipWith (fun f i : ℝ => max (f + i * h) 0) l (List.replicate n 0) = l := by
  induction l generalizing n with
  | nil => simp
  | cons a l ih =>
    subst hn
    simp only [List.length_cons, List.replicate_succ, List.zipWith_cons_cons]
    rw [ih _ rfl (fun f hf => hl f (by simp [hf]))]
    have := hl a (by simp)
    simp [this]

/-- **C18 (partial).** A decoupled neutral or thermal species for which no integral is registered
keeps its (non-negative) distribution through a step.  The full claim, for registered integrals whose
terms vanish, is false: see `C18_zero_terms_grow`. -/
theorem C18_no_integrals_partial (sp : Species) (dens : PState ι → Params → ℝ)
    (AB B : PState ι → ℕ → ℝ) (p : Params) (s : PState ι)
    (hsp : sp.thermalDyn = true ∨ sp.Q = 0) (hlen : s.dist.length = sp.grid.length)
    (hnn : ∀ f ∈ s.dist, 0 ≤ f) (h0 : s.integrals = [])
    (ho : inEq sp s = false) (ho' : inEq sp (particleUpdate sp dens p s) = false) :
    ∃ s', particleStep sp dens [] AB B p s = .ok s' ∧ s'.dist = s.dist := by
  obtain ⟨-, -, u3, u4, u5, u6, -⟩ := update_spec sp dens p s
  have ud := (C27_decoupled_frozen sp dens p s ho hsp).2.2
  simp only [particleStep, List.foldl_nil, u4, h0, if_true]
  rw [updateDistribution_ok sp p _ _ sp.zeros ho' (by rw [u6]; exact sanitize_map_fin _)
    (by simp [Species.zeros, ud, hlen])]
  refine ⟨_, rfl, ?_⟩
  simp only [ud]
  exact zipWith_zero_nonneg _ _ _ hlen hnn

theorem dotZip_zero (bs fs : List ℝ) (h : ∀ f ∈ fs, f = 0) : dotZip bs fs = 0 := by
  induction fs generalizing bs with
  | nil => cases bs <;> simp [dotZip]
  | cons f fs ih =>
    cases bs with
    | nil => simp [dotZip]
    | cons b bs =>
      have h1 := h f (by simp)
      have h2 := ih bs (fun g hg => h g (by simp [hg]))
      simp only [dotZip] at h2 ⊢
      simp [h1, h2]

/-- With zero terms the Adams–Moulton solver returns the old value. -/
theorem adamsMoulton_zero (y h : ℝ) (fs : List ℝ) (hfs : ∀ f ∈ fs, f = 0) :
    adamsMoulton y fs 0 0 h none = .ok y := by
  obtain ⟨v, hv⟩ := C15_auto_total y 0 0 h fs
  have hv' := hv
  unfold adamsMoulton at hv
  simp only at hv
  split at hv
  · cases hv
  · rename_i bs d _
    split_ifs at hv
    rw [dotZip_zero] at hv
    · simp only [Except.ok.injEq] at hv
      rw [hv', ← hv]; simp
    · intro f hf
      simp only [List.mem_append, List.mem_singleton] at hf
      rcases hf with hf | hf
      · refine hfs f ?_
        unfold pyLast at hf
        split_ifs at hf
        · exact hf
        · exact List.mem_of_mem_drop hf
      · exact hf

theorem collComponent_zero (sp : Species) (p : Params) (s : PState ι) (hs : StrictInc sp.grid)
    (hlen : s.dist.length = sp.grid.length) (ho : inEq sp s = false)
    (hh : ∀ row ∈ s.histColl, ∀ f ∈ row, f = 0) (k : ℕ) (hk : k < sp.grid.length) :
    collComponent sp p s k 0 0 = .ok (s.dist[k]'(by omega)) := by
  unfold collComponent particleDistribution
  simp only [List.getElem?_eq_getElem hk, ho]
  simp only [Bool.false_eq_true, if_false]
  rw [C09_exact_on_grid sp.grid s.dist _ _ _ hs hlen k hk]
  simp only
  apply adamsMoulton_zero
  intro f hf
  simp only [List.mem_map] at hf
  obtain ⟨row, hr, rfl⟩ := hf
  have hr' : row ∈ s.histColl := by
    unfold pyLast at hr
    split_ifs at hr
    · exact hr
    · exact List.mem_of_mem_drop hr
  cases hx : row[k]? with
  | none => rfl
  | some x => exact hh row hr' x (List.mem_of_getElem? hx)

theorem mapM_ok {α β : Type*} (f : α → Except Err β) (g : α → β) (l : List α)
    (h : ∀ a ∈ l, f a = .ok (g a)) : l.mapM f = .ok (l.map g) := by
  induction l with
  | nil => rfl
  | cons a l ih =>
    rw [List.mapM_cons, h a (by simp), ih (fun b hb => h b (by simp [hb]))]
    rfl

/-- **C18, refutation.** If integrals are registered for a decoupled species, all of them evaluate to
zero and all past terms are zero, one step does not leave the distribution unchanged: it multiplies
every occupation number by `1 + h`. -/
theorem C18_zero_terms_grow (sp : Species) (dens : PState ι → Params → ℝ) (ints : List ι)
    (p : Params) (s : PState ι) (hsp : sp.thermalDyn = true ∨ sp.Q = 0) (hs : StrictInc sp.grid)
    (hlen : s.dist.length = sp.grid.length) (hnn : ∀ f ∈ s.dist, 0 ≤ f) (hh0 : 0 ≤ p.h)
    (hh : ∀ row ∈ s.histColl, ∀ f ∈ row, f = 0)
    (hne : ints ≠ []) (hpT : p.T < s.Tdec) (ho : inEq sp s = false)
    (ho' : inEq sp (particleUpdate sp dens p s) = false)
    (hdec : s.decayed = false)
    (hndec : (hasDecayed sp p { particleUpdate sp dens p s with
      integrals := s.integrals ++ ints }).2 = false) :
    ∃ s', particleStep sp dens ints (fun _ _ => 0) (fun _ _ => 0) p s = .ok s' ∧
      s'.dist = s.dist.map fun f => (1 + p.h) * f := by
  obtain ⟨-, -, u3, u4, u5, u6, u7⟩ := update_spec sp dens p s
  have ud := (C27_decoupled_frozen sp dens p s ho hsp).2.2
  simp only [particleStep]
  set u : PState ι := { particleUpdate sp dens p s with integrals := s.integrals ++ ints } with hu
  have hreg : ints.foldl (fun s i => registerIntegral sp p i s) (particleUpdate sp dens p s) = u := by
    rw [register_fold, if_pos ⟨u3.symm ▸ hpT, ho'⟩, u4]
  rw [hreg]
  have hui : u.integrals ≠ [] := by simp [hu, hne]
  have hud : u.dist = s.dist := ud
  have huo : inEq sp u = false := ho'
  rw [if_neg hui]
  have hcd := hasDecayed_false sp p u hndec
  have hc : calculateCollision sp p (fun _ => 0) (fun _ => 0) u = .ok (u, s.dist) := by
    unfold calculateCollision
    rw [if_neg (by
      rintro (h | h)
      · exact hui h
      · have : s.decayed = true := by rw [← u5]; exact h
        rw [hdec] at this; cases this)]
    simp only [hndec, hcd]
    rw [mapM_ok _ (fun k => (s.dist[k]?).getD 0)]
    · simp only [Bool.false_eq_true, if_false, Except.ok.injEq, Prod.mk.injEq, true_and]
      apply List.ext_getElem?
      intro k
      simp only [List.getElem?_map]
      by_cases hk : k < sp.grid.length
      · rw [List.getElem?_range hk, Option.map_some,
          List.getElem?_eq_getElem (by omega : k < s.dist.length), Option.getD_some]
      · rw [List.getElem?_eq_none (by simp; omega), List.getElem?_eq_none (by omega)]
        rfl
    · intro k hk
      have hk' : k < sp.grid.length := by simpa using hk
      rw [collComponent_zero sp p u hs (by rw [hud, hlen]) huo (by
        show ∀ row ∈ (particleUpdate sp dens p s).histColl, _
        rw [u7]; exact hh) k hk']
      simp [hud, List.getElem?_eq_getElem (by omega : k < s.dist.length)]
  rw [hc]
  simp only
  rw [updateDistribution_ok sp p _ u s.dist huo (sanitize_map_fin _) (by rw [hud])]
  refine ⟨_, rfl, ?_⟩
  simp only [hud]
  rw [List.zipWith_self]
  apply List.map_congr_left
  intro f hf
  have := hnn f hf
  rw [max_eq_left (by positivity)]
  ring

/-- Parameters at `a = 2`, `T = 1`. -/
noncomputable def demoP : Params :=
  { log := true, m := 1, T := 1, a := 2, aIni := 1, x := 2, y := none, aT := 2, t := 3, H := 0,
    rho := none, S := none, Neff := 0, dy := 1 / 10, dx := 1, h := 1 / 10 }

theorem demo_update_out (dens : PState ℕ → Params → ℝ) :
    inEq demoSpecies (particleUpdate demoSpecies dens demoP demoState) = false :=
  update_stays_out demoSpecies dens demoP demoState 1 one_pos (by norm_num [demoP])
    (by norm_num [demoState]) (by norm_num [demoState]) demoState_out

/-- The hypotheses of `C18_zero_terms_grow` are met by a neutrino-like state: its distribution grows
by ten per cent in a step without any interaction. -/
example : ∃ s', particleStep demoSpecies (fun _ _ => 1) [7] (fun _ _ => 0) (fun _ _ => 0) demoP
    demoState = .ok s' ∧ s'.dist = [11 / 20, 11 / 40] := by
  obtain ⟨s', h1, h2⟩ := C18_zero_terms_grow demoSpecies (fun _ _ => 1) [7] demoP demoState
    (Or.inl rfl) (by norm_num [demoSpecies]) rfl (by norm_num [demoState]) (by norm_num [demoP])
    (by simp [demoState]) (by simp) (by norm_num [demoP, demoState]) demoState_out
    (demo_update_out _) rfl (by
      unfold hasDecayed
      split
      · rfl
      · rw [if_neg]
        simp [demoSpecies])
  exact ⟨s', h1, by rw [h2]; norm_num [demoState, demoP]⟩

example : ∃ s', particleStep demoSpecies (fun _ _ => 1) ([] : List ℕ) (fun _ _ => 0) (fun _ _ => 0)
    demoP demoState = .ok s' ∧ s'.dist = [1 / 2, 1 / 4] :=
  C18_no_integrals_partial demoSpecies _ _ _ demoP demoState (Or.inl rfl) rfl
    (by norm_num [demoState]) rfl demoState_out (demo_update_out _)

/-- `ScaleGrows` and the other hypotheses of C27 hold for a species starting in equilibrium. -/
example : ScaleGrows 1 [demoP, demoP] ∧
    ({ demoState with T := 3, aT := 3 } : PState ℕ).T = 3 / 1 ∧
    inEq demoSpecies { demoState with T := 3, aT := 3 } = true ∧
    inEq demoSpecies (updates demoSpecies (fun _ _ => 1) [demoP, demoP]
      { demoState with T := 3, aT := 3 }) = false := by
  have h1 : inEq demoSpecies { demoState with T := 3, aT := 3 } = true := by
    norm_num [inEq, demoSpecies, demoState]
  refine ⟨by norm_num [ScaleGrows, demoP], by norm_num, h1, ?_⟩
  obtain ⟨e1, e2⟩ := C27_equilibrium_follows demoSpecies (fun _ _ => 1) demoP _ h1
  have h2 : inEq demoSpecies (particleUpdate demoSpecies (fun _ _ => 1) demoP
      { demoState with T := 3, aT := 3 }) = false := by
    simp only [inEq, e2, (update_spec _ _ _ _).2.2.1]
    norm_num [demoSpecies, demoState, demoP]
  exact (C27_irreversible demoSpecies (fun _ _ => 1) [demoP] _ 2 (by norm_num [ScaleGrows, demoP])
    (by rw [e1, e2]; rfl) (by rw [e1]; norm_num [demoP]) rfl h2).1

/-- A decayed species meeting the hypotheses of `C49_latch`. -/
example : ∃ s', particleRun demoSpecies (fun _ _ => 1) [1, 2] (fun _ _ => 5) (fun _ _ => 7)
    [demoP, demoP] { demoState with decayed := true, dist := [0, 0] } = .ok s' ∧
    s'.dist = [0, 0] := by
  obtain ⟨s', h, -, h2, -⟩ := C49_latch demoSpecies (fun _ _ => 1) [1, 2] (fun _ _ => 5)
    (fun _ _ => 7) [demoP, demoP] { demoState with decayed := true, dist := [0, 0] } 1
    (by norm_num [ScaleGrows, demoP]) (by norm_num [demoState]) (by norm_num [demoState])
    demoState_out (by norm_num [demoP]) rfl rfl
  exact ⟨s', h, by rw [h2]; rfl⟩

example : regime 1e3 { demoSpecies with mass := 1 } ({ demoState with T := 5 } : PState ℕ) =
    .intermediate :=
  ((C28_conditions 1e3 { demoSpecies with mass := 1 } ({ demoState with T := 5 } : PState ℕ)
    (by norm_num) (by norm_num) (by norm_num [inEq, demoSpecies, demoState])).2.1).mpr
    (by norm_num)

/-! ## C49: the reference density -/

theorem update_hist (sp : Species) (dens : PState ι → Params → ℝ) (p : Params) (s : PState ι) :
    (particleUpdate sp dens p s).histT = s.histT ++ [p.t] ∧
    (particleUpdate sp dens p s).histDensity =
      s.histDensity ++ [(particleUpdate sp dens p s).density] := by
  simp only [particleUpdate, initDistribution]
  split_ifs <;> exact ⟨rfl, rfl⟩

theorem register_fold_hist (sp : Species) (p : Params) (ints : List ι) (s : PState ι) :
    (ints.foldl (fun s i => registerIntegral sp p i s) s).histT = s.histT ∧
    (ints.foldl (fun s i => registerIntegral sp p i s) s).histDensity = s.histDensity ∧
    (ints.foldl (fun s i => registerIntegral sp p i s) s).density = s.density := by
  rw [register_fold_fields]
  exact ⟨rfl, rfl, rfl⟩

theorem hasDecayed_hist (sp : Species) (p : Params) (s : PState ι) :
    (hasDecayed sp p s).1.histT = s.histT ∧ (hasDecayed sp p s).1.histDensity = s.histDensity ∧
    (hasDecayed sp p s).1.density = s.density := by
  unfold hasDecayed
  dsimp only
  split
  · exact ⟨rfl, rfl, rfl⟩
  · split_ifs <;> exact ⟨rfl, rfl, rfl⟩

theorem calculateCollision_hist {sp : Species} {p : Params} {AB B : ℕ → ℝ} {s s' : PState ι}
    {c : List ℝ} (h : calculateCollision sp p AB B s = .ok (s', c)) :
    s'.histT = s.histT ∧ s'.histDensity = s.histDensity ∧ s'.density = s.density := by
  unfold calculateCollision at h
  split_ifs at h with h1
  · cases h; exact ⟨rfl, rfl, rfl⟩
  · dsimp only at h
    split_ifs at h with h2
    · cases h; exact hasDecayed_hist sp p s
    · split at h
      · cases h
      · cases h; exact hasDecayed_hist sp p s

theorem updateDistribution_hist {sp : Species} {p : Params} {coll : List CNum} {s s' : PState ι}
    (h : updateDistribution sp p coll s = .ok s') :
    s'.histT = s.histT ∧ s'.histDensity = s.histDensity ∧ s'.density = s.density := by
  unfold updateDistribution at h
  split_ifs at h with h1
  · cases h; exact ⟨rfl, rfl, rfl⟩
  · split at h
    · cases h
    · split_ifs at h
      cases h; exact ⟨rfl, rfl, rfl⟩

theorem step_hist {sp : Species} {dens : PState ι → Params → ℝ} {ints : List ι}
    {AB B : PState ι → ℕ → ℝ} {p : Params} {s s' : PState ι}
    (h : particleStep sp dens ints AB B p s = .ok s') :
    s'.histT = s.histT ++ [p.t] ∧ s'.histDensity = s.histDensity ++ [s'.density] := by
  obtain ⟨u1, u2⟩ := update_hist sp dens p s
  obtain ⟨r1, r2, r3⟩ := register_fold_hist sp p ints (particleUpdate sp dens p s)
  simp only [particleStep] at h
  split at h
  · cases h
  · rename_i r s₁ c hr
    obtain ⟨a1, a2, a3⟩ := updateDistribution_hist h
    have : s₁.histT = (particleUpdate sp dens p s).histT ∧
        s₁.histDensity = (particleUpdate sp dens p s).histDensity ∧
        s₁.density = (particleUpdate sp dens p s).density := by
      split_ifs at hr with h1
      · cases hr; exact ⟨r1, r2, r3⟩
      · obtain ⟨b1, b2, b3⟩ := calculateCollision_hist hr
        exact ⟨b1.trans r1, b2.trans r2, b3.trans r3⟩
    obtain ⟨b1, b2, b3⟩ := this
    exact ⟨by rw [a1, b1, u1], by rw [a2, b2, u2, a3, b3]⟩

/-- **C49.** The density the decay test compares with is the one at creation: after `set_params` on a
new particle and any completed run, the first stored density is the density `set_params` computed, one
density and one time have been stored per update, and the last stored density is the current one. -/
theorem C49_reference (sp : Species) (dens : PState ι → Params → ℝ) (ints : List ι)
    (AB B : PState ι → ℕ → ℝ) (p₀ : Params) (ps : List Params) (s s' : PState ι)
    (h0 : s.histDensity = []) (hT : s.histT = [])
    (h : particleRun sp dens ints AB B ps (setParams sp dens p₀ s) = .ok s') :
    s'.histDensity[0]? = some (setParams sp dens p₀ s).density ∧
    s'.histT = p₀.t :: ps.map Params.t ∧ s'.histDensity.length = ps.length + 1 ∧
    s'.histDensity.getLast? = some s'.density := by
  have hset : (setParams sp dens p₀ s).histT = [p₀.t] ∧
      (setParams sp dens p₀ s).histDensity = [(setParams sp dens p₀ s).density] := by
    unfold setParams
    dsimp only
    constructor
    · rw [(update_hist sp dens p₀ _).1]
      dsimp only
      unfold initDistribution
      split_ifs <;> simp [hT]
    · rw [(update_hist sp dens p₀ _).2]
      conv_lhs => arg 1; dsimp only
      unfold initDistribution
      split_ifs <;> simp [h0]
  generalize setParams sp dens p₀ s = q at h hset ⊢
  obtain ⟨q1, q2⟩ := hset
  have key : ∀ (ps : List Params) (q s' : PState ι) (d : ℝ) (l : List ℝ),
      q.histDensity = d :: l → q.histDensity.getLast? = some q.density →
      particleRun sp dens ints AB B ps q = .ok s' →
      s'.histDensity[0]? = some d ∧ s'.histT = q.histT ++ ps.map Params.t ∧
      s'.histDensity.length = q.histDensity.length + ps.length ∧
      s'.histDensity.getLast? = some s'.density := by
    intro ps
    induction ps with
    | nil =>
      intro q s' d l hd hl h
      cases h
      exact ⟨by rw [hd]; rfl, by simp, by simp, hl⟩
    | cons p ps ih =>
      intro q s' d l hd hl h
      simp only [particleRun] at h
      split at h
      · cases h
      · rename_i s₁ h1
        obtain ⟨a, b⟩ := step_hist h1
        obtain ⟨c1, c2, c3, c4⟩ := ih s₁ s' d (l ++ [s₁.density]) (by rw [b, hd]; rfl)
          (by rw [b]; simp) h
        refine ⟨c1, by rw [c2, a]; simp, by rw [c3, b]; simp; omega, c4⟩
  obtain ⟨k1, k2, k3, k4⟩ := key ps q s' q.density [] q2 (by rw [q2]; rfl) h
  exact ⟨k1, by rw [k2, q1]; rfl, by rw [k3, q2]; simp; omega, k4⟩

/-- **C49.** Dilution alone does not trigger the test while the scale factor is at most 10: a species
declared decayed there has lost all but a fraction `10⁻¹⁰` of its comoving number. -/
theorem C49_comoving (sp : Species) (p : Params) (s : PState ι) (d0 : ℝ)
    (h0 : s.histDensity[0]? = some d0) (hd0 : 0 < d0) (ha : 0 < p.a) (ha10 : p.a ≤ 10)
    (hi : 0 < p.aIni) (hn : 0 ≤ s.density) (hdec : (hasDecayed sp p s).2 = true) :
    s.density * p.a ^ 3 < 1e-10 * (d0 * p.aIni ^ 3) := by
  obtain ⟨-, -, -, -, hlt⟩ := (C49_detect sp p s d0 h0).1.mp hdec
  rw [div_lt_iff₀ hd0] at hlt
  have h1 : p.a ^ 3 ≤ 10 ^ 3 := pow_le_pow_left₀ ha.le ha10 3
  have h2 : s.density * p.a ^ 3 ≤ s.density * 10 ^ 3 := mul_le_mul_of_nonneg_left h1 hn
  have h3 : 1e-10 * (p.aIni / 10) ^ 3 * d0 * 10 ^ 3 = 1e-10 * (d0 * p.aIni ^ 3) := by ring
  nlinarith [pow_pos ha 3]

/-- Beyond `a = 10·10^{10/3}` the same test declares a species decayed whose comoving number never
changed: dilution alone suffices. -/
theorem C49_dilution_suffices (sp : Species) (p : Params) (s : PState ι) (d0 : ℝ)
    (h0 : s.histDensity[0]? = some d0) (hd0 : 0 < d0) (ha : 0 < p.a) (hfar : 1e13 < p.a ^ 3)
    (hi : 0 < p.aIni) (hcons : s.density * p.a ^ 3 = d0 * p.aIni ^ 3) (hm : sp.mass ≠ 0)
    (hf : sp.fastDecay = false) (hh : 1 < s.histDist.length) : (hasDecayed sp p s).2 = true := by
  refine (C49_detect sp p s d0 h0).1.mpr ⟨hh, hm, hd0.ne', hf, ?_⟩
  have hp := pow_pos ha 3
  have hd : s.density = d0 * p.aIni ^ 3 / p.a ^ 3 := by rw [← hcons]; field_simp
  rw [hd]
  have h3 := pow_pos hi 3
  have e : d0 * p.aIni ^ 3 / p.a ^ 3 / d0 = p.aIni ^ 3 / p.a ^ 3 := by field_simp
  rw [e, div_lt_iff₀ hp]
  have e2 : 1e-10 * (p.aIni / 10) ^ 3 * p.a ^ 3 = p.aIni ^ 3 * (1e-13 * p.a ^ 3) := by ring
  rw [e2]
  have : 1 < 1e-13 * p.a ^ 3 := by linarith
  nlinarith

/-- A new particle and a run of two steps meeting the hypotheses of `C49_reference`. -/
example : ∃ s', particleRun demoSpecies (fun s _ => s.T) [] (fun _ _ => 0) (fun _ _ => 0)
    [demoP, { demoP with a := 4, t := 5 }]
    (setParams demoSpecies (fun s _ => s.T) demoP { demoState with Tdec := 0 }) = .ok s' ∧
    s'.histDensity.length = 3 ∧ s'.histT = [3, 3, 5] ∧ s'.histDensity[0]? = some 1 := by
  have run : ∃ s', particleRun demoSpecies (fun s _ => s.T) [] (fun _ _ => 0) (fun _ _ => 0)
      [demoP, { demoP with a := 4, t := 5 }]
      (setParams demoSpecies (fun s _ => s.T) demoP { demoState with Tdec := 0 }) = .ok s' := by
    simp [particleRun, particleStep, setParams, particleUpdate, updateDistribution, initDistribution,
      inEq, demoSpecies, demoState, demoP]
  obtain ⟨s', h⟩ := run
  obtain ⟨h1, h2, h3, -⟩ := C49_reference demoSpecies (fun s _ => s.T) [] _ _ demoP
    [demoP, { demoP with a := 4, t := 5 }] { demoState with Tdec := 0 } s' rfl rfl h
  refine ⟨s', h, h3, by rw [h2]; rfl, ?_⟩
  rw [h1]
  simp [setParams, particleUpdate, initDistribution, inEq, demoSpecies, demoState, demoP]

/-- A stable relic at `a = 10⁵`: declared decayed by dilution alone. -/
example : (hasDecayed { demoSpecies with mass := 1, fastDecay := false }
    { demoP with a := 1e5, aIni := 1 }
    ({ demoState with density := 1e-15, histDensity := [1], histDist := [[], []] } : PState ℕ)).2 =
      true :=
  C49_dilution_suffices _ _ _ 1 rfl one_pos (by norm_num) (by norm_num) (by norm_num)
    (by norm_num) (by norm_num) rfl (by norm_num)

/-- A decayed species at `a = 1`. -/
example : (1e-20 : ℝ) * 1 ^ 3 < 1e-10 * (1 * (1 / 10) ^ 3) :=
  C49_comoving { demoSpecies with mass := 1, fastDecay := false }
    { demoP with a := 1, aIni := 1 / 10 }
    ({ demoState with density := 1e-20, histDensity := [1], histDist := [[], []] } : PState ℕ) 1 rfl
    one_pos (by norm_num) (by norm_num) (by norm_num) (by norm_num)
    ((C49_detect _ _ _ 1 rfl).1.mpr ⟨by norm_num, by norm_num, by norm_num, rfl, by norm_num⟩)

end PyBBN
