import Verif.Props.RestLimit
/-!
# C132: interpolated spectra have no jumps

`distribution_interpolation` (three_particle/cpp/integral.cpp 41–109, the same text in four_particle/cpp) as a function of the momentum: the three cases of the lookup (a point of
the grid, between two points, above the grid) fit together.
-/
namespace PyBBN
open Filter Topology

theorem energy_continuous (m : ℝ) : Continuous fun p => energy p m := by
  unfold energy; fun_prop

section cell
variable {a b fa fb m : ℝ} {eta : ℤ} (h0 : 0 ≤ a) (hab : a < b) (ha : 0 < fa) (hb : 0 < fb)
  (heta : eta = 1 ∨ eta = -1) (h1 : eta = 1 → fa < 1 ∧ fb < 1)
include h0 hab ha hb heta h1

theorem cell_args : 0 < 1 / fa - eta ∧ 0 < 1 / fb - eta := by
  rcases heta with h | h
  · obtain ⟨x, y⟩ := h1 h
    rw [h]
    push_cast
    constructor
    · have := one_lt_one_div ha x; linarith
    · have := one_lt_one_div hb y; linarith
  · rw [h]
    push_cast
    rw [sub_neg_eq_add, sub_neg_eq_add]
    constructor <;> positivity

/-- The formula inside a cell. -/
theorem interpCell_formula (p : ℝ) : interpCell a b fa fb p m eta =
    1 / (Real.exp (((energy p m - energy a m) * Real.log (1 / fb - eta) +
      (energy b m - energy p m) * Real.log (1 / fa - eta)) / (energy b m - energy a m)) + eta) := by
  obtain ⟨x, y⟩ := cell_args h0 hab ha hb heta h1
  unfold interpCell
  dsimp only
  rw [if_neg (by push Not; exact ⟨hb.ne', ha.ne'⟩), if_pos y, if_pos x]

theorem interpCell_lo : interpCell a b fa fb a m eta = fa := by
  obtain ⟨x, y⟩ := cell_args h0 hab ha hb heta h1
  have hE := sub_pos.mpr (energy_strictMono (m := m) h0 hab)
  rw [interpCell_formula h0 hab ha hb heta h1, sub_self, zero_mul, zero_add, mul_div_cancel_left₀ _ hE.ne', Real.exp_log x]
  simp

theorem interpCell_hi : interpCell a b fa fb b m eta = fb := by
  obtain ⟨x, y⟩ := cell_args h0 hab ha hb heta h1
  have hE := sub_pos.mpr (energy_strictMono (m := m) h0 hab)
  rw [interpCell_formula h0 hab ha hb heta h1, sub_self, zero_mul, add_zero, mul_div_cancel_left₀ _ hE.ne', Real.exp_log y]
  simp

theorem interpCell_continuousOn : ContinuousOn (fun p => interpCell a b fa fb p m eta) (Set.Icc a b) := by
  obtain ⟨x, y⟩ := cell_args h0 hab ha hb heta h1
  have hE := sub_pos.mpr (energy_strictMono (m := m) h0 hab)
  have hc := energy_continuous m
  simp only [interpCell_formula h0 hab ha hb heta h1]
  refine ContinuousOn.div continuousOn_const (Continuous.continuousOn (by fun_prop)) fun p hp => ?_
  rcases heta with h | h
  · rw [h]; push_cast; positivity
  · have la : 0 < Real.log (1 / fa - eta) := by
      apply Real.log_pos; rw [h]; push_cast; have : 0 < 1 / fa := by positivity
      linarith
    have lb : 0 < Real.log (1 / fb - eta) := by
      apply Real.log_pos; rw [h]; push_cast; have : 0 < 1 / fb := by positivity
      linarith
    have u : 0 ≤ energy p m - energy a m := sub_nonneg.mpr (energy_mono h0 hp.1)
    have w : 0 ≤ energy b m - energy p m := sub_nonneg.mpr (energy_mono (h0.trans hp.1) hp.2)
    have hn : 0 < (energy p m - energy a m) * Real.log (1 / fb - eta) +
        (energy b m - energy p m) * Real.log (1 / fa - eta) := by
      rcases eq_or_lt_of_le u with hu | hu
      · have : 0 < energy b m - energy p m := by linarith
        have := mul_pos this la
        rw [← hu]; linarith
      · have := mul_pos hu lb
        have := mul_nonneg w la.le
        linarith
    have := Real.one_lt_exp_iff.mpr (div_pos hn hE)
    have e : (eta : ℝ) = -1 := by rw [h]; norm_num
    rw [e] at this ⊢
    linarith

end cell

/-- **C132.** The interpolated occupation number of a positive spectrum is a continuous function of the momentum on the whole
range for which the lookup is defined: at the points of the grid both neighbouring cells agree with the stored value, and the
exponential tail starts at the last one. -/
theorem C132_continuous (s : CParticle) (f : ℝ → ℝ) (heq : s.inEq = false) (hne : s.grid ≠ [])
    (hs : s.grid.Pairwise (· < ·)) (hpos : 0 ≤ s.grid.head hne) (hlen : s.dist.length = s.grid.length)
    (heta : s.eta = 1 ∨ s.eta = -1) (hd : ∀ d ∈ s.dist, 0 < d ∧ (s.eta = 1 → d < 1))
    (hf : ∀ p, s.grid.head hne ≤ p → occAt s p = .ok (f p)) : ContinuousOn f (Set.Ici (s.grid.head hne)) := by
  have hl : 0 < s.grid.length := List.length_pos_iff.mpr hne
  have hmono : ∀ i j (hi : i < s.grid.length) (hj : j < s.grid.length), i ≤ j → s.grid[i] ≤ s.grid[j] := by
    intro i j hi hj hij
    rcases eq_or_lt_of_le hij with rfl | h
    · exact le_rfl
    · exact (List.pairwise_iff_getElem.mp hs i j hi hj h).le
  have hhead : s.grid.head hne = s.grid[0] := List.head_eq_getElem hne
  have hocc : ∀ p, occAt s p = distributionInterpolation s.grid s.dist p s.m s.eta s.T false := by
    intro p; unfold occAt; rw [heq]
  have hge : ∀ i (hi : i < s.grid.length), s.grid.head hne ≤ s.grid[i] := by
    intro i hi; rw [hhead]; exact hmono 0 i hl hi (Nat.zero_le _)
  have hnode : ∀ i (hi : i < s.grid.length), f s.grid[i] = s.dist[i]'(by omega) := by
    intro i hi
    have h := hf _ (hge i hi)
    rw [hocc, C09_exact_on_grid _ _ _ _ _ hs hlen i hi] at h
    exact (Except.ok.inj h).symm
  have hcell : ∀ i (hi : i + 1 < s.grid.length), ContinuousOn f (Set.Icc s.grid[i] s.grid[i + 1]) := by
    intro i hi
    have d1 := hd _ (List.getElem_mem (show i < s.dist.length by omega))
    have d2 := hd _ (List.getElem_mem (show i + 1 < s.dist.length by omega))
    have g0 : 0 ≤ s.grid[i] := hpos.trans (hge i (by omega))
    have gl : s.grid[i] < s.grid[i + 1] := List.pairwise_iff_getElem.mp hs i (i + 1) (by omega) hi (by omega)
    have h1 : s.eta = 1 → s.dist[i]'(by omega) < 1 ∧ s.dist[i + 1]'(by omega) < 1 := fun h => ⟨d1.2 h, d2.2 h⟩
    refine (interpCell_continuousOn (m := s.m) g0 gl d1.1 d2.1 heta h1).congr fun p hp => ?_
    simp only
    rcases eq_or_lt_of_le hp.1 with h | h
    · subst h
      rw [interpCell_lo g0 gl d1.1 d2.1 heta h1, hnode]
    · rcases eq_or_lt_of_le hp.2 with h' | h'
      · subst h'
        rw [interpCell_hi g0 gl d1.1 d2.1 heta h1, hnode]
      · have e := hf p ((hge i (by omega)).trans hp.1)
        rw [hocc, lookup_between _ _ _ _ _ _ hs hlen i hi h h'] at e
        exact (Except.ok.inj e).symm
  have hdne : s.dist ≠ [] := by
    intro h; rw [h] at hlen; exact hne (List.length_eq_zero_iff.mp hlen.symm)
  have htail : ContinuousOn f (Set.Ici (s.grid.getLast hne)) := by
    have hc := energy_continuous s.m
    have : Continuous fun p => s.dist.getLast hdne * Real.exp ((energy (s.grid.getLast hne) s.m - energy p s.m) / s.T) := by
      fun_prop
    refine this.continuousOn.congr fun p hp => ?_
    rcases eq_or_lt_of_le (Set.mem_Ici.mp hp) with h | h
    · simp only
      rw [← h, sub_self, zero_div, Real.exp_zero, mul_one, List.getLast_eq_getElem, hnode, List.getLast_eq_getElem]
      simp only [hlen]
    · have hall : ∀ g ∈ s.grid, g < p := by
        intro g hg
        obtain ⟨i, hi, rfl⟩ := List.getElem_of_mem hg
        refine lt_of_le_of_lt ?_ h
        rw [List.getLast_eq_getElem]
        exact hmono _ _ hi (by omega) (by omega)
      have e := hf p (by
        rw [hhead]; exact (hall _ (List.getElem_mem hl)).le)
      rw [hocc, C09_above _ _ _ _ _ _ hne hlen hall hdne] at e
      exact (Except.ok.inj e).symm
  have hcover : Set.Ici (s.grid.head hne) ⊆
      (⋃ i : Fin (s.grid.length - 1), Set.Icc (s.grid[(i : ℕ)]'(by omega)) (s.grid[(i : ℕ) + 1]'(by omega))) ∪
        Set.Ici (s.grid.getLast hne) := by
    intro p hp
    rcases grid_cases s.grid p hne hs with h | h | ⟨i, hi, rfl⟩ | ⟨i, hi, h1, h2⟩
    · exact Or.inr (h _ (List.getLast_mem hne)).le
    · exact absurd (h _ (List.head_mem hne)) (not_lt.mpr hp)
    · by_cases hz : i + 1 < s.grid.length
      · exact Or.inl (Set.mem_iUnion.mpr ⟨⟨i, by omega⟩, le_rfl, hmono i (i + 1) _ _ (by omega)⟩)
      · refine Or.inr ?_
        rw [Set.mem_Ici, List.getLast_eq_getElem]
        exact hmono _ _ _ _ (by omega)
    · exact Or.inl (Set.mem_iUnion.mpr ⟨⟨i, by omega⟩, h1.le, h2.le⟩)
  refine ContinuousOn.mono ?_ hcover
  refine ContinuousOn.union_of_isClosed ?_ htail ?_ isClosed_Ici
  · exact (locallyFinite_of_finite _).continuousOn_iUnion (fun _ => isClosed_Icc) fun i => hcell i (by omega)
  · exact isClosed_iUnion_of_finite fun _ => isClosed_Icc

/-- **C132, a vanishing entry.** A stored zero next to a positive value makes the spectrum jump: the positive value is met at its
own point of the grid only. -/
theorem C132_zero_jump (s : CParticle) (f : ℝ → ℝ) (heq : s.inEq = false) (hs : s.grid.Pairwise (· < ·))
    (hlen : s.dist.length = s.grid.length) (i : ℕ) (hi : i + 1 < s.grid.length)
    (hz : s.dist[i + 1]'(by omega) = 0) (hd : 0 < s.dist[i]'(by omega))
    (hf : ∀ p, s.grid[i] ≤ p → occAt s p = .ok (f p)) : ¬ ContinuousWithinAt f (Set.Ici s.grid[i]) s.grid[i] := by
  intro hc
  have hocc : ∀ p, occAt s p = distributionInterpolation s.grid s.dist p s.m s.eta s.T false := by
    intro p; unfold occAt; rw [heq]
  have gl : s.grid[i] < s.grid[i + 1] := List.pairwise_iff_getElem.mp hs i (i + 1) (by omega) hi (by omega)
  have h0 : f s.grid[i] = s.dist[i]'(by omega) := by
    have h := hf _ le_rfl
    rw [hocc, C09_exact_on_grid _ _ _ _ _ hs hlen i (by omega)] at h
    exact (Except.ok.inj h).symm
  have h1 : ∀ p, s.grid[i] < p → p < s.grid[i + 1] → f p = 0 := by
    intro p a b
    have e := hf p a.le
    rw [hocc, lookup_between _ _ _ _ _ _ hs hlen i hi a b] at e
    rw [← Except.ok.inj e]
    unfold interpCell
    dsimp only
    rw [if_pos (Or.inl hz)]
  have hlim : Tendsto f (𝓝[>] s.grid[i]) (𝓝 0) := by
    refine Tendsto.congr' ?_ tendsto_const_nhds
    filter_upwards [Ioo_mem_nhdsGT gl] with p hp using (h1 p hp.1 hp.2).symm
  have := tendsto_nhds_unique hlim (hc.mono_left (nhdsWithin_mono _ Set.Ioi_subset_Ici_self))
  rw [h0] at this
  linarith

/-- A positive stored spectrum on a grid starting at zero, or a species in equilibrium: the occupation numbers are given by a
measurable function, continuous from the right at 0 and continuous elsewhere. -/
def SmoothSpecies (s : CParticle) : Prop :=
  (s.inEq = false ∧ (∃ g, s.grid = 0 :: g) ∧ s.grid.Pairwise (· < ·) ∧ s.dist.length = s.grid.length ∧ 0 < s.T ∧
    (s.eta = 1 ∨ s.eta = -1) ∧ ∀ d ∈ s.dist, 0 < d ∧ (s.eta = 1 → d < 1)) ∨
  (s.inEq = true ∧ 0 < s.T ∧ 0 ≤ s.m ∧ (s.eta = 1 ∨ s.eta = -1 ∧ 0 < s.m))

theorem smooth_occupation (s : CParticle) (h : SmoothSpecies s) :
    ∃ f : ℝ → ℝ, Measurable f ∧ (∀ p, 0 ≤ p → occAt s p = .ok (f p) ∧ 0 ≤ f p) ∧ ContinuousOn f (Set.Ici 0) := by
  rcases h with ⟨heq, ⟨g, hg⟩, hs, hlen, hT, heta, hd⟩ | ⟨heq, hT, hm, heta⟩
  · obtain ⟨f, B, hf, h⟩ := regular_stored s g heq hg hs hlen hT heta fun d hd' => ⟨(hd d hd').1.le, (hd d hd').2⟩
    have hne : s.grid ≠ [] := by rw [hg]; simp
    have hh : s.grid.head hne = 0 := by simp [hg]
    refine ⟨f, hf, fun p hp => ⟨(h p hp).1, (h p hp).2.1⟩, ?_⟩
    have := C132_continuous s f heq hne hs hh.ge hlen heta hd fun p hp => (h p (by rwa [hh] at hp)).1
    rwa [hh] at this
  · obtain ⟨f, B, hf, h⟩ := regular_thermal s heq hT hm heta
    refine ⟨f, hf, fun p hp => ⟨(h p hp).1, (h p hp).2.1⟩, ?_⟩
    have hc := energy_continuous s.m
    have : ContinuousOn (fun p => 1 / (Real.exp (energy p s.m / s.T) + s.eta)) (Set.Ici 0) := by
      refine ContinuousOn.div continuousOn_const (Continuous.continuousOn (by fun_prop)) fun p _ => ?_
      rcases heta with e | ⟨e, e'⟩
      · rw [e]; push_cast; positivity
      · rw [e]; push_cast
        have h1 : 0 < energy p s.m := lt_of_lt_of_le e' (by
          unfold energy; exact Real.le_sqrt_of_sq_le (by nlinarith))
        have := Real.one_lt_exp_iff.mpr (div_pos h1 hT)
        linarith
    refine this.congr fun p hp => ?_
    have e := (h p hp).1
    unfold occAt distributionInterpolation at e
    rw [if_pos heq] at e
    exact (Except.ok.inj e).symm

variable {ι : Type*}

/-- **C131 for stored and thermal spectra.** Nothing is assumed about the occupation numbers beyond the shape of the tables. -/
theorem C131_spectra (c : Int3 ι) (p : Params) (sched : List (List ℕ))
    (haT : 0 < p.aT) (ha : 0 < p.a) (hside : c.side 0 = -1 ∧ c.side 1 = 1 ∧ c.side 2 = 1) (hpl : Plain c)
    (hm1 : 0 ≤ (c.sp 1).mass) (hm2 : 0 ≤ (c.sp 2).mass)
    (hopen : (c.sp 1).mass + (c.sp 2).mass < (c.sp 0).mass) (hcov : Covers c p sched)
    (hsm : ∀ i, SmoothSpecies (toC (c.sp i) (c.st i) p)) :
    ∃ (J : ℝ → ℝ) (B : List ℝ), integrate3 c p sched = .ok (.two ((c.sp 0).grid.map J) B) ∧
      (∀ y, 0 < y → rateAt3 c p y = .ok (J y)) ∧ ContinuousWithinAt J (Set.Ici 0) 0 := by
  choose f hf h hc using fun i => smooth_occupation _ (hsm i)
  have hk := rest_mass_pos hm1 hm2 hopen
  exact C131_rest c p sched f haT ha hside hpl (by linarith) hm1 hm2 hopen.le hcov (fun i q hq => (h i q hq).1)
    (fun i q hq => (h i q hq).2) hf (hc 0 0 Set.self_mem_Ici)
    fun i _ => (hc i).continuousAt (Ici_mem_nhds (by positivity))

section Example
/-- A fermion with three stored values. -/
private noncomputable def contSp : CParticle := ⟨1, 2, [0, 1, 3], [1/2, 1/4, 1/8], false, 1⟩
/-- The same with a vanishing entry. -/
private noncomputable def jumpSp : CParticle := ⟨1, 2, [0, 1, 3], [1/2, 0, 1/8], false, 1⟩

example : ∃ f : ℝ → ℝ, (∀ p, 0 ≤ p → occAt contSp p = .ok (f p)) ∧ ContinuousOn f (Set.Ici 0) ∧ f 1 = 1/4 := by
  obtain ⟨f, -, h, hc⟩ := smooth_occupation contSp (Or.inl ⟨rfl, ⟨_, rfl⟩, by norm_num [contSp], rfl, by norm_num [contSp],
    Or.inl rfl, by norm_num [contSp]⟩)
  refine ⟨f, fun p hp => (h p hp).1, hc, ?_⟩
  have e := (h 1 zero_le_one).1
  have := C09_exact_on_grid [0, 1, 3] [1/2, 1/4, 1/8] 2 1 1 (by norm_num) rfl 1 (by simp)
  exact (Except.ok.inj (this.symm.trans e)).symm

example (f : ℝ → ℝ) (hf : ∀ p, (0 : ℝ) ≤ p → occAt jumpSp p = .ok (f p)) : ¬ ContinuousWithinAt f (Set.Ici 0) 0 :=
  C132_zero_jump jumpSp f rfl (by norm_num [jumpSp]) rfl 0 (by simp [jumpSp]) (by simp [jumpSp]) (by simp [jumpSp]) hf

/-- `X → a + b` with masses 2, 0, 1 and stored spectra. -/
private def restSp : Fin 3 → Species := fun i =>
  { name := "X", mass := ![2, 0, 1] i, dof := 2, fermion := decide (i ≠ 2), thermalDyn := false, Q := 0,
    grid := [0, 1, 3], fastDecay := false, lifetime := 0 }
private noncomputable def restSt : Fin 3 → PState ℕ := fun i =>
  { T := 1, aT := 1, Tdec := 2, dist := ![[1/2, 1/4, 1/8], [1/3, 1/5, 1/7], [2, 1, 1/2]] i, coll := [], integrals := [],
    tDec := 0, decayed := false, density := 0, histDist := [], histColl := [], histT := [], histDensity := [] }
private noncomputable def restP : Params :=
  { log := true, m := 1, T := 1/2, a := 2, aIni := 1, x := 1, y := none, aT := 1, t := 1, H := 1, rho := none,
    S := none, Neff := 3, dy := 1, dx := 1, h := 1 }
private noncomputable def restInt : Int3 ℕ :=
  { sp := restSp, st := restSt, side := ![-1, 1, 1], K := 1, majorana := false, mult := 1, kind := .full, neglect := false,
    min1 := 0, max1 := 3, max2 := 3, lb := 0, ub := 3, creationFast := false, br := none, num := 0, total := fun _ => 0 }

/-- The array of a decaying particle on the grid `0, 1, 3`. -/
example : ∃ (J : ℝ → ℝ) (B : List ℝ), integrate3 restInt restP [[0, 1, 2]] = .ok (.two [J 0, J 1, J 3] B) ∧
    (∀ y, 0 < y → rateAt3 restInt restP y = .ok (J y)) ∧ ContinuousWithinAt J (Set.Ici 0) 0 := by
  refine C131_spectra restInt restP _ (by norm_num [restP]) (by norm_num [restP]) ⟨rfl, rfl, rfl⟩
    ⟨rfl, rfl, rfl, ⟨1, [3], rfl⟩, by change StrictInc [(0 : ℝ), 1, 3]; norm_num [StrictInc],
      by norm_num [restInt, restSp, dofFactor], one_ne_zero⟩
    (by change (0 : ℝ) ≤ 0; norm_num) (by change (0 : ℝ) ≤ 1; norm_num) (by change (0 : ℝ) + 1 < 2; norm_num) ?_ ?_
  · intro s hs
    have : cutoff3 (restInt.side 0 + restInt.side 1 + restInt.side 2) ((restInt.sp 0).grid.map (· / restP.aT))
        (restInt.sp 0).grid restInt.lb restInt.ub restP.aT = some ⟨[], (restInt.sp 0).grid.map (· / restP.aT), []⟩ := by
      unfold cutoff3
      rw [if_neg (by decide)]
    rw [this] at hs
    cases hs
    change ValidSchedule 3 _
    simp [ValidSchedule]
    decide
  · intro i
    refine Or.inl ⟨by simp [toC, inEq, restInt, restSp], ⟨[1 / 1, 3 / 1], ?_⟩, ?_, ?_, ?_, ?_, ?_⟩
    · simp [toC, restInt, restSp, restP]
    · norm_num [toC, restInt, restSp, restP]
    · fin_cases i <;> rfl
    · norm_num [toC, restInt, restSt, restP]
    · fin_cases i
      · exact Or.inl rfl
      · exact Or.inl rfl
      · exact Or.inr rfl
    · fin_cases i <;> norm_num [toC, restInt, restSt, restSp, restP, Species.eta]
      rfl
end Example

end PyBBN
