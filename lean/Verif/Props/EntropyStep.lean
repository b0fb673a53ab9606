import Verif.Props.EntropyDecay
import Verif.Props.Balance4Step
/-!
# C105 at the level of `integrate`

The arrays returned by `integrate` to the species of a decay, with the degrees of freedom by which it divides.
-/
namespace PyBBN
open MeasureTheory

variable {ι : Type*}

theorem ae_scale {I : ℝ → ℝ} {b Q : ℝ} (hb : 0 < b)
    (h : ∀ᵐ q ∂volume.restrict (Set.Ioc 0 (Q / b)), I q = 0) :
    ∀ᵐ y ∂volume.restrict (Set.Ioc 0 Q), I (y / b) = 0 := by
  rw [ae_restrict_iff' measurableSet_Ioc] at h ⊢
  rw [ae_iff] at h ⊢
  refine measure_mono_null (fun y hy => ?_)
    (show volume ((fun y : ℝ => b⁻¹ * y) ⁻¹' {q | ¬ (q ∈ Set.Ioc 0 (Q / b) → I q = 0)}) = 0 by
      rw [Real.volume_preimage_mul_left (inv_ne_zero hb.ne'), h, mul_zero])
  simp only [Set.mem_setOf_eq, Classical.not_imp, Set.mem_preimage] at hy ⊢
  rw [inv_mul_eq_div]
  exact ⟨⟨div_pos hy.1.1 hb, div_le_div_of_nonneg_right hy.1.2 hb.le⟩, hy.2⟩

theorem entropy_scale (b k Q : ℝ) (hb : 0 < b) (hQ : 0 ≤ Q) (s I : ℝ → ℝ) :
    (∫ y in Set.Ioc 0 Q, y ^ 2 * s (y / b) * (I (y / b) * k)) =
      b ^ 3 * k * ∫ q in Set.Ioc 0 (Q / b), q ^ 2 * s q * I q := by
  have := number_scale_Ioc b k Q hb hQ fun q => s q * I q
  simp only [← mul_assoc] at this ⊢
  exact this

theorem species_eta (sp : Species) : sp.eta = 1 ∨ sp.eta = -1 := by
  unfold Species.eta; split_ifs <;> simp

/-- Stored spectra without empty or full modes. -/
theorem filled_toC (sp : Species) (s : PState ι) (p : Params) (haT : 0 < p.aT) (g : List ℝ) (heq : inEq sp s = false)
    (hg : sp.grid = 0 :: g) (hs : StrictInc sp.grid) (hlen : s.dist.length = sp.grid.length) (hT : 0 < s.aT)
    (hd : ∀ d ∈ s.dist, 0 < d ∧ (sp.fermion = true → d < 1)) : Filled (toC sp s p) := by
  refine Or.inr ⟨heq, ⟨g.map (· / p.aT), ?_⟩, ?_, ?_, ?_, species_eta sp, ?_⟩
  · change sp.grid.map (· / p.aT) = _
    rw [hg, List.map_cons, zero_div]
  · change (sp.grid.map (· / p.aT)).Pairwise (· < ·)
    rw [List.pairwise_map]
    exact hs.imp fun h => div_lt_div_of_pos_right h haT
  · change s.dist.length = (sp.grid.map (· / p.aT)).length
    rw [hlen, List.length_map]
  · change 0 < s.aT / p.aT
    positivity
  · intro d h
    refine ⟨(hd d h).1, fun he => (hd d h).2 ?_⟩
    change sp.eta = 1 at he
    unfold Species.eta at he
    by_contra hn
    rw [if_neg hn] at he
    exact absurd he (by decide)

/-- Species in equilibrium, massless bosons excepted. -/
theorem filled_toC_thermal (sp : Species) (s : PState ι) (p : Params) (haT : 0 < p.aT) (ha : 0 < p.a)
    (heq : inEq sp s = true) (hT : 0 < s.aT) (hm : 0 ≤ sp.mass) (hb : sp.fermion = false → 0 < sp.mass) :
    Filled (toC sp s p) := by
  refine Or.inl ⟨heq, ?_, ?_, ?_⟩
  · change 0 < s.aT / p.aT
    positivity
  · change 0 ≤ sp.mass * p.a / p.aT
    positivity
  · change sp.eta = 1 ∨ sp.eta = -1 ∧ 0 < sp.mass * p.a / p.aT
    unfold Species.eta
    cases h : sp.fermion
    · have := hb h
      exact Or.inr ⟨by simp, by positivity⟩
    · exact Or.inl (by simp)

/-- **C105 for `integrate`, three-body decays.** The arrays which the four species of `X → a + b + c` obtain from
`integrate` are samples of functions `J` of the comoving momentum; weighted with the degrees of freedom, the rate of
change of the total entropy is not negative, and zero only if nothing changes. -/
theorem C105_integrate_three_body (c : Fin 4 → Int4 ι) (p : Params) (sched : Fin 4 → List (List ℕ)) (P : ℝ)
    (σ : Fin 4 → Equiv.Perm (Fin 4)) (h0 : ∀ i, σ i 0 = i) (h3 : ∀ i, i ≠ 0 → σ i 3 = 0)
    (haT : 0 < p.aT) (ha : 0 < p.a) (hH : 0 < p.H) (hx : p.log = false → 0 < p.x) (hGF : (c 0).GF ≠ 0)
    (hs0 : (c 0).side 0 = -1) (hs : ∀ i, i ≠ 0 → (c 0).side i = 1)
    (hseen : ∀ i, i ≠ 0 → SeenFrom4 (c 0) (c i) (σ i)) (hpl : ∀ i, Plain4 (c i))
    (hm0 : 0 < ((c 0).sp 0).mass) (hm : ∀ i, 0 ≤ ((c 0).sp i).mass)
    (hopen : ((c 0).sp 1).mass + ((c 0).sp 2).mass + ((c 0).sp 3).mass ≤ ((c 0).sp 0).mass)
    (hMs : (c 0).Ms ≠ []) (hK : ∀ M ∈ (c 0).Ms, M.K = 0 ∧ 0 ≤ M.K1 ∧ 0 ≤ M.K2)
    (ho : ∀ M ∈ (c 0).Ms, M.order.Bijective)
    (hP : 0 ≤ P) (hP' : ∀ i, i ≠ 0 → (c i).max3 = P) (hwhole : ∀ y ∈ ((c 0).sp 0).grid, y ≤ (c 0).ub)
    (hb : ∀ i, i ≠ 0 → CutBound4 (c i) p) (hcov : ∀ i, Covers4 (c i) (sched i))
    (hfill : ∀ i, Filled (toC ((c 0).sp i) ((c 0).st i) p)) (Q : Fin 4 → ℝ) (hQ0 : Q 0 = P) (hQ : ∀ i, 0 ≤ Q i)
    (hreach : ∀ i, i ≠ 0 → energyOf (((c 0).sp 0).mass * p.a) P ≤ energyOf (((c 0).sp i).mass * p.a) (Q i) +
      ((c 0).sp (σ i 1)).mass * p.a + ((c 0).sp (σ i 2)).mass * p.a) :
    ∃ f J : Fin 4 → ℝ → ℝ,
      (∀ i y, 0 ≤ y → occAt (toC ((c 0).sp i) ((c 0).st i) p) (y / p.aT) = .ok (f i y)) ∧
      (∀ i, Returns4 (c i) p (sched i) (J i)) ∧
      0 ≤ ∑ i, (c i).weight *
        ∫ y in Set.Ioc 0 (Q i), y ^ 2 * deriv (modeEntropy ((c 0).sp i).eta) (f i y) * J i y ∧
      ((∑ i, (c i).weight *
        ∫ y in Set.Ioc 0 (Q i), y ^ 2 * deriv (modeEntropy ((c 0).sp i).eta) (f i y) * J i y) = 0 →
        ∀ i, ∀ᵐ y ∂volume.restrict (Set.Ioc 0 (Q i)), J i y = 0) := by
  have hmass : ∀ i, ((c 0).reaction p i).specie.m = ((c 0).sp i).mass * p.a / p.aT := fun i => rfl
  have hGF0 : 0 < 32 * (c 0).GF ^ 2 := by positivity
  obtain ⟨f, A, B, hocc, hsam, hsup, -, -, hent, hzero⟩ := C105_three_body_spectra ((c 0).reaction p)
    ((c 0).Ms.map (toCM (c 0).GF)) (P / p.aT) hs0 hs (by rw [hmass]; positivity)
    (fun i => by rw [hmass]; have := hm i; positivity)
    (by
      rw [hmass, hmass, hmass, hmass, ← add_div, ← add_div, ← add_mul, ← add_mul]
      exact div_le_div_of_nonneg_right (mul_le_mul_of_nonneg_right hopen ha.le) haT.le)
    (by positivity) hfill (by simpa using hMs)
    (by
      intro M hM
      obtain ⟨M', h, rfl⟩ := List.mem_map.mp hM
      obtain ⟨a, b, d⟩ := hK M' h
      change M'.K / _ = 0 ∧ 0 ≤ M'.K1 / _ ∧ 0 ≤ M'.K2 / _
      exact ⟨by rw [a, zero_div], div_nonneg b hGF0.le, div_nonneg d hGF0.le⟩)
    (by
      intro M hM
      obtain ⟨M', h, rfl⟩ := List.mem_map.mp hM
      exact ho M' h)
    σ h0 h3 (fun i => (c i).max1 / p.aT) (fun i => (c i).min2 / p.aT) (fun i => (c i).max2 / p.aT) ((c 0).max3 / p.aT)
    (fun i => Q i / p.aT) (by rw [hQ0]) (fun i => div_nonneg (hQ i) haT.le)
    (by
      intro i hi
      have h := hreach i hi
      rw [energyOf_div _ _ _ haT, energyOf_div (((c 0).sp i).mass * p.a) _ _ haT] at h
      rw [hmass, hmass, hmass, hmass]
      refine le_of_mul_le_mul_left (h.trans (le_of_eq ?_)) haT
      field_simp)
  set κ := common4 (c 0).GF p with hκ
  have hκ0 : 0 < κ := by
    rw [hκ]; unfold common4
    have : 0 < (if p.log then (1 : ℝ) else p.x) := by
      cases h : p.log
      · simpa [h] using hx h
      · simp
    have := Real.pi_pos
    positivity
  have w : ∀ i, (c i).weight * (κ / dofFactor (c i).majorana ((c i).sp 0).dof * (c i).mult) = κ := by
    intro i
    unfold Int4.weight; have := (hpl i).dof; have := (hpl i).mult; field_simp
  set I : Fin 4 → ℝ → ℝ := fun i q => A i q + f i q * B i q with hI
  set T : Fin 4 → ℝ := fun i => ∫ q in Set.Ioc 0 (Q i / p.aT),
    q ^ 2 * deriv (modeEntropy ((c 0).sp i).eta) (f i q) * I i q with hT
  have hsum : (∑ i, (c i).weight * ∫ y in Set.Ioc 0 (Q i), y ^ 2 * deriv (modeEntropy ((c 0).sp i).eta)
      (f i (y / p.aT)) * (I i (y / p.aT) * (κ / dofFactor (c i).majorana ((c i).sp 0).dof * (c i).mult))) =
      p.aT ^ 3 * κ * ∑ i, T i := by
    rw [Finset.mul_sum]
    refine Finset.sum_congr rfl fun i _ => ?_
    rw [entropy_scale p.aT _ (Q i) haT (hQ i) (fun q => deriv (modeEntropy ((c 0).sp i).eta) (f i q)) (I i)]
    change _ = p.aT ^ 3 * κ * T i
    linear_combination p.aT ^ 3 * T i * w i
  refine ⟨fun i y => f i (y / p.aT),
    fun i y => I i (y / p.aT) * (κ / dofFactor (c i).majorana ((c i).sp 0).dof * (c i).mult),
    fun i y hy => hocc i _ (div_nonneg hy haT.le),
    fun i => decay4_returns c p sched P σ h0 h3 haT hseen hpl hm hP' hwhole hb hcov f A B hocc hsam hsup i, ?_, ?_⟩
  · rw [hsum]
    exact mul_nonneg (by positivity) hent
  · intro hz i
    rw [hsum] at hz
    have hk : p.aT ^ 3 * κ ≠ 0 := by positivity
    filter_upwards [ae_scale haT (hzero ((mul_eq_zero.mp hz).resolve_left hk) i)] with y hy
    change I i (y / p.aT) * _ = 0
    rw [show I i (y / p.aT) = 0 from hy, zero_mul]

/-- **C105 for `integrate`, two-body decays.** -/
theorem C105_integrate_two_body (c cA cB : Int3 ι) (p : Params) (sched schedA schedB : List (List ℕ)) (P : ℝ)
    (haT : 0 < p.aT) (ha : 0 < p.a) (hH : 0 < p.H) (hx : p.log = false → 0 < p.x) (hK : 0 < c.K)
    (hside : c.side 0 = -1 ∧ c.side 1 = 1 ∧ c.side 2 = 1)
    (hA : SeenFrom c cA (finRotate 3)) (hB : SeenFrom c cB (Equiv.swap 0 2))
    (hpl : Plain c) (hplA : Plain cA) (hplB : Plain cB)
    (hm0 : 0 < (c.sp 0).mass) (hm1 : 0 ≤ (c.sp 1).mass) (hm2 : 0 ≤ (c.sp 2).mass)
    (hopen : (c.sp 1).mass + (c.sp 2).mass < (c.sp 0).mass)
    (hP : 0 ≤ P) (hPA : cA.max2 = P) (hPB : cB.max2 = P) (hbA : CutBounds cA p) (hbB : CutBounds cB p)
    (hcov : Covers c p sched) (hcovA : Covers cA p schedA) (hcovB : Covers cB p schedB)
    (hfill : ∀ i, Filled (toC (c.sp i) (c.st i) p)) (Q : Fin 3 → ℝ) (hQ0 : Q 0 = P) (hQ : ∀ i, 0 ≤ Q i)
    (hreach1 : ∀ y, 0 < y → Producible ((c.sp 0).mass * p.a) ((c.sp 1).mass * p.a) ((c.sp 2).mass * p.a) P y → y ≤ Q 1)
    (hreach2 : ∀ y, 0 < y → Producible ((c.sp 0).mass * p.a) ((c.sp 2).mass * p.a) ((c.sp 1).mass * p.a) P y →
      y ≤ Q 2) :
    ∃ f J : Fin 3 → ℝ → ℝ,
      (∀ i y, 0 ≤ y → occAt (toC (c.sp i) (c.st i) p) (y / p.aT) = .ok (f i y)) ∧
      Returns c p sched (J 0) ∧ Returns cA p schedA (J 1) ∧ Returns cB p schedB (J 2) ∧
      0 ≤ c.weight * (∫ y in Set.Ioc 0 P, y ^ 2 * deriv (modeEntropy (c.sp 0).eta) (f 0 y) * J 0 y) +
        cA.weight * (∫ y in Set.Ioc 0 (Q 1), y ^ 2 * deriv (modeEntropy (c.sp 1).eta) (f 1 y) * J 1 y) +
        cB.weight * (∫ y in Set.Ioc 0 (Q 2), y ^ 2 * deriv (modeEntropy (c.sp 2).eta) (f 2 y) * J 2 y) ∧
      (c.weight * (∫ y in Set.Ioc 0 P, y ^ 2 * deriv (modeEntropy (c.sp 0).eta) (f 0 y) * J 0 y) +
        cA.weight * (∫ y in Set.Ioc 0 (Q 1), y ^ 2 * deriv (modeEntropy (c.sp 1).eta) (f 1 y) * J 1 y) +
        cB.weight * (∫ y in Set.Ioc 0 (Q 2), y ^ 2 * deriv (modeEntropy (c.sp 2).eta) (f 2 y) * J 2 y) = 0 →
        ∀ i, ∀ᵐ y ∂volume.restrict (Set.Ioc 0 (Q i)), J i y = 0) := by
  have hmass : ∀ i, (c.reaction p i).specie.m = (c.sp i).mass * p.a / p.aT := fun i => rfl
  have hop : (c.reaction p 1).specie.m + (c.reaction p 2).specie.m < (c.reaction p 0).specie.m := by
    rw [hmass, hmass, hmass, ← add_div, ← add_mul]
    exact div_lt_div_of_pos_right (mul_lt_mul_of_pos_right hopen ha) haT
  have hscale : ∀ {i j : Fin 3} {Q' : ℝ}, (∀ y, 0 < y → Producible ((c.sp 0).mass * p.a) ((c.sp i).mass * p.a)
      ((c.sp j).mass * p.a) P y → y ≤ Q') → ∀ q, 0 < q → Producible (c.reaction p 0).specie.m
      (c.reaction p i).specie.m (c.reaction p j).specie.m (P / p.aT) q → q ≤ Q' / p.aT := by
    intro i j Q' h q hq hpr
    have := producible_scale haT hpr
    rw [hmass, hmass, hmass, mul_div_cancel₀ _ haT.ne', mul_div_cancel₀ _ haT.ne', mul_div_cancel₀ _ haT.ne',
      mul_div_cancel₀ _ haT.ne'] at this
    rw [le_div_iff₀ haT, mul_comm]
    exact h _ (by positivity) this
  obtain ⟨f, I, hocc, hI, hI1, hI2, -, -, hent, hzero⟩ := C105_two_body_spectra (c.reaction p) (P / p.aT) hside.1
    hside.2.1 hside.2.2 (by rw [hmass]; positivity) (by rw [hmass]; positivity) (by rw [hmass]; positivity) hop
    (by positivity) hfill (fun i => Q i / p.aT) (by rw [hQ0]) (fun i => div_nonneg (hQ i) haT.le)
    (hscale hreach1) (hscale hreach2)
  have hf0 : ∀ i q, 0 ≤ q → 0 ≤ f i q := by
    intro i q hq
    obtain ⟨g, _, -, h⟩ := (hfill i).regular
    have h1 := hocc i q hq
    rw [show (c.reaction p i).specie = toC (c.sp i) (c.st i) p from rfl, (h q hq).1, Except.ok.injEq] at h1
    rw [← h1]
    exact (h q hq).2.1
  obtain ⟨r0, r1, r2⟩ := decay3_returns c cA cB p sched schedA schedB P haT ha hside hA hB hpl hplA hplB hm0 hm1 hm2
    hopen hP hPA hPB hbA hbB hcov hcovA hcovB f I hocc hf0 hI hI1 hI2
  set κ := common3 c.K p with hκ
  have hκ0 : 0 < κ := by
    rw [hκ]; unfold common3
    have : 0 < (if p.log then (1 : ℝ) else p.x) := by
      cases h : p.log
      · simpa [h] using hx h
      · simp
    have := Real.pi_pos
    positivity
  have w : c.weight * (κ / dofFactor c.majorana (c.sp 0).dof * c.mult) = κ := by
    unfold Int3.weight; have := hpl.dof; have := hpl.mult; field_simp
  have wA : cA.weight * (κ / dofFactor cA.majorana (cA.sp 0).dof * cA.mult) = κ := by
    unfold Int3.weight; have := hplA.dof; have := hplA.mult; field_simp
  have wB : cB.weight * (κ / dofFactor cB.majorana (cB.sp 0).dof * cB.mult) = κ := by
    unfold Int3.weight; have := hplB.dof; have := hplB.mult; field_simp
  set T : Fin 3 → ℝ := fun i => ∫ q in Set.Ioc 0 (Q i / p.aT),
    q ^ 2 * deriv (modeEntropy (c.sp i).eta) (f i q) * I i q with hT
  have hent' : 0 ≤ ∑ i, T i := hent
  have sc : ∀ i k, (∫ y in Set.Ioc 0 (Q i), y ^ 2 * deriv (modeEntropy (c.sp i).eta) (f i (y / p.aT)) *
      (I i (y / p.aT) * k)) = p.aT ^ 3 * k * T i := fun i k =>
    entropy_scale p.aT k (Q i) haT (hQ i) (fun q => deriv (modeEntropy (c.sp i).eta) (f i q)) (I i)
  have hsum : c.weight * (∫ y in Set.Ioc 0 P, y ^ 2 * deriv (modeEntropy (c.sp 0).eta) (f 0 (y / p.aT)) *
        (I 0 (y / p.aT) * (κ / dofFactor c.majorana (c.sp 0).dof * c.mult))) +
      cA.weight * (∫ y in Set.Ioc 0 (Q 1), y ^ 2 * deriv (modeEntropy (c.sp 1).eta) (f 1 (y / p.aT)) *
        (I 1 (y / p.aT) * (κ / dofFactor cA.majorana (cA.sp 0).dof * cA.mult))) +
      cB.weight * (∫ y in Set.Ioc 0 (Q 2), y ^ 2 * deriv (modeEntropy (c.sp 2).eta) (f 2 (y / p.aT)) *
        (I 2 (y / p.aT) * (κ / dofFactor cB.majorana (cB.sp 0).dof * cB.mult))) = p.aT ^ 3 * κ * ∑ i, T i := by
    rw [← hQ0, sc, sc, sc, Fin.sum_univ_three]
    linear_combination p.aT ^ 3 * T 0 * w + p.aT ^ 3 * T 1 * wA + p.aT ^ 3 * T 2 * wB
  refine ⟨fun i y => f i (y / p.aT), ![_, _, _], fun i y hy => hocc i _ (div_nonneg hy haT.le), r0, r1, r2, ?_, ?_⟩
  · refine le_of_le_of_eq ?_ hsum.symm
    exact mul_nonneg (by positivity) hent'
  · intro hz i
    have hk : p.aT ^ 3 * κ ≠ 0 := by positivity
    have hz' := (mul_eq_zero.mp (hsum.symm.trans hz)).resolve_left hk
    have hi := ae_scale haT (hzero hz' i)
    fin_cases i
    all_goals
      filter_upwards [hi] with y hy
      exact mul_eq_zero_of_left hy _

section Example
/-- A particle of mass 3 with the spectrum `1/2, 1/4, 1/8`, a massless fermion, a fermion of mass 1 and a boson of
mass 1. -/
private def ent4Sp : Fin 4 → Species := fun i =>
  { name := "X", mass := ![3, 0, 1, 1] i, dof := 2, fermion := decide (i ≠ 3), thermalDyn := false, Q := 0,
    grid := [0, 1, 3], fastDecay := false, lifetime := 0 }
private noncomputable def ent4St : Fin 4 → PState ℕ := fun i =>
  { T := 1, aT := 1, Tdec := 2, dist := ![[1/2, 1/4, 1/8], [1/3, 1/7, 1/9], [1/5, 1/6, 1/7], [2, 1, 1/2]] i, coll := [],
    integrals := [], tDec := 0, decayed := false, density := 0, histDist := [], histColl := [], histT := [],
    histDensity := [] }
private noncomputable def ent4P : Params :=
  { log := true, m := 1, T := 1/2, a := 2, aIni := 1, x := 1, y := none, aT := 1, t := 1, H := 1, rho := none,
    S := none, Neff := 3, dy := 1, dx := 1, h := 1 }
private noncomputable def ent4Ks (i : Fin 4) : KSpecie := ⟨(ent4Sp i).mass * 2, decide (i = 1), 3, []⟩
private noncomputable def ent4Int (σ : Equiv.Perm (Fin 4)) (sgn : ℤ) (ub : ℝ) : Int4 ℕ :=
  { sp := fun i => ent4Sp (σ i), st := fun i => ent4St (σ i), side := fun i => sgn * ![-1, 1, 1, 1] (σ i),
    Ms := viewMs [⟨id, 1, 2, 0⟩] σ, GF := 1, majorana := false, mult := 1, kind := .full, neglect := false, min1 := 0,
    max1 := 3, min2 := 0, max2 := 3, max3 := 3, ub := ub, creationFast := false, br := none, num := 0,
    total := fun _ => 0 }
private def ent4Perm : Fin 4 → Equiv.Perm (Fin 4) :=
  ![1, Equiv.swap 0 1 * Equiv.swap 1 3, Equiv.swap 0 2 * Equiv.swap 2 3, Equiv.swap 0 3]
private noncomputable def ent4C (i : Fin 4) : Int4 ℕ :=
  if i = 0 then ent4Int 1 1 3
  else ent4Int (ent4Perm i) (-1) (bounds4Creation (ent4Ks (ent4Perm i 0)) (ent4Ks (ent4Perm i 1))
    (ent4Ks (ent4Perm i 2)) (ent4Ks (ent4Perm i 3)) 1)

private theorem ent4_parent : ent4C 0 = ent4Int 1 1 3 := if_pos rfl
private theorem ent4_product (i : Fin 4) (hi : i ≠ 0) : ent4C i = ent4Int (ent4Perm i) (-1)
    (bounds4Creation (ent4Ks (ent4Perm i 0)) (ent4Ks (ent4Perm i 1)) (ent4Ks (ent4Perm i 2))
      (ent4Ks (ent4Perm i 3)) 1) := if_neg hi

private theorem ent4_plain (σ : Equiv.Perm (Fin 4)) (sgn : ℤ) (ub : ℝ) : Plain4 (ent4Int σ sgn ub) :=
  { kind := Or.inl rfl, slow := rfl, active := rfl, min1 := rfl, grid := List.cons_ne_nil _ _
    nonneg := by norm_num [ent4Int, ent4Sp]
    inc := by norm_num [ent4Int, ent4Sp, StrictInc]
    stored := by
      change (ent4St (σ 0)).dist.length = 3
      generalize σ 0 = i
      fin_cases i <;> rfl
    dof := by norm_num [ent4Int, ent4Sp, dofFactor]
    mult := one_ne_zero }

/-- Four integrals of the same decay, with different statistics. -/
example : ∃ f J : Fin 4 → ℝ → ℝ, (∀ i, Returns4 (ent4C i) ent4P (oneThread4 (ent4C i)) (J i)) ∧
    0 ≤ ∑ i, ∫ y in Set.Ioc 0 ((![3, 7, 7, 7] : Fin 4 → ℝ) i),
      y ^ 2 * deriv (modeEntropy (ent4Sp i).eta) (f i y) * J i y := by
  have reg : ∀ i, Filled (toC (ent4Sp i) (ent4St i) ent4P) := by
    intro i
    refine filled_toC _ _ _ (by norm_num [ent4P]) [1, 3] ?_ rfl (by norm_num [ent4Sp, StrictInc]) ?_
      (by norm_num [ent4St]) ?_
    · simp [inEq, ent4Sp]
    · fin_cases i <;> rfl
    · fin_cases i <;> norm_num [ent4St, ent4Sp] <;> decide
  have hm : ∀ i, 0 ≤ (ent4Sp i).mass := fun i => by fin_cases i <;> norm_num [ent4Sp]
  have hle : ∀ m : ℝ, energyOf 6 3 ≤ energyOf m 7 := fun m =>
    Real.sqrt_le_sqrt (by nlinarith [sq_nonneg m])
  obtain ⟨f, J, -, hJ, h, -⟩ := C105_integrate_three_body ent4C ent4P (fun i => oneThread4 (ent4C i)) 3 ent4Perm
    (by decide) (by decide) (by norm_num [ent4P]) (by norm_num [ent4P]) (by norm_num [ent4P]) (by norm_num [ent4P])
    (by rw [ent4_parent]; exact one_ne_zero) (by rw [ent4_parent]; rfl)
    (by rw [ent4_parent]; intro i hi; fin_cases i <;> first | exact absurd rfl hi | rfl)
    (by
      intro i hi
      rw [ent4_parent, ent4_product i hi]
      exact ⟨fun _ => rfl, fun _ => rfl, fun j => by change -1 * _ = -(1 * _); rw [one_mul, neg_one_mul]; rfl, .refl _, rfl⟩)
    (by
      intro i
      by_cases hi : i = 0
      · rw [hi, ent4_parent]; exact ent4_plain _ _ _
      · rw [ent4_product i hi]; exact ent4_plain _ _ _)
    (by rw [ent4_parent]; change (0 : ℝ) < 3; norm_num)
    (by rw [ent4_parent]; exact hm)
    (by rw [ent4_parent]; change (0 : ℝ) + 1 + 1 ≤ 3; norm_num)
    (by rw [ent4_parent]; exact List.cons_ne_nil _ _)
    (by rw [ent4_parent]; intro M hM; rw [List.mem_singleton.mp hM]; norm_num)
    (by rw [ent4_parent]; intro M hM; rw [List.mem_singleton.mp hM]; exact Function.bijective_id)
    (by norm_num) (by intro i hi; rw [ent4_product i hi]; rfl)
    (by
      rw [ent4_parent]
      change ∀ y ∈ [(0 : ℝ), 1, 3], y ≤ 3
      norm_num)
    (by
      intro i hi
      rw [ent4_product i hi]
      exact ⟨_, _, _, _, _, rfl, rfl, rfl, rfl, rfl, rfl⟩)
    (fun i => covers4_oneThread _) (by rw [ent4_parent]; exact reg) ![3, 7, 7, 7] rfl
    (fun i => by fin_cases i <;> norm_num)
    (by
      rw [ent4_parent]
      intro i hi
      have a := hm (ent4Perm i 1)
      have b := hm (ent4Perm i 2)
      have c : energyOf ((ent4Sp 0).mass * 2) 3 ≤ energyOf ((ent4Sp i).mass * 2) ((![3, 7, 7, 7] : Fin 4 → ℝ) i) := by
        have e : (ent4Sp 0).mass * 2 = 6 := by norm_num [ent4Sp]
        rw [e]
        fin_cases i
        · exact absurd rfl hi
        · exact hle _
        · exact hle _
        · exact hle _
      change energyOf ((ent4Sp 0).mass * 2) 3 ≤ energyOf ((ent4Sp i).mass * 2) _ + (ent4Sp (ent4Perm i 1)).mass * 2 +
        (ent4Sp (ent4Perm i 2)).mass * 2
      linarith)
  refine ⟨f, J, hJ, ?_⟩
  have w : ∀ i, (ent4C i).weight = 1 := by
    intro i
    by_cases hi : i = 0
    · rw [hi, ent4_parent]; norm_num [Int4.weight, ent4Int, ent4Sp, dofFactor]
    · rw [ent4_product i hi]; norm_num [Int4.weight, ent4Int, ent4Sp, dofFactor]
  simp only [w, one_mul, ent4_parent] at h
  exact h

/-- A particle of mass 2 with the spectrum `1/2, 1/4, 1/8`, a massless fermion and a boson of mass 1. -/
private def ent3Sp : Fin 3 → Species := fun i =>
  { name := "X", mass := ![2, 0, 1] i, dof := 2, fermion := decide (i ≠ 2), thermalDyn := false, Q := 0,
    grid := [0, 1, 3], fastDecay := false, lifetime := 0 }
private noncomputable def ent3St : Fin 3 → PState ℕ := fun i =>
  { T := 1, aT := 1, Tdec := 2, dist := ![[1/2, 1/4, 1/8], [1/3, 1/7, 1/9], [2, 1, 1/2]] i, coll := [], integrals := [],
    tDec := 0, decayed := false, density := 0, histDist := [], histColl := [], histT := [], histDensity := [] }
private noncomputable def ent3P : Params :=
  { log := true, m := 1, T := 1/2, a := 2, aIni := 1, x := 1, y := none, aT := 1, t := 1, H := 1, rho := none,
    S := none, Neff := 3, dy := 1, dx := 1, h := 1 }
private noncomputable def ent3Int (σ : Equiv.Perm (Fin 3)) (sgn : ℤ) : Int3 ℕ :=
  { sp := fun i => ent3Sp (σ i), st := fun i => ent3St (σ i), side := fun i => sgn * ![-1, 1, 1] (σ i), K := 1,
    majorana := false, mult := 1, kind := .full, neglect := false, min1 := 0, max1 := 3, max2 := 3,
    lb := (bounds3Creation ⟨(ent3Sp (σ 0)).mass * 2, decide (σ 0 = 1), 3, []⟩ ⟨(ent3Sp (σ 1)).mass * 2, false, 3, []⟩
      ⟨(ent3Sp (σ 2)).mass * 2, false, 3, []⟩).1,
    ub := (bounds3Creation ⟨(ent3Sp (σ 0)).mass * 2, decide (σ 0 = 1), 3, []⟩ ⟨(ent3Sp (σ 1)).mass * 2, false, 3, []⟩
      ⟨(ent3Sp (σ 2)).mass * 2, false, 3, []⟩).2,
    creationFast := false, br := none, num := 0, total := fun _ => 0 }

private theorem ent3Inc : StrictInc [(0 : ℝ), 1, 3] := by norm_num [StrictInc]

private theorem ent3_plain (σ : Equiv.Perm (Fin 3)) (sgn : ℤ) : Plain (ent3Int σ sgn) :=
  ⟨rfl, rfl, rfl, ⟨1, [3], rfl⟩, ent3Inc, by norm_num [ent3Int, ent3Sp, dofFactor], one_ne_zero⟩

private theorem ent3_bounds (σ : Equiv.Perm (Fin 3)) (sgn : ℤ) : CutBounds (ent3Int σ sgn) ent3P := by
  refine ⟨_, _, _, rfl, rfl, rfl, ?_, rfl, rfl⟩
  change decide (σ 0 = 1) = true ↔ (ent3Sp (σ 0)).mass = 0
  generalize σ 0 = i
  fin_cases i <;> norm_num [ent3Sp]

/-- Three integrals of the same decay, with different statistics. -/
example : ∃ f J : Fin 3 → ℝ → ℝ,
    Returns (ent3Int (Equiv.refl _) 1) ent3P (oneThread (ent3Int (Equiv.refl _) 1) ent3P) (J 0) ∧
    Returns (ent3Int (finRotate 3) (-1)) ent3P (oneThread (ent3Int (finRotate 3) (-1)) ent3P) (J 1) ∧
    Returns (ent3Int (Equiv.swap 0 2) (-1)) ent3P (oneThread (ent3Int (Equiv.swap 0 2) (-1)) ent3P) (J 2) ∧
    0 ≤ (∫ y in Set.Ioc 0 3, y ^ 2 * deriv (modeEntropy (ent3Sp 0).eta) (f 0 y) * J 0 y) +
      (∫ y in Set.Ioc 0 5, y ^ 2 * deriv (modeEntropy (ent3Sp 1).eta) (f 1 y) * J 1 y) +
      (∫ y in Set.Ioc 0 5, y ^ 2 * deriv (modeEntropy (ent3Sp 2).eta) (f 2 y) * J 2 y) := by
  have seen : ∀ σ : Equiv.Perm (Fin 3), SeenFrom (ent3Int (Equiv.refl _) 1) (ent3Int σ (-1)) σ := fun σ =>
    ⟨fun _ => rfl, fun _ => rfl, fun i => by change -1 * _ = -(1 * _); rw [one_mul, neg_one_mul]; rfl, rfl⟩
  have reg : ∀ i, Filled (toC (ent3Sp i) (ent3St i) ent3P) := by
    intro i
    refine filled_toC _ _ _ (by norm_num [ent3P]) [1, 3] ?_ rfl ent3Inc ?_ (by norm_num [ent3St]) ?_
    · simp [inEq, ent3Sp]
    · fin_cases i <;> rfl
    · fin_cases i <;> norm_num [ent3St, ent3Sp] <;> decide
  have key : ∀ m m' p : ℝ, 0 < p → Producible ((ent3Sp 0).mass * 2) m m' 3 p → p ≤ 5 := by
    rintro m m' p hp ⟨pB, pC, hB, hC, hP, he, -⟩
    have e : (ent3Sp 0).mass * 2 = 4 := by norm_num [ent3Sp]
    rw [e] at he
    have h1 : p ≤ energyOf m p := Real.le_sqrt_of_sq_le (by nlinarith [sq_nonneg m])
    have h2 : 0 ≤ energyOf m' pB := Real.sqrt_nonneg _
    have h3 : energyOf 4 pC ≤ 5 := by
      unfold energyOf
      rw [Real.sqrt_le_left (by norm_num)]
      nlinarith
    linarith
  obtain ⟨f, J, -, h0, h1, h2, h, -⟩ := C105_integrate_two_body (ent3Int (Equiv.refl _) 1)
    (ent3Int (finRotate 3) (-1)) (ent3Int (Equiv.swap 0 2) (-1)) ent3P _ _ _ 3 (by norm_num [ent3P])
    (by norm_num [ent3P]) (by norm_num [ent3P]) (by norm_num [ent3P]) (by norm_num [ent3Int])
    ⟨rfl, rfl, rfl⟩ (seen _) (seen _) (ent3_plain _ _) (ent3_plain _ _) (ent3_plain _ _)
    (by change (0 : ℝ) < 2; norm_num) (by change (0 : ℝ) ≤ 0; norm_num) (by change (0 : ℝ) ≤ 1; norm_num)
    (by change (0 : ℝ) + 1 < 2; norm_num) (by norm_num) rfl rfl (ent3_bounds _ _) (ent3_bounds _ _)
    (covers_oneThread _ _) (covers_oneThread _ _) (covers_oneThread _ _) reg ![3, 5, 5] rfl
    (fun i => by fin_cases i <;> norm_num) (key _ _) (key _ _)
  have w : ∀ σ sgn, (ent3Int σ sgn).weight = 1 := by
    intro σ sgn; norm_num [Int3.weight, ent3Int, ent3Sp, dofFactor]
  rw [w, w, w, one_mul, one_mul, one_mul] at h
  exact ⟨f, J, h0, h1, h2, h⟩
end Example

end PyBBN
