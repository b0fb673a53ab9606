import Verif.Props.Convergence

/-! # C118: the N_eff column ends at the number of neutrino species

`Params.update` (common/__init__.py 176–181) writes `N_eff` from the total energy density, with the
number 1.401 for the heating of the photons by the electrons.  Here: in a run with photons, electrons with
positrons and `N` massless species which never interact, the column ends at `N` within 0.3 %, plus the errors
of the densities. -/

namespace PyBBN

open Set Filter Topology MeasureTheory

variable {W : Type}

theorem fullPressure_nonneg (sp : Species) (T : ℝ) (hf : sp.fermion = true) (hd : 0 ≤ sp.dof) :
    0 ≤ fullPressure sp T := by
  unfold fullPressure
  refine setIntegral_nonneg measurableSet_Ioi fun p hp => ?_
  have h1 : 0 ≤ sp.stat (physEnergy sp p / T) := by
    unfold Species.stat; rw [if_pos hf]; unfold Fermi; positivity
  have h2 : 0 ≤ physEnergy sp p := by unfold physEnergy; split_ifs <;> positivity
  have := mem_Ioi.mp hp
  positivity

/-- The energy density of a massive fermion is at most that of its entropy, which falls with the mass over
the temperature. -/
theorem fullEnergy_le (m x θ : ℝ) (e : TPart) (hx : 0 < x) (hm : 0 < m) (hθ : 0 < θ) (hr : e.regime.massive)
    (hf : e.sp.fermion = true) (hd : 0 ≤ e.sp.dof) (hM : 0 < e.sp.mass) :
    fullEnergy e.sp (θ / (x / m)) ≤
      (θ / (x / m)) ^ 4 * (e.sp.dof / (6 * Real.pi ^ 2) * shell e.sp.eta 3 (e.sp.mass / m * (x / θ))) := by
  have h := speciesEntropy_eq m x θ e hx hm hθ fun _ => hM
  have hp := fullPressure_nonneg e.sp (θ / (x / m)) hf hd
  have ha : 0 < x / m := div_pos hx hm
  have h' : (x / m) ^ 3 * ((fullEnergy e.sp (θ / (x / m)) + fullPressure e.sp (θ / (x / m))) / (θ / (x / m))) =
      θ ^ 3 * (e.sp.dof / (6 * Real.pi ^ 2) * shell e.sp.eta 3 (e.sp.mass / m * (x / θ))) := by
    unfold speciesEntropy cW at h
    rcases hr with hr | hr <;> simpa only [hr] using h
  generalize fullEnergy e.sp (θ / (x / m)) = E at *
  generalize fullPressure e.sp (θ / (x / m)) = P at *
  generalize e.sp.dof / (6 * Real.pi ^ 2) * shell e.sp.eta 3 (e.sp.mass / m * (x / θ)) = C at *
  generalize x / m = a at *
  have : E + P = (θ / a) ^ 4 * C := by
    field_simp at h' ⊢
    linear_combination h'
  linarith

theorem neff_arith (s en q η N : ℝ) (hN : 0 ≤ N) (q0 : 0 < q) (q1 : 1 / 1.402 < q) (q2 : q < 1 / 1.4)
    (e0 : 0 ≤ en) (e1 : en ≤ 0.0001)
    (hs : |s - (Real.pi ^ 2 / 15 + en + N * (7 / 8 * Real.pi ^ 2 / 15) * q ^ 4)| ≤ η) :
    |(s - Real.pi ^ 2 / 15) / (7 / 8 * Real.pi ^ 2 / 15 / 1.401 ^ 4) - N| ≤ 0.003 * N + 0.001 + 7 * η := by
  have hpi := Real.pi_pos
  set k : ℝ := 7 / 8 * Real.pi ^ 2 / 15 / 1.401 ^ 4 with hk
  have hk0 : 1 / 7 ≤ k := by
    rw [hk, le_div_iff₀ (by norm_num)]
    have : (3.1415 : ℝ) < Real.pi := Real.pi_gt_d4
    have : (3.1415 : ℝ) ^ 2 ≤ Real.pi ^ 2 := pow_le_pow_left₀ (by norm_num) this.le 2
    norm_num at this ⊢
    linarith
  have hkp : 0 < k := by linarith
  have hkk : (7 / 8 * Real.pi ^ 2 / 15 : ℝ) = k * 1.401 ^ 4 := by rw [hk]; field_simp
  rw [hkk] at hs
  clear_value k
  generalize Real.pi ^ 2 / 15 = g at *
  have e1' : (s - g) / k - N = (s - (g + en + N * (k * 1.401 ^ 4) * q ^ 4)) / k + en / k +
      N * ((1.401 * q) ^ 4 - 1) := by
    field_simp
    ring
  have b1 : |(s - (g + en + N * (k * 1.401 ^ 4) * q ^ 4)) / k| ≤ 7 * η := by
    have h0 := abs_nonneg (s - (g + en + N * (k * 1.401 ^ 4) * q ^ 4))
    rw [abs_div, abs_of_pos hkp, div_le_iff₀ hkp]
    generalize |s - (g + en + N * (k * 1.401 ^ 4) * q ^ 4)| = z at *
    nlinarith
  have b2 : |en / k| ≤ 0.001 := by
    rw [abs_of_nonneg (by positivity), div_le_iff₀ hkp]
    linarith
  have b3 : |(1.401 * q) ^ 4 - 1| ≤ 0.003 := by
    have l : (1.401 / 1.402 : ℝ) ^ 4 ≤ (1.401 * q) ^ 4 := by
      refine pow_le_pow_left₀ (by norm_num) ?_ 4
      rw [div_eq_mul_one_div]; linarith
    have h : (1.401 * q) ^ 4 ≤ (1.401 / 1.4 : ℝ) ^ 4 := by
      refine pow_le_pow_left₀ (by positivity) ?_ 4
      rw [div_eq_mul_one_div 1.401 (1.4 : ℝ)]; linarith
    generalize (1.401 * q) ^ 4 = z at *
    rw [abs_le]
    norm_num at l h ⊢
    constructor <;> linarith
  have b4 : |N * ((1.401 * q) ^ 4 - 1)| ≤ 0.003 * N := by
    rw [abs_mul, abs_of_nonneg hN, mul_comm 0.003]
    exact mul_le_mul_of_nonneg_left b3 hN
  rw [e1']
  have t1 := abs_add_le ((s - (g + en + N * (k * 1.401 ^ 4) * q ^ 4)) / k + en / k) (N * ((1.401 * q) ^ 4 - 1))
  have t2 := abs_add_le ((s - (g + en + N * (k * 1.401 ^ 4) * q ^ 4)) / k) (en / k)
  linarith

/-- **C118.** A run with photons, electrons and positrons and `N` decoupled massless neutrino species which
keep the temperature `θ₁/a` they have at the start, started above 19 electron masses, in either mode: there
is `X₀` such that for every `X`, once step and integration error are small enough, `N_eff` in all rows
between `X₀` and `X` is `N` within `0.003 N + 0.001 + 7 η`, where `η` bounds the error of the recorded
density in units of `T⁴`. -/
theorem C118_neff (m : ℝ) (γ e : TPart) (ν : List TPart) (nu : Species) (x₁ θ₁ V : ℝ) (hm : 0 < m) (h1 : 0 < x₁)
    (hθ : 0 < θ₁) (hV : 0 ≤ V) (hp : PhotonElectron γ e ν) (hz : ∀ t ∈ ν, ∀ k, t.coll k = 0)
    (hν : nu.fermion = true ∧ nu.dof = 2) (hT : 19 * e.sp.mass ≤ θ₁ / (x₁ / m)) :
    ∃ X₀, x₁ ≤ X₀ ∧ ∀ X, X₀ ≤ X → ∃ δ : ℝ, 0 < δ ∧ ∀ (W : Type) (ph : Physics W) (c : Consts) (ab init : Bool)
      (Tf ε : ℝ) (fuel : ℕ) (data d' : List Row) (u u' : Uni W), StartsAt u data m x₁ θ₁ V → 0 ≤ ε →
      NearPlasma ph m (γ :: e :: ν) ε x₁ X (θ₁ / 2) (3 * θ₁) → u.params.dy + ε ≤ δ →
      evolve ph c ab Tf init fuel (data, u) = .ok (some (d', u')) →
      ∃ rows, d' = data ++ rows ∧ ∀ (i N : ℕ) (r r' : Row) (η : ℝ), rows[i]? = some r → rows[i + 1]? = some r' →
        X₀ ≤ r.x → r.x ≤ X →
        |r'.rho - (radEnergyDensity γ.sp r.T + fullEnergy e.sp r.T + N * radEnergyDensity nu (θ₁ / r.a))|
          ≤ η * r.T ^ 4 →
        |r'.Neff - N| ≤ 0.003 * N + 0.001 + 7 * η := by
  obtain ⟨X₀, hX₀, main⟩ := C117_heats m γ e ν x₁ θ₁ V hm h1 hθ hV hp hz hT
  have heta := eta_cases e.sp
  have hpi := Real.pi_pos
  have hpi3 := Real.pi_gt_three
  -- the electrons are gone
  have lim : Tendsto (fun x => e.sp.dof / (6 * Real.pi ^ 2) * shell e.sp.eta 3 (e.sp.mass / m * (x / (1.402 * θ₁))))
      atTop (𝓝 0) := by
    have t1 : Tendsto (fun x : ℝ => e.sp.mass / m * (x / (1.402 * θ₁))) atTop atTop :=
      (tendsto_id.atTop_div_const (by positivity)).const_mul_atTop (div_pos hp.em hm)
    have := ((shell_tendsto heta).comp t1).const_mul (e.sp.dof / (6 * Real.pi ^ 2))
    simpa using this
  obtain ⟨X₂, hX₂⟩ := eventually_atTop.mp (lim.eventually_lt_const (show (0 : ℝ) < 0.0001 by norm_num))
  refine ⟨max X₀ X₂, hX₀.trans (le_max_left _ _), fun X hX => ?_⟩
  obtain ⟨δ, hδ, main⟩ := main X ((le_max_left _ _).trans hX)
  refine ⟨δ, hδ, ?_⟩
  intro W ph c ab init Tf ε fuel data d' u u' hu hε hph hsmall hev
  obtain ⟨rows, hd, hrows⟩ := main W ph c ab init Tf ε fuel data d' u u' hu hε hph hsmall hev
  obtain ⟨rows', hd', ⟨r0, hr0, x0, t0, a0, T0, -⟩, htab⟩ := C77_table hu.reg hev
  obtain rfl : rows = rows' := List.append_cancel_left (hd.symm.trans hd')
  refine ⟨rows, hd, fun i N r r' η hi hi' hx0 hxX hrho => ?_⟩
  obtain ⟨g1, g2⟩ := hrows r (List.mem_of_getElem? hi) ((le_max_left _ _).trans hx0) hxX
  rw [lt_div_iff₀ hθ] at g1
  rw [div_lt_iff₀ hθ] at g2
  have hx : 0 < r.x := by linarith [hx0.trans' (le_max_left X₀ X₂)]
  have hθr : 0 < r.aT := by nlinarith
  -- scale factor and temperature of the earlier row
  have ha : r.a = r.x / m ∧ r.T = r.aT / (r.x / m) := by
    cases i with
    | zero =>
      have hm' : u.params.m = m := hu.m
      rw [hr0] at hi
      obtain rfl := Option.some.inj hi
      have c := hu.reg.cons
      have : r0.a = r0.x / m := by rw [a0, x0, ← c.1, hm']; field_simp
      refine ⟨this, ?_⟩
      rw [← this, T0, t0, a0, ← c.2]
      have h2 : 0 < u.params.a := by
        have : 0 < u.params.a * u.params.m := by rw [c.1]; exact hu.reg.x
        exact pos_of_mul_pos_left this hu.reg.m.le
      field_simp
    | succ j =>
      have hlen : j < rows.length := by
        have := (List.getElem?_eq_some_iff.mp hi).1; omega
      obtain ⟨-, q1, q2, -⟩ := htab j _ r (List.getElem?_eq_getElem hlen) hi
      rw [hu.m] at q1
      exact ⟨q1, by rw [q2, q1]⟩
  have hapos : 0 < r.x / m := div_pos hx hm
  have hTpos : 0 < r.T := by rw [ha.2]; positivity
  have hE0 : 0 ≤ fullEnergy e.sp r.T := by
    unfold fullEnergy
    refine setIntegral_nonneg measurableSet_Ioi fun p hp' => ?_
    have a1 : 0 ≤ e.sp.stat (physEnergy e.sp p / r.T) := by
      unfold Species.stat; rw [if_pos hp.ef]; unfold Fermi; positivity
    have a2 : 0 ≤ physEnergy e.sp p := by unfold physEnergy; split_ifs <;> positivity
    have a3 : 0 ≤ e.sp.dof := by rw [hp.eg]; norm_num
    have := mem_Ioi.mp hp'
    positivity
  have hE : fullEnergy e.sp r.T ≤ r.T ^ 4 * 0.0001 := by
    have h := fullEnergy_le m r.x r.aT e hx hm hθr hp.er hp.ef (by rw [hp.eg]; norm_num) hp.em
    rw [← ha.2] at h
    refine h.trans (mul_le_mul_of_nonneg_left ?_ (by positivity))
    refine le_trans ?_ (hX₂ r.x ((le_max_right _ _).trans hx0)).le
    refine mul_le_mul_of_nonneg_left ?_ (by rw [hp.eg]; positivity)
    have em := hp.em
    refine (shell_antitone heta (u := e.sp.mass / m * (r.x / (1.402 * θ₁))) (by positivity) ?_ 3).resolve_right
      (by norm_num)
    refine mul_le_mul_of_nonneg_left ?_ (by positivity)
    exact div_le_div_of_nonneg_left hx.le hθr g2.le
  obtain ⟨-, -, -, -, hN, -⟩ := htab i r r' hi hi'
  -- the column
  set q : ℝ := θ₁ / r.aT with hq
  have hqT : θ₁ / r.a = q * r.T := by rw [ha.1, ha.2, hq]; field_simp
  have q1 : 1 / 1.402 < q := by rw [hq, div_lt_div_iff₀ (by norm_num) hθr]; linarith
  have q2 : q < 1 / 1.4 := by rw [hq, div_lt_div_iff₀ hθr (by norm_num)]; linarith
  have q0 : 0 < q := by rw [hq]; positivity
  have hN' : r'.Neff = (r'.rho / r.T ^ 4 - Real.pi ^ 2 / 15) / (7 / 8 * Real.pi ^ 2 / 15 / 1.401 ^ 4) := by
    rw [hN]; field_simp
  set s : ℝ := r'.rho / r.T ^ 4 with hs
  set en : ℝ := fullEnergy e.sp r.T / r.T ^ 4 with hen
  have hen1 : 0 ≤ en := by positivity
  have hen2 : en ≤ 0.0001 := by rw [hen, div_le_iff₀ (by positivity)]; linarith
  have hrho' : |s - (Real.pi ^ 2 / 15 + en + N * (7 / 8 * Real.pi ^ 2 / 15) * q ^ 4)| ≤ η := by
    have : s - (Real.pi ^ 2 / 15 + en + N * (7 / 8 * Real.pi ^ 2 / 15) * q ^ 4) =
        (r'.rho - (radEnergyDensity γ.sp r.T + fullEnergy e.sp r.T + N * radEnergyDensity nu (θ₁ / r.a))) /
          r.T ^ 4 := by
      rw [hqT, hs, hen]
      simp only [radEnergyDensity, hp.γf, hp.γg, hν.1, hν.2, Bool.false_eq_true, if_false, if_true]
      field_simp
      ring
    rw [this, abs_div, abs_of_pos (by positivity : (0 : ℝ) < r.T ^ 4), div_le_iff₀ (by positivity)]
    exact hrho
  rw [hN']
  exact neff_arith s en q η N (Nat.cast_nonneg N) q0 q1 q2 hen1 hen2 hrho'

/-- Photons, electrons and three neutrino species with their densities at the state the density is taken:
`total_energy_density` is evaluated before `a` and `T` are updated. -/
noncomputable def threeNeutrinos : Physics Unit :=
  ⟨(exactPlasma [demoPlasma.1, demoPlasma.2.1, demoPlasma.2.2]).terms,
   fun _ p => radEnergyDensity demoPlasma.1.sp p.T + fullEnergy demoPlasma.2.1.sp p.T +
     3 * radEnergyDensity demoPlasma.2.2.sp (10 / p.a), fun _ _ => 1⟩

set_option maxHeartbeats 1000000 in
/-- Non-vacuity: the default mode completes with three neutrino species and its last row has `N_eff` within
0.01 of 3. -/
example : ∃ (dy Tf : ℝ) (fuel : ℕ) (d' : List Row) (u' : Uni Unit) (r : Row), 0 < dy ∧
    evolve threeNeutrinos ⟨1, 1⟩ true Tf true fuel ([], hotStart dy) = .ok (some (d', u')) ∧
    d'.getLast? = some r ∧ |r.Neff - 3| ≤ 0.01 := by
  set ts := [demoPlasma.1, demoPlasma.2.1, demoPlasma.2.2] with hts
  have hc : Content ts := demoPlasma_ok.content
  have hz : ∀ t ∈ ts, t.regime = .noneq → ∀ k, t.coll k = 0 := by
    intro t ht
    simp only [hts, List.mem_cons, List.not_mem_nil, or_false] at ht
    rcases ht with rfl | rfl | rfl <;> simp [demoPlasma]
  obtain ⟨X₀, h0, heat⟩ := C118_neff 1 demoPlasma.1 demoPlasma.2.1 [demoPlasma.2.2] demoPlasma.2.2.sp 1 10 0
    one_pos one_pos (by norm_num) le_rfl demoPlasma_ok (by simp [demoPlasma]) ⟨by simp [demoPlasma], by simp [demoPlasma]⟩
    (by norm_num [demoPlasma])
  obtain ⟨θ, hh, e1⟩ := history_through 1 ts 1 10 one_pos one_pos (by norm_num) hc hz
  obtain ⟨θe, -, hb, -, hhi⟩ := C116_test_start 1 _ _ _ θ 1 one_pos one_pos demoPlasma_ok
    (fun x hx => hh x (one_pos.trans_le hx)) (by rw [e1]; norm_num [demoPlasma])
  rw [e1, div_lt_iff₀ (by norm_num)] at hhi
  have hX1 : (1 : ℝ) ≤ 24 * X₀ := by linarith
  obtain ⟨δ, hδ, heat⟩ := heat (24 * X₀) (by linarith)
  obtain ⟨L, hs⟩ := plasma_solves 1 ts θ 1 (24 * X₀) one_pos one_pos hX1 hc fun x hx => hh x (one_pos.trans_le hx.1)
  obtain ⟨K, hK, comp⟩ := C117_completes hs 0 le_rfl
  have hθX := hb (24 * X₀) hX1
  rw [e1] at hs comp
  obtain ⟨dy, hdy, d1, d2, d3⟩ : ∃ dy : ℝ, 0 < dy ∧ dy ≤ δ ∧ K * dy ≤ 5 ∧ dy ≤ 1 := by
    refine ⟨min δ (min (5 / K) 1), by positivity, min_le_left _ _, ?_, ?_⟩
    · have : min δ (min (5 / K) 1) ≤ 5 / K := (min_le_right _ _).trans (min_le_left _ _)
      rw [le_div_iff₀ hK] at this; linarith
    · exact (min_le_right _ _).trans (min_le_right _ _)
  have hu := hotStart_starts dy hdy
  have hnear : ∀ x X lo hi, NearPlasma threeNeutrinos 1 ts 0 x X lo hi :=
    fun x X lo hi => exactPlasma_near 1 ts x X lo hi hz
  obtain ⟨N, ⟨d', u'⟩, hxX, hbox, hev⟩ := comp Unit threeNeutrinos ⟨1, 1⟩ true true (60 / (24 * X₀)) 0 1 []
    (hotStart dy) hu le_rfl
    (nearPlasma_slope _ 1 ts 0 1 _ _ _ (by norm_num) hc (hnear _ _ _ _))
    (by change K * (dy + 0) ≤ 10 / 2; linarith) d3
    (fun w p a _ b _ e => exactPlasma_den 1 ts hc hz w p a b (lt_of_lt_of_le (by norm_num) e.1))
    (by simp [hotStart, Uni.new]) (by
      rw [div_mul_cancel₀ _ (by linarith)]
      linarith)
  have ev := hev N le_rfl
  obtain ⟨rows, hd, hrows⟩ := heat Unit threeNeutrinos ⟨1, 1⟩ true true (60 / (24 * X₀)) 0 N [] d' (hotStart dy)
    u' hu le_rfl (hnear _ _ _ _) (by change dy + 0 ≤ δ; linarith) ev
  rw [List.nil_append] at hd
  subst hd
  obtain ⟨n, st, rows, -, hl, hd, hlast, hstart, hstep, hreg, hrow, -, hTf, hT⟩ := evolve_trace hu.reg ev
  rw [List.nil_append] at hd
  subst hd
  obtain ⟨s0, s1, s2, s3, s4, s5, em, s6, s7, s8, sT, s9⟩ := evolveStart_spec hstart hu.reg
  have hconst : ∀ i, i ≤ n → (st i).2.params.m = 1 ∧ (st i).2.params.dy = dy ∧ (st i).2.params.log = true := by
    intro i
    induction i with
    | zero => intro _; exact ⟨em, s7, s8⟩
    | succ i ih =>
      intro hi
      rw [(hstep i hi).m, (hstep i hi).dy, (hstep i hi).log]; exact ih (by omega)
  have hrn := hreg n le_rfl
  have hx24 : 2 * X₀ ≤ (st n).2.params.x := by
    have hm1 := (hconst n le_rfl).1
    rw [hlast] at hrn hm1 ⊢
    have : u'.params.T * u'.params.x = u'.params.aT := by
      rw [← hrn.cons.1, ← hrn.cons.2, hm1]; ring
    have h5 : 10 / 2 ≤ u'.params.aT := hbox.1
    have h6 : u'.params.T * (2 * X₀) ≤ 5 := by
      rw [le_div_iff₀ (by linarith)] at hTf; linarith
    refine le_of_mul_le_mul_left ?_ hT
    linarith
  have hn : n ≠ 0 := by
    rintro rfl
    rw [s4] at hx24
    have : (hotStart dy).params.x = 1 := rfl
    change 2 * X₀ ≤ (hotStart dy).params.x at hx24
    linarith
  obtain ⟨j, rfl⟩ := Nat.exists_eq_succ_of_ne_zero hn
  have hj : d'[j]? = some (d'[j]'(by omega)) := List.getElem?_eq_getElem _
  have hg : d'[j + 1]? = some (d'[j + 1]'(by omega)) := List.getElem?_eq_getElem _
  obtain ⟨-, p1, p2, p3, p4, -⟩ := hrow j _ hj
  obtain ⟨-, q1, q2, q3, q4, q5, q6, -⟩ := hrow (j + 1) _ hg
  have st' := hstep j (by omega)
  obtain ⟨c1, c2, c3⟩ := hconst j (by omega)
  have hxj : (st (j + 1)).2.params.x = (st j).2.params.x * (1 + dy) := by
    rw [st'.x, (hreg j (by omega)).step c3, c2]; ring
  have hxp := (hreg j (by omega)).x
  have key := hrows j 3 _ _ 0 hj hg (by rw [p4]; nlinarith) (by
      rw [p4]
      have : (st (j + 1)).2.params.x ≤ 24 * X₀ := by rw [hlast]; exact hxX
      nlinarith) (by
      obtain ⟨r, hr1, hr2, -⟩ := st'.rho
      rw [q6] at hr1
      rw [Option.some.inj hr1, hr2, p2, p3]
      simp [threeNeutrinos])
  refine ⟨dy, 60 / (24 * X₀), N, d', u', d'[j + 1]'(by omega), hdy, ev, ?_, ?_⟩
  · rw [List.getLast?_eq_getElem?, ← hg]; congr 1; omega
  · refine key.trans ?_
    norm_num

end PyBBN
