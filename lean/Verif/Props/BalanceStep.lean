import Verif.Props.Balance
import Verif.Props.Kinematics
import Mathlib.MeasureTheory.Integral.IntegralEqImproper
/-!
# C93 at the level of `ThreeParticleIntegral.integrate`

The arrays returned by `integrate` for the three species of `X → a + b`: grid cut-offs, constants, comoving
momenta, degrees of freedom.
-/
namespace PyBBN
open MeasureTheory

/-- **C66, strict form.** A product that leaves in a direction other than that of the decaying particle has a momentum
strictly between the bounds of the grid cut. -/
theorem C66_three_strict (s1 s2 s3 : KSpecie) (hM : 0 < s3.confMass) (h1 : 0 ≤ s1.confMass)
    (h2 : 0 ≤ s2.confMass) (hth : s2.confMass + s1.confMass ≤ s3.confMass)
    (hm : s1.massless = true → s1.confMass = 0) (pA : ℝ) (hA : 0 < pA)
    (h : Producible s3.confMass s1.confMass s2.confMass s3.maxMom pA) :
    (bounds3Creation s1 s2 s3).1 < pA ∧ pA < (bounds3Creation s1 s2 s3).2 := by
  obtain ⟨pB, pC, hB, hC, hmax, hen, ht⟩ := h
  set E := energyOf s3.confMass pC with hE
  let φ : ℝ → ℝ := fun t => momOf s2.confMass (E - energyOf s1.confMass t)
  have hφ0 : φ pA = pB := by
    change momOf _ (E - energyOf _ pA) = _
    rw [← hen, add_sub_cancel_left, momOf_energyOf _ _ hB.le]
  have hφ : Continuous φ := by
    change Continuous fun t => √((E - √(t ^ 2 + s1.confMass ^ 2)) ^ 2 - s2.confMass ^ 2)
    fun_prop
  have hcE : Continuous fun t => E - energyOf s1.confMass t := by unfold energyOf; fun_prop
  have hev : ∀ᶠ t in nhds pA, 0 < t ∧ s2.confMass < E - energyOf s1.confMass t ∧
      pC < t + φ t ∧ t < pC + φ t ∧ φ t < pC + t := by
    refine Filter.Eventually.and (lt_mem_nhds hA) (Filter.Eventually.and ?_ (Filter.Eventually.and ?_
      (Filter.Eventually.and ?_ ?_)))
    · refine hcE.continuousAt.eventually_const_lt ?_
      change _ < E - energyOf _ pA
      rw [← hen, add_sub_cancel_left]
      exact lt_energyOf h2 hB
    · refine (continuous_id.add hφ).continuousAt.eventually_const_lt ?_
      change pC < pA + φ pA
      rw [hφ0]; exact ht.1
    · refine ContinuousAt.eventually_lt (f := id) continuousAt_id (continuous_const.add hφ).continuousAt ?_
      change pA < pC + φ pA
      rw [hφ0]; exact ht.2.1
    · refine ContinuousAt.eventually_lt hφ.continuousAt (continuous_const.add continuous_id).continuousAt ?_
      change φ pA < pC + pA
      rw [hφ0]; exact ht.2.2
  obtain ⟨δ, hδ, hball⟩ := Metric.eventually_nhds_iff.mp hev
  have key : ∀ t, |t - pA| < δ → (bounds3Creation s1 s2 s3).1 ≤ t ∧ t ≤ (bounds3Creation s1 s2 s3).2 := by
    intro t htd
    obtain ⟨t0, tE, a, b, c⟩ := hball (y := t) (by rw [Real.dist_eq]; exact htd)
    refine C66_three s1 s2 s3 hM h1 h2 hth hm t (φ t) pC t0.le (momOf_pos _ _ h2 tE).le hC.le hmax ?_ a.le b.le c.le
    rw [← energyOf_eq, ← energyOf_eq, ← energyOf_eq, energyOf_momOf _ _ h2 tE.le]
    ring
  have k1 := (key (pA - δ / 2) (by rw [abs_lt]; constructor <;> linarith)).1
  have k2 := (key (pA + δ / 2) (by rw [abs_lt]; constructor <;> linarith)).2
  constructor <;> linarith

/-- The bounds are in order. -/
theorem bounds3_ordered (s1 s2 s3 : KSpecie) (hM : 0 < s3.confMass) (h1 : 0 ≤ s1.confMass)
    (h2 : 0 ≤ s2.confMass) (hth : s2.confMass + s1.confMass ≤ s3.confMass)
    (hm : s1.massless = true → s1.confMass = 0) (hP : 0 ≤ s3.maxMom) :
    (bounds3Creation s1 s2 s3).1 ≤ (bounds3Creation s1 s2 s3).2 := by
  have hps := (C46_threshold s3.confMass s2.confMass s1.confMass hM h2 h1 hth).1
  have hsum := (C46_unique s3.confMass s2.confMass s1.confMass hM h2 h1 hth _ hps).mp rfl
  have h := C66_three s1 s2 s3 hM h1 h2 hth hm _ (cmMomentum s3.confMass s2.confMass s1.confMass) 0 hps hps le_rfl hP
    (by
      rw [show energy 0 s3.confMass = s3.confMass by unfold energy; simp [Real.sqrt_mul_self hM.le]]
      linarith) (by linarith) (by linarith) (by linarith)
  exact h.1.trans h.2

/-- The constant common to the three species: `K a / (32 π aT H)`, over `x` in linear mode. -/
noncomputable def common3 (K : ℝ) (p : Params) : ℝ :=
  K * p.a / p.aT / 32 / Real.pi / p.H / (if p.log then 1 else p.x)

theorem constants3_tail (K mass dof : ℝ) (majorana : Bool) (mult : ℝ) (p : Params) (n j : ℕ) (hj : j < n) (h0 : 0 < j) :
    (constants3 K mass dof majorana mult p n)[j]? = some (common3 K p / dofFactor majorana dof * mult) := by
  obtain ⟨i, rfl⟩ := Nat.exists_eq_succ_of_ne_zero h0.ne'
  unfold constants3 common3
  dsimp only
  rw [List.map_cons, List.getElem?_cons_succ, List.map_replicate, List.getElem?_replicate, if_pos (by omega)]
  congr 1
  split_ifs
  · rw [div_one]
  · ring

variable {ι : Type*}

/-- What the loop of `integration_3` computes at a single comoving momentum, on the grid or not, times the constant of
`integrate`. -/
noncomputable def rateAt3 (c : Int3 ι) (p : Params) (y : ℝ) : Except Err ℝ :=
  match integration3Exact (c.reaction p) 0 [y / p.aT] (c.min1 / p.aT) (c.max1 / p.aT) (c.max2 / p.aT) [[0]] with
  | .ok [v] => .ok (v * (common3 c.K p / dofFactor c.majorana (c.sp 0).dof * c.mult))
  | .ok _ => .error .valueError
  | .error e => .error e

/-- `integrate` returns a pair of arrays on the grid of the particle, the first of which contains the values of `J`
at the grid points other than zero; and `J` is the function which the loop computes at every momentum, so that it is determined
between the grid points too. -/
def Returns (c : Int3 ι) (p : Params) (sched : List (List ℕ)) (J : ℝ → ℝ) : Prop :=
  (∃ A B, integrate3 c p sched = .ok (.two A B) ∧ A.length = (c.sp 0).grid.length ∧
    ∀ j (h : j < (c.sp 0).grid.length), 0 < (c.sp 0).grid[j] → A[j]? = some (J (c.sp 0).grid[j])) ∧
  ∀ y, 0 < y → rateAt3 c p y = .ok (J y)

theorem mulArr_get {x y : List ℝ} {j : ℕ} {u v : ℝ} (hx : x[j]? = some u) (hy : y[j]? = some v) :
    (mulArr x y)[j]? = some (u * v) := by
  unfold mulArr
  rw [List.getElem?_zipWith, hx, hy]

/-- The second loop of `integrate` succeeds. -/
theorem loop_ff (s : Fin 3 → Reactant) (F : Fin 3 → ℝ → ℝ)
    (hs : ∀ i, (s i).side = 1 ∨ (s i).side = -1) (s0 : (s 0).side = -1) (hm0 : 0 ≤ (s 0).specie.m)
    (hocc : ∀ i p, 0 ≤ p → occAt (s i).specie p = .ok (F i p)) (hF : ∀ i p, 0 ≤ p → 0 ≤ F i p)
    (ps : List ℝ) (min1 max1 max2 : ℝ) (sched : List (List ℕ)) (hsch : ValidSchedule ps.length sched) :
    ∃ B, integration3Exact s 2 ps min1 max1 max2 sched = .ok B ∧ B.length = ps.length := by
  have hk := p1Bounds1_nonneg (s 0).specie.m (s 1).specie.m (s 2).specie.m hm0
  have hn := momenta3_nonneg s le_rfl hk
  have hrest : ∃ v, integrandFull3 0 (p1Bounds1 (s 0).specie.m (s 1).specie.m (s 2).specie.m) 2 s = .ok v := by
    unfold integrandFull3
    split_ifs
    · exact ⟨_, rfl⟩
    · simp only [hocc _ _ (hn _), bind, Except.bind]
      rw [(C84_kinds (s 0) [s 1, s 2] _ [_, _] s0 ?_ (hF _ _ (hn 0)) ?_ 2).2.1 rfl]
      · exact ⟨_, rfl⟩
      · intro x hx
        simp only [List.zip_cons_cons, List.zip_nil_right, List.mem_cons, List.not_mem_nil, or_false] at hx
        rcases hx with rfl | rfl <;> exact hs _
      · intro x hx
        simp only [List.zip_cons_cons, List.zip_nil_right, List.mem_cons, List.not_mem_nil, or_false] at hx
        rcases hx with rfl | rfl <;> exact hF _ _ (hn _)
  obtain ⟨v, hv⟩ := hrest
  unfold integration3Exact
  rw [C40_three_value _ _ _ _ _ _ _ hsch, hv]
  have : ∀ p ∈ ps, ∃ w, (if p = 0 then (Except.ok v : Except Err ℝ) else
      if (outerLimits3 (loopCtx3 s max2) p (min1, max1)).2 then
        exactQuad3 s 2 p (outerLimits3 (loopCtx3 s max2) p (min1, max1)).1.1
          (outerLimits3 (loopCtx3 s max2) p (min1, max1)).1.2 else .ok 0) = .ok w := by
    intro p _
    split_ifs
    · exact ⟨_, rfl⟩
    · exact ⟨_, rfl⟩
    · exact ⟨_, rfl⟩
  choose! w hw using this
  exact ⟨ps.map w, mapM_ok_map _ _ _ hw, List.length_map _⟩

/-- From the loops to the arrays. -/
theorem returns_of (c : Int3 ι) (p : Params) (sched : List (List ℕ)) (F : ℝ → ℝ) (ys : List ℝ) (haT : 0 < p.aT)
    (hkind : c.kind = .full) (hfast : (c.sp 0).fastDecay = false) (hn : c.neglect = false)
    (hgrid : (c.sp 0).grid = 0 :: ys) (hinc : StrictInc (c.sp 0).grid)
    (hcut : pyCreation (c.side 0 + c.side 1 + c.side 2) = true → ys ≠ [] ∧ c.lb ≤ c.ub ∧
      ∀ y, 0 < y → F (y / p.aT) ≠ 0 → c.lb < y ∧ y < c.ub)
    (hloop : ∀ s, cutoff3 (c.side 0 + c.side 1 + c.side 2) ((c.sp 0).grid.map (· / p.aT)) (c.sp 0).grid c.lb c.ub p.aT =
      some s → integration3Exact (c.reaction p) 0 s.points (c.min1 / p.aT) (c.max1 / p.aT) (c.max2 / p.aT) sched =
        .ok (s.points.map F) ∧
      ∃ B, integration3Exact (c.reaction p) 2 s.points (c.min1 / p.aT) (c.max1 / p.aT) (c.max2 / p.aT) sched =
        .ok B)
    (hall : ∀ q, 0 < q → integration3Exact (c.reaction p) 0 [q] (c.min1 / p.aT) (c.max1 / p.aT) (c.max2 / p.aT) [[0]] =
      .ok [F q]) :
    Returns c p sched fun y => F (y / p.aT) * (common3 c.K p / dofFactor c.majorana (c.sp 0).dof * c.mult) := by
  have hg0 : ∀ g ∈ (c.sp 0).grid, 0 ≤ g := by
    intro g hg
    rw [hgrid] at hg hinc
    rcases List.mem_cons.mp hg with rfl | hg
    · exact le_rfl
    · exact ((List.pairwise_cons.mp hinc).1 g hg).le
  have hne : (c.sp 0).grid ≠ [] := by rw [hgrid]; simp
  have hj0 : ∀ j (h : j < (c.sp 0).grid.length), 0 < (c.sp 0).grid[j] → 0 < j := by
    intro j h hpos
    rcases Nat.eq_zero_or_pos j with rfl | hj
    · simp [hgrid] at hpos
    · exact hj
  have hcl : (constants3 c.K (c.sp 0).mass (c.sp 0).dof c.majorana c.mult p (c.sp 0).grid.length).length =
      (c.sp 0).grid.length := by
    unfold constants3
    simp [hgrid]
  -- the array of the loop
  have harr : ∃ L : List ℝ, L.length = (c.sp 0).grid.length ∧
      (∀ j (h : j < (c.sp 0).grid.length), 0 < (c.sp 0).grid[j] → L[j]? = some (F ((c.sp 0).grid[j] / p.aT))) ∧
      ((∃ B, integrate3 c p sched = .ok (.two (mulArr L (constants3 c.K (c.sp 0).mass (c.sp 0).dof c.majorana
          c.mult p (c.sp 0).grid.length)) B)) ∨
        (L = List.replicate (c.sp 0).grid.length 0 ∧
          integrate3 c p sched = .ok (.two L (List.replicate (c.sp 0).grid.length 0)))) := by
    by_cases hc : pyCreation (c.side 0 + c.side 1 + c.side 2) = true
    · obtain ⟨hys, hb, hF⟩ := hcut hc
      have h2 : 2 ≤ (c.sp 0).grid.length := by
        rw [hgrid]
        have := List.length_pos_iff.mpr hys
        simp; omega
      refine ⟨integrate3Array (·.map F) ((c.sp 0).grid.map (· / p.aT)) (c.sp 0).grid c.lb c.ub p.aT, ?_, ?_, ?_⟩
      · exact C47_three_length _ (fun l => List.length_map _) _ hne hinc _ _ _ hb hg0 _ (List.length_map _)
      · intro j h hpos
        obtain ⟨k1, k2⟩ := C47_three_values F _ h2 hinc c.lb c.ub p.aT hb hg0 _ (List.length_map (· / p.aT)) j h
        by_cases hz : F ((c.sp 0).grid[j] / p.aT) = 0
        · rcases k2 with k | k
          · exact k
          · rw [k, hz]
        · obtain ⟨a, b⟩ := hF _ hpos hz
          exact k1 a b
      · unfold integrate3Array
        have hcc : cutoff3 (c.side 0 + c.side 1 + c.side 2) ((c.sp 0).grid.map (· / p.aT)) (c.sp 0).grid c.lb c.ub p.aT =
            gridCutoff3 (c.sp 0).grid c.lb c.ub p.aT := by
          unfold cutoff3
          rw [if_pos hc]
        rw [hcc] at hloop
        rcases hg : gridCutoff3 (c.sp 0).grid c.lb c.ub p.aT with _ | s
        · right
          refine ⟨by simp [pyZeros], ?_⟩
          unfold integrate3
          simp only [hn, Bool.false_eq_true, if_false, hcc, hg]
          simp [returnFunction, hkind, pyZeros]
        · left
          obtain ⟨h1, B, h2⟩ := hloop s hg
          refine ⟨mulArr (s.zeros1 ++ B ++ s.zeros3) (constants3 c.K (c.sp 0).mass (c.sp 0).dof c.majorana
              c.mult p (c.sp 0).grid.length), ?_⟩
          unfold integrate3
          simp only [hn, Bool.false_eq_true, if_false, hcc, hg, hkind, hfast, not_false_eq_true, true_or, true_and, if_true,
            CKind.toInt, h1, h2]
    · have hcc : cutoff3 (c.side 0 + c.side 1 + c.side 2) ((c.sp 0).grid.map (· / p.aT)) (c.sp 0).grid c.lb c.ub p.aT =
          some ⟨[], (c.sp 0).grid.map (· / p.aT), []⟩ := by
        unfold cutoff3
        rw [if_neg hc]
      obtain ⟨h1, B, h2⟩ := hloop _ hcc
      refine ⟨((c.sp 0).grid.map (· / p.aT)).map F, by simp, ?_, Or.inl ⟨mulArr B (constants3 c.K (c.sp 0).mass
        (c.sp 0).dof c.majorana c.mult p (c.sp 0).grid.length), ?_⟩⟩
      · intro j h _
        rw [List.map_map, List.getElem?_map, List.getElem?_eq_getElem h]
        rfl
      · dsimp only at h1 h2
        unfold integrate3
        simp only [hn, Bool.false_eq_true, if_false, hcc, hkind, hfast, not_false_eq_true, true_or, true_and, if_true,
            CKind.toInt, h1, h2, List.nil_append, List.append_nil]
  obtain ⟨L, hL, hv, h⟩ := harr
  refine ⟨?_, fun y hy => by unfold rateAt3; rw [hall _ (div_pos hy haT)]⟩
  rcases h with ⟨B, h⟩ | ⟨hz, h⟩
  · refine ⟨_, B, h, ?_, ?_⟩
    · unfold mulArr
      rw [List.length_zipWith, hL, hcl, min_self]
    · intro j hj hpos
      exact mulArr_get (hv j hj hpos) (constants3_tail _ _ _ _ _ _ _ _ hj (hj0 j hj hpos))
  · refine ⟨L, _, h, hL, ?_⟩
    intro j hj hpos
    have := hv j hj hpos
    have h0 : L[j]? = some 0 := by rw [hz, List.getElem?_replicate, if_pos hj]
    rw [h0] at this
    rw [h0]
    have h0 : F ((c.sp 0).grid[j] / p.aT) = 0 := (Option.some.inj this).symm
    simp only [h0, zero_mul]

theorem integral_div_Ioi (G : ℝ → ℝ) (b : ℝ) (hb : 0 < b) :
    ∫ y in Set.Ioi 0, G (y / b) = b * ∫ q in Set.Ioi 0, G q := by
  have := integral_comp_mul_left_Ioi G 0 (inv_pos.mpr hb)
  rw [mul_zero, inv_inv, smul_eq_mul] at this
  rw [← this]
  congr 1
  funext y
  rw [div_eq_inv_mul]

theorem integral_div_Ioc (G : ℝ → ℝ) (b P : ℝ) (hb : 0 < b) (hP : 0 ≤ P) :
    ∫ y in Set.Ioc 0 P, G (y / b) = b * ∫ q in Set.Ioc 0 (P / b), G q := by
  rw [← intervalIntegral.integral_of_le hP, ← intervalIntegral.integral_of_le (by positivity),
    intervalIntegral.integral_comp_div _ hb.ne', zero_div, smul_eq_mul]

/-- Momenta evaluated by the cut loop are non-negative. -/
theorem cut_nonneg (grid : List ℝ) (hne : grid ≠ []) (hs : StrictInc grid) (lb ub aT : ℝ) (hb : lb ≤ ub) (haT : 0 < aT)
    (hg0 : ∀ g ∈ grid, 0 ≤ g) (s : Slices) (h : gridCutoff3 grid lb ub aT = some s) : ∀ q ∈ s.points, 0 ≤ q := by
  unfold gridCutoff3 at h
  dsimp only at h
  split_ifs at h with hx
  have := (Option.some.inj h).symm
  subst this
  intro q hq
  dsimp only at hq
  obtain ⟨x, hx, rfl⟩ := List.mem_map.mp hq
  rcases C47_three grid hne hs lb ub hb hg0 with ⟨lo, hi, -, -, -, h4, -⟩ | ⟨h1, -⟩
  · rw [h4] at hx
    have := hg0 x (List.mem_of_mem_take (List.mem_of_mem_drop hx))
    positivity
  · rw [h1] at hx; simp at hx

/-- The integral of a product as `integrate` sees it, for the permutation `σ` of the reaction of `X`. -/
structure SeenFrom (c c' : Int3 ι) (σ : Equiv.Perm (Fin 3)) : Prop where
  sp : ∀ i, c'.sp i = c.sp (σ i)
  st : ∀ i, c'.st i = c.st (σ i)
  side : ∀ i, c'.side i = -c.side (σ i)
  K : c'.K = c.K

/-- An integral evaluated in the usual way, on a grid starting at zero. -/
structure Plain (c : Int3 ι) : Prop where
  kind : c.kind = .full
  slow : (c.sp 0).fastDecay = false
  active : c.neglect = false
  grid : ∃ y ys, (c.sp 0).grid = 0 :: y :: ys
  inc : StrictInc (c.sp 0).grid
  dof : dofFactor c.majorana (c.sp 0).dof ≠ 0
  mult : c.mult ≠ 0

/-- The bounds of the cut are those of `three_particle_bounds_creation` with the momenta of `X` limited by `max2`. -/
def CutBounds (c : Int3 ι) (p : Params) : Prop :=
  ∃ s1 s2 s3 : KSpecie, s1.confMass = (c.sp 0).mass * p.a ∧ s2.confMass = (c.sp 1).mass * p.a ∧
    s3.confMass = (c.sp 2).mass * p.a ∧ (s1.massless = true ↔ (c.sp 0).mass = 0) ∧ s3.maxMom = c.max2 ∧
    (c.lb, c.ub) = bounds3Creation s1 s2 s3

/-- The schedule covers the points left by the cut. -/
def Covers (c : Int3 ι) (p : Params) (sched : List (List ℕ)) : Prop :=
  ∀ s, cutoff3 (c.side 0 + c.side 1 + c.side 2) ((c.sp 0).grid.map (· / p.aT)) (c.sp 0).grid c.lb c.ub p.aT =
    some s → ValidSchedule s.points.length sched

theorem producible_scale {M m1 m2 P q b : ℝ} (hb : 0 < b) (h : Producible M m1 m2 P q) :
    Producible (b * M) (b * m1) (b * m2) (b * P) (b * q) := by
  obtain ⟨pB, pC, h1, h2, h3, h4, t1, t2, t3⟩ := h
  refine ⟨b * pB, b * pC, by positivity, by positivity, by gcongr, ?_, ?_, ?_, ?_⟩
  · rw [energyOf_scale _ _ _ hb.le, energyOf_scale _ _ _ hb.le, energyOf_scale _ _ _ hb.le, ← mul_add, h4]
  · nlinarith
  · nlinarith
  · nlinarith

/-- One product. -/
theorem product_returns (c' : Int3 ι) (p : Params) (sched : List (List ℕ)) (f : Fin 3 → ℝ → ℝ) (F : ℝ → ℝ)
    (haT : 0 < p.aT) (ha : 0 < p.a) (hpl : Plain c') (hsides : c'.side 0 = -1 ∧ c'.side 1 = -1 ∧ c'.side 2 = 1)
    (hm0 : 0 < (c'.sp 2).mass) (hm1 : 0 ≤ (c'.sp 0).mass) (hm2 : 0 ≤ (c'.sp 1).mass)
    (hopen : (c'.sp 0).mass + (c'.sp 1).mass < (c'.sp 2).mass) (hP : 0 ≤ c'.max2)
    (hcutb : CutBounds c' p) (hcov : Covers c' p sched)
    (hocc : ∀ i q, 0 ≤ q → occAt (c'.reaction p i).specie q = .ok (f i q)) (hf : ∀ i q, 0 ≤ q → 0 ≤ f i q)
    (hF : ∀ qs : List ℝ, (∀ q ∈ qs, 0 ≤ q) → ∀ (min1 max1 : ℝ) (sched : List (List ℕ)),
      ValidSchedule qs.length sched →
      integration3Exact (c'.reaction p) 0 qs min1 max1 (c'.max2 / p.aT) sched = .ok (qs.map F))
    (hsupp : ∀ q, 0 < q → F q ≠ 0 → Producible (c'.reaction p 2).specie.m (c'.reaction p 0).specie.m
      (c'.reaction p 1).specie.m (c'.max2 / p.aT) q) :
    Returns c' p sched fun y =>
      F (y / p.aT) * (common3 c'.K p / dofFactor c'.majorana (c'.sp 0).dof * c'.mult) := by
  obtain ⟨y, ys, hgrid⟩ := hpl.grid
  obtain ⟨s1, s2, s3, e1, e2, e3, e4, e5, e6⟩ := hcutb
  have hlb : c'.lb = (bounds3Creation s1 s2 s3).1 := congrArg Prod.fst e6
  have hub : c'.ub = (bounds3Creation s1 s2 s3).2 := congrArg Prod.snd e6
  have k3 : 0 < s3.confMass := by rw [e3]; positivity
  have k1 : 0 ≤ s1.confMass := by rw [e1]; positivity
  have k2 : 0 ≤ s2.confMass := by rw [e2]; positivity
  have kth : s2.confMass + s1.confMass ≤ s3.confMass := by
    rw [e1, e2, e3, ← add_mul]
    exact mul_le_mul_of_nonneg_right (by linarith) ha.le
  have km : s1.massless = true → s1.confMass = 0 := by
    intro h; rw [e1, e4.mp h, zero_mul]
  have hord : c'.lb ≤ c'.ub := by
    rw [hlb, hub]
    exact bounds3_ordered s1 s2 s3 k3 k1 k2 kth km (by rw [e5]; exact hP)
  have hg0 : ∀ g ∈ (c'.sp 0).grid, 0 ≤ g := by
    intro g hg
    have hinc := hpl.inc
    rw [hgrid] at hg hinc
    rcases List.mem_cons.mp hg with rfl | hg
    · exact le_rfl
    · exact ((List.pairwise_cons.mp hinc).1 g hg).le
  have hne : (c'.sp 0).grid ≠ [] := by rw [hgrid]; simp
  have hcr : pyCreation (c'.side 0 + c'.side 1 + c'.side 2) = true := by
    rw [hsides.1, hsides.2.1, hsides.2.2]; decide
  refine returns_of c' p sched F (y :: ys) haT hpl.kind hpl.slow hpl.active hgrid hpl.inc ?_ ?_
    fun q hq => hF [q] (by simpa using hq.le) _ _ _ (by simp [ValidSchedule])
  · intro _
    refine ⟨by simp, hord, ?_⟩
    intro z hz hne
    have h := producible_scale haT (hsupp _ (by positivity) hne)
    have m2' : p.aT * (c'.reaction p 2).specie.m = s3.confMass := by
      rw [e3]; change p.aT * ((c'.sp 2).mass * p.a / p.aT) = _; field_simp
    have m0' : p.aT * (c'.reaction p 0).specie.m = s1.confMass := by
      rw [e1]; change p.aT * ((c'.sp 0).mass * p.a / p.aT) = _; field_simp
    have m1' : p.aT * (c'.reaction p 1).specie.m = s2.confMass := by
      rw [e2]; change p.aT * ((c'.sp 1).mass * p.a / p.aT) = _; field_simp
    rw [m2', m0', m1', mul_div_cancel₀ _ haT.ne', mul_div_cancel₀ _ haT.ne', ← e5] at h
    rw [hlb, hub]
    exact C66_three_strict s1 s2 s3 k3 k1 k2 kth km z hz h
  · intro s hs
    have hv := hcov s hs
    unfold cutoff3 at hs
    rw [if_pos hcr] at hs
    have hpos := cut_nonneg _ hne hpl.inc _ _ _ hord haT hg0 s hs
    refine ⟨hF _ hpos _ _ _ hv, ?_⟩
    obtain ⟨B, hB, -⟩ := loop_ff (c'.reaction p) f (by
      intro i; fin_cases i
      · exact Or.inr hsides.1
      · exact Or.inr hsides.2.1
      · exact Or.inl hsides.2.2) hsides.1 (by
        change 0 ≤ (c'.sp 0).mass * p.a / p.aT; positivity) hocc hf s.points (c'.min1 / p.aT) (c'.max1 / p.aT)
      (c'.max2 / p.aT) sched hv
    exact ⟨B, hB⟩

/-- Degrees of freedom per multiplicity: the factor by which `integrate` divides. -/
noncomputable def Int3.weight (c : Int3 ι) : ℝ := dofFactor c.majorana (c.sp 0).dof / c.mult

theorem number_scale (b k : ℝ) (hb : 0 < b) (I : ℝ → ℝ) :
    (∫ y in Set.Ioi 0, y ^ 2 * (I (y / b) * k)) = b ^ 3 * k * ∫ q in Set.Ioi 0, q ^ 2 * I q := by
  have := integral_div_Ioi (fun q => q ^ 2 * I q) b hb
  rw [show b ^ 3 * k * (∫ q in Set.Ioi 0, q ^ 2 * I q) = b ^ 2 * k * (b * ∫ q in Set.Ioi 0, q ^ 2 * I q) by ring,
    ← this, ← integral_const_mul]
  congr 1
  funext y
  rw [div_pow]; field_simp

theorem number_scale_Ioc (b k P : ℝ) (hb : 0 < b) (hP : 0 ≤ P) (I : ℝ → ℝ) :
    (∫ y in Set.Ioc 0 P, y ^ 2 * (I (y / b) * k)) = b ^ 3 * k * ∫ q in Set.Ioc 0 (P / b), q ^ 2 * I q := by
  have := integral_div_Ioc (fun q => q ^ 2 * I q) b P hb hP
  rw [show b ^ 3 * k * (∫ q in Set.Ioc 0 (P / b), q ^ 2 * I q) =
    b ^ 2 * k * (b * ∫ q in Set.Ioc 0 (P / b), q ^ 2 * I q) by ring, ← this, ← integral_const_mul]
  congr 1
  funext y
  rw [div_pow]; field_simp

theorem energyOf_div (m y b : ℝ) (hb : 0 < b) : energyOf m y = b * energyOf (m / b) (y / b) := by
  rw [← energyOf_scale _ _ _ hb.le, mul_div_cancel₀ _ hb.ne', mul_div_cancel₀ _ hb.ne']

theorem energy_scale3 (b k m : ℝ) (hb : 0 < b) (I : ℝ → ℝ) :
    (∫ y in Set.Ioi 0, y ^ 2 * energyOf m y * (I (y / b) * k)) =
      b ^ 4 * k * ∫ q in Set.Ioi 0, q ^ 2 * energyOf (m / b) q * I q := by
  have := number_scale b (b * k) hb fun q => energyOf (m / b) q * I q
  rw [show b ^ 4 * k = b ^ 3 * (b * k) by ring]
  simp only [← mul_assoc] at this ⊢
  rw [← this]
  congr 1
  funext y
  rw [energyOf_div m y b hb]; ring

theorem energy_scale3_Ioc (b k m P : ℝ) (hb : 0 < b) (hP : 0 ≤ P) (I : ℝ → ℝ) :
    (∫ y in Set.Ioc 0 P, y ^ 2 * energyOf m y * (I (y / b) * k)) =
      b ^ 4 * k * ∫ q in Set.Ioc 0 (P / b), q ^ 2 * energyOf (m / b) q * I q := by
  have := number_scale_Ioc b (b * k) P hb hP fun q => energyOf (m / b) q * I q
  rw [show b ^ 4 * k = b ^ 3 * (b * k) by ring]
  simp only [← mul_assoc] at this ⊢
  rw [← this]
  congr 1
  funext y
  rw [energyOf_div m y b hb]; ring

/-- From the loops of the three species of a decay to their arrays. -/
theorem decay3_returns (c cA cB : Int3 ι) (p : Params) (sched schedA schedB : List (List ℕ)) (P : ℝ)
    (haT : 0 < p.aT) (ha : 0 < p.a) (hside : c.side 0 = -1 ∧ c.side 1 = 1 ∧ c.side 2 = 1)
    (hA : SeenFrom c cA (finRotate 3)) (hB : SeenFrom c cB (Equiv.swap 0 2))
    (hpl : Plain c) (hplA : Plain cA) (hplB : Plain cB)
    (hm0 : 0 < (c.sp 0).mass) (hm1 : 0 ≤ (c.sp 1).mass) (hm2 : 0 ≤ (c.sp 2).mass)
    (hopen : (c.sp 1).mass + (c.sp 2).mass < (c.sp 0).mass)
    (hP : 0 ≤ P) (hPA : cA.max2 = P) (hPB : cB.max2 = P) (hbA : CutBounds cA p) (hbB : CutBounds cB p)
    (hcov : Covers c p sched) (hcovA : Covers cA p schedA) (hcovB : Covers cB p schedB) (f I : Fin 3 → ℝ → ℝ)
    (hocc : ∀ i q, 0 ≤ q → occAt (c.reaction p i).specie q = .ok (f i q)) (hf0 : ∀ i q, 0 ≤ q → 0 ≤ f i q)
    (hI : ∀ (ps : List ℝ), (∀ q ∈ ps, 0 ≤ q) → ∀ (min1 max1 max2 : ℝ) (sched : List (List ℕ)),
      ValidSchedule ps.length sched →
      integration3Exact (c.reaction p) 0 ps min1 max1 max2 sched = .ok (ps.map (I 0)) ∧
      integration3Exact (viewA (c.reaction p)) 0 ps min1 max1 (P / p.aT) sched = .ok (ps.map (I 1)) ∧
      integration3Exact (viewB (c.reaction p)) 0 ps min1 max1 (P / p.aT) sched = .ok (ps.map (I 2)))
    (hI1 : ∀ q, 0 < q → I 1 q ≠ 0 → Producible (c.reaction p 0).specie.m (c.reaction p 1).specie.m
      (c.reaction p 2).specie.m (P / p.aT) q)
    (hI2 : ∀ q, 0 < q → I 2 q ≠ 0 → Producible (c.reaction p 0).specie.m (c.reaction p 2).specie.m
      (c.reaction p 1).specie.m (P / p.aT) q) :
    Returns c p sched (fun y => I 0 (y / p.aT) * (common3 c.K p / dofFactor c.majorana (c.sp 0).dof * c.mult)) ∧
    Returns cA p schedA (fun y => I 1 (y / p.aT) * (common3 c.K p / dofFactor cA.majorana (cA.sp 0).dof * cA.mult)) ∧
    Returns cB p schedB
      (fun y => I 2 (y / p.aT) * (common3 c.K p / dofFactor cB.majorana (cB.sp 0).dof * cB.mult)) := by
  have hrA : cA.reaction p = viewA (c.reaction p) := by
    funext i
    change (⟨toC (cA.sp i) (cA.st i) p, cA.side i⟩ : Reactant) = ⟨toC _ _ p, -1 * c.side _⟩
    rw [hA.sp, hA.st, hA.side, neg_one_mul]
  have hrB : cB.reaction p = viewB (c.reaction p) := by
    funext i
    change (⟨toC (cB.sp i) (cB.st i) p, cB.side i⟩ : Reactant) = ⟨toC _ _ p, -1 * c.side _⟩
    rw [hB.sp, hB.st, hB.side, neg_one_mul]
  have hmass : ∀ i, (c.reaction p i).specie.m = (c.sp i).mass * p.a / p.aT := fun i => rfl
  have n0 : 0 < (c.reaction p 0).specie.m := by rw [hmass]; positivity
  refine ⟨?_, ?_, ?_⟩
  · obtain ⟨y, ys, hgrid⟩ := hpl.grid
    have hncr : pyCreation (c.side 0 + c.side 1 + c.side 2) ≠ true := by
      rw [hside.1, hside.2.1, hside.2.2]; decide
    refine returns_of c p sched (I 0) (y :: ys) haT hpl.kind hpl.slow hpl.active hgrid hpl.inc
      (fun h => absurd h hncr) ?_ fun q hq => (hI [q] (by simpa using hq.le) _ _ _ _ (by simp [ValidSchedule])).1
    intro s hs
    have hv := hcov s hs
    unfold cutoff3 at hs
    rw [if_neg hncr] at hs
    have := (Option.some.inj hs).symm
    subst this
    have hpos : ∀ q ∈ (c.sp 0).grid.map (· / p.aT), 0 ≤ q := by
      intro q hq
      obtain ⟨g, hg, rfl⟩ := List.mem_map.mp hq
      have hinc := hpl.inc
      rw [hgrid] at hg hinc
      rcases List.mem_cons.mp hg with rfl | hg
      · simp
      · have := ((List.pairwise_cons.mp hinc).1 g hg).le
        positivity
    refine ⟨(hI _ hpos _ _ _ _ hv).1, ?_⟩
    obtain ⟨B, hB, -⟩ := loop_ff (c.reaction p) f (by
      intro i; fin_cases i
      · exact Or.inr hside.1
      · exact Or.inl hside.2.1
      · exact Or.inl hside.2.2) hside.1 n0.le hocc hf0 _ (c.min1 / p.aT) (c.max1 / p.aT)
      (c.max2 / p.aT) sched hv
    exact ⟨B, hB⟩
  · have h := product_returns cA p schedA (fun i => f (finRotate 3 i)) (I 1) haT ha hplA
      ⟨by rw [hA.side]; change -c.side 1 = _; rw [hside.2.1],
        by rw [hA.side]; change -c.side 2 = _; rw [hside.2.2], by rw [hA.side]; change -c.side 0 = _; rw [hside.1]; rfl⟩
      (by rw [hA.sp]; exact hm0) (by rw [hA.sp]; exact hm1) (by rw [hA.sp]; exact hm2)
      (by rw [hA.sp, hA.sp, hA.sp]; exact hopen) (by rw [hPA]; exact hP) hbA hcovA
      (by rw [hrA]; intro i q hq; exact hocc _ q hq) (fun i q hq => hf0 _ q hq)
      (by rw [hrA, hPA]; exact fun qs hqs min1 max1 sched hv => (hI qs hqs min1 max1 0 sched hv).2.1)
      (by rw [hrA, hPA]; exact hI1)
    rw [hA.K] at h
    exact h
  · have h := product_returns cB p schedB (fun i => f (Equiv.swap 0 2 i)) (I 2) haT ha hplB
      ⟨by rw [hB.side]; change -c.side 2 = _; rw [hside.2.2],
        by rw [hB.side]; change -c.side 1 = _; rw [hside.2.1], by rw [hB.side]; change -c.side 0 = _; rw [hside.1]; rfl⟩
      (by rw [hB.sp]; exact hm0) (by rw [hB.sp]; exact hm2) (by rw [hB.sp]; exact hm1)
      (by rw [hB.sp, hB.sp, hB.sp, add_comm]; exact hopen) (by rw [hPB]; exact hP) hbB hcovB
      (by rw [hrB]; intro i q hq; exact hocc _ q hq) (fun i q hq => hf0 _ q hq)
      (by rw [hrB, hPB]; exact fun qs hqs min1 max1 sched hv => (hI qs hqs min1 max1 0 sched hv).2.2)
      (by rw [hrB, hPB]; exact hI2)
    rw [hB.K] at h
    exact h

/-- **C93 for `integrate`.** The arrays which the three species of `X → a + b` obtain from `integrate` are samples, at
the grid points above zero, of three functions of the comoving momentum.  Weighted with the degrees of
freedom, the number of `X` lost up to the end `P` of its grid is the number of `a` and the number of `b`
gained, and the comoving energy lost is the energy gained.  The cut of the grids of the products loses
nothing. -/
theorem C93_integrate (c cA cB : Int3 ι) (p : Params) (sched schedA schedB : List (List ℕ)) (P : ℝ)
    (haT : 0 < p.aT) (ha : 0 < p.a) (hside : c.side 0 = -1 ∧ c.side 1 = 1 ∧ c.side 2 = 1)
    (hA : SeenFrom c cA (finRotate 3)) (hB : SeenFrom c cB (Equiv.swap 0 2))
    (hpl : Plain c) (hplA : Plain cA) (hplB : Plain cB)
    (hm0 : 0 < (c.sp 0).mass) (hm1 : 0 ≤ (c.sp 1).mass) (hm2 : 0 ≤ (c.sp 2).mass)
    (hopen : (c.sp 1).mass + (c.sp 2).mass < (c.sp 0).mass)
    (hP : 0 ≤ P) (hPA : cA.max2 = P) (hPB : cB.max2 = P) (hbA : CutBounds cA p) (hbB : CutBounds cB p)
    (hcov : Covers c p sched) (hcovA : Covers cA p schedA) (hcovB : Covers cB p schedB)
    (hreg : ∀ i, Regular (toC (c.sp i) (c.st i) p)) :
    ∃ J : Fin 3 → ℝ → ℝ, Returns c p sched (J 0) ∧ Returns cA p schedA (J 1) ∧ Returns cB p schedB (J 2) ∧
      cA.weight * (∫ y in Set.Ioi 0, y ^ 2 * J 1 y) = -(c.weight * ∫ y in Set.Ioc 0 P, y ^ 2 * J 0 y) ∧
      cB.weight * (∫ y in Set.Ioi 0, y ^ 2 * J 2 y) = -(c.weight * ∫ y in Set.Ioc 0 P, y ^ 2 * J 0 y) ∧
      cA.weight * (∫ y in Set.Ioi 0, y ^ 2 * energyOf ((c.sp 1).mass * p.a) y * J 1 y) +
        cB.weight * (∫ y in Set.Ioi 0, y ^ 2 * energyOf ((c.sp 2).mass * p.a) y * J 2 y) =
        -(c.weight * ∫ y in Set.Ioc 0 P, y ^ 2 * energyOf ((c.sp 0).mass * p.a) y * J 0 y) := by
  have hmass : ∀ i, (c.reaction p i).specie.m = (c.sp i).mass * p.a / p.aT := fun i => rfl
  have hop : (c.reaction p 1).specie.m + (c.reaction p 2).specie.m < (c.reaction p 0).specie.m := by
    rw [hmass, hmass, hmass, ← add_div, ← add_mul]
    exact div_lt_div_of_pos_right (mul_lt_mul_of_pos_right hopen ha) haT
  have n0 : 0 < (c.reaction p 0).specie.m := by rw [hmass]; positivity
  have n1 : 0 ≤ (c.reaction p 1).specie.m := by rw [hmass]; positivity
  have n2 : 0 ≤ (c.reaction p 2).specie.m := by rw [hmass]; positivity
  obtain ⟨I, hI, hI1, hI2, hN1, hN2, hE⟩ := C93_spectra (c.reaction p) (P / p.aT) hside.1 hside.2.1 hside.2.2
    n0 n1 n2 hop (by positivity) (fun i => by
      change (c.sp i).eta = 1 ∨ (c.sp i).eta = -1
      unfold Species.eta; split_ifs <;> simp) hreg
  choose f B hf hreg' using hreg
  have hocc : ∀ i q, 0 ≤ q → occAt (c.reaction p i).specie q = .ok (f i q) := fun i q hq => (hreg' i q hq).1
  have hf0 : ∀ i q, 0 ≤ q → 0 ≤ f i q := fun i q hq => (hreg' i q hq).2.1
  have hret := decay3_returns c cA cB p sched schedA schedB P haT ha hside hA hB hpl hplA hplB hm0 hm1 hm2 hopen hP hPA
    hPB hbA hbB hcov hcovA hcovB f I hocc hf0 hI hI1 hI2
  set κ := common3 c.K p with hκ
  refine ⟨![fun y => I 0 (y / p.aT) * (κ / dofFactor c.majorana (c.sp 0).dof * c.mult),
    fun y => I 1 (y / p.aT) * (κ / dofFactor cA.majorana (cA.sp 0).dof * cA.mult),
    fun y => I 2 (y / p.aT) * (κ / dofFactor cB.majorana (cB.sp 0).dof * cB.mult)], hret.1, hret.2.1, hret.2.2, ?_, ?_, ?_⟩
  all_goals
    have w : c.weight * (κ / dofFactor c.majorana (c.sp 0).dof * c.mult) = κ := by
      unfold Int3.weight; have := hpl.dof; have := hpl.mult; field_simp
    have wA : cA.weight * (κ / dofFactor cA.majorana (cA.sp 0).dof * cA.mult) = κ := by
      unfold Int3.weight; have := hplA.dof; have := hplA.mult; field_simp
    have wB : cB.weight * (κ / dofFactor cB.majorana (cB.sp 0).dof * cB.mult) = κ := by
      unfold Int3.weight; have := hplB.dof; have := hplB.mult; field_simp
    simp only [Matrix.cons_val_zero, Matrix.cons_val_one, Matrix.cons_val]
  · rw [number_scale _ _ haT, number_scale_Ioc _ _ _ haT hP, hN1]
    linear_combination (-p.aT ^ 3 * (∫ q in Set.Ioc 0 (P / p.aT), q ^ 2 * I 0 q)) * (wA - w)
  · rw [number_scale _ _ haT, number_scale_Ioc _ _ _ haT hP, hN2]
    linear_combination (-p.aT ^ 3 * (∫ q in Set.Ioc 0 (P / p.aT), q ^ 2 * I 0 q)) * (wB - w)
  · rw [energy_scale3 _ _ _ haT, energy_scale3 _ _ _ haT, energy_scale3_Ioc _ _ _ _ haT hP]
    rw [hmass, hmass, hmass] at hE
    linear_combination p.aT ^ 4 * (∫ q in Set.Ioi 0, q ^ 2 * energyOf ((c.sp 1).mass * p.a / p.aT) q * I 1 q) * wA +
      p.aT ^ 4 * (∫ q in Set.Ioi 0, q ^ 2 * energyOf ((c.sp 2).mass * p.a / p.aT) q * I 2 q) * wB +
      p.aT ^ 4 * (∫ q in Set.Ioc 0 (P / p.aT), q ^ 2 * energyOf ((c.sp 0).mass * p.a / p.aT) q * I 0 q) * w +
      p.aT ^ 4 * κ * hE

/-- Species with stored spectra are regular after the conversion. -/
theorem regular_toC (sp : Species) (s : PState ι) (p : Params) (haT : 0 < p.aT) (g : List ℝ) (heq : inEq sp s = false)
    (hg : sp.grid = 0 :: g) (hs : StrictInc sp.grid) (hlen : s.dist.length = sp.grid.length) (hT : 0 < s.aT)
    (hd : ∀ d ∈ s.dist, 0 ≤ d ∧ (sp.fermion = true → d < 1)) : Regular (toC sp s p) := by
  refine regular_stored _ (g.map (· / p.aT)) heq ?_ ?_ ?_ ?_ ?_ ?_
  · change sp.grid.map (· / p.aT) = _
    rw [hg, List.map_cons, zero_div]
  · change (sp.grid.map (· / p.aT)).Pairwise (· < ·)
    rw [List.pairwise_map]
    exact hs.imp fun h => div_lt_div_of_pos_right h haT
  · change s.dist.length = (sp.grid.map (· / p.aT)).length
    rw [hlen, List.length_map]
  · change 0 < s.aT / p.aT
    positivity
  · change sp.eta = 1 ∨ sp.eta = -1
    unfold Species.eta; split_ifs <;> simp
  · intro d h
    refine ⟨(hd d h).1, fun he => (hd d h).2 ?_⟩
    change sp.eta = 1 at he
    unfold Species.eta at he
    by_contra hn
    rw [if_neg hn] at he
    exact absurd he (by decide)

/-- The schedule of a single thread. -/
noncomputable def oneThread (c : Int3 ι) (p : Params) : List (List ℕ) :=
  match cutoff3 (c.side 0 + c.side 1 + c.side 2) ((c.sp 0).grid.map (· / p.aT)) (c.sp 0).grid c.lb c.ub p.aT with
  | none => []
  | some s => [List.range s.points.length]

theorem covers_oneThread (c : Int3 ι) (p : Params) : Covers c p (oneThread c p) := by
  intro s hs
  unfold oneThread
  rw [hs]
  simp [ValidSchedule]

section Example
/-- A particle of mass 2 with the spectrum `1/2, 1/4, 1/8`, a massless fermion and a boson of mass 1. -/
private def balSp : Fin 3 → Species := fun i =>
  { name := "X", mass := ![2, 0, 1] i, dof := 2, fermion := decide (i ≠ 2), thermalDyn := false, Q := 0,
    grid := [0, 1, 3], fastDecay := false, lifetime := 0 }
private noncomputable def balSt : Fin 3 → PState ℕ := fun i =>
  { T := 1, aT := 1, Tdec := 2, dist := ![[1/2, 1/4, 1/8], [1/3, 0, 0], [2, 1, 0]] i, coll := [], integrals := [],
    tDec := 0, decayed := false, density := 0, histDist := [], histColl := [], histT := [], histDensity := [] }
private noncomputable def balP : Params :=
  { log := true, m := 1, T := 1/2, a := 2, aIni := 1, x := 1, y := none, aT := 1, t := 1, H := 1, rho := none,
    S := none, Neff := 3, dy := 1, dx := 1, h := 1 }
private noncomputable def balInt (σ : Equiv.Perm (Fin 3)) (sgn : ℤ) : Int3 ℕ :=
  { sp := fun i => balSp (σ i), st := fun i => balSt (σ i), side := fun i => sgn * ![-1, 1, 1] (σ i), K := 1,
    majorana := false, mult := 1, kind := .full, neglect := false, min1 := 0, max1 := 3, max2 := 3,
    lb := (bounds3Creation ⟨(balSp (σ 0)).mass * 2, decide (σ 0 = 1), 3, []⟩ ⟨(balSp (σ 1)).mass * 2, false, 3, []⟩
      ⟨(balSp (σ 2)).mass * 2, false, 3, []⟩).1,
    ub := (bounds3Creation ⟨(balSp (σ 0)).mass * 2, decide (σ 0 = 1), 3, []⟩ ⟨(balSp (σ 1)).mass * 2, false, 3, []⟩
      ⟨(balSp (σ 2)).mass * 2, false, 3, []⟩).2,
    creationFast := false, br := none, num := 0, total := fun _ => 0 }

private theorem balInc : StrictInc [(0 : ℝ), 1, 3] := by norm_num [StrictInc]

private theorem bal_plain (σ : Equiv.Perm (Fin 3)) (sgn : ℤ) : Plain (balInt σ sgn) :=
  ⟨rfl, rfl, rfl, ⟨1, [3], rfl⟩, balInc, by norm_num [balInt, balSp, dofFactor], one_ne_zero⟩

private theorem bal_bounds (σ : Equiv.Perm (Fin 3)) (sgn : ℤ) : CutBounds (balInt σ sgn) balP := by
  refine ⟨_, _, _, rfl, rfl, rfl, ?_, rfl, rfl⟩
  change decide (σ 0 = 1) = true ↔ (balSp (σ 0)).mass = 0
  generalize σ 0 = i
  fin_cases i <;> norm_num [balSp]

/-- Three integrals of the same decay, with different statistics. -/
example : ∃ J : Fin 3 → ℝ → ℝ,
    Returns (balInt (Equiv.refl _) 1) balP (oneThread (balInt (Equiv.refl _) 1) balP) (J 0) ∧
    Returns (balInt (finRotate 3) (-1)) balP (oneThread (balInt (finRotate 3) (-1)) balP) (J 1) ∧
    (∫ y in Set.Ioi 0, y ^ 2 * J 1 y) = -∫ y in Set.Ioc 0 3, y ^ 2 * J 0 y := by
  have seen : ∀ σ : Equiv.Perm (Fin 3), SeenFrom (balInt (Equiv.refl _) 1) (balInt σ (-1)) σ := fun σ =>
    ⟨fun _ => rfl, fun _ => rfl, fun i => by change -1 * _ = -(1 * _); rw [one_mul, neg_one_mul]; rfl, rfl⟩
  have reg : ∀ i, Regular (toC (balSp i) (balSt i) balP) := by
    intro i
    refine regular_toC _ _ _ (by norm_num [balP]) [1, 3] ?_ rfl balInc ?_ (by norm_num [balSt]) ?_
    · simp [inEq, balSp]
    · fin_cases i <;> rfl
    · fin_cases i <;> norm_num [balSt, balSp] <;> rfl
  obtain ⟨J, h0, h1, -, hn, -⟩ := C93_integrate (balInt (Equiv.refl _) 1) (balInt (finRotate 3) (-1))
    (balInt (Equiv.swap 0 2) (-1)) balP _ _ (oneThread _ _) 3 (by norm_num [balP]) (by norm_num [balP])
    ⟨rfl, rfl, rfl⟩ (seen _) (seen _) (bal_plain _ _) (bal_plain _ _) (bal_plain _ _)
    (by change (0 : ℝ) < 2; norm_num) (by change (0 : ℝ) ≤ 0; norm_num) (by change (0 : ℝ) ≤ 1; norm_num)
    (by change (0 : ℝ) + 1 < 2; norm_num) (by norm_num) rfl rfl (bal_bounds _ _) (bal_bounds _ _)
    (covers_oneThread _ _) (covers_oneThread _ _) (covers_oneThread _ _) reg
  refine ⟨J, h0, h1, ?_⟩
  have w : ∀ σ sgn, (balInt σ sgn).weight = 1 := by
    intro σ sgn; norm_num [Int3.weight, balInt, balSp, dofFactor]
  rw [w, w, one_mul, one_mul] at hn
  exact hn
end Example

end PyBBN
