import Verif.Props.Balance4
import Verif.Lemmas.SameKernel
import Verif.Props.BalanceStep
import Verif.Props.FermiRate
/-!
# C102 at the level of `FourParticleIntegral.integrate`

The arrays returned by `integrate` for the four species of `X → a + b + c`: grid cut-offs, the split `A + f B`,
constants, comoving momenta, degrees of freedom.
-/
namespace PyBBN
open MeasureTheory

/-- The constant common to the four species: `32 G_F² (aT/a)⁵ / (64 π³ H)`, over `x` in linear mode. -/
noncomputable def common4 (GF : ℝ) (p : Params) : ℝ :=
  32 * GF ^ 2 * (p.aT / p.a) ^ 5 / 64 / Real.pi ^ 3 / p.H / (if p.log then 1 else p.x)

theorem constant4_eq (GF dof : ℝ) (majorana : Bool) (mult : ℝ) (p : Params) :
    constant4 GF dof majorana mult p = common4 GF p / dofFactor majorana dof * mult := by
  unfold constant4 common4
  dsimp only
  split_ifs
  · rw [div_one]
  · ring

variable {ι : Type*}

/-- What the two loops of `integration` compute at a single comoving momentum, on the grid or not, put together as in
`integrate`. -/
noncomputable def rateAt4 (c : Int4 ι) (p : Params) (y : ℝ) : Except Err ℝ :=
  let loop (k : ℤ) := integration4Exact (c.reaction p) (c.Ms.map (toCM c.GF)) k [y / p.aT] (c.min1 / p.aT) (c.max1 / p.aT)
    (c.min2 / p.aT) (c.max2 / p.aT) (c.max3 / p.aT) [[0]]
  match loop 1, loop 2, occAt (c.reaction p 0).specie (y / p.aT) with
  | .ok [a], .ok [b], .ok f => .ok ((a + f * b) * constant4 c.GF (c.sp 0).dof c.majorana c.mult p)
  | _, _, _ => .error .valueError

/-- `integrate` returns a pair of arrays on the grid of the particle, the first of which contains the values of `J`
at the grid points; and `J` is the function which the loops compute at every momentum, so that it is determined between the
grid points too. -/
def Returns4 (c : Int4 ι) (p : Params) (sched : List (List ℕ)) (J : ℝ → ℝ) : Prop :=
  (∃ B, integrate4 c p sched = .ok (.two ((c.sp 0).grid.map J) B) ∧ B.length = (c.sp 0).grid.length) ∧
  ∀ y, 0 ≤ y → rateAt4 c p y = .ok (J y)

/-- At its grid points `distribution` of the particle is the occupation number which the C++ code reads, although
the two interpolate with different masses between the points. -/
theorem distribution_on_grid (sp : Species) (s : PState ι) (p : Params) (haT : 0 < p.aT) (hm : 0 ≤ sp.mass)
    (hs : StrictInc sp.grid) (hlen : inEq sp s = false → s.dist.length = sp.grid.length) (y : ℝ) (hy : y ∈ sp.grid) (h0 : 0 ≤ y) :
    particleDistribution sp p s (y / p.aT * p.aT) = occAt (toC sp s p) (y / p.aT) := by
  rw [div_mul_cancel₀ _ haT.ne']
  unfold particleDistribution occAt
  by_cases he : inEq sp s = true
  · rw [if_pos he]
    unfold distributionInterpolation
    rw [if_pos (show (toC sp s p).inEq = true from he)]
    change _ = Except.ok (1 / (Real.exp (energy (y / p.aT) (sp.mass * p.a / p.aT) / (s.aT / p.aT)) + (sp.eta : ℝ)))
    have hE : conformalEnergy sp y (sp.mass * p.a) = p.aT * energy (y / p.aT) (sp.mass * p.a / p.aT) := by
      rw [← energyOf_eq, ← energyOf_div _ _ _ haT]
      unfold conformalEnergy energyOf
      by_cases hp : sp.mass > 0
      · rw [if_pos hp]
      · rw [if_neg hp, le_antisymm (not_lt.mp hp) hm, zero_mul, abs_of_nonneg h0]
        rw [show y ^ 2 + (0 : ℝ) ^ 2 = y ^ 2 by ring, Real.sqrt_sq h0]
    rw [hE]
    congr 4
    rw [div_div_eq_mul_div, mul_comm]
  · have he' : inEq sp s = false := by simpa using he
    rw [if_neg he]
    obtain ⟨j, hj, rfl⟩ := List.mem_iff_getElem.mp hy
    rw [C09_exact_on_grid _ _ _ _ _ hs (hlen he') j hj]
    have hs' : ((sp.grid.map (· / p.aT))).Pairwise (· < ·) := by
      rw [List.pairwise_map]
      exact hs.imp fun h => div_lt_div_of_pos_right h haT
    have h := C09_exact_on_grid (sp.grid.map (· / p.aT)) s.dist (sp.mass * p.a / p.aT) (s.aT / p.aT) sp.eta hs'
      (by rw [List.length_map]; exact hlen he') j (by rw [List.length_map]; exact hj)
    rw [List.getElem_map] at h
    change _ = distributionInterpolation (sp.grid.map (· / p.aT)) s.dist _ (sp.mass * p.a / p.aT) sp.eta
      (s.aT / p.aT) (inEq sp s)
    rw [he', h]

/-- An integral evaluated in the usual way, on a grid without negative momenta. -/
structure Plain4 (c : Int4 ι) : Prop where
  kind : c.kind = .full ∨ c.kind = .fullVac
  slow : (c.sp 0).fastDecay = false
  active : c.neglect = false
  min1 : c.min1 = 0
  grid : (c.sp 0).grid ≠ []
  nonneg : ∀ g ∈ (c.sp 0).grid, 0 ≤ g
  inc : StrictInc (c.sp 0).grid
  stored : (c.st 0).dist.length = (c.sp 0).grid.length
  dof : dofFactor c.majorana (c.sp 0).dof ≠ 0
  mult : c.mult ≠ 0

/-- The schedule covers the points left by the cut. -/
def Covers4 (c : Int4 ι) (sched : List (List ℕ)) : Prop :=
  ValidSchedule (gridCut4 (c.sp 0).grid c.ub).1.length sched

/-- From the loops to the arrays. -/
theorem returns4_of (c : Int4 ι) (p : Params) (sched : List (List ℕ)) (A B f : ℝ → ℝ) (haT : 0 < p.aT)
    (hpl : Plain4 c) (hm : 0 ≤ (c.sp 0).mass) (hcov : Covers4 c sched)
    (hocc : ∀ q, 0 ≤ q → occAt (c.reaction p 0).specie q = .ok (f q))
    (hloop : ∀ (ps : List ℝ) (sched : List (List ℕ)), ValidSchedule ps.length sched →
      integration4Exact (c.reaction p) (c.Ms.map (toCM c.GF)) 1 ps 0 (c.max1 / p.aT) (c.min2 / p.aT) (c.max2 / p.aT)
        (c.max3 / p.aT) sched = .ok (ps.map A) ∧
      integration4Exact (c.reaction p) (c.Ms.map (toCM c.GF)) 2 ps 0 (c.max1 / p.aT) (c.min2 / p.aT) (c.max2 / p.aT)
        (c.max3 / p.aT) sched = .ok (ps.map B))
    (hcut : ∀ y ∈ (c.sp 0).grid, c.ub < y → 0 < y → A (y / p.aT) + f (y / p.aT) * B (y / p.aT) = 0) :
    Returns4 c p sched fun y => (A (y / p.aT) + f (y / p.aT) * B (y / p.aT)) *
      (common4 c.GF p / dofFactor c.majorana (c.sp 0).dof * c.mult) := by
  obtain ⟨k, hk0, hk, hlen, hz, hkeep, -⟩ := C47_four _ hpl.grid hpl.inc c.ub
  set grid := (c.sp 0).grid with hgrid
  set pts := (gridCut4 grid c.ub).1 with hpts
  set zeros := (gridCut4 grid c.ub).2 with hzeros
  have hv : ValidSchedule (pts.map (· / p.aT)).length sched := by
    rw [List.length_map]; exact hcov
  obtain ⟨hA, hB⟩ := hloop _ _ hv
  have hsub : ∀ y ∈ pts, y ∈ grid := fun y hy => by rw [hk] at hy; exact List.mem_of_mem_take hy
  have hf : ((pts.map (· / p.aT)).mapM fun x => particleDistribution (c.sp 0) p (c.st 0) (x * p.aT)) =
      .ok ((pts.map (· / p.aT)).map f) := by
    refine mapM_getElem _ _ _ (by simp) fun i hi hi' => ?_
    have hi2 : i < pts.length := by simpa using hi
    rw [List.getElem_map, List.getElem_map, List.getElem_map]
    have hmem := hsub _ (List.getElem_mem hi2)
    rw [distribution_on_grid (c.sp 0) (c.st 0) p haT hm hpl.inc (fun _ => hpl.stored) _ hmem (hpl.nonneg _ hmem)]
    exact hocc _ (div_nonneg (hpl.nonneg _ hmem) haT.le)
  have hC : ∀ l : List ℝ, List.zipWith (· + ·) (l.map A) (List.zipWith (· * ·) (l.map f) (l.map B)) =
      l.map fun q => A q + f q * B q := by
    intro l
    induction l with
    | nil => rfl
    | cons x l ih => simp only [List.map_cons, List.zipWith_cons_cons, ih]
  refine ⟨?_, fun y hy => by
    obtain ⟨k1, k2⟩ := hloop [y / p.aT] [[0]] (by simp [ValidSchedule])
    unfold rateAt4
    dsimp only
    rw [hpl.min1, zero_div, k1, k2, hocc _ (div_nonneg hy haT.le), constant4_eq]
    rfl⟩
  refine ⟨((pts.map (· / p.aT)).map B ++ zeros).map (· * constant4 c.GF (c.sp 0).dof c.majorana c.mult p), ?_, ?_⟩
  · unfold integrate4
    dsimp only
    rw [hpl.active, if_neg Bool.false_ne_true, if_pos ⟨hpl.kind, by rw [hpl.slow]; exact Bool.false_ne_true⟩,
      ← hgrid, ← hpts, ← hzeros, hpl.min1, zero_div]
    rw [show CKind.f1.toInt = 1 from rfl, show CKind.ff.toInt = 2 from rfl, hA, hB]
    simp only [bind, Except.bind]
    rw [hf]
    dsimp only
    rw [hC]
    congr 2
    rw [constant4_eq, List.map_append, List.map_map, List.map_map]
    have e1 : grid = pts ++ grid.drop k := by rw [hk, List.take_append_drop]
    conv_rhs => rw [e1, List.map_append]
    congr 1
    apply List.ext_getElem
    · rw [List.length_map, List.length_map, List.length_drop]
      have := congrArg List.length hk
      rw [List.length_take] at this
      omega
    · intro i h1 h2
      rw [List.getElem_map, List.getElem_map, List.getElem_drop]
      rw [hz _ (List.getElem_mem _), zero_mul]
      have hki : k + i < grid.length := by
        rw [List.length_map, List.length_drop] at h2; omega
      have hub : c.ub < grid[k + i] := by
        by_contra hn
        have := hkeep _ hki (not_lt.mp hn)
        omega
      have hpos : 0 < grid[k + i] := by
        have h00 := hpl.nonneg _ (List.getElem_mem (show 0 < grid.length by omega))
        have := List.pairwise_iff_getElem.mp hpl.inc 0 (k + i) (by rw [← hgrid]; omega) hki (by omega)
        exact h00.trans_lt this
      rw [hcut _ (List.getElem_mem hki) hub hpos, zero_mul]
  · rw [List.length_map, List.length_append, List.length_map, List.length_map]
    exact hlen

/-- The integral of a product as `integrate` sees it, for the permutation `σ` of the reaction of `X`. -/
structure SeenFrom4 (c c' : Int4 ι) (σ : Equiv.Perm (Fin 4)) : Prop where
  sp : ∀ i, c'.sp i = c.sp (σ i)
  st : ∀ i, c'.st i = c.st (σ i)
  side : ∀ i, c'.side i = -c.side (σ i)
  Ms : SameKernel (c'.Ms.map (toCM c'.GF)) ((viewMs c.Ms σ).map (toCM c.GF))
  GF : c'.GF = c.GF

/-- The bound of the cut is that of `four_particle_bounds_creation` with the momenta of `X` limited by `max3`. -/
def CutBound4 (c : Int4 ι) (p : Params) : Prop :=
  ∃ (s1 s2 s3 s4 : KSpecie) (dflt : ℝ), s1.confMass = (c.sp 0).mass * p.a ∧ s2.confMass = (c.sp 1).mass * p.a ∧
    s3.confMass = (c.sp 2).mass * p.a ∧ s4.confMass = (c.sp 3).mass * p.a ∧ s4.maxMom = c.max3 ∧
    c.ub = bounds4Creation s1 s2 s3 s4 dflt

/-- Degrees of freedom per multiplicity: the factor by which `integrate` divides. -/
noncomputable def Int4.weight (c : Int4 ι) : ℝ := dofFactor c.majorana (c.sp 0).dof / c.mult

theorem toCM_view (GF : ℝ) (Ms : List CM) (σ : Equiv.Perm (Fin 4)) :
    (viewMs Ms σ).map (toCM GF) = viewMs (Ms.map (toCM GF)) σ := by
  unfold viewMs
  rw [List.map_map, List.map_map]
  rfl

/-- From the loops of the four species of a decay to their arrays. -/
theorem decay4_returns (c : Fin 4 → Int4 ι) (p : Params) (sched : Fin 4 → List (List ℕ)) (P : ℝ)
    (σ : Fin 4 → Equiv.Perm (Fin 4)) (h0 : ∀ i, σ i 0 = i) (h3 : ∀ i, i ≠ 0 → σ i 3 = 0)
    (haT : 0 < p.aT) (hseen : ∀ i, i ≠ 0 → SeenFrom4 (c 0) (c i) (σ i)) (hpl : ∀ i, Plain4 (c i))
    (hm : ∀ i, 0 ≤ ((c 0).sp i).mass) (hP' : ∀ i, i ≠ 0 → (c i).max3 = P)
    (hwhole : ∀ y ∈ ((c 0).sp 0).grid, y ≤ (c 0).ub) (hb : ∀ i, i ≠ 0 → CutBound4 (c i) p)
    (hcov : ∀ i, Covers4 (c i) (sched i)) (f A B : Fin 4 → ℝ → ℝ)
    (hocc : ∀ i q, 0 ≤ q → occAt ((c 0).reaction p i).specie q = .ok (f i q))
    (hsam : Samples4 ((c 0).reaction p) ((c 0).Ms.map (toCM (c 0).GF)) σ (P / p.aT) (fun i => (c i).max1 / p.aT)
      (fun i => (c i).min2 / p.aT) (fun i => (c i).max2 / p.aT) ((c 0).max3 / p.aT) A B)
    (hsup : ∀ i, i ≠ 0 → ∀ q, 0 < q → A i q + f i q * B i q ≠ 0 →
      energyOf ((c 0).reaction p i).specie.m q + ((c 0).reaction p (σ i 1)).specie.m +
        ((c 0).reaction p (σ i 2)).specie.m ≤ energyOf ((c 0).reaction p 0).specie.m (P / p.aT)) (i : Fin 4) :
    Returns4 (c i) p (sched i) fun y => (A i (y / p.aT) + f i (y / p.aT) * B i (y / p.aT)) *
      (common4 (c 0).GF p / dofFactor (c i).majorana ((c i).sp 0).dof * (c i).mult) := by
  have hr : ∀ i, i ≠ 0 → (c i).reaction p = viewOf ((c 0).reaction p) (σ i) (-1) := by
    intro i hi
    funext j
    change (⟨toC ((c i).sp j) ((c i).st j) p, (c i).side j⟩ : Reactant) = ⟨toC _ _ p, -1 * (c 0).side _⟩
    rw [(hseen i hi).sp, (hseen i hi).st, (hseen i hi).side, neg_one_mul]
  have hMsi : ∀ i, i ≠ 0 → SameKernel ((c i).Ms.map (toCM (c i).GF)) (viewMs ((c 0).Ms.map (toCM (c 0).GF)) (σ i)) := by
    intro i hi
    rw [← toCM_view]
    exact (hseen i hi).Ms
  have hmass : ∀ i, ((c 0).reaction p i).specie.m = ((c 0).sp i).mass * p.a / p.aT := fun i => rfl
  have hGF : common4 (c i).GF p = common4 (c 0).GF p := by
    by_cases hi : i = 0
    · rw [hi]
    · rw [(hseen i hi).GF]
  rw [← hGF]
  by_cases hi : i = 0
  · subst hi
    refine returns4_of (c 0) p (sched 0) (A 0) (B 0) (f 0) haT (hpl 0) (hm 0) (hcov 0) (hocc 0)
      (fun ps _ hv => ⟨(hsam ps _ hv).1, (hsam ps _ hv).2.1⟩) ?_
    intro y hy hub
    exact absurd hub (not_lt.mpr (hwhole y hy))
  · refine returns4_of (c i) p (sched i) (A i) (B i) (f i) haT (hpl i)
      (by rw [(hseen i hi).sp]; exact hm _) (hcov i) ?_ ?_ ?_
    · intro q hq
      rw [hr i hi]
      change occAt ((c 0).reaction p (σ i 0)).specie q = _
      rw [h0]; exact hocc i q hq
    · intro ps _ hv
      rw [hr i hi, (hMsi i hi).integration, (hMsi i hi).integration, hP' i hi]
      exact (hsam ps _ hv).2.2 i hi
    · intro y hy hub hy0
      by_contra hne
      have hs := hsup i hi (y / p.aT) (by positivity) hne
      obtain ⟨s1, s2, s3, s4, dflt, e1, e2, e3, e4, e5, e6⟩ := hb i hi
      rw [(hseen i hi).sp, h0] at e1
      rw [(hseen i hi).sp] at e2 e3
      rw [(hseen i hi).sp, h3 i hi] at e4
      rw [hP' i hi] at e5
      rw [hmass, hmass, hmass, hmass, ← e1, ← e2, ← e3, ← e4] at hs
      have hs' := mul_le_mul_of_nonneg_left hs haT.le
      rw [mul_add, mul_add, ← energyOf_div _ _ _ haT, ← energyOf_div _ _ _ haT, mul_div_cancel₀ _ haT.ne',
        mul_div_cancel₀ _ haT.ne'] at hs'
      refine absurd hub (not_lt.mpr ?_)
      rw [e6]
      unfold bounds4Creation
      refine le_max_of_le_left (le_sqrt_of_energy_le ?_)
      rw [← energyOf_eq, e5]
      change energyOf s1.confMass y ≤ energyOf s4.confMass P - _ - _
      linarith

/-- **C102 for `integrate`.** The arrays which the four species of `X → a + b + c` obtain from `integrate` are samples
of four functions of the comoving momentum.  Weighted with the degrees of freedom, the number of `X` lost up
to the end `P` of its grid is the number of each product gained, and the comoving energy lost is the energy
gained.  The cut of the grids of the products loses nothing. -/
theorem C102_integrate (c : Fin 4 → Int4 ι) (p : Params) (sched : Fin 4 → List (List ℕ)) (P : ℝ)
    (σ : Fin 4 → Equiv.Perm (Fin 4)) (h0 : ∀ i, σ i 0 = i) (h3 : ∀ i, i ≠ 0 → σ i 3 = 0)
    (haT : 0 < p.aT) (ha : 0 < p.a) (hs0 : (c 0).side 0 = -1) (hs : ∀ i, i ≠ 0 → (c 0).side i = 1)
    (hseen : ∀ i, i ≠ 0 → SeenFrom4 (c 0) (c i) (σ i)) (hpl : ∀ i, Plain4 (c i))
    (hm0 : 0 < ((c 0).sp 0).mass) (hm : ∀ i, 0 ≤ ((c 0).sp i).mass)
    (hopen : ((c 0).sp 1).mass + ((c 0).sp 2).mass + ((c 0).sp 3).mass ≤ ((c 0).sp 0).mass)
    (hMs : (c 0).Ms ≠ []) (hK : ∀ M ∈ (c 0).Ms, M.K = 0) (ho : ∀ M ∈ (c 0).Ms, M.order.Bijective)
    (hP : 0 ≤ P) (hP' : ∀ i, i ≠ 0 → (c i).max3 = P) (hwhole : ∀ y ∈ ((c 0).sp 0).grid, y ≤ (c 0).ub)
    (hb : ∀ i, i ≠ 0 → CutBound4 (c i) p) (hcov : ∀ i, Covers4 (c i) (sched i))
    (hreg : ∀ i, Regular (toC ((c 0).sp i) ((c 0).st i) p)) :
    ∃ J : Fin 4 → ℝ → ℝ, (∀ i, Returns4 (c i) p (sched i) (J i)) ∧
      (∀ i, i ≠ 0 → (c i).weight * (∫ y in Set.Ioi 0, y ^ 2 * J i y) =
        -((c 0).weight * ∫ y in Set.Ioc 0 P, y ^ 2 * J 0 y)) ∧
      (c 1).weight * (∫ y in Set.Ioi 0, y ^ 2 * energyOf (((c 0).sp 1).mass * p.a) y * J 1 y) +
        (c 2).weight * (∫ y in Set.Ioi 0, y ^ 2 * energyOf (((c 0).sp 2).mass * p.a) y * J 2 y) +
        (c 3).weight * (∫ y in Set.Ioi 0, y ^ 2 * energyOf (((c 0).sp 3).mass * p.a) y * J 3 y) =
        -((c 0).weight * ∫ y in Set.Ioc 0 P, y ^ 2 * energyOf (((c 0).sp 0).mass * p.a) y * J 0 y) := by
  have hmass : ∀ i, ((c 0).reaction p i).specie.m = ((c 0).sp i).mass * p.a / p.aT := fun i => rfl
  obtain ⟨f, A, B, hocc, hsam, hsup, hN, hE⟩ := C102_spectra ((c 0).reaction p) ((c 0).Ms.map (toCM (c 0).GF))
    (P / p.aT) hs0 hs (by rw [hmass]; positivity)
    (fun i => by rw [hmass]; have := hm i; positivity)
    (by
      rw [hmass, hmass, hmass, hmass, ← add_div, ← add_div, ← add_mul, ← add_mul]
      exact div_le_div_of_nonneg_right (mul_le_mul_of_nonneg_right hopen ha.le) haT.le)
    (by positivity) (fun i => by
      change ((c 0).sp i).eta = 1 ∨ ((c 0).sp i).eta = -1
      unfold Species.eta; split_ifs <;> simp) hreg (by simpa using hMs)
    (by
      intro M hM
      obtain ⟨M', h, rfl⟩ := List.mem_map.mp hM
      change M'.K / _ = 0
      rw [hK M' h, zero_div])
    (by
      intro M hM
      obtain ⟨M', h, rfl⟩ := List.mem_map.mp hM
      exact ho M' h)
    σ h0 h3 (fun i => (c i).max1 / p.aT) (fun i => (c i).min2 / p.aT) (fun i => (c i).max2 / p.aT) ((c 0).max3 / p.aT)
  set κ := common4 (c 0).GF p with hκ
  set I : Fin 4 → ℝ → ℝ := fun i q => A i q + f i q * B i q with hI
  refine ⟨fun i y => I i (y / p.aT) * (κ / dofFactor (c i).majorana ((c i).sp 0).dof * (c i).mult), ?_, ?_, ?_⟩
  · exact fun i => decay4_returns c p sched P σ h0 h3 haT hseen hpl hm hP' hwhole hb hcov f A B hocc hsam hsup i
  all_goals
    have w : ∀ i, (c i).weight * (κ / dofFactor (c i).majorana ((c i).sp 0).dof * (c i).mult) = κ := by
      intro i
      unfold Int4.weight; have := (hpl i).dof; have := (hpl i).mult; field_simp
  · intro i hi
    have hNi := hN i hi
    change (∫ q in Set.Ioi 0, q ^ 2 * I i q) = -∫ q in Set.Ioc 0 (P / p.aT), q ^ 2 * I 0 q at hNi
    rw [number_scale _ _ haT, number_scale_Ioc _ _ _ haT hP, hNi]
    linear_combination (-p.aT ^ 3 * (∫ q in Set.Ioc 0 (P / p.aT), q ^ 2 * I 0 q)) * (w i - w 0)
  · rw [energy_scale3 _ _ _ haT, energy_scale3 _ _ _ haT, energy_scale3 _ _ _ haT, energy_scale3_Ioc _ _ _ _ haT hP]
    rw [hmass, hmass, hmass, hmass] at hE
    change (∫ q in Set.Ioi 0, q ^ 2 * _ * I 1 q) + (∫ q in Set.Ioi 0, q ^ 2 * _ * I 2 q) +
      (∫ q in Set.Ioi 0, q ^ 2 * _ * I 3 q) = -∫ q in Set.Ioc 0 _, q ^ 2 * _ * I 0 q at hE
    linear_combination
      p.aT ^ 4 * (∫ q in Set.Ioi 0, q ^ 2 * energyOf (((c 0).sp 1).mass * p.a / p.aT) q * I 1 q) * w 1 +
      p.aT ^ 4 * (∫ q in Set.Ioi 0, q ^ 2 * energyOf (((c 0).sp 2).mass * p.a / p.aT) q * I 2 q) * w 2 +
      p.aT ^ 4 * (∫ q in Set.Ioi 0, q ^ 2 * energyOf (((c 0).sp 3).mass * p.a / p.aT) q * I 3 q) * w 3 +
      p.aT ^ 4 * (∫ q in Set.Ioc 0 (P / p.aT), q ^ 2 * energyOf (((c 0).sp 0).mass * p.a / p.aT) q * I 0 q) * w 0 +
      p.aT ^ 4 * κ * hE

/-- The schedule of a single thread. -/
noncomputable def oneThread4 (c : Int4 ι) : List (List ℕ) := [List.range (gridCut4 (c.sp 0).grid c.ub).1.length]

theorem covers4_oneThread (c : Int4 ι) : Covers4 c (oneThread4 c) := by
  simp [Covers4, oneThread4, ValidSchedule]

section Example
/-- A particle of mass 3 with the spectrum `1/2, 1/4, 1/8`, a massless fermion, a fermion of mass 1 and a boson of
mass 1. -/
private def bal4Sp : Fin 4 → Species := fun i =>
  { name := "X", mass := ![3, 0, 1, 1] i, dof := 2, fermion := decide (i ≠ 3), thermalDyn := false, Q := 0,
    grid := [0, 1, 3], fastDecay := false, lifetime := 0 }
private noncomputable def bal4St : Fin 4 → PState ℕ := fun i =>
  { T := 1, aT := 1, Tdec := 2, dist := ![[1/2, 1/4, 1/8], [1/3, 0, 0], [1/5, 1/6, 0], [2, 1, 0]] i, coll := [],
    integrals := [], tDec := 0, decayed := false, density := 0, histDist := [], histColl := [], histT := [],
    histDensity := [] }
private noncomputable def bal4P : Params :=
  { log := true, m := 1, T := 1/2, a := 2, aIni := 1, x := 1, y := none, aT := 1, t := 1, H := 1, rho := none,
    S := none, Neff := 3, dy := 1, dx := 1, h := 1 }
private noncomputable def bal4Ks (i : Fin 4) : KSpecie := ⟨(bal4Sp i).mass * 2, decide (i = 1), 3, []⟩
private noncomputable def bal4Int (σ : Equiv.Perm (Fin 4)) (sgn : ℤ) (ub : ℝ) : Int4 ℕ :=
  { sp := fun i => bal4Sp (σ i), st := fun i => bal4St (σ i), side := fun i => sgn * ![-1, 1, 1, 1] (σ i),
    Ms := viewMs [⟨id, 1, 2, 0⟩] σ, GF := 1, majorana := false, mult := 1, kind := .full, neglect := false, min1 := 0,
    max1 := 3, min2 := 0, max2 := 3, max3 := 3, ub := ub, creationFast := false, br := none, num := 0,
    total := fun _ => 0 }
private def bal4Perm : Fin 4 → Equiv.Perm (Fin 4) :=
  ![1, Equiv.swap 0 1 * Equiv.swap 1 3, Equiv.swap 0 2 * Equiv.swap 2 3, Equiv.swap 0 3]
private noncomputable def bal4C (i : Fin 4) : Int4 ℕ :=
  if i = 0 then bal4Int 1 1 3
  else bal4Int (bal4Perm i) (-1) (bounds4Creation (bal4Ks (bal4Perm i 0)) (bal4Ks (bal4Perm i 1))
    (bal4Ks (bal4Perm i 2)) (bal4Ks (bal4Perm i 3)) 1)

private theorem bal4_parent : bal4C 0 = bal4Int 1 1 3 := if_pos rfl
private theorem bal4_product (i : Fin 4) (hi : i ≠ 0) : bal4C i = bal4Int (bal4Perm i) (-1)
    (bounds4Creation (bal4Ks (bal4Perm i 0)) (bal4Ks (bal4Perm i 1)) (bal4Ks (bal4Perm i 2))
      (bal4Ks (bal4Perm i 3)) 1) := if_neg hi

private theorem bal4_plain (σ : Equiv.Perm (Fin 4)) (sgn : ℤ) (ub : ℝ) : Plain4 (bal4Int σ sgn ub) :=
  { kind := Or.inl rfl, slow := rfl, active := rfl, min1 := rfl, grid := List.cons_ne_nil _ _
    nonneg := by norm_num [bal4Int, bal4Sp]
    inc := by norm_num [bal4Int, bal4Sp, StrictInc]
    stored := by
      change (bal4St (σ 0)).dist.length = 3
      generalize σ 0 = i
      fin_cases i <;> rfl
    dof := by norm_num [bal4Int, bal4Sp, dofFactor]
    mult := one_ne_zero }

/-- Four integrals of the same decay, with different statistics. -/
example : ∃ J : Fin 4 → ℝ → ℝ, (∀ i, Returns4 (bal4C i) bal4P (oneThread4 (bal4C i)) (J i)) ∧
    (∫ y in Set.Ioi 0, y ^ 2 * J 2 y) = -∫ y in Set.Ioc 0 3, y ^ 2 * J 0 y := by
  have reg : ∀ i, Regular (toC (bal4Sp i) (bal4St i) bal4P) := by
    intro i
    refine regular_toC _ _ _ (by norm_num [bal4P]) [1, 3] ?_ rfl (by norm_num [bal4Sp, StrictInc]) ?_
      (by norm_num [bal4St]) ?_
    · simp [inEq, bal4Sp]
    · fin_cases i <;> rfl
    · fin_cases i <;> norm_num [bal4St, bal4Sp] <;> rfl
  obtain ⟨J, hJ, hn, -⟩ := C102_integrate bal4C bal4P (fun i => oneThread4 (bal4C i)) 3 bal4Perm (by decide) (by decide)
    (by norm_num [bal4P]) (by norm_num [bal4P]) (by rw [bal4_parent]; rfl)
    (by rw [bal4_parent]; intro i hi; fin_cases i <;> first | exact absurd rfl hi | rfl)
    (by
      intro i hi
      rw [bal4_parent, bal4_product i hi]
      exact ⟨fun _ => rfl, fun _ => rfl, fun j => by change -1 * _ = -(1 * _); rw [one_mul, neg_one_mul]; rfl, .refl _, rfl⟩)
    (by
      intro i
      by_cases hi : i = 0
      · rw [hi, bal4_parent]; exact bal4_plain _ _ _
      · rw [bal4_product i hi]; exact bal4_plain _ _ _)
    (by rw [bal4_parent]; change (0 : ℝ) < 3; norm_num)
    (by rw [bal4_parent]; intro i; change 0 ≤ (bal4Sp i).mass; fin_cases i <;> norm_num [bal4Sp])
    (by rw [bal4_parent]; change (0 : ℝ) + 1 + 1 ≤ 3; norm_num)
    (by rw [bal4_parent]; exact List.cons_ne_nil _ _)
    (by rw [bal4_parent]; intro M hM; rw [List.mem_singleton.mp hM])
    (by rw [bal4_parent]; intro M hM; rw [List.mem_singleton.mp hM]; exact Function.bijective_id)
    (by norm_num) (by intro i hi; rw [bal4_product i hi]; rfl)
    (by
      rw [bal4_parent]
      change ∀ y ∈ [(0 : ℝ), 1, 3], y ≤ 3
      norm_num)
    (by
      intro i hi
      rw [bal4_product i hi]
      exact ⟨_, _, _, _, _, rfl, rfl, rfl, rfl, rfl, rfl⟩)
    (fun i => covers4_oneThread _) (by rw [bal4_parent]; exact reg)
  refine ⟨J, hJ, ?_⟩
  have h := hn 2 (by decide)
  have w : ∀ σ sgn ub, (bal4Int σ sgn ub).weight = 1 := by
    intro σ sgn ub; norm_num [Int4.weight, bal4Int, bal4Sp, dofFactor]
  rw [bal4_parent, bal4_product 2 (by decide), w, w, one_mul, one_mul] at h
  exact h
end Example

end PyBBN
