import Verif.Lemmas.Scale3
import Verif.Props.Normalisation
import Verif.Props.Universe
import Verif.Props.BalanceStep
/-!
# C130: the three-particle collision terms do not depend on the unit of momentum

`ThreeParticleIntegral.integrate` measures masses, momenta and temperatures in units of `params.aT` and
multiplies the value of the first grid point by a constant proportional to `params.aT`, those of the other
points by a constant inversely proportional to it (interactions/three_particle/__init__.py 75–150).
-/
namespace PyBBN

variable {ι : Type*}

/-- The weight of the `i`-th grid point. -/
private noncomputable def wt (c : ℝ) (i : ℕ) : ℝ := if i = 0 then c else c⁻¹

private theorem wt_ne {c : ℝ} (hc : 0 < c) (i : ℕ) : wt c i ≠ 0 := by
  unfold wt; split_ifs <;> positivity

private theorem mulArr_wt : ∀ (W : ℕ → ℝ) (_ : ∀ i, W i ≠ 0) (l k : List ℝ),
    mulArr (l.mapIdx fun i v => W i * v) (k.mapIdx fun i v => (W i)⁻¹ * v) = mulArr l k
  | _, _, [], _ => by simp [mulArr]
  | _, _, _ :: _, [] => by simp [mulArr]
  | W, h, x :: l, y :: k => by
    have ih := mulArr_wt (fun i => W (i + 1)) (fun i => h (i + 1)) l k
    simp only [mulArr] at ih ⊢
    simp only [List.mapIdx_cons, List.zipWith_cons_cons, ih]
    congr 1
    have := h 0
    field_simp

private theorem mulArr_wt' : ∀ (W : ℕ → ℝ) (_ : ∀ i, W i ≠ 0) (l k d : List ℝ),
    mulArr (l.mapIdx fun i v => W i * v) (mulArr (k.mapIdx fun i v => (W i)⁻¹ * v) d)
      = mulArr l (mulArr k d)
  | _, _, [], _, _ => by simp [mulArr]
  | _, _, _ :: _, [], _ => by simp [mulArr]
  | _, _, _ :: _, _ :: _, [] => by simp [mulArr]
  | W, h, x :: l, y :: k, z :: d => by
    have ih := mulArr_wt' (fun i => W (i + 1)) (fun i => h (i + 1)) l k d
    simp only [mulArr] at ih ⊢
    simp only [List.mapIdx_cons, List.zipWith_cons_cons, ih]
    congr 1
    have := h 0
    field_simp

private theorem integrateEnd_wt (kind : CKind) (fast : Bool) (W : ℕ → ℝ) (h : ∀ i, W i ≠ 0)
    (k dist l : List ℝ) :
    integrateEnd kind fast (k.mapIdx fun i v => (W i)⁻¹ * v) dist (l.mapIdx fun i v => W i * v)
      = integrateEnd kind fast k dist l := by
  unfold integrateEnd
  simp only [mulArr_wt W h, mulArr_wt' W h, List.length_mapIdx]

private theorem truth_wt (W : ℕ → ℝ) (h : ∀ i, W i ≠ 0) (l : List ℝ) :
    (Scaled.arr (l.mapIdx fun i v => W i * v)).truth = (Scaled.arr l).truth := by
  match l with
  | [] => rfl
  | [a] => simp [Scaled.truth, h 0]
  | a :: b :: t => simp [Scaled.truth, List.mapIdx_cons]

private theorem match_wt (kind : CKind) (fast : Bool) (n : ℕ) (W : ℕ → ℝ) (h : ∀ i, W i ≠ 0)
    (k dist l : List ℝ) (b : Except Err Bool) :
    (match Scaled.arr (l.mapIdx fun i v => W i * v), b with
      | _, .ok false => .ok (returnFunction kind fast n)
      | .no, _ => .ok (returnFunction kind fast n)
      | .arr l, _ => .ok (integrateEnd kind fast (k.mapIdx fun i v => (W i)⁻¹ * v) dist l) : Except Err IntOut)
      = match Scaled.arr l, b with
      | _, .ok false => .ok (returnFunction kind fast n)
      | .no, _ => .ok (returnFunction kind fast n)
      | .arr l, _ => .ok (integrateEnd kind fast k dist l) := by
  match b with
  | .ok false => rfl
  | .ok true => exact congrArg Except.ok (integrateEnd_wt kind fast W h k dist l)
  | .error e => exact congrArg Except.ok (integrateEnd_wt kind fast W h k dist l)

private theorem tail3_wt (kind : CKind) (fast cf : Bool) (br : Option ℝ) (num : ℝ) (T : List ℝ → ℝ)
    (W : ℕ → ℝ) (h : ∀ i, W i ≠ 0) (k dist l : List ℝ) :
    integrateTail3 kind fast cf br num (fun x => T (mulArr x (k.mapIdx fun i v => (W i)⁻¹ * v)))
        (k.mapIdx fun i v => (W i)⁻¹ * v) dist (l.mapIdx fun i v => W i * v)
      = integrateTail3 kind fast cf br num (fun x => T (mulArr x k)) k dist l := by
  unfold integrateTail3 scaling
  simp only [mulArr_wt W h, List.length_mapIdx]
  cases cf with
  | false =>
    simp only [Bool.false_eq_true, if_false, truth_wt W h]
    exact match_wt kind fast l.length W h k dist l _
  | true =>
    simp only [if_true]
    cases br with
    | none => rfl
    | some b =>
      dsimp only
      by_cases h0 : T (mulArr l k) = 0
      · simp only [h0, if_true]
        rfl
      · simp only [h0, if_false]
        have e : (l.mapIdx fun i v => W i * v).map (· * (b * num / T (mulArr l k)))
            = (l.map (· * (b * num / T (mulArr l k)))).mapIdx fun i v => W i * v := by
          apply List.ext_getElem
          · simp
          · intro i h1 h2
            simp only [List.getElem_map, List.getElem_mapIdx]
            ring
        rw [e, truth_wt W h]
        exact match_wt kind fast l.length W h k dist _ _

private theorem stack_wt (W : ℕ → ℝ) (z1 l z3 : List ℝ) (h1 : ∀ x ∈ z1, x = 0) (h3 : ∀ x ∈ z3, x = 0) :
    z1 ++ (l.mapIdx fun i v => W (i + z1.length) * v) ++ z3
      = (z1 ++ l ++ z3).mapIdx fun i v => W i * v := by
  have hz : ∀ (z : List ℝ) (V : ℕ → ℝ), (∀ x ∈ z, x = 0) → (z.mapIdx fun i v => V i * v) = z := by
    intro z V hz
    apply List.ext_getElem
    · simp
    · intro i _ h2
      simp only [List.getElem_mapIdx]
      rw [hz _ (List.getElem_mem h2), mul_zero]
  rw [List.mapIdx_append, List.mapIdx_append, hz z1 W h1]
  congr 1
  exact (hz z3 (fun i => W (i + (z1 ++ l).length)) h3).symm

private theorem constants3_wt (K mass dof mult : ℝ) (maj : Bool) (p : Params) (n : ℕ) {lam : ℝ}
    (hlam : 0 < lam) :
    constants3 K mass dof maj mult { p with aT := lam * p.aT } n
      = (constants3 K mass dof maj mult p n).mapIdx fun i v => (wt lam⁻¹ i)⁻¹ * v := by
  unfold constants3
  dsimp only
  apply List.ext_getElem
  · simp
  · intro i h1 h2
    simp only [List.getElem_map, List.getElem_mapIdx]
    cases i with
    | zero =>
      simp only [List.getElem_cons_zero, wt, if_true, inv_inv]
      split_ifs <;> ring
    | succ i =>
      simp only [List.getElem_cons_succ, List.getElem_replicate, wt, Nat.add_eq_zero_iff, one_ne_zero, and_false,
        if_false, inv_inv]
      have := hlam.ne'
      split_ifs <;> field_simp

/-- The points evaluated for a creation reaction are those of the grid from the number of leading zeros on. -/
private theorem points_of_grid (grid : List ℝ) (lb ub : ℝ) (i : ℕ) (x : ℝ)
    (h : (gridBounds3 grid lb ub).points[i]? = some x) :
    grid[i + (gridBounds3 grid lb ub).zeros1.length]? = some x := by
  unfold gridBounds3 at h ⊢
  dsimp only at h ⊢
  set lo : ℤ := max 0 ((searchsortedRight grid lb : ℤ) - 1) with hlo
  set up : ℤ := min ((grid.length : ℤ) - 1) (searchsortedLeft grid ub) with hup
  have hlo0 : 0 ≤ lo := le_max_left _ _
  have hup0 : 0 ≤ up + 1 := by
    have : (-1 : ℤ) ≤ up := le_min (by omega) (by omega)
    omega
  split_ifs at h with he
  · simp at h
  · simp only [pyZeros, pySliceTo, pySliceFrom, if_pos hlo0, if_pos hup0, List.getElem?_drop, List.length_replicate,
      List.length_take, Int.toNat_natCast] at h ⊢
    rw [List.getElem?_take] at h
    split_ifs at h with h2
    have hlt : lo.toNat + i < grid.length := (List.getElem?_eq_some_iff.1 h).1
    rw [min_eq_left (by omega), add_comm]
    exact h

/-- **C130.** The result of `ThreeParticleIntegral.integrate` does not depend on `params.aT`, the unit in which
it measures momenta, masses and temperatures: for every reaction (decay or creation), kind, thread schedule and
every grid whose first point, and no other, is 0. -/
theorem C130_unit_free (c : Int3 ι) (p : Params) (sched : List (List ℕ)) {lam : ℝ} (hlam : 0 < lam)
    (haT : p.aT ≠ 0) {t : List ℝ} (hgrid : (c.sp 0).grid = 0 :: t) (ht : ∀ x ∈ t, x ≠ 0) :
    integrate3 c { p with aT := lam * p.aT } sched = integrate3 c p sched := by
  have hi : 0 < lam⁻¹ := inv_pos.2 hlam
  have hg : ∀ (i : ℕ) (x : ℝ), (c.sp 0).grid[i]? = some x → (x = 0 ↔ i = 0) := by
    intro i x hx
    rw [hgrid] at hx
    cases i with
    | zero => simp only [List.getElem?_cons_zero, Option.some.injEq] at hx; simp [← hx]
    | succ i =>
      rw [List.getElem?_cons_succ] at hx
      simp [ht x (List.mem_of_getElem? hx)]
  have hr : c.reaction { p with aT := lam * p.aT } = fun i => scaleR lam⁻¹ (c.reaction p i) := by
    funext i
    simp only [Int3.reaction, toC_unit _ _ p haT hlam.ne', scaleR]
  have hdiv : ∀ x : ℝ, x / (lam * p.aT) = lam⁻¹ * (x / p.aT) := fun x => by field_simp
  have hps : ∀ l : List ℝ, l.map (· / (lam * p.aT)) = (l.map (· / p.aT)).map (lam⁻¹ * ·) := by
    intro l
    rw [List.map_map]
    exact List.map_congr_left fun x _ => hdiv x
  have hw := wt_ne hi
  -- the slices
  have hcut : ∃ s : Option Slices,
      cutoff3 (c.side 0 + c.side 1 + c.side 2) ((c.sp 0).grid.map (· / p.aT)) (c.sp 0).grid c.lb c.ub p.aT = s ∧
      cutoff3 (c.side 0 + c.side 1 + c.side 2) ((c.sp 0).grid.map (· / (lam * p.aT))) (c.sp 0).grid c.lb c.ub
        (lam * p.aT) = s.map (fun s => ⟨s.zeros1, s.points.map (lam⁻¹ * ·), s.zeros3⟩) ∧
      ∀ s' ∈ s, (∀ x ∈ s'.zeros1, x = 0) ∧ (∀ x ∈ s'.zeros3, x = 0) ∧
        ∀ (i : ℕ) (x : ℝ), s'.points[i]? = some x →
          wt lam⁻¹ (i + s'.zeros1.length) = if x = 0 then lam⁻¹ else lam⁻¹⁻¹ := by
    refine ⟨_, rfl, ?_, ?_⟩
    · unfold cutoff3 gridCutoff3
      dsimp only
      split_ifs
      · simp only [Option.map_some, hps]
      · rfl
      · simp only [Option.map_some, hps]
    · intro s' hs'
      have key : ∀ (i j : ℕ) (x : ℝ), (c.sp 0).grid[j]? = some x →
          wt lam⁻¹ j = if x / p.aT = 0 then lam⁻¹ else lam⁻¹⁻¹ := by
        intro i j x hx
        have := hg j x hx
        unfold wt
        simp only [div_eq_zero_iff, haT, or_false, this]
      unfold cutoff3 gridCutoff3 at hs'
      dsimp only at hs'
      split_ifs at hs' with h1 h2
      · simp only [Option.mem_def, Option.some.injEq] at hs'
        subst hs'
        refine ⟨?_, ?_, ?_⟩
        · intro x hx; exact List.eq_of_mem_replicate hx
        · intro x hx; exact List.eq_of_mem_replicate hx
        · intro i x hx
          simp only [List.getElem?_map, Option.map_eq_some_iff] at hx
          obtain ⟨y, hy, rfl⟩ := hx
          exact key i _ y (points_of_grid _ _ _ _ _ hy)
      · simp at hs'
      · simp only [Option.mem_def, Option.some.injEq] at hs'
        subst hs'
        refine ⟨by simp, by simp, ?_⟩
        intro i x hx
        simp only [List.getElem?_map, Option.map_eq_some_iff] at hx
        obtain ⟨y, hy, rfl⟩ := hx
        exact key i _ y hy
  obtain ⟨s, hs1, hs2, hs3⟩ := hcut
  unfold integrate3
  dsimp only
  rw [hs1, hs2, hr, constants3_wt _ _ _ _ _ _ _ hlam]
  set const := constants3 c.K (c.sp 0).mass (c.sp 0).dof c.majorana c.mult p (c.sp 0).grid.length
  by_cases hn : c.neglect = true
  · rw [if_pos hn, if_pos hn]
  rw [if_neg hn, if_neg hn]
  cases s with
  | none => rfl
  | some s =>
    obtain ⟨z1, z3, hV⟩ := hs3 s rfl
    simp only [Option.map_some]
    have hloop : ∀ k : CKind, integration3Exact (fun i => scaleR lam⁻¹ (c.reaction p i)) k.toInt
        (s.points.map (lam⁻¹ * ·)) (c.min1 / (lam * p.aT)) (c.max1 / (lam * p.aT)) (c.max2 / (lam * p.aT)) sched
        = (integration3Exact (c.reaction p) k.toInt s.points (c.min1 / p.aT) (c.max1 / p.aT) (c.max2 / p.aT)
          sched).map fun l => l.mapIdx fun i v => wt lam⁻¹ (i + s.zeros1.length) * v := by
      intro k
      simp only [hdiv]
      exact sc_integration3 hi (V := fun i => wt lam⁻¹ (i + s.zeros1.length)) _ _ _ _ _ _ _ hV
    simp only [hloop]
    split_ifs with hk
    · cases integration3Exact (c.reaction p) CKind.full.toInt s.points (c.min1 / p.aT) (c.max1 / p.aT)
          (c.max2 / p.aT) sched with
      | error e => rfl
      | ok C =>
        cases integration3Exact (c.reaction p) CKind.ff.toInt s.points (c.min1 / p.aT) (c.max1 / p.aT)
            (c.max2 / p.aT) sched with
        | error e => rfl
        | ok B =>
          simp only [Except.map, stack_wt _ _ _ _ z1 z3, mulArr_wt _ hw]
    · cases integration3Exact (c.reaction p) c.kind.toInt s.points (c.min1 / p.aT) (c.max1 / p.aT)
          (c.max2 / p.aT) sched with
      | error e => rfl
      | ok C =>
        simp only [Except.map, stack_wt _ _ _ _ z1 z3, tail3_wt _ _ _ _ _ _ _ hw]

/-- **C130.** In particular on every strictly increasing grid starting at 0, such as those of the three grid
classes (C20, C21). -/
theorem C130_increasing (c : Int3 ι) (p : Params) (sched : List (List ℕ)) {lam : ℝ} (hlam : 0 < lam)
    (haT : p.aT ≠ 0) (h0 : (c.sp 0).grid.head? = some 0) (hinc : (c.sp 0).grid.Pairwise (· < ·)) :
    integrate3 c { p with aT := lam * p.aT } sched = integrate3 c p sched := by
  obtain ⟨t, ht⟩ := List.head?_eq_some_iff.1 h0
  rw [ht] at hinc
  exact C130_unit_free c p sched hlam haT ht fun x hx => ((List.pairwise_cons.1 hinc).1 x hx).ne'

/-- The reaction in physical units: masses as they are, momenta and temperatures divided by the scale
factor. -/
noncomputable def physicalReaction3 (c : Int3 ι) (a : ℝ) (i : Fin 3) : Reactant where
  side := c.side i
  specie :=
    { eta := (c.sp i).eta, m := (c.sp i).mass, grid := (c.sp i).grid.map (· / a), dist := (c.st i).dist
      inEq := inEq (c.sp i) (c.st i), T := (c.st i).aT / a }

/-- **C130.** The two arrays of a `Full` integral of a decay are the textbook collision term: the integral over
the *physical* momenta `y / a` with the physical masses. Particles in motion: times the squared matrix element
over `32 π g H`; at rest (the first point): over `8 π m² g H`; both over `x` when the step variable is not
logarithmic. The unit `aT` drops out. -/
theorem C130_physical (c : Int3 ι) (p : Params) (sched : List (List ℕ)) (ha : 0 < p.a) (haT : 0 < p.aT)
    (hn : c.neglect = false) (hkind : c.kind = .full) (hfast : (c.sp 0).fastDecay = false)
    (hdec : pyCreation (c.side 0 + c.side 1 + c.side 2) = false) {t : List ℝ}
    (hgrid : (c.sp 0).grid = 0 :: t) (ht : ∀ x ∈ t, x ≠ 0) {A0 B0 : ℝ} {A B : List ℝ}
    (hA : integration3Exact (physicalReaction3 c p.a) 0 ((c.sp 0).grid.map (· / p.a))
      (c.min1 / p.a) (c.max1 / p.a) (c.max2 / p.a) sched = .ok (A0 :: A))
    (hB : integration3Exact (physicalReaction3 c p.a) 2 ((c.sp 0).grid.map (· / p.a))
      (c.min1 / p.a) (c.max1 / p.a) (c.max2 / p.a) sched = .ok (B0 :: B)) :
    let g := if c.majorana then (c.sp 0).dof else (c.sp 0).dof / 2
    let x := if p.log then 1 else p.x
    let rate0 := if (c.sp 0).mass = 0 then 0
      else c.mult * c.K / (8 * Real.pi * (c.sp 0).mass ^ 2 * g * p.H) / x
    let rate := c.mult * c.K / (32 * Real.pi * g * p.H) / x
    integrate3 c p sched = .ok (.two (rate0 * A0 :: A.map (rate * ·)) (rate0 * B0 :: B.map (rate * ·))) := by
  intro g x rate0 rate
  have hlA : A.length = t.length := by
    have := integration3Exact_length hA
    simpa [hgrid] using this
  have hlB : B.length = t.length := by
    have := integration3Exact_length hB
    simpa [hgrid] using this
  have hp : integrate3 c p sched = integrate3 c { p with aT := p.a } sched := by
    have := C130_unit_free c p sched (lam := p.a / p.aT) (by positivity) haT.ne' hgrid ht
    rw [div_mul_cancel₀ _ haT.ne'] at this
    exact this.symm
  have hr : c.reaction { p with aT := p.a } = physicalReaction3 c p.a := by
    funext i
    simp only [Int3.reaction, toC, physicalReaction3]
    rw [mul_div_cancel_right₀ _ ha.ne']
  have hconst : constants3 c.K (c.sp 0).mass (c.sp 0).dof c.majorana c.mult { p with aT := p.a }
      (c.sp 0).grid.length = rate0 :: List.replicate t.length rate := by
    have hK : c.K * p.a / p.a = c.K := mul_div_cancel_right₀ _ ha.ne'
    unfold constants3 dofFactor
    simp only [hgrid, hK, List.length_cons, Nat.add_sub_cancel, List.map_cons, List.map_replicate]
    congr 1
    · simp only [rate0, g, x]
      split_ifs <;> first | (simp; done) | ring1
    · congr 1
      simp only [rate, g, x]
      split_ifs <;> ring
  have hmul : ∀ (k : ℝ) (l : List ℝ), l.length = t.length →
      mulArr l (List.replicate t.length k) = l.map (k * ·) := by
    intro k l hl
    rw [← hl, mulArr_replicate]
    simp only [mul_comm k]
  rw [hp]
  unfold integrate3 cutoff3
  dsimp only
  rw [hr, hconst]
  simp only [hn, hkind, hfast, hdec, CKind.toInt, hA, hB, Bool.false_eq_true, if_false, true_or,
    not_false_eq_true, and_self, if_true, List.nil_append, List.append_nil]
  have e : ∀ (y : ℝ) (l : List ℝ), l.length = t.length →
      mulArr (y :: l) (rate0 :: List.replicate t.length rate) = rate0 * y :: l.map (rate * ·) := by
    intro y l hl
    rw [← hmul rate l hl, mul_comm rate0]
    rfl
  rw [e _ _ hlA, e _ _ hlB]

section Example
/-- A fermion of mass 3 decaying into two massless ones, all in equilibrium, on the grid `0, 1`. -/
private def exSp : Fin 3 → Species := fun i =>
  { name := "X", mass := if i = 0 then 3 else 0, dof := 2, fermion := true, thermalDyn := true, Q := 0,
    grid := [0, 1], fastDecay := false, lifetime := 0 }
private noncomputable def exSt : Fin 3 → PState ℕ := fun _ =>
  { T := 1, aT := 1, Tdec := 0, dist := [1/2, 1/4], coll := [], integrals := [],
    tDec := 0, decayed := false, density := 0, histDist := [], histColl := [], histT := [], histDensity := [] }
private noncomputable def exP : Params :=
  { log := true, m := 1, T := 1, a := 3, aIni := 1, x := 1, y := none, aT := 2, t := 1, H := 1, rho := none,
    S := none, Neff := 3, dy := 1, dx := 1, h := 1 }
private noncomputable def exInt (side : Fin 3 → ℤ) : Int3 ℕ :=
  { sp := exSp, st := exSt, side := side, K := 5, majorana := false, mult := 1, kind := .full,
    neglect := false, min1 := 0, max1 := 1, max2 := 1, lb := 0, ub := 1, creationFast := false, br := none,
    num := 0, total := fun _ => 0 }

/-- A decay and the creation of the same particle. -/
example : integrate3 (exInt ![-1, 1, 1]) { exP with aT := 7 * exP.aT } [[1], [0]]
      = integrate3 (exInt ![-1, 1, 1]) exP [[1], [0]] ∧
    integrate3 (exInt ![-1, -1, 1]) { exP with aT := 7 * exP.aT } [[1], [0]]
      = integrate3 (exInt ![-1, -1, 1]) exP [[1], [0]] :=
  ⟨C130_unit_free _ exP _ (by norm_num) (by norm_num [exP]) (t := [1]) rfl (by simp),
    C130_increasing _ exP _ (by norm_num) (by norm_num [exP]) rfl (by simp [exInt, exSp])⟩

/-- The hypotheses of `C130_physical` are met. -/
example : ∃ A0 B0 A B, integrate3 (exInt ![-1, 1, 1]) exP [[1], [0]]
    = .ok (.two [5 / (8 * Real.pi * 9) * A0, 5 / (32 * Real.pi) * A] [5 / (8 * Real.pi * 9) * B0,
      5 / (32 * Real.pi) * B]) := by
  set r := physicalReaction3 (exInt ![-1, 1, 1]) exP.a with hr
  have hs : ∀ i, (r i).side = 1 ∨ (r i).side = -1 := by
    intro i
    fin_cases i
    · exact .inr rfl
    · exact .inl rfl
    · exact .inl rfl
  have hocc : ∀ i p, 0 ≤ p → occAt (r i).specie p
      = .ok (1 / (Real.exp (energy p (r i).specie.m / (r i).specie.T) + (r i).specie.eta)) := by
    intro i p _
    have : (r i).specie.inEq = true := by
      simp [hr, physicalReaction3, exInt, inEq, exSp, exSt]
    unfold occAt distributionInterpolation
    rw [this, if_pos rfl]
  have hF : ∀ (i : Fin 3) (p : ℝ), 0 ≤ p →
      0 ≤ 1 / (Real.exp (energy p (r i).specie.m / (r i).specie.T) + ((r i).specie.eta : ℝ)) := by
    intro i p _
    have : (r i).specie.eta = 1 := by simp [hr, physicalReaction3, exInt, exSp, Species.eta]
    rw [this]
    positivity
  have hm : 0 ≤ (r 0).specie.m := by simp [hr, physicalReaction3, exInt, exSp]
  set ps := ((exInt ![-1, 1, 1]).sp 0).grid.map (· / exP.a) with hps
  have hsch : ValidSchedule ps.length [[1], [0]] := by change [1, 0].Perm [0, 1]; decide
  obtain ⟨B, hB, lB⟩ := loop_ff r _ hs rfl hm hocc hF ps
    ((exInt ![-1, 1, 1]).min1 / exP.a) ((exInt ![-1, 1, 1]).max1 / exP.a) ((exInt ![-1, 1, 1]).max2 / exP.a) _ hsch
  have hA : ∃ A, integration3Exact r 0 ps ((exInt ![-1, 1, 1]).min1 / exP.a) ((exInt ![-1, 1, 1]).max1 / exP.a)
      ((exInt ![-1, 1, 1]).max2 / exP.a) [[1], [0]] = .ok A := by
    unfold integration3Exact
    rw [C40_three_value _ _ _ _ _ _ _ hsch,
      integrand3_rest hs rfl hocc hF _ (p1Bounds1_nonneg _ _ _ hm)]
    have : ∀ p ∈ ps, ∃ w, (if p = 0 then (Except.ok (valOf (integrandFull3 0 (p1Bounds1 (r 0).specie.m
        (r 1).specie.m (r 2).specie.m) 0 r)) : Except Err ℝ) else
        if (outerLimits3 (loopCtx3 r ((exInt ![-1, 1, 1]).max2 / exP.a)) p ((exInt ![-1, 1, 1]).min1 / exP.a,
            (exInt ![-1, 1, 1]).max1 / exP.a)).2 then
          exactQuad3 r 0 p (outerLimits3 (loopCtx3 r ((exInt ![-1, 1, 1]).max2 / exP.a)) p
            ((exInt ![-1, 1, 1]).min1 / exP.a, (exInt ![-1, 1, 1]).max1 / exP.a)).1.1
            (outerLimits3 (loopCtx3 r ((exInt ![-1, 1, 1]).max2 / exP.a)) p
            ((exInt ![-1, 1, 1]).min1 / exP.a, (exInt ![-1, 1, 1]).max1 / exP.a)).1.2 else .ok 0) = .ok w := by
      intro p _
      split_ifs <;> exact ⟨_, rfl⟩
    choose! w hw using this
    exact ⟨ps.map w, mapM_ok_map _ _ _ hw⟩
  obtain ⟨A, hA⟩ := hA
  have lA := integration3Exact_length hA
  have lp : ps.length = 2 := by simp [hps, exInt, exSp]
  rw [lp] at lA lB
  obtain ⟨A0, A1, rfl⟩ := List.length_eq_two.1 lA
  obtain ⟨B0, B1, rfl⟩ := List.length_eq_two.1 lB
  refine ⟨A0, B0, A1, B1, ?_⟩
  have h := C130_physical (exInt ![-1, 1, 1]) exP [[1], [0]] (by norm_num [exP]) (by norm_num [exP]) rfl rfl rfl
    rfl (t := [1]) rfl (by simp) hA hB
  rw [h]
  norm_num [exInt, exSp, exP]
end Example

end PyBBN
