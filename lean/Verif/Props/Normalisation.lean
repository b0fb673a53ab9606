import Verif.Lemmas.ScaleLimits
/-!
# C88: the collision terms do not depend on the unit of momentum

`integrate` measures masses, momenta and temperatures in units of `params.aT` and multiplies the result
by a power of `params.aT / params.a` (interactions/four_particle/__init__.py 105–205).
-/
namespace PyBBN

variable {ι : Type*}

theorem toC_unit (sp : Species) (s : PState ι) (p : Params) {lam : ℝ} (haT : p.aT ≠ 0) (h : lam ≠ 0) :
    toC sp s { p with aT := lam * p.aT } = scaleC lam⁻¹ (toC sp s p) := by
  unfold toC scaleC
  simp only [List.map_map, CParticle.mk.injEq, true_and]
  refine ⟨by field_simp, ?_, by field_simp⟩
  apply List.map_congr_left
  intro x _
  simp only [Function.comp]
  field_simp

theorem constant4_unit (GF dof mult : ℝ) (maj : Bool) (p : Params) (lam : ℝ) :
    constant4 GF dof maj mult { p with aT := lam * p.aT } = lam ^ 5 * constant4 GF dof maj mult p := by
  unfold constant4
  dsimp only
  split_ifs <;> ring

theorem head_toCM {GF : ℝ} {Ms : List CM} (h : ∀ M ∈ Ms, M.K = 0) :
    ∀ M ∈ (Ms.map (toCM GF)).head?, M.K = 0 := by
  cases Ms with
  | nil => simp
  | cons a t => simp [toCM, h a (by simp)]

theorem map_unit {k c c' : ℝ} (h : k * c' = c) (l : List ℝ) :
    (l.map (k * ·)).map (· * c') = l.map (· * c) := by
  rw [List.map_map]
  apply List.map_congr_left
  intro x _
  simp only [Function.comp]
  rw [← h]; ring

theorem mulArr_replicate (c : ℝ) : ∀ l : List ℝ, mulArr l (List.replicate l.length c) = l.map (· * c)
  | [] => rfl
  | x :: t => by
    have := mulArr_replicate c t
    simp only [mulArr] at this ⊢
    simp [List.replicate_succ, this]

theorem mulArr_replicate' (c : ℝ) : ∀ l d : List ℝ,
    mulArr l (mulArr (List.replicate l.length c) d) = mulArr (l.map (· * c)) d
  | [], d => by simp [mulArr]
  | x :: t, [] => by simp [mulArr]
  | x :: t, y :: d => by
    have := mulArr_replicate' c t d
    simp only [mulArr] at this ⊢
    simp [List.replicate_succ, this]; ring

theorem integrateEnd_unit (kind : CKind) (fast : Bool) {k c c' : ℝ} (h : k * c' = c)
    (dist l : List ℝ) :
    integrateEnd kind fast (List.replicate l.length c') dist (l.map (k * ·))
      = integrateEnd kind fast (List.replicate l.length c) dist l := by
  have e1 : mulArr (l.map (k * ·)) (List.replicate l.length c') = mulArr l (List.replicate l.length c) := by
    have := mulArr_replicate c' (l.map (k * ·))
    rw [List.length_map] at this
    rw [this, mulArr_replicate, map_unit h]
  have e2 : mulArr (l.map (k * ·)) (mulArr (List.replicate l.length c') dist)
      = mulArr l (mulArr (List.replicate l.length c) dist) := by
    have := mulArr_replicate' c' (l.map (k * ·)) dist
    rw [List.length_map] at this
    rw [this, mulArr_replicate', map_unit h]
  unfold integrateEnd
  simp only [e1, e2, List.length_map]

theorem tail4_unit (kind : CKind) (fast cf : Bool) (br : Option ℝ) (num : ℝ) (T : List ℝ → ℝ)
    {k c c' : ℝ} (hk : k ≠ 0) (h : k * c' = c) (dist l : List ℝ) :
    integrateTail4 kind fast cf br num (fun x => T (x.map (· * c')))
        (List.replicate l.length c') dist (l.map (k * ·))
      = integrateTail4 kind fast cf br num (fun x => T (x.map (· * c)))
        (List.replicate l.length c) dist l := by
  have ht : ∀ x : List ℝ, (Scaled.arr (x.map (k * ·))).truth = (Scaled.arr x).truth := by
    intro x
    match x with
    | [] => rfl
    | [a] => simp [Scaled.truth, hk]
    | a :: b :: t => rfl
  unfold integrateTail4 scaling
  simp only [map_unit h]
  cases cf with
  | false =>
    simp only [Bool.false_eq_true, if_false, ht, List.length_map, integrateEnd_unit kind fast h]
  | true =>
    simp only [if_true]
    cases br with
    | none => rfl
    | some b =>
      dsimp only
      by_cases h0 : T (l.map (· * c)) = 0
      · simp only [h0, if_true, List.length_map]
      · simp only [h0, if_false]
        have e : (l.map (k * ·)).map (· * (b * num / T (l.map (· * c))))
            = (l.map (· * (b * num / T (l.map (· * c))))).map (k * ·) := by
          simp only [List.map_map]
          apply List.map_congr_left
          intro x _
          simp only [Function.comp]; ring
        have hl : l.length = (l.map (· * (b * num / T (l.map (· * c))))).length := by simp
        rw [e, ht, hl, integrateEnd_unit kind fast h]
        simp only [List.length_map]

theorem cutZeros_map (grid : List ℝ) (ub k : ℝ) :
    (gridCut4 grid ub).2 = (gridCut4 grid ub).2.map (k * ·) := by
  unfold gridCut4 pyZeros
  simp

theorem zip_scale (k : ℝ) (A f B : List ℝ) :
    List.zipWith (· + ·) (A.map (k * ·)) (List.zipWith (· * ·) f (B.map (k * ·)))
      = (List.zipWith (· + ·) A (List.zipWith (· * ·) f B)).map (k * ·) := by
  induction A generalizing f B with
  | nil => simp
  | cons a A ih =>
    cases f with
    | nil => simp
    | cons x f =>
      cases B with
      | nil => simp
      | cons b B =>
        simp only [List.map_cons, List.zipWith_cons_cons, ih]
        congr 1; ring

theorem append_unit {k c c' : ℝ} (h : k * c' = c) (grid : List ℝ) (ub : ℝ) (l : List ℝ) :
    (l.map (k * ·) ++ (gridCut4 grid ub).2).map (· * c') = (l ++ (gridCut4 grid ub).2).map (· * c) := by
  rw [cutZeros_map grid ub k, ← List.map_append, map_unit h, ← cutZeros_map grid ub k]

/-- **C88.** The result of `FourParticleIntegral.integrate` does not depend on `params.aT`, the unit in which
it measures momenta, masses and temperatures: for every reaction, kind, grid and thread schedule. Matrix
elements must be of the form `K1 (pᵢ·pⱼ)(pₖ·pₗ) + K2 mᵢmⱼ (pₖ·pₗ)`; see `C85_constant_wrong` for a
constant `K`. -/
theorem C88_unit_free (c : Int4 ι) (p : Params) (sched : List (List ℕ)) {lam : ℝ} (hlam : 0 < lam)
    (haT : p.aT ≠ 0) (hK : ∀ M ∈ c.Ms, M.K = 0) :
    integrate4 c { p with aT := lam * p.aT } sched = integrate4 c p sched := by
  have hi : 0 < lam⁻¹ := inv_pos.2 hlam
  have hr : c.reaction { p with aT := lam * p.aT } = fun i => scaleR lam⁻¹ (c.reaction p i) := by
    funext i
    simp only [Int4.reaction, toC_unit _ _ p haT hlam.ne', scaleR]
  have hdiv : ∀ x : ℝ, x / (lam * p.aT) = lam⁻¹ * (x / p.aT) := fun x => by field_simp
  have hps : ∀ l : List ℝ, l.map (· / (lam * p.aT)) = (l.map (· / p.aT)).map (lam⁻¹ * ·) := by
    intro l
    rw [List.map_map]
    exact List.map_congr_left fun x _ => hdiv x
  have hc : constant4 c.GF (c.sp 0).dof c.majorana c.mult { p with aT := lam * p.aT }
      = lam ^ 5 * constant4 c.GF (c.sp 0).dof c.majorana c.mult p := constant4_unit _ _ _ _ _ _
  have hk : lam⁻¹ ^ 5 ≠ 0 := by positivity
  set const := constant4 c.GF (c.sp 0).dof c.majorana c.mult p with hconst
  have hcc : lam⁻¹ ^ 5 * (lam ^ 5 * const) = const := by
    rw [← mul_assoc, ← mul_pow, inv_mul_cancel₀ hlam.ne', one_pow, one_mul]
  unfold integrate4
  dsimp only
  split_ifs with hn hkind
  · rfl
  · rw [hr, hps]
    simp only [hdiv, sc_integration4 hi _ _ _ _ _ _ _ _ _ _ (head_toCM hK), hc]
    rw [← hconst]
    cases integration4Exact (c.reaction p) (c.Ms.map (toCM c.GF)) CKind.f1.toInt
        ((gridCut4 (c.sp 0).grid c.ub).1.map (· / p.aT)) (c.min1 / p.aT) (c.max1 / p.aT)
        (c.min2 / p.aT) (c.max2 / p.aT) (c.max3 / p.aT) sched with
    | error e => rfl
    | ok A =>
      cases integration4Exact (c.reaction p) (c.Ms.map (toCM c.GF)) CKind.ff.toInt
          ((gridCut4 (c.sp 0).grid c.ub).1.map (· / p.aT)) (c.min1 / p.aT) (c.max1 / p.aT)
          (c.min2 / p.aT) (c.max2 / p.aT) (c.max3 / p.aT) sched with
      | error e => rfl
      | ok B =>
        have hd : (((gridCut4 (c.sp 0).grid c.ub).1.map (· / p.aT)).map (lam⁻¹ * ·)).mapM
              (fun x => particleDistribution (c.sp 0) { p with aT := lam * p.aT } (c.st 0)
                (x * (lam * p.aT)))
            = ((gridCut4 (c.sp 0).grid c.ub).1.map (· / p.aT)).mapM
              (fun x => particleDistribution (c.sp 0) p (c.st 0) (x * p.aT)) := by
          rw [List.mapM_map]
          congr 1
          funext x
          simp only [Function.comp]
          rw [show lam⁻¹ * x * (lam * p.aT) = x * p.aT by field_simp]
          rfl
        simp only [Except.map, bind, Except.bind]
        rw [hd]
        cases ((gridCut4 (c.sp 0).grid c.ub).1.map (· / p.aT)).mapM
              (fun x => particleDistribution (c.sp 0) p (c.st 0) (x * p.aT)) with
        | error e => rfl
        | ok f =>
          simp only [zip_scale, append_unit hcc]
  · rw [hr, hps]
    simp only [hdiv, sc_integration4 hi _ _ _ _ _ _ _ _ _ _ (head_toCM hK), hc]
    rw [← hconst]
    cases integration4Exact (c.reaction p) (c.Ms.map (toCM c.GF)) c.kind.toInt
        ((gridCut4 (c.sp 0).grid c.ub).1.map (· / p.aT)) (c.min1 / p.aT) (c.max1 / p.aT)
        (c.min2 / p.aT) (c.max2 / p.aT) (c.max3 / p.aT) sched with
    | error e => rfl
    | ok A =>
      simp only [Except.map, bind, Except.bind]
      have e : A.map (lam⁻¹ ^ 5 * ·) ++ (gridCut4 (c.sp 0).grid c.ub).2
          = (A ++ (gridCut4 (c.sp 0).grid c.ub).2).map (lam⁻¹ ^ 5 * ·) := by
        rw [List.map_append, ← cutZeros_map]
      rw [e, List.length_map, tail4_unit _ _ _ _ _ _ hk hcc]

/-- The reaction in physical units: masses as they are, momenta and temperatures divided by the scale
factor. -/
noncomputable def physicalReaction (c : Int4 ι) (a : ℝ) (i : Fin 4) : Reactant where
  side := c.side i
  specie :=
    { eta := (c.sp i).eta, m := (c.sp i).mass, grid := (c.sp i).grid.map (· / a), dist := (c.st i).dist
      inEq := inEq (c.sp i) (c.st i), T := (c.st i).aT / a }

/-- **C88.** The two arrays of a `Full` integral are the textbook collision term: the double integral over
*physical* momenta `y / a` with the physical masses and the matrix elements as given, divided by
`64 π³ g H`, and by `x` when the step variable is not logarithmic. The normalisation of the matrix
elements by `32 G_F²` and the unit `aT` drop out. -/
theorem C88_physical (c : Int4 ι) (p : Params) (sched : List (List ℕ)) (hGF : c.GF ≠ 0) (ha : 0 < p.a)
    (haT : 0 < p.aT) (hK : ∀ M ∈ c.Ms, M.K = 0) (hn : c.neglect = false)
    (hkind : c.kind = .full) (hfast : (c.sp 0).fastDecay = false) {A B f : List ℝ}
    (hA : integration4Exact (physicalReaction c p.a) c.Ms 1 ((gridCut4 (c.sp 0).grid c.ub).1.map (· / p.a))
      (c.min1 / p.a) (c.max1 / p.a) (c.min2 / p.a) (c.max2 / p.a) (c.max3 / p.a) sched = .ok A)
    (hB : integration4Exact (physicalReaction c p.a) c.Ms 2 ((gridCut4 (c.sp 0).grid c.ub).1.map (· / p.a))
      (c.min1 / p.a) (c.max1 / p.a) (c.min2 / p.a) (c.max2 / p.a) (c.max3 / p.a) sched = .ok B)
    (hf : (gridCut4 (c.sp 0).grid c.ub).1.mapM (particleDistribution (c.sp 0) p (c.st 0)) = .ok f) :
    let rate := c.mult / (64 * Real.pi ^ 3 * p.H * (if c.majorana then (c.sp 0).dof else (c.sp 0).dof / 2))
      / (if p.log then 1 else p.x)
    integrate4 c p sched = .ok (.two
      ((List.zipWith (· + ·) A (List.zipWith (· * ·) f B) ++ (gridCut4 (c.sp 0).grid c.ub).2).map (rate * ·))
      ((B ++ (gridCut4 (c.sp 0).grid c.ub).2).map (rate * ·))) := by
  intro rate
  have hu : (32 * c.GF ^ 2)⁻¹ ≠ 0 := by positivity
  have hp : integrate4 c p sched = integrate4 c { p with aT := p.a } sched := by
    have := C88_unit_free c p sched (lam := p.a / p.aT) (by positivity) haT.ne' hK
    rw [div_mul_cancel₀ _ haT.ne'] at this
    exact this.symm
  rw [hp]
  have hM : c.Ms.map (toCM c.GF) = c.Ms.map (scaleM (32 * c.GF ^ 2)⁻¹) := by
    apply List.map_congr_left
    intro M _
    simp only [toCM, scaleM, CM.mk.injEq, true_and]
    refine ⟨by ring, by ring, by ring⟩
  have hr : c.reaction { p with aT := p.a } = physicalReaction c p.a := by
    funext i
    simp only [Int4.reaction, toC, physicalReaction]
    rw [mul_div_cancel_right₀ _ ha.ne']
  have hconst : (32 * c.GF ^ 2)⁻¹ * constant4 c.GF (c.sp 0).dof c.majorana c.mult { p with aT := p.a }
      = rate := by
    unfold constant4 dofFactor
    simp only [rate, div_self ha.ne']
    have h3 : (32 * c.GF ^ 2) ≠ 0 := by positivity
    split_ifs <;> field_simp
  unfold integrate4
  dsimp only
  rw [hr, hM]
  simp only [hn, hkind, hfast, cp_integration4 hu, CKind.toInt, hA, hB]
  have hd : ((gridCut4 (c.sp 0).grid c.ub).1.map (· / p.a)).mapM
      (fun x => particleDistribution (c.sp 0) { p with aT := p.a } (c.st 0) (x * p.a)) = .ok f := by
    rw [← hf, List.mapM_map]
    congr 1
    funext x
    simp only [Function.comp]
    rw [div_mul_cancel₀ _ ha.ne']
    rfl
  simp only [Except.map, bind, Except.bind, Bool.false_eq_true, if_false, true_or, not_false_eq_true,
    and_self, if_true, hd, zip_scale, append_unit hconst]
  simp only [mul_comm rate]

section Example
/-- A fermion of mass 3 and three massless ones, partly occupied, on the grid `0, 1`. -/
private def exSp : Fin 4 → Species := fun i =>
  { name := "X", mass := if i = 0 then 3 else 0, dof := 2, fermion := true, thermalDyn := false, Q := 0,
    grid := [0, 1], fastDecay := false, lifetime := 0 }
private noncomputable def exSt : Fin 4 → PState ℕ := fun _ =>
  { T := 1, aT := 1, Tdec := 0, dist := [1/2, 1/4], coll := [], integrals := [],
    tDec := 0, decayed := false, density := 0, histDist := [], histColl := [], histT := [], histDensity := [] }
private noncomputable def exP : Params :=
  { log := true, m := 1, T := 1, a := 1, aIni := 1, x := 1, y := none, aT := 2, t := 1, H := 1, rho := none,
    S := none, Neff := 3, dy := 1, dx := 1, h := 1 }
private noncomputable def exInt : Int4 ℕ :=
  { sp := exSp, st := exSt, side := ![-1, 1, 1, 1], Ms := [⟨![0, 1, 2, 3], 1, 1, 0⟩, ⟨![0, 2, 1, 3], 5, 0, 0⟩],
    GF := 1/3, majorana := false, mult := 1, kind := .full, neglect := false, min1 := 0, max1 := 1, min2 := 0,
    max2 := 1, max3 := 1, ub := 1, creationFast := false, br := none, num := 0, total := fun _ => 0 }

example : integrate4 exInt { exP with aT := 7 * exP.aT } [[1], [0]] = integrate4 exInt exP [[1], [0]] :=
  C88_unit_free exInt exP _ (by norm_num) (by norm_num [exP]) (by simp [exInt])
end Example

end PyBBN
