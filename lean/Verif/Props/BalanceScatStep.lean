import Verif.Props.BalanceScat
import Verif.Props.Balance4Step
/-!
# C104 at the level of `FourParticleIntegral.integrate`

The arrays returned by `integrate` for the four species of `a + b → c + d`: the split `A + f B`, constants, comoving
momenta, degrees of freedom.
-/
namespace PyBBN
open MeasureTheory

variable {ι : Type*}

/-- The integral of one species of a scattering as `integrate` sees it: its own particle first, its partner second, and
the sides written so that its own is the left one. -/
structure SeenScat (c c' : Int4 ι) (i : Fin 4) (σ : Equiv.Perm (Fin 4)) : Prop where
  own : σ 0 = i
  partner : σ 1 = mate i
  sp : ∀ j, c'.sp j = c.sp (σ j)
  st : ∀ j, c'.st j = c.st (σ j)
  side : ∀ j, c'.side j = -c.side i * c.side (σ j)
  Ms : c'.Ms = viewMs c.Ms σ
  GF : c'.GF = c.GF

/-- **C104 for `integrate`.** The arrays which the four species of `a + b → c + d` obtain from `integrate` on grids up
to comoving momenta `P` are samples of four functions.  Weighted with the degrees of freedom, particles on the same
side are gained and lost together; if no event is inside the grids of one side only, each `a` lost is one `c`
gained and the comoving energy of the four species does not change. -/
theorem C104_integrate (c : Fin 4 → Int4 ι) (p : Params) (sched : Fin 4 → List (List ℕ)) (P : Fin 4 → ℝ)
    (σ : Fin 4 → Equiv.Perm (Fin 4)) (haT : 0 < p.aT) (ha : 0 < p.a)
    (hs : ∀ i, (c 0).side i = ![-1, -1, 1, 1] i) (hseen : ∀ i, SeenScat (c 0) (c i) i (σ i)) (hpl : ∀ i, Plain4 (c i))
    (hm : ∀ i, 0 ≤ ((c 0).sp i).mass)
    (hMs : (c 0).Ms ≠ []) (hK : ∀ M ∈ (c 0).Ms, M.K = 0) (ho : ∀ M ∈ (c 0).Ms, M.order.Bijective)
    (hP : ∀ i, 0 ≤ P i) (hP' : ∀ i, (c i).max1 = P (mate i))
    (hwhole : ∀ i, ∀ y ∈ ((c i).sp 0).grid, y ≤ (c i).ub)
    (hthr : ∀ i, 3 * (((c 0).sp (σ i 2)).mass + ((c 0).sp (σ i 3)).mass - ((c 0).sp i).mass) * p.a ≤ P (mate i))
    (hcov : ∀ i, Covers4 (c i) (sched i)) (hreg : ∀ i, Regular (toC ((c 0).sp i) ((c 0).st i) p)) :
    ∃ f J : Fin 4 → ℝ → ℝ,
      (∀ i q, 0 ≤ q → occAt (toC ((c 0).sp i) ((c 0).st i) p) q = .ok (f i q)) ∧
      (∀ i, Returns4 (c i) p (sched i) (J i)) ∧
      Balanced (fun i => ((c 0).sp i).mass * p.a) P (fun i y => (c i).weight * J i y)
        (Confined ((c 0).reaction p) f fun i => P i / p.aT) := by
  have hr : ∀ i, (c i).reaction p = viewOf ((c 0).reaction p) (σ i) (-((c 0).reaction p i).side) := by
    intro i
    funext j
    change (⟨toC ((c i).sp j) ((c i).st j) p, (c i).side j⟩ : Reactant) = ⟨toC _ _ p, -(c 0).side i * (c 0).side _⟩
    rw [(hseen i).sp, (hseen i).st, (hseen i).side]
  have hMsi : ∀ i, (c i).Ms.map (toCM (c i).GF) = viewMs ((c 0).Ms.map (toCM (c 0).GF)) (σ i) := by
    intro i
    rw [(hseen i).Ms, (hseen i).GF, toCM_view]
  have hmass : ∀ i, ((c 0).reaction p i).specie.m = ((c 0).sp i).mass * p.a / p.aT := fun i => rfl
  obtain ⟨f, A, B, hocc, hsam, b1, b2, b3⟩ := C104_spectra ((c 0).reaction p) ((c 0).Ms.map (toCM (c 0).GF))
    (fun i => P i / p.aT) ⟨hs 0, hs 1, hs 2, hs 3⟩
    (fun i => by rw [hmass]; have := hm i; positivity)
    (fun i => div_nonneg (hP i) haT.le) (fun i => by
      change ((c 0).sp i).eta = 1 ∨ ((c 0).sp i).eta = -1
      unfold Species.eta; split_ifs <;> simp) hreg (by simpa using hMs)
    (by
      intro M hM
      obtain ⟨M', h, rfl⟩ := List.mem_map.mp hM
      change M'.K / _ = 0
      rw [hK M' h, zero_div])
    (by
      intro M hM
      obtain ⟨M', h, rfl⟩ := List.mem_map.mp hM
      exact ho M' h)
    σ (fun i => (hseen i).own) (fun i => (hseen i).partner)
    (by
      intro i
      rw [hmass, hmass, hmass, le_div_iff₀ haT]
      have := hthr i
      calc _ = 3 * (((c 0).sp (σ i 2)).mass + ((c 0).sp (σ i 3)).mass - ((c 0).sp i).mass) * p.a := by
            field_simp
        _ ≤ _ := this)
    (fun _ => 0) (fun i => (c i).min2 / p.aT) (fun i => (c i).max2 / p.aT) (fun i => (c i).max3 / p.aT)
  set κ := common4 (c 0).GF p with hκ
  set I : Fin 4 → ℝ → ℝ := fun i q => A i q + f i q * B i q with hI
  have hGF : ∀ i, common4 (c i).GF p = κ := fun i => by rw [(hseen i).GF]
  have w : ∀ i, (c i).weight * (κ / dofFactor (c i).majorana ((c i).sp 0).dof * (c i).mult) = κ := by
    intro i
    unfold Int4.weight; have := (hpl i).dof; have := (hpl i).mult; field_simp
  refine ⟨f, fun i y => I i (y / p.aT) * (κ / dofFactor (c i).majorana ((c i).sp 0).dof * (c i).mult), hocc, ?_, ?_⟩
  · intro i
    rw [← hGF i]
    refine returns4_of (c i) p (sched i) (A i) (B i) (f i) haT (hpl i)
      (by rw [(hseen i).sp]; exact hm _) (hcov i) ?_ ?_ ?_
    · intro q hq
      rw [hr i]
      change occAt ((c 0).reaction p (σ i 0)).specie q = _
      rw [(hseen i).own]; exact hocc i q hq
    · intro ps _ hv
      rw [hr i, hMsi i, hP' i, ← (hseen i).partner]
      exact hsam i ps _ hv
    · intro y hy hub
      exact absurd hub (not_lt.mpr (hwhole i y hy))
  · have eJ : (fun i y => (c i).weight * (I i (y / p.aT) *
        (κ / dofFactor (c i).majorana ((c i).sp 0).dof * (c i).mult))) = fun i y => I i (y / p.aT) * κ := by
      funext i y
      linear_combination I i (y / p.aT) * w i
    rw [eJ]
    refine ⟨?_, ?_, fun hc => ⟨?_, ?_⟩⟩
    · dsimp only
      rw [number_scale_Ioc _ _ _ haT (hP 0), number_scale_Ioc _ _ _ haT (hP 1)]
      exact congrArg _ b1
    · dsimp only
      rw [number_scale_Ioc _ _ _ haT (hP 2), number_scale_Ioc _ _ _ haT (hP 3)]
      exact congrArg _ b2
    · dsimp only
      rw [number_scale_Ioc _ _ _ haT (hP 2), number_scale_Ioc _ _ _ haT (hP 0), ← mul_neg]
      exact congrArg _ (b3 hc).1
    · have := (b3 hc).2
      have e : ∀ i, ∫ y in Set.Ioc 0 (P i), y ^ 2 * energyOf (((c 0).sp i).mass * p.a) y * (I i (y / p.aT) * κ) =
          p.aT ^ 4 * κ * ∫ q in Set.Ioc 0 (P i / p.aT), q ^ 2 * energyOf (((c 0).sp i).mass * p.a / p.aT) q * I i q :=
        fun i => energy_scale3_Ioc _ _ _ _ haT (hP i) _
      simp only [e]
      rw [← Finset.mul_sum]
      change _ * (∑ i, ∫ q in Set.Ioc 0 (P i / p.aT), q ^ 2 * energyOf (((c 0).reaction p i).specie.m) q * I i q) = 0
      rw [this, mul_zero]

section Example
/-- Fermions of masses 1, 0, 1, 0. -/
private def scat4Sp : Fin 4 → Species := fun i =>
  { name := "X", mass := ![1, 0, 1, 0] i, dof := ![2, 2, 4, 2] i, fermion := true, thermalDyn := false, Q := 0,
    grid := [0, 1, 12], fastDecay := false, lifetime := 0 }
private noncomputable def scat4St : Fin 4 → PState ℕ := fun i =>
  { T := 1, aT := 1, Tdec := 2, dist := ![[1/2, 1/4, 1/8], [1/3, 0, 0], [1/5, 1/6, 0], [1/2, 1/2, 0]] i, coll := [],
    integrals := [], tDec := 0, decayed := false, density := 0, histDist := [], histColl := [], histT := [],
    histDensity := [] }
private noncomputable def scat4P : Params :=
  { log := true, m := 1, T := 1/2, a := 2, aIni := 1, x := 1, y := none, aT := 1, t := 1, H := 1, rho := none,
    S := none, Neff := 3, dy := 1, dx := 1, h := 1 }
private def scat4Perm : Fin 4 → Equiv.Perm (Fin 4) :=
  ![1, Equiv.swap 0 1, Equiv.swap 0 2 * Equiv.swap 1 3, Equiv.swap 0 3 * Equiv.swap 1 2]
private noncomputable def scat4C (i : Fin 4) : Int4 ℕ :=
  { sp := fun j => scat4Sp (scat4Perm i j), st := fun j => scat4St (scat4Perm i j), side := ![-1, -1, 1, 1],
    Ms := viewMs [⟨id, 1, 2, 0⟩] (scat4Perm i), GF := 1, majorana := false, mult := 1, kind := .full, neglect := false,
    min1 := 0, max1 := 12, min2 := 0, max2 := 12, max3 := 12, ub := 12, creationFast := false, br := none, num := 0,
    total := fun _ => 0 }

/-- Four integrals of the same scattering; one of the species has four degrees of freedom. -/
example : ∃ J : Fin 4 → ℝ → ℝ, (∀ i, Returns4 (scat4C i) scat4P (oneThread4 (scat4C i)) (J i)) ∧
    (∫ y in Set.Ioc 0 12, y ^ 2 * ((scat4C 2).weight * J 2 y)) =
      ∫ y in Set.Ioc 0 12, y ^ 2 * ((scat4C 3).weight * J 3 y) := by
  have reg : ∀ i, Regular (toC (scat4Sp i) (scat4St i) scat4P) := by
    intro i
    refine regular_toC _ _ _ (by norm_num [scat4P]) [1, 12] ?_ rfl (by norm_num [scat4Sp, StrictInc]) ?_
      (by norm_num [scat4St]) ?_
    · simp [inEq, scat4Sp]
    · fin_cases i <;> rfl
    · fin_cases i <;> norm_num [scat4St, scat4Sp]
  have ms : ∀ i, 0 ≤ (scat4Sp i).mass ∧ (scat4Sp i).mass ≤ 1 := by
    intro i; fin_cases i <;> norm_num [scat4Sp]
  have hside : ∀ i j : Fin 4, (![-1, -1, 1, 1] : Fin 4 → ℤ) j =
      -(![-1, -1, 1, 1] : Fin 4 → ℤ) i * (![-1, -1, 1, 1] : Fin 4 → ℤ) (scat4Perm i j) := by
    intro i; fin_cases i <;> decide
  obtain ⟨f, J, -, hJ, -, hb, -⟩ := C104_integrate scat4C scat4P (fun i => oneThread4 (scat4C i)) (fun _ => 12) scat4Perm
    (by norm_num [scat4P]) (by norm_num [scat4P]) (fun i => rfl)
    (fun i => ⟨by fin_cases i <;> rfl, by fin_cases i <;> rfl, fun j => rfl, fun j => rfl, fun j => hside i j, rfl, rfl⟩)
    (fun i =>
      { kind := Or.inl rfl, slow := rfl, active := rfl, min1 := rfl, grid := List.cons_ne_nil _ _
        nonneg := by norm_num [scat4C, scat4Sp]
        inc := by norm_num [scat4C, scat4Sp, StrictInc]
        stored := by
          change (scat4St (scat4Perm i 0)).dist.length = 3
          generalize scat4Perm i 0 = i
          fin_cases i <;> rfl
        dof := by
          change dofFactor false (scat4Sp (scat4Perm i 0)).dof ≠ 0
          generalize scat4Perm i 0 = i
          fin_cases i <;> norm_num [scat4Sp, dofFactor]
        mult := one_ne_zero })
    (fun i => (ms i).1) (List.cons_ne_nil _ _)
    (by intro M hM; rw [List.mem_singleton.mp hM])
    (by intro M hM; rw [List.mem_singleton.mp hM]; exact Function.bijective_id)
    (by norm_num) (fun _ => rfl)
    (by
      intro i
      change ∀ y ∈ [(0 : ℝ), 1, 12], y ≤ 12
      norm_num)
    (fun i => by
      change 3 * ((scat4Sp (scat4Perm 0 (scat4Perm i 2))).mass + (scat4Sp (scat4Perm 0 (scat4Perm i 3))).mass -
        (scat4Sp (scat4Perm 0 i)).mass) * 2 ≤ 12
      linarith [(ms (scat4Perm 0 (scat4Perm i 2))).2, (ms (scat4Perm 0 (scat4Perm i 3))).2, (ms (scat4Perm 0 i)).1])
    (fun i => covers4_oneThread _) reg
  exact ⟨J, hJ, hb⟩
end Example

end PyBBN
