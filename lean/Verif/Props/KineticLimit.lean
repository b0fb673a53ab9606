import Verif.Props.Universe
import Mathlib.Analysis.SpecialFunctions.Log.Basic
import Mathlib.Analysis.SpecialFunctions.Exp
import Mathlib.Analysis.Calculus.MeanValue
/-!
# C120: what the steps of a distribution tend to when the step is refined
-/
namespace PyBBN

variable {ι : Type*}

/-! ## The solver at small steps -/

theorem dotZip_le (bs fs : List ℝ) (G : ℝ) (hG : 0 ≤ G) (h : ∀ f ∈ fs, |f| ≤ G) :
    |dotZip bs fs| ≤ (bs.map abs).sum * G := by
  induction bs generalizing fs with
  | nil => simp [dotZip]
  | cons b bs ih =>
    cases fs with
    | nil =>
      simp only [dotZip, List.zipWith_nil_right, List.sum_nil, abs_zero]
      exact mul_nonneg (List.sum_nonneg (by simp only [List.mem_map]; rintro x ⟨y, _, rfl⟩; exact abs_nonneg y)) hG
    | cons f fs =>
      have h1 := h f (by simp)
      have h2 := ih fs (fun g hg => h g (by simp [hg]))
      simp only [dotZip, List.zipWith_cons_cons, List.sum_cons, List.map_cons] at h2 ⊢
      refine (abs_add_le _ _).trans ?_
      rw [abs_mul, add_mul]
      exact add_le_add (mul_le_mul_of_nonneg_left h1 (abs_nonneg b)) h2

/-- The output of the solver is the old value up to terms of the order of the step. -/
theorem adamsMoulton_near (y A B h G M c : ℝ) (fs : List ℝ) (h0 : 0 ≤ h) (hG : 0 ≤ G) (hfs : ∀ f ∈ fs, |f| ≤ G)
    (hA : |A| ≤ G) (hB : |B| ≤ M) (hc : adamsMoulton y fs A B h none = .ok c) :
    ∃ e d : ℝ, |e| ≤ 2 * h * G ∧ |d| ≤ h * M ∧ c = (y + e) / (1 - d) := by
  unfold adamsMoulton at hc
  simp only at hc
  split at hc
  · cases hc
  · rename_i bs dv hco
    split_ifs at hc with hl
    simp only [Except.ok.injEq] at hc
    have hcoef : 0 < dv ∧ (bs.map abs).sum ≤ 2 * dv ∧ |bs.getLastD 0| ≤ dv := by
      have h1 : 1 ≤ min maxAM (fs.length + 1) := by unfold maxAM; omega
      have h5 : min maxAM (fs.length + 1) ≤ 5 := by unfold maxAM; omega
      generalize min maxAM (fs.length + 1) = k at *
      interval_cases k <;> simp only [amCoefficients, Option.some.injEq, Prod.mk.injEq] at hco <;>
        obtain ⟨rfl, rfl⟩ := hco <;> norm_num
    obtain ⟨hd, hs, hlast⟩ := hcoef
    have hm : ∀ f ∈ pyLast fs (min maxAM (fs.length + 1) - 1) ++ [A], |f| ≤ G := by
      intro f hf
      simp only [List.mem_append, List.mem_singleton] at hf
      rcases hf with hf | rfl
      · refine hfs f ?_
        unfold pyLast at hf
        split_ifs at hf
        · exact hf
        · exact List.mem_of_mem_drop hf
      · exact hA
    have hdot := dotZip_le bs _ G hG hm
    refine ⟨_, _, ?_, ?_, hc.symm⟩
    · rw [abs_div, abs_mul, abs_of_nonneg h0, abs_of_pos hd, div_le_iff₀ hd]
      have : h * |dotZip bs (pyLast fs (min maxAM (fs.length + 1) - 1) ++ [A])| ≤ h * (2 * dv * G) :=
        mul_le_mul_of_nonneg_left (hdot.trans (mul_le_mul_of_nonneg_right hs hG)) h0
      linarith
    · rw [abs_div, abs_mul, abs_mul, abs_of_nonneg h0, abs_of_pos hd, div_le_iff₀ hd]
      exact mul_le_mul (mul_le_mul_of_nonneg_left hB h0) hlast (abs_nonneg _)
        (mul_nonneg h0 ((abs_nonneg _).trans hB))

/-- Consequences for a bounded history. -/
theorem solver_bounds (y A B h W M c : ℝ) (fs : List ℝ) (h0 : 0 ≤ h) (h16 : 16 * h ≤ 1) (hM : h * M ≤ 1 / 2)
    (hy0 : 0 ≤ y) (hyW : y + M ≤ W) (hfs : ∀ f ∈ fs, |f| ≤ 4 * W)
    (hA : |A| ≤ M) (hB : |B| ≤ M) (hc : adamsMoulton y fs A B h none = .ok c) :
    |c| ≤ 4 * W ∧ |c - y| ≤ h * ((16 + 2 * M) * W) := by
  have hM0 : 0 ≤ M := (abs_nonneg _).trans hA
  have hW : 0 ≤ W := by linarith
  obtain ⟨e, d, he, hd, rfl⟩ := adamsMoulton_near y A B h (4 * W) M c fs h0 (by linarith) hfs
    (hA.trans (by linarith)) hB hc
  have hd1 : 1 / 2 ≤ 1 - d := by
    have := le_abs_self d
    linarith
  have hpos : 0 < 1 - d := by linarith
  constructor
  · rw [abs_div, abs_of_pos hpos, div_le_iff₀ hpos]
    have h1 : |y + e| ≤ y + 2 * h * (4 * W) := by
      refine (abs_add_le _ _).trans ?_
      rw [abs_of_nonneg hy0]; linarith
    have h2 : 2 * h * (4 * W) ≤ W / 2 := by nlinarith
    nlinarith
  · have e1 : (y + e) / (1 - d) - y = (e + d * y) / (1 - d) := by
      field_simp; ring
    rw [e1, abs_div, abs_of_pos hpos, div_le_iff₀ hpos]
    have h1 : |e + d * y| ≤ 2 * h * (4 * W) + h * M * W := by
      refine (abs_add_le _ _).trans (add_le_add he ?_)
      rw [abs_mul, abs_of_nonneg hy0]
      exact mul_le_mul hd (by linarith) hy0 (mul_nonneg h0 hM0)
    have h2 : 0 ≤ h * ((16 + 2 * M) * W) := by positivity
    nlinarith

/-! ## One step of a decoupled massless species -/

theorem zipWith_getElem_max (l c : List ℝ) (h : ℝ) (hl : c.length = l.length) (k : ℕ) (hk : k < l.length) :
    (List.zipWith (fun f i : ℝ => max (f + i * h) 0) l c)[k]? =
      some (max (l[k] + c[k]'(by omega) * h) 0) := by
  rw [List.getElem?_eq_getElem (by simp; omega)]
  simp

/-- What one step does: the solver's output is used as a slope. -/
theorem massless_step (sp : Species) (dens : PState ι → Params → ℝ) (ints : List ι)
    (AB B : PState ι → ℕ → ℝ) (p : Params) (s : PState ι) (hm : sp.mass = 0)
    (hsp : sp.thermalDyn = true ∨ sp.Q = 0) (hs : StrictInc sp.grid)
    (hlen : s.dist.length = sp.grid.length) (hne : ints ≠ []) (hdec : s.decayed = false)
    (hpT : p.T < s.Tdec) (ho : inEq sp s = false) (ha : s.aT / p.a ≤ s.Tdec) :
    ∃ (s' : PState ι) (c : List ℝ) (u : PState ι), particleStep sp dens ints AB B p s = .ok s' ∧
      c.length = sp.grid.length ∧ s'.dist = List.zipWith (fun f i => max (f + i * p.h) 0) s.dist c ∧
      s'.histColl = s.histColl ++ [c] ∧ s'.aT = s.aT ∧ s'.Tdec = s.Tdec ∧ s'.decayed = false ∧
      inEq sp s' = false ∧
      ∀ (k : ℕ) (hk : k < s.dist.length), adamsMoulton s.dist[k]
        ((pyLast s.histColl maxAM).map fun row => (row[k]?).getD 0) (AB u k) (B u k) p.h none =
          .ok ((c[k]?).getD 0) := by
  obtain ⟨-, -, u3, u4, u5, u6, u7⟩ := update_spec sp dens p s
  obtain ⟨ua, uT, ud⟩ := C27_decoupled_frozen sp dens p s ho hsp
  have ho' : inEq sp (particleUpdate sp dens p s) = false := by
    simp only [inEq, Bool.and_eq_false_iff, decide_eq_false_iff_not, not_lt, gt_iff_lt]
    exact Or.inl (by rw [uT, u3]; exact ha)
  simp only [particleStep]
  set u : PState ι := { particleUpdate sp dens p s with integrals := s.integrals ++ ints } with hu
  have hreg : ints.foldl (fun s i => registerIntegral sp p i s) (particleUpdate sp dens p s) = u := by
    rw [register_fold, if_pos ⟨u3.symm ▸ hpT, ho'⟩, u4]
  rw [hreg]
  have hui : u.integrals ≠ [] := by simp [hu, hne]
  have hud : u.dist = s.dist := ud
  have huo : inEq sp u = false := ho'
  have huh : u.histColl = s.histColl := u7
  rw [if_neg hui]
  have hndec : (hasDecayed sp p u).2 = false := by
    unfold hasDecayed
    split
    · rfl
    · rw [if_neg]
      simp [hm]
  have hcd := hasDecayed_false sp p u hndec
  -- the values of the solver
  have htot : ∀ k, ∃ v, adamsMoulton ((s.dist[k]?).getD 0)
      ((pyLast s.histColl maxAM).map fun row => (row[k]?).getD 0) (AB u k) (B u k) p.h none = .ok v :=
    fun k => C15_auto_total _ _ _ _ _
  choose v hv using htot
  have hc : calculateCollision sp p (AB u) (B u) u = .ok (u, (List.range sp.grid.length).map v) := by
    unfold calculateCollision
    rw [if_neg (by
      rintro (h | h)
      · exact hui h
      · have : s.decayed = true := by rw [← u5]; exact h
        rw [hdec] at this; cases this)]
    simp only [hndec, hcd]
    rw [mapM_ok _ v]
    · simp
    · intro k hk
      have hk' : k < sp.grid.length := by simpa using hk
      have hkd : k < s.dist.length := by omega
      have hval := C09_exact_on_grid sp.grid u.dist (sp.mass * u.aT / u.Tdec) u.aT sp.eta hs
        (by rw [hud, hlen]) k hk'
      unfold collComponent particleDistribution
      simp only [List.getElem?_eq_getElem hk', huo, Bool.false_eq_true, if_false]
      rw [hval]
      simp only
      rw [← hv k, huh]
      simp [hud, List.getElem?_eq_getElem hkd]
  rw [hc]
  simp only
  have hlc : ((List.range sp.grid.length).map v).length = u.dist.length := by simp [hud, hlen]
  rw [updateDistribution_ok sp p _ u _ huo (sanitize_map_fin _) hlc]
  refine ⟨_, (List.range sp.grid.length).map v, u, rfl, by simp, by rw [hud], by rw [huh], ua, u3,
    u5.trans hdec, huo, ?_⟩
  intro k hk
  have e := hv k
  rw [List.getElem?_eq_getElem hk, Option.getD_some] at e
  rw [e, List.getElem?_map, List.getElem?_range (by omega)]
  rfl

/-! ## Many steps -/

/-- A sequence of steps of one species; terms and parameters may differ from step to step. -/
def Steps (sp : Species) (dens : PState ι → Params → ℝ) (ints : List ι) (AB B : ℕ → PState ι → ℕ → ℝ)
    (p : ℕ → Params) (s : ℕ → PState ι) (N : ℕ) : Prop :=
  ∀ n < N, particleStep sp dens ints (AB n) (B n) (p n) (s n) = .ok (s (n + 1))

/-- The facts kept along the way. -/
structure KinInv (sp : Species) (s₀ s : PState ι) (W M : ℝ) : Prop where
  len : s.dist.length = sp.grid.length
  out : inEq sp s = false
  aT : s.aT = s₀.aT
  Tdec : s.Tdec = s₀.Tdec
  dec : s.decayed = false
  nonneg : ∀ f ∈ s.dist, 0 ≤ f
  bound : ∀ f ∈ s.dist, f + M ≤ W
  hist : ∀ row ∈ s.histColl, ∀ f ∈ row, |f| ≤ 4 * W

theorem kin_step (sp : Species) (dens : PState ι → Params → ℝ) (ints : List ι)
    (AB B : PState ι → ℕ → ℝ) (p : Params) (s₀ s : PState ι) (W M : ℝ) (hm : sp.mass = 0)
    (hsp : sp.thermalDyn = true ∨ sp.Q = 0) (hs : StrictInc sp.grid) (hne : ints ≠ [])
    (hpT : p.T < s₀.Tdec) (ha : s₀.aT / p.a ≤ s₀.Tdec) (h0 : 0 ≤ p.h) (h16 : 16 * p.h ≤ 1)
    (hM : p.h * M ≤ 1 / 2) (hM0 : 0 ≤ M) (hMW : M ≤ W)
    (hA : ∀ u k, k < sp.grid.length → |AB u k| ≤ M) (hB : ∀ u k, k < sp.grid.length → |B u k| ≤ M)
    (I : KinInv sp s₀ s W M) :
    ∃ s', particleStep sp dens ints AB B p s = .ok s' ∧ KinInv sp s₀ s' ((1 + 4 * p.h) * W) M ∧
      ∀ k, k < sp.grid.length → |(s'.dist[k]?).getD 0 - (1 + p.h) * (s.dist[k]?).getD 0| ≤
        p.h ^ 2 * ((16 + 2 * M) * W) := by
  obtain ⟨s', c, u, e, hcl, hd, hh, hat, htd, hdc, hout, hsol⟩ := massless_step sp dens ints AB B p s hm hsp hs
    I.len hne I.dec (I.Tdec ▸ hpT) I.out (by rw [I.aT, I.Tdec]; exact ha)
  have hW : 0 ≤ W := hM0.trans hMW
  have hfs : ∀ k : ℕ, ∀ f ∈ (pyLast s.histColl maxAM).map fun row => (row[k]?).getD 0, |f| ≤ 4 * W := by
    intro k f hf
    simp only [List.mem_map] at hf
    obtain ⟨row, hr, rfl⟩ := hf
    have hr' : row ∈ s.histColl := by
      unfold pyLast at hr
      split_ifs at hr
      · exact hr
      · exact List.mem_of_mem_drop hr
    cases hx : row[k]? with
    | none => simp; linarith
    | some x => exact I.hist row hr' x (List.mem_of_getElem? hx)
  have hcb : ∀ (k : ℕ) (hk : k < s.dist.length), |(c[k]?).getD 0| ≤ 4 * W ∧
      |(c[k]?).getD 0 - s.dist[k]| ≤ p.h * ((16 + 2 * M) * W) := fun k hk =>
    solver_bounds _ _ _ _ W M _ _ h0 h16 hM (I.nonneg _ (List.getElem_mem hk))
      (I.bound _ (List.getElem_mem hk)) (hfs k) (hA u k (I.len ▸ hk)) (hB u k (I.len ▸ hk)) (hsol k hk)
  have hval : ∀ (k : ℕ) (hk : k < s.dist.length), s'.dist[k]? =
      some (max (s.dist[k] + (c[k]?).getD 0 * p.h) 0) := by
    intro k hk
    rw [hd, zipWith_getElem_max _ _ _ (by rw [hcl, I.len]) k hk,
      List.getElem?_eq_getElem (by rw [hcl, ← I.len]; exact hk), Option.getD_some]
  have hlen' : s'.dist.length = sp.grid.length := by rw [hd]; simp [hcl, I.len]
  refine ⟨s', e, ⟨hlen', hout, hat.trans I.aT, htd.trans I.Tdec, hdc, ?_, ?_, ?_⟩, ?_⟩
  · intro f hf
    obtain ⟨k, hk, rfl⟩ := List.getElem_of_mem hf
    have hk' : k < s.dist.length := by rw [I.len, ← hlen']; exact hk
    have := hval k hk'
    rw [List.getElem?_eq_getElem hk, Option.some.injEq] at this
    rw [this]; exact le_max_right _ _
  · intro f hf
    obtain ⟨k, hk, rfl⟩ := List.getElem_of_mem hf
    have hk' : k < s.dist.length := by rw [I.len, ← hlen']; exact hk
    have := hval k hk'
    rw [List.getElem?_eq_getElem hk, Option.some.injEq] at this
    rw [this]
    have h1 := I.bound _ (List.getElem_mem hk')
    have h2 := (le_abs_self _).trans (hcb k hk').1
    have h3 : (c[k]?).getD 0 * p.h ≤ 4 * W * p.h := mul_le_mul_of_nonneg_right h2 h0
    have h4 : 0 ≤ 4 * W * p.h := by positivity
    rcases max_choice (s.dist[k] + (c[k]?).getD 0 * p.h) 0 with h | h <;> rw [h] <;> linarith
  · intro row hr f hf
    have hWW : 4 * W ≤ 4 * ((1 + 4 * p.h) * W) := by nlinarith
    rw [hh, List.mem_append, List.mem_singleton] at hr
    rcases hr with hr | rfl
    · exact (I.hist row hr f hf).trans hWW
    · obtain ⟨k, hk, rfl⟩ := List.getElem_of_mem hf
      have hk' : k < s.dist.length := by rw [I.len, ← hcl]; exact hk
      have := (hcb k hk').1
      rw [List.getElem?_eq_getElem hk, Option.getD_some] at this
      exact this.trans hWW
  · intro k hk
    have hk' : k < s.dist.length := by rw [I.len]; exact hk
    rw [hval k hk', List.getElem?_eq_getElem hk', Option.getD_some, Option.getD_some]
    have h1 := (hcb k hk').2
    have hn := I.nonneg _ (List.getElem_mem hk')
    have h2 : 0 ≤ (1 + p.h) * s.dist[k] := by positivity
    calc |max (s.dist[k] + (c[k]?).getD 0 * p.h) 0 - (1 + p.h) * s.dist[k]|
        = |max (s.dist[k] + (c[k]?).getD 0 * p.h) 0 - max ((1 + p.h) * s.dist[k]) 0| := by
          rw [max_eq_left h2]
      _ ≤ |s.dist[k] + (c[k]?).getD 0 * p.h - (1 + p.h) * s.dist[k]| := abs_max_sub_max_le_abs _ _ _
      _ = p.h * |(c[k]?).getD 0 - s.dist[k]| := by
          rw [show s.dist[k] + (c[k]?).getD 0 * p.h - (1 + p.h) * s.dist[k] =
            p.h * ((c[k]?).getD 0 - s.dist[k]) by ring, abs_mul, abs_of_nonneg h0]
      _ ≤ p.h ^ 2 * ((16 + 2 * M) * W) := by nlinarith

/-- Steps below `1 / 16` and `1 / (2 M)` never raise, and the distribution follows `(1 + h) ^ n`. -/
theorem kin_run (sp : Species) (dens : PState ι → Params → ℝ) (ints : List ι)
    (AB B : ℕ → PState ι → ℕ → ℝ) (p : ℕ → Params) (s : ℕ → PState ι) (N : ℕ) (W M h : ℝ) (hm : sp.mass = 0)
    (hsp : sp.thermalDyn = true ∨ sp.Q = 0) (hs : StrictInc sp.grid) (hne : ints ≠ [])
    (hp : ∀ n < N, (p n).h = h ∧ (p n).T < (s 0).Tdec ∧ (s 0).aT / (p n).a ≤ (s 0).Tdec)
    (h0 : 0 ≤ h) (h16 : 16 * h ≤ 1) (hM : h * M ≤ 1 / 2) (hM0 : 0 ≤ M) (hMW : M ≤ W)
    (hA : ∀ n u k, k < sp.grid.length → |AB n u k| ≤ M) (hB : ∀ n u k, k < sp.grid.length → |B n u k| ≤ M)
    (I : KinInv sp (s 0) (s 0) W M)
    (hstep : Steps sp dens ints AB B p s N) :
    ∀ n ≤ N, KinInv sp (s 0) (s n) ((1 + 4 * h) ^ n * W) M ∧ ∀ k, k < sp.grid.length →
      |((s n).dist[k]?).getD 0 - (1 + h) ^ n * ((s 0).dist[k]?).getD 0| ≤
        n * (1 + h) ^ n * (h ^ 2 * ((16 + 2 * M) * ((1 + 4 * h) ^ n * W))) := by
  have hW : 0 ≤ W := hM0.trans hMW
  intro n
  induction n with
  | zero =>
    intro _
    refine ⟨by simpa using I, fun k _ => by simp⟩
  | succ n ih =>
    intro hn
    obtain ⟨I', hc⟩ := ih (by omega)
    obtain ⟨e1, e2, e3⟩ := hp n (by omega)
    have hge : 1 ≤ (1 + 4 * h) ^ n := one_le_pow₀ (by linarith)
    have hge' : (1 + 4 * h) ^ n ≤ (1 + 4 * h) ^ (n + 1) := pow_le_pow_right₀ (by linarith) (by omega)
    have hg1 : 1 ≤ (1 + h) ^ (n + 1) := one_le_pow₀ (by linarith)
    obtain ⟨s', es, I2, hk⟩ := kin_step sp dens ints (AB n) (B n) (p n) (s 0) (s n) _ M hm hsp hs hne e2 e3
      (by rw [e1]; exact h0) (by rw [e1]; exact h16) (by rw [e1]; exact hM) hM0
      (hMW.trans (le_mul_of_one_le_left hW hge)) (hA n) (hB n) I'
    rw [hstep n (by omega), Except.ok.injEq] at es
    subst es
    rw [e1] at I2 hk
    refine ⟨by rw [pow_succ', mul_assoc]; exact I2, fun k hkl => ?_⟩
    have a1 := hk k hkl
    have a2 := hc k hkl
    set f' := ((s (n + 1)).dist[k]?).getD 0
    set f := ((s n).dist[k]?).getD 0
    set f₀ := ((s 0).dist[k]?).getD 0
    set D := h ^ 2 * ((16 + 2 * M) * ((1 + 4 * h) ^ n * W)) with hD
    have hDD : D ≤ h ^ 2 * ((16 + 2 * M) * ((1 + 4 * h) ^ (n + 1) * W)) := by
      rw [hD]; gcongr
    have hD0 : 0 ≤ D := by rw [hD]; positivity
    have e : f' - (1 + h) ^ (n + 1) * f₀ = (f' - (1 + h) * f) + (1 + h) * (f - (1 + h) ^ n * f₀) := by ring
    calc |f' - (1 + h) ^ (n + 1) * f₀| ≤ |f' - (1 + h) * f| + (1 + h) * |f - (1 + h) ^ n * f₀| := by
          rw [e]
          refine (abs_add_le _ _).trans ?_
          rw [abs_mul, abs_of_nonneg (by linarith : (0 : ℝ) ≤ 1 + h)]
      _ ≤ D + (1 + h) * (n * (1 + h) ^ n * D) := by gcongr
      _ ≤ (1 + h) ^ (n + 1) * D + (1 + h) * (n * (1 + h) ^ n * D) := by
          gcongr; exact le_mul_of_one_le_left hD0 hg1
      _ = ((n + 1 : ℕ) : ℝ) * (1 + h) ^ (n + 1) * D := by push_cast; ring
      _ ≤ _ := by gcongr

/-- `(1 + h) ^ n` against the exponential. -/
theorem pow_near_exp (n : ℕ) (h : ℝ) (h0 : 0 ≤ h) :
    |(1 + h) ^ n - Real.exp (n * h)| ≤ n * h * Real.exp (n * h) * h := by
  have h1 : (1 + h) ^ n ≤ Real.exp (n * h) := by
    rw [Real.exp_nat_mul]
    exact pow_le_pow_left₀ (by linarith) (by rw [add_comm]; exact Real.add_one_le_exp h) n
  have h2 : Real.exp (n * h) * (1 - n * h * h) ≤ (1 + h) ^ n := by
    have hpos : 0 < 1 + h := by linarith
    have hl : h - h * h ≤ Real.log (1 + h) := by
      refine le_trans ?_ (Real.one_sub_inv_le_log_of_pos hpos)
      rw [← sub_nonneg]
      have : 1 - (1 + h)⁻¹ - (h - h * h) = h ^ 3 / (1 + h) := by field_simp; ring
      rw [this]; positivity
    have e : (1 + h) ^ n = Real.exp (n * Real.log (1 + h)) := by
      rw [Real.exp_nat_mul, Real.exp_log hpos]
    rw [e]
    calc Real.exp (n * h) * (1 - n * h * h) ≤ Real.exp (n * h) * Real.exp (-(n * h * h)) := by
          gcongr
          have := Real.add_one_le_exp (-(n * h * h))
          linarith
      _ = Real.exp (n * (h - h * h)) := by rw [← Real.exp_add]; congr 1; ring
      _ ≤ _ := by gcongr
  rw [abs_sub_comm, abs_of_nonneg (by linarith)]
  linarith

/-- **C120, refutation.** Refining the step, the distribution of a decoupled massless species for which integrals are
registered does not tend to the solution of its kinetic equation: it tends to `e ^ ℓ` times its initial value, where
`ℓ = N h` is the logarithm of the growth of the scale factor, whatever the collision terms are, as long as they stay
bounded.  The error is at most a constant, given explicitly, times the step. -/
theorem C120_limit (sp : Species) (dens : PState ι → Params → ℝ) (ints : List ι)
    (AB B : ℕ → PState ι → ℕ → ℝ) (p : ℕ → Params) (s : ℕ → PState ι) (N : ℕ) (F M h : ℝ) (hm : sp.mass = 0)
    (hsp : sp.thermalDyn = true ∨ sp.Q = 0) (hs : StrictInc sp.grid) (hne : ints ≠ [])
    (hlen : (s 0).dist.length = sp.grid.length) (hF : ∀ f ∈ (s 0).dist, 0 ≤ f ∧ f ≤ F)
    (hhist : ∀ row ∈ (s 0).histColl, ∀ f ∈ row, |f| ≤ F) (hout : inEq sp (s 0) = false)
    (hdec : (s 0).decayed = false)
    (hp : ∀ n < N, (p n).h = h ∧ (p n).T < (s 0).Tdec ∧ (s 0).aT / (p n).a ≤ (s 0).Tdec)
    (hF0 : 0 ≤ F) (h0 : 0 ≤ h) (h16 : 16 * h ≤ 1) (hM : h * M ≤ 1 / 2) (hM0 : 0 ≤ M)
    (hA : ∀ n u k, k < sp.grid.length → |AB n u k| ≤ M) (hB : ∀ n u k, k < sp.grid.length → |B n u k| ≤ M)
    (hstep : Steps sp dens ints AB B p s N) (k : ℕ) (hk : k < sp.grid.length) :
    |((s N).dist[k]?).getD 0 - Real.exp (N * h) * ((s 0).dist[k]?).getD 0| ≤
      (N * h * Real.exp (5 * (N * h)) * (17 + 2 * M) * (F + M)) * h := by
  have I : KinInv sp (s 0) (s 0) (F + M) M :=
    ⟨hlen, hout, rfl, rfl, hdec, fun f hf => (hF f hf).1, fun f hf => by linarith [(hF f hf).2],
      fun row hr f hf => (hhist row hr f hf).trans (by linarith)⟩
  have hk' : k < (s 0).dist.length := by rw [hlen]; exact hk
  have h1 := (kin_run sp dens ints AB B p s N (F + M) M h hm hsp hs hne hp h0 h16 hM hM0 (by linarith) hA hB I
    hstep N le_rfl).2 k hk
  have h2 := pow_near_exp N h h0
  have hf : 0 ≤ ((s 0).dist[k]?).getD 0 ∧ ((s 0).dist[k]?).getD 0 ≤ F := by
    rw [List.getElem?_eq_getElem hk', Option.getD_some]
    exact hF _ (List.getElem_mem hk')
  set f' := ((s N).dist[k]?).getD 0
  set f₀ := ((s 0).dist[k]?).getD 0
  have hL0 : 0 ≤ (N : ℝ) * h := by positivity
  have b1 : (1 + h) ^ N ≤ Real.exp (N * h) := by
    rw [Real.exp_nat_mul]
    exact pow_le_pow_left₀ (by linarith) (by rw [add_comm]; exact Real.add_one_le_exp h) N
  have b2 : (1 + 4 * h) ^ N ≤ Real.exp (4 * (N * h)) := by
    rw [show 4 * ((N : ℝ) * h) = N * (4 * h) by ring, Real.exp_nat_mul]
    exact pow_le_pow_left₀ (by linarith) (by rw [add_comm]; exact Real.add_one_le_exp _) N
  have b3 : Real.exp (5 * (N * h)) = Real.exp (N * h) * Real.exp (4 * (N * h)) := by
    rw [← Real.exp_add]; congr 1; ring
  have b4 : (1 : ℝ) ≤ Real.exp (4 * (N * h)) := Real.one_le_exp (by positivity)
  set E1 := Real.exp (N * h)
  set E4 := Real.exp (4 * (N * h))
  have hE1 : 0 ≤ E1 := (Real.exp_pos _).le
  have c1 : |f' - (1 + h) ^ N * f₀| ≤ N * h * E1 * ((16 + 2 * M) * (E4 * (F + M))) * h := by
    refine h1.trans ?_
    calc N * (1 + h) ^ N * (h ^ 2 * ((16 + 2 * M) * ((1 + 4 * h) ^ N * (F + M))))
        ≤ N * E1 * (h ^ 2 * ((16 + 2 * M) * (E4 * (F + M)))) := by gcongr
      _ = _ := by ring
  have c2 : |((1 + h) ^ N - E1) * f₀| ≤ N * h * E1 * (E4 * (F + M)) * h := by
    rw [abs_mul, abs_of_nonneg hf.1]
    calc |(1 + h) ^ N - E1| * f₀ ≤ (N * h * E1 * h) * (F + M) := by
          refine mul_le_mul h2 (by linarith [hf.2]) hf.1 (by positivity)
      _ ≤ (N * h * E1 * h) * (E4 * (F + M)) := by
          gcongr; exact le_mul_of_one_le_left (by linarith) b4
      _ = _ := by ring
  have e : f' - E1 * f₀ = (f' - (1 + h) ^ N * f₀) + ((1 + h) ^ N - E1) * f₀ := by ring
  rw [e, b3]
  refine (abs_add_le _ _).trans ((add_le_add c1 c2).trans (le_of_eq ?_))
  ring

/-- Steps as small as required do not raise, so that the runs of `C120_limit` exist. -/
theorem C120_total (sp : Species) (dens : PState ι → Params → ℝ) (ints : List ι)
    (AB B : ℕ → PState ι → ℕ → ℝ) (p : ℕ → Params) (s₀ : PState ι) (N : ℕ) (hm : sp.mass = 0)
    (hsp : sp.thermalDyn = true ∨ sp.Q = 0) (hs : StrictInc sp.grid) (hne : ints ≠ [])
    (hlen : s₀.dist.length = sp.grid.length) (hout : inEq sp s₀ = false) (hdec : s₀.decayed = false)
    (hp : ∀ n < N, (p n).T < s₀.Tdec ∧ s₀.aT / (p n).a ≤ s₀.Tdec) :
    ∃ s : ℕ → PState ι, s 0 = s₀ ∧ Steps sp dens ints AB B p s N := by
  classical
  let next : ℕ → PState ι → PState ι := fun n u =>
    match particleStep sp dens ints (AB n) (B n) (p n) u with
    | .ok v => v
    | .error _ => u
  let s : ℕ → PState ι := fun n => Nat.rec s₀ next n
  refine ⟨s, rfl, ?_⟩
  have inv : ∀ n ≤ N, (s n).dist.length = sp.grid.length ∧ inEq sp (s n) = false ∧ (s n).aT = s₀.aT ∧
      (s n).Tdec = s₀.Tdec ∧ (s n).decayed = false := by
    intro n
    induction n with
    | zero => exact fun _ => ⟨hlen, hout, rfl, rfl, hdec⟩
    | succ n ih =>
      intro hn
      obtain ⟨i1, i2, i3, i4, i5⟩ := ih (by omega)
      obtain ⟨e2, e3⟩ := hp n (by omega)
      obtain ⟨s', c, u, e, hcl, hd, -, hat, htd, hdc, ho, -⟩ := massless_step sp dens ints (AB n) (B n) (p n) (s n)
        hm hsp hs i1 hne i5 (i4 ▸ e2) i2 (by rw [i3, i4]; exact e3)
      have hs' : s (n + 1) = s' := by
        show next n (s n) = s'
        simp only [next, e]
      rw [hs']
      exact ⟨by rw [hd]; simp [hcl, i1], ho, hat.trans i3, htd.trans i4, hdc⟩
  intro n hn
  obtain ⟨i1, i2, i3, i4, i5⟩ := inv n hn.le
  obtain ⟨e2, e3⟩ := hp n hn
  obtain ⟨s', c, u, e, -⟩ := massless_step sp dens ints (AB n) (B n) (p n) (s n)
    hm hsp hs i1 hne i5 (i4 ▸ e2) i2 (by rw [i3, i4]; exact e3)
  have hs' : s (n + 1) = s' := by
    show next n (s n) = s'
    simp only [next, e]
  rw [hs', e]

open Filter Topology in
/-- **C120, refutation, as a limit.** Runs over the same interval `ℓ` of the logarithm of the scale factor with `N` equal
steps: as `N` grows, every occupation number tends to `e ^ ℓ` times its initial value. -/
theorem C120_tendsto (sp : Species) (dens : PState ι → Params → ℝ) (ints : List ι)
    (AB B : ℕ → ℕ → PState ι → ℕ → ℝ) (p : ℕ → ℕ → Params) (s : ℕ → ℕ → PState ι) (s₀ : PState ι) (M ℓ : ℝ)
    (hm : sp.mass = 0) (hsp : sp.thermalDyn = true ∨ sp.Q = 0) (hs : StrictInc sp.grid) (hne : ints ≠ [])
    (hlen : s₀.dist.length = sp.grid.length) (hnn : ∀ f ∈ s₀.dist, 0 ≤ f)
    (hout : inEq sp s₀ = false) (hdec : s₀.decayed = false) (hℓ : 0 ≤ ℓ)
    (hp : ∀ N, ∀ n < N, (p N n).h = ℓ / N ∧ (p N n).T < s₀.Tdec ∧ s₀.aT / (p N n).a ≤ s₀.Tdec)
    (hM0 : 0 ≤ M) (hA : ∀ N n u k, |AB N n u k| ≤ M) (hB : ∀ N n u k, |B N n u k| ≤ M)
    (hs0 : ∀ N, s N 0 = s₀) (hstep : ∀ N, Steps sp dens ints (AB N) (B N) (p N) (s N) N)
    (k : ℕ) (hk : k < sp.grid.length) :
    Tendsto (fun N => ((s N N).dist[k]?).getD 0) atTop (𝓝 (Real.exp ℓ * (s₀.dist[k]?).getD 0)) := by
  obtain ⟨F, hF0, hF, hFh⟩ : ∃ F : ℝ, 0 ≤ F ∧ (∀ f ∈ s₀.dist, f ≤ F) ∧ ∀ row ∈ s₀.histColl, ∀ f ∈ row, |f| ≤ F := by
    refine ⟨((s₀.dist ++ s₀.histColl.flatten).map abs).sum, List.sum_nonneg ?_, ?_, ?_⟩
    · simp only [List.mem_map]; rintro x ⟨y, _, rfl⟩; exact abs_nonneg y
    · intro f hf
      refine (le_abs_self f).trans (List.single_le_sum ?_ _ (List.mem_map_of_mem (by simp [hf])))
      simp only [List.mem_map]; rintro x ⟨y, _, rfl⟩; exact abs_nonneg y
    · intro row hr f hf
      refine List.single_le_sum ?_ _ (List.mem_map_of_mem
        (List.mem_append_right _ (List.mem_flatten.2 ⟨row, hr, hf⟩)))
      simp only [List.mem_map]; rintro x ⟨y, _, rfl⟩; exact abs_nonneg y
  have hlim : Tendsto (fun N : ℕ => ℓ / (N : ℝ)) atTop (𝓝 0) := tendsto_const_div_atTop_nhds_zero_nat ℓ
  have hsmall : ∀ᶠ N : ℕ in atTop, 16 * (ℓ / (N : ℝ)) ≤ 1 ∧ ℓ / (N : ℝ) * M ≤ 1 / 2 ∧ 0 < N := by
    have t1 : Tendsto (fun N : ℕ => 16 * (ℓ / (N : ℝ))) atTop (𝓝 0) := by simpa using hlim.const_mul 16
    have t2 : Tendsto (fun N : ℕ => ℓ / (N : ℝ) * M) atTop (𝓝 0) := by simpa using hlim.mul_const M
    filter_upwards [t1.eventually (gt_mem_nhds one_pos), t2.eventually (gt_mem_nhds (by norm_num : (0 : ℝ) < 1 / 2)),
      eventually_gt_atTop 0] with N a b c
    exact ⟨a.le, b.le, c⟩
  have hbound : ∀ᶠ N : ℕ in atTop, |((s N N).dist[k]?).getD 0 - Real.exp ℓ * (s₀.dist[k]?).getD 0| ≤
      (ℓ * Real.exp (5 * ℓ) * (17 + 2 * M) * (F + M)) * (ℓ / N) := by
    filter_upwards [hsmall] with N hN
    have hNpos : (0 : ℝ) < N := by exact_mod_cast hN.2.2
    have e : (N : ℝ) * (ℓ / N) = ℓ := by field_simp
    have := C120_limit sp dens ints (AB N) (B N) (p N) (s N) N F M (ℓ / N) hm hsp hs hne (by rw [hs0]; exact hlen)
      (by rw [hs0]; exact fun f hf => ⟨hnn f hf, hF f hf⟩) (by rw [hs0]; exact hFh) (by rw [hs0]; exact hout)
      (by rw [hs0]; exact hdec) (by rw [hs0]; exact hp N) hF0 (by positivity) hN.1 hN.2.1 hM0
      (fun n u k _ => hA N n u k) (fun n u k _ => hB N n u k)
      (hstep N) k hk
    rw [e, hs0] at this
    exact this
  rw [tendsto_iff_dist_tendsto_zero]
  have hz : Tendsto (fun N : ℕ => (ℓ * Real.exp (5 * ℓ) * (17 + 2 * M) * (F + M)) * (ℓ / (N : ℝ))) atTop (𝓝 0) := by
    simpa using hlim.const_mul (ℓ * Real.exp (5 * ℓ) * (17 + 2 * M) * (F + M))
  refine squeeze_zero' (Eventually.of_forall fun N => dist_nonneg) ?_ hz
  filter_upwards [hbound] with N hN
  rw [Real.dist_eq]
  exact hN

open Filter Topology in
/-- **C120, refutation, against the equation.** Whatever equation `f' = C` the terms stand for: if its solution `τ`
starts from the same occupation number and `|C|` stays below that number, the runs do not converge to `τ ℓ`. -/
theorem C120_not_solution (sp : Species) (dens : PState ι → Params → ℝ) (ints : List ι)
    (AB B : ℕ → ℕ → PState ι → ℕ → ℝ) (p : ℕ → ℕ → Params) (s : ℕ → ℕ → PState ι) (s₀ : PState ι) (M ℓ : ℝ)
    (hm : sp.mass = 0) (hsp : sp.thermalDyn = true ∨ sp.Q = 0) (hs : StrictInc sp.grid) (hne : ints ≠ [])
    (hlen : s₀.dist.length = sp.grid.length) (hnn : ∀ f ∈ s₀.dist, 0 ≤ f)
    (hout : inEq sp s₀ = false) (hdec : s₀.decayed = false) (hℓ : 0 < ℓ)
    (hp : ∀ N, ∀ n < N, (p N n).h = ℓ / N ∧ (p N n).T < s₀.Tdec ∧ s₀.aT / (p N n).a ≤ s₀.Tdec)
    (hM0 : 0 ≤ M) (hA : ∀ N n u k, |AB N n u k| ≤ M) (hB : ∀ N n u k, |B N n u k| ≤ M)
    (hs0 : ∀ N, s N 0 = s₀) (hstep : ∀ N, Steps sp dens ints (AB N) (B N) (p N) (s N) N)
    (k : ℕ) (hk : k < sp.grid.length) (C τ : ℝ → ℝ) (hτ : ∀ t ∈ Set.Icc 0 ℓ, HasDerivAt τ (C t) t)
    (h0 : τ 0 = (s₀.dist[k]?).getD 0) (hC : ∀ t ∈ Set.Icc 0 ℓ, |C t| ≤ M) (hMf : M < τ 0) :
    ¬ Tendsto (fun N => ((s N N).dist[k]?).getD 0) atTop (𝓝 (τ ℓ)) := by
  intro h
  have e := tendsto_nhds_unique h (C120_tendsto sp dens ints AB B p s s₀ M ℓ hm hsp hs hne hlen hnn hout hdec hℓ.le
    hp hM0 hA hB hs0 hstep k hk)
  rw [← h0] at e
  have hmv : ‖τ ℓ - τ 0‖ ≤ M * ‖ℓ - 0‖ :=
    Convex.norm_image_sub_le_of_norm_hasDerivWithin_le (f' := C)
      (fun x hx => (hτ x hx).hasDerivWithinAt) (fun x hx => by rw [Real.norm_eq_abs]; exact hC x hx)
      (convex_Icc 0 ℓ) (Set.left_mem_Icc.2 hℓ.le) (Set.right_mem_Icc.2 hℓ.le)
  rw [Real.norm_eq_abs, Real.norm_eq_abs, sub_zero, abs_of_pos hℓ] at hmv
  have h1 := (le_abs_self _).trans hmv
  have h2 := Real.add_one_le_exp ℓ
  have h3 : 0 < τ 0 := hM0.trans_lt hMf
  rw [e] at h1
  nlinarith

/-- **C120 (partial).** Without registered integrals the claim holds: the distribution stays what it was, for any steps. -/
theorem C120_no_integrals_partial (sp : Species) (dens : PState ι → Params → ℝ)
    (AB B : PState ι → ℕ → ℝ) (p : ℕ → Params) (s₀ : PState ι) (N : ℕ)
    (hsp : sp.thermalDyn = true ∨ sp.Q = 0) (hlen : s₀.dist.length = sp.grid.length)
    (hnn : ∀ f ∈ s₀.dist, 0 ≤ f) (hi : s₀.integrals = []) (hout : inEq sp s₀ = false)
    (hp : ∀ n < N, s₀.aT / (p n).a ≤ s₀.Tdec) :
    ∃ s : ℕ → PState ι, s 0 = s₀ ∧ Steps sp dens [] (fun _ => AB) (fun _ => B) p s N ∧
      ∀ n ≤ N, (s n).dist = s₀.dist := by
  classical
  let next : ℕ → PState ι → PState ι := fun n u =>
    match particleStep sp dens [] AB B (p n) u with
    | .ok v => v
    | .error _ => u
  let s : ℕ → PState ι := fun n => Nat.rec s₀ next n
  have one : ∀ (n : ℕ) (u : PState ι), n < N → u.dist = s₀.dist → inEq sp u = false → u.aT = s₀.aT →
      u.Tdec = s₀.Tdec → u.integrals = [] → ∃ v, particleStep sp dens [] AB B (p n) u = .ok v ∧
        v.dist = s₀.dist ∧ inEq sp v = false ∧ v.aT = s₀.aT ∧ v.Tdec = s₀.Tdec ∧ v.integrals = [] := by
    intro n u hn hd ho ha ht hi
    obtain ⟨-, -, u3, u4, u5, u6, -⟩ := update_spec sp dens (p n) u
    obtain ⟨ua, uT, ud⟩ := C27_decoupled_frozen sp dens (p n) u ho hsp
    have ho' : inEq sp (particleUpdate sp dens (p n) u) = false := by
      simp only [inEq, Bool.and_eq_false_iff, decide_eq_false_iff_not, not_lt, gt_iff_lt]
      exact Or.inl (by rw [uT, u3, ha, ht]; exact hp n hn)
    simp only [particleStep, List.foldl_nil, u4, hi, if_true]
    rw [updateDistribution_ok sp (p n) _ _ sp.zeros ho' (by rw [u6]; exact sanitize_map_fin _)
      (by simp [Species.zeros, ud, hd, hlen])]
    refine ⟨_, rfl, ?_, ho', ua.trans ha, u3.trans ht, rfl⟩
    simp only [ud, hd]
    exact zipWith_zero_nonneg _ _ _ hlen hnn
  have inv : ∀ n ≤ N, (s n).dist = s₀.dist ∧ inEq sp (s n) = false ∧ (s n).aT = s₀.aT ∧
      (s n).Tdec = s₀.Tdec ∧ (s n).integrals = [] := by
    intro n
    induction n with
    | zero => exact fun _ => ⟨rfl, hout, rfl, rfl, hi⟩
    | succ n ih =>
      intro hn
      obtain ⟨i1, i2, i3, i4, i5⟩ := ih (by omega)
      obtain ⟨v, e, hv⟩ := one n (s n) (by omega) i1 i2 i3 i4 i5
      have hs' : s (n + 1) = v := by
        show next n (s n) = v
        simp only [next, e]
      rw [hs']; exact hv
  refine ⟨s, rfl, fun n hn => ?_, fun n hn => (inv n hn).1⟩
  obtain ⟨i1, i2, i3, i4, i5⟩ := inv n hn.le
  obtain ⟨v, e, hv⟩ := one n (s n) hn i1 i2 i3 i4 i5
  have hs' : s (n + 1) = v := by
    show next n (s n) = v
    simp only [next, e]
  rw [hs', e]

theorem forall2_source {α β : Type*} {R : α → β → Prop} {as : List α} {bs : List β} (h : List.Forall₂ R as bs) :
    ∀ b ∈ bs, ∃ a ∈ as, R a b := by
  induction h with
  | nil => simp
  | cons h1 _ ih =>
    intro o ho
    rcases List.mem_cons.1 ho with rfl | ho
    · exact ⟨_, by simp, h1⟩
    · obtain ⟨i, hi, e⟩ := ih o ho
      exact ⟨i, by simp [hi], e⟩

/-- **C120, refutation, in a universe.** In every completed run of a universe whose integrals return bounded arrays, each
massless decoupled particle that owns an integral follows `e ^ (N h)` times its initial distribution, up to the order of
the step, whatever the other particles do. -/
theorem C120_universe (w : World ι) (hw : IgnoresColl w) (dens : Species → PState ι → Params → ℝ) (ints : List ι)
    (p : ℕ → Params) (l : ℕ → List (Part ι)) (N : ℕ) (hrun : ∀ n < N, universeStep w dens ints (p n) (l n) = .ok (l (n + 1)))
    (k₀ : ℕ) (sp : Species) (s₀ : PState ι) (hk₀ : (l 0)[k₀]? = some (sp, s₀)) (hi : s₀.integrals = [])
    (hne : (ints.filter fun i => w.owner i == k₀) ≠ []) (F M h : ℝ) (hm : sp.mass = 0)
    (hsp : sp.thermalDyn = true ∨ sp.Q = 0) (hs : StrictInc sp.grid)
    (hlen : s₀.dist.length = sp.grid.length) (hF : ∀ f ∈ s₀.dist, 0 ≤ f ∧ f ≤ F)
    (hhist : ∀ row ∈ s₀.histColl, ∀ f ∈ row, |f| ≤ F) (hout : inEq sp s₀ = false) (hdec : s₀.decayed = false)
    (hp : ∀ n < N, (p n).h = h ∧ (p n).T < s₀.Tdec ∧ s₀.aT / (p n).a ≤ s₀.Tdec)
    (hF0 : 0 ≤ F) (h0 : 0 ≤ h) (h16 : 16 * h ≤ 1) (hM : h * M ≤ 1 / 2) (hM0 : 0 ≤ M)
    (heval : ∀ i v q o, i ∈ ints → w.owner i = k₀ → w.eval i v q = .ok o → o.Shaped (w.kind i) sp.grid.length ∧
      ∀ j < sp.grid.length, |o.slope j| * ints.length ≤ M ∧ |o.implicit (w.kind i) j| * ints.length ≤ M)
    (k : ℕ) (hk : k < sp.grid.length) :
    ∃ s', (l N)[k₀]? = some (sp, s') ∧
      |(s'.dist[k]?).getD 0 - Real.exp (N * h) * (s₀.dist[k]?).getD 0| ≤
        (N * h * Real.exp (5 * (N * h)) * (17 + 2 * M) * (F + M)) * h := by
  classical
  set I := ints.filter fun i => w.owner i == k₀ with hI
  -- the sums are bounded
  have hsum : ∀ (q : Params) (v : List (Part ι)) (AB B : ℕ → ℝ), SummedIn w q v sp.grid.length I AB B →
      ∀ j < sp.grid.length, |AB j| ≤ M ∧ |B j| ≤ M := by
    rintro q v AB B ⟨outs, hf, hAB⟩ j hj
    have hmem := forall2_source hf
    have hpos : 0 < I.length := List.length_pos_iff.2 hne
    have hIl : I.length ≤ ints.length := List.length_filter_le _ _
    have hl : outs.length = I.length := hf.length_eq.symm
    have hip : (0 : ℝ) < ints.length := by exact_mod_cast hpos.trans_le hIl
    have hol : (outs.length : ℝ) ≤ ints.length := by rw [hl]; exact_mod_cast hIl
    have hb : ∀ o ∈ outs, o.2.Shaped o.1 sp.grid.length ∧ |o.2.slope j| ≤ M / ints.length ∧
        |o.2.implicit o.1 j| ≤ M / ints.length := by
      intro o ho
      obtain ⟨i, hiI, e1, e2⟩ := hmem o ho
      rw [hI, List.mem_filter] at hiI
      obtain ⟨a, b⟩ := heval i v q o.2 hiI.1 (by simpa using hiI.2) e2
      rw [e1]
      exact ⟨a, (le_div_iff₀ hip).2 (b j hj).1, (le_div_iff₀ hip).2 (b j hj).2⟩
    have hgen : ∀ (g : CKind × IntOut → ℝ), (∀ o ∈ outs, |g o| ≤ M / ints.length) → |(outs.map g).sum| ≤ M := by
      intro g hg
      have : |(outs.map g).sum| ≤ outs.length * (M / ints.length) := by
        clear hAB hmem hl hol hb hf
        induction outs with
        | nil => simp
        | cons o os ih =>
          simp only [List.map_cons, List.sum_cons, List.length_cons]
          refine (abs_add_le _ _).trans ?_
          have := ih fun o ho => hg o (by simp [ho])
          have := hg o (by simp)
          push_cast; linarith
      refine this.trans ?_
      calc (outs.length : ℝ) * (M / ints.length) ≤ ints.length * (M / ints.length) := by gcongr
        _ = M := by field_simp
    obtain ⟨e1, e2⟩ := hAB (fun o ho => (hb o ho).1) j hj
    rw [e1, e2]
    exact ⟨hgen _ fun o ho => (hb o ho).2.1, hgen _ fun o ho => (hb o ho).2.2⟩
  -- the states of the particle
  let s : ℕ → PState ι := fun n => (((l n)[k₀]?).map Prod.snd).getD s₀
  have inv : ∀ n ≤ N, (l n)[k₀]? = some (sp, s n) ∧ (s n).dist.length = sp.grid.length ∧ inEq sp (s n) = false ∧
      (s n).aT = s₀.aT ∧ (s n).Tdec = s₀.Tdec ∧ (s n).decayed = false ∧ (s n).integrals = [] := by
    intro n
    induction n with
    | zero =>
      intro _
      have : s 0 = s₀ := by simp [s, hk₀]
      rw [this]
      exact ⟨hk₀, hlen, hout, rfl, rfl, hdec, hi⟩
    | succ n ih =>
      intro hn
      obtain ⟨i0, i1, i2, i3, i4, i5, i6⟩ := ih (by omega)
      obtain ⟨-, e2, e3⟩ := hp n (by omega)
      obtain ⟨s', A, B, f1, f2, -⟩ := (C92_step w hw dens ints (p n) (l n) _ (hrun n (by omega))).2 k₀ sp (s n) i0 i6
      obtain ⟨t, c, u, e, hcl, hd, -, hat, htd, hdc, ho, -⟩ := massless_step sp (dens sp) I (fun _ => A) (fun _ => B)
        (p n) (s n) hm hsp hs i1 hne i5 (i4 ▸ e2) i2 (by rw [i3, i4]; exact e3)
      have hst : s (n + 1) = s' := by simp [s, f1]
      have hts : t = s' := by
        rw [f2, Except.ok.injEq] at e
        exact e.symm
      subst hts
      rw [hst]
      exact ⟨f1, by rw [hd]; simp [hcl, i1], ho, hat.trans i3, htd.trans i4, hdc, (step_fields f2).2.2.2.2 i6⟩
  have hex : ∀ n, ∃ A B : ℕ → ℝ, (n < N → particleStep sp (dens sp) I (fun _ => A) (fun _ => B) (p n) (s n) =
      .ok (s (n + 1))) ∧ ∀ j < sp.grid.length, |A j| ≤ M ∧ |B j| ≤ M := by
    intro n
    by_cases hn : n < N
    · obtain ⟨i0, i1, i2, i3, i4, i5, i6⟩ := inv n hn.le
      obtain ⟨j0, j1, j2, j3, j4, j5, j6⟩ := inv (n + 1) hn
      obtain ⟨s', A, B, f1, f2, f3⟩ := (C92_step w hw dens ints (p n) (l n) _ (hrun n hn)).2 k₀ sp (s n) i0 i6
      have hst : s (n + 1) = s' := by simp [s, f1]
      subst hst
      exact ⟨A, B, fun _ => f2, hsum _ _ _ _ (f3 j5 j2 (by rw [i4]; exact (hp n hn).2.1) hne)⟩
    · exact ⟨fun _ => 0, fun _ => 0, fun h => absurd h hn, fun j _ => by simp [hM0]⟩
  choose A B hAB hbd using hex
  have h00 : s 0 = s₀ := by simp [s, hk₀]
  refine ⟨s N, (inv N le_rfl).1, ?_⟩
  have := C120_limit sp (dens sp) I (fun n _ => A n) (fun n _ => B n) p s N F M h hm hsp hs hne (by rw [h00]; exact hlen)
    (by rw [h00]; exact hF) (by rw [h00]; exact hhist) (by rw [h00]; exact hout) (by rw [h00]; exact hdec)
    (by rw [h00]; exact hp) hF0 h0 h16 hM hM0 (fun n _ j hj => (hbd n j hj).1) (fun n _ j hj => (hbd n j hj).2)
    (fun n hn => hAB n hn) k hk
  rw [h00] at this
  exact this

/-! ## An instance -/

/-- Parameters of the steps of a run over one unit of `log a` with `N` steps. -/
noncomputable def kinP (N n : ℕ) : Params :=
  { demoP with h := 1 / N, a := (1 + 1 / (N : ℝ)) ^ (n + 1) }

/-- A neutrino relaxing towards an occupation number `1 / 5` at a rate of a tenth per unit of `log a`: the hypotheses
of `C120_tendsto` and `C120_not_solution` hold, the runs exist, and they tend to `e / 2` instead of
`1 / 5 + 3 / 10 * exp (- 1 / 10)`. -/
example : ∃ s : ℕ → ℕ → PState ℕ, (∀ N, s N 0 = demoState) ∧
    (∀ N, Steps demoSpecies (fun _ _ => 1) [7]
      (fun _ u k => max (-1 / 10) (min (1 / 10) ((1 / 5 - (u.dist[k]?).getD 0) / 10))) (fun _ _ _ => -1 / 10)
      (kinP N) (s N) N) ∧
    Filter.Tendsto (fun N => ((s N N).dist[0]?).getD 0) Filter.atTop (nhds (Real.exp 1 * (1 / 2))) ∧
    ¬ Filter.Tendsto (fun N => ((s N N).dist[0]?).getD 0) Filter.atTop
      (nhds (1 / 5 + 3 / 10 * Real.exp (-1 / 10))) := by
  have hpar : ∀ N, ∀ n < N, (kinP N n).h = 1 / N ∧ (kinP N n).T < demoState.Tdec ∧
      demoState.aT / (kinP N n).a ≤ demoState.Tdec := by
    intro N n _
    have h1 : (1 : ℝ) ≤ (1 + 1 / (N : ℝ)) ^ (n + 1) := one_le_pow₀ (by
      have : (0 : ℝ) ≤ 1 / N := by positivity
      linarith)
    refine ⟨rfl, by norm_num [kinP, demoP, demoState], ?_⟩
    show (1 : ℝ) / (1 + 1 / (N : ℝ)) ^ (n + 1) ≤ 2
    rw [div_le_iff₀ (by linarith)]
    linarith
  have hex := fun N => C120_total demoSpecies (fun _ _ => 1) [7]
    (fun _ u k => max (-1 / 10) (min (1 / 10) ((1 / 5 - (u.dist[k]?).getD 0) / 10))) (fun _ _ _ => -1 / 10)
    (kinP N) demoState N rfl (Or.inl rfl) (by norm_num [demoSpecies]) (by simp) rfl demoState_out rfl
    (fun n hn => (hpar N n hn).2)
  choose s hs0 hst using hex
  have hA : ∀ (N n : ℕ) (u : PState ℕ) (k : ℕ),
      |max (-1 / 10 : ℝ) (min (1 / 10) ((1 / 5 - (u.dist[k]?).getD 0) / 10))| ≤ 1 / 10 := by
    intro N n u k
    rw [abs_le]
    exact ⟨by rw [← neg_div]; exact le_max_left _ _, max_le (by norm_num) (min_le_left _ _)⟩
  have hB : ∀ (N n : ℕ) (u : PState ℕ) (k : ℕ), |(-1 / 10 : ℝ)| ≤ 1 / 10 := by
    intro _ _ _ _; norm_num [abs_of_neg]
  have hnn : ∀ f ∈ demoState.dist, 0 ≤ f := by norm_num [demoState]
  refine ⟨s, hs0, hst, ?_, ?_⟩
  · have := C120_tendsto demoSpecies (fun _ _ => 1) [7] _ _ kinP s demoState (1 / 10) 1 rfl (Or.inl rfl)
      (by norm_num [demoSpecies]) (by simp) rfl hnn demoState_out rfl zero_le_one hpar (by norm_num) hA hB hs0 hst 0
      (by simp [demoSpecies])
    simpa [demoState] using this
  · have hd : ∀ t ∈ Set.Icc (0 : ℝ) 1, HasDerivAt (fun t : ℝ => 1 / 5 + 3 / 10 * Real.exp (-t / 10))
        (-(3 / 100) * Real.exp (-t / 10)) t := by
      intro t _
      have h1 : HasDerivAt (fun t : ℝ => -t / 10) (-1 / 10) t := (hasDerivAt_id t).neg.div_const 10
      have h2 := (h1.exp.const_mul (3 / 10)).const_add (1 / 5)
      have e : 3 / 10 * (Real.exp (-t / 10) * (-1 / 10)) = -(3 / 100) * Real.exp (-t / 10) := by ring
      rw [e] at h2
      exact h2
    have := C120_not_solution demoSpecies (fun _ _ => 1) [7] _ _ kinP s demoState (1 / 10) 1 rfl (Or.inl rfl)
      (by norm_num [demoSpecies]) (by simp) rfl hnn demoState_out rfl one_pos hpar (by norm_num) hA hB hs0 hst 0
      (by simp [demoSpecies]) _ _ hd (by norm_num [demoState]) (by
        intro t ht
        have h1 : Real.exp (-t / 10) ≤ 1 := Real.exp_le_one_iff.2 (by linarith [ht.1])
        have h2 := Real.exp_pos (-t / 10)
        rw [abs_le]; constructor <;> linarith) (by norm_num)
    exact this

/-- A universe with one integral whose value depends on the occupation numbers present. -/
noncomputable def kinWorld : World ℕ where
  kind := fun _ => .f1
  owner := fun _ => 0
  eval := fun _ l _ => .ok (.one (List.replicate 2 (max (-1 / 10) (min (1 / 10) (1 - (l.map fun x => x.2.dist.sum).sum)))))

theorem kinWorld_ignores : IgnoresColl kinWorld := by
  intro i p l l' h
  have e : ∀ l : List (Part ℕ), (l.map fun x => x.2.dist.sum) = (l.map forgetColl).map fun x => x.2.dist.sum := by
    intro l; simp [forgetColl]
  simp only [kinWorld]
  rw [e l, e l', h]

/-- A step of this universe with one decoupled neutrino does not raise. -/
theorem kinWorld_step (p : Params) (s : PState ℕ) (hlen : s.dist.length = 2) (hdec : s.decayed = false)
    (hint : s.integrals = []) (hpT : p.T < s.Tdec) (ho : inEq demoSpecies s = false) (ha : s.aT / p.a ≤ s.Tdec) :
    ∃ s', universeStep kinWorld (fun _ _ _ => 1) [0] p [(demoSpecies, s)] = .ok [(demoSpecies, s')] := by
  obtain ⟨-, -, u3, u4, u5, u6, u7⟩ := update_spec demoSpecies (fun _ _ => 1) p s
  obtain ⟨ua, uT, ud⟩ := C27_decoupled_frozen demoSpecies (fun _ _ => 1) p s ho (Or.inl rfl)
  have ho' : inEq demoSpecies (particleUpdate demoSpecies (fun _ _ => 1) p s) = false := by
    simp only [inEq, Bool.and_eq_false_iff, decide_eq_false_iff_not, not_lt, gt_iff_lt]
    exact Or.inl (by rw [uT, u3]; exact ha)
  set u := particleUpdate demoSpecies (fun _ _ => 1) p s with hu
  have hi : initInteractions kinWorld p [0] (updateParticles (fun _ _ _ => 1) p [(demoSpecies, s)]) =
      [(demoSpecies, { u with integrals := [0] })] := by
    have hr : registerIntegral demoSpecies p 0 u = { u with integrals := [0] } := by
      rw [registerIntegral, if_pos ⟨by rw [u3]; exact hpT, ho'⟩, u4, hint]; rfl
    show [(demoSpecies, registerIntegral demoSpecies p 0 u)] = _
    rw [hr]
  set v : PState ℕ := { u with integrals := [0] } with hv
  have hd : (hasDecayed demoSpecies p v).2 = false := by
    unfold hasDecayed
    split
    · rfl
    · rw [if_neg]; simp [demoSpecies]
  have hvl : v.dist.length = 2 := by rw [hv]; exact (congrArg List.length ud).trans hlen
  have hvo : inEq demoSpecies v = false := ho'
  have ht : ∃ c, collisionTerm kinWorld p [(demoSpecies, v)] demoSpecies v = .ok c ∧ c.length = 2 := by
    have hc : ∀ (A B : ℝ) (j : ℕ), j < 2 → ∃ x, collComponent demoSpecies p v j A B = .ok x := by
      intro A B j hj
      have hj' : j < demoSpecies.grid.length := hj
      have hval := C09_exact_on_grid demoSpecies.grid v.dist (demoSpecies.mass * v.aT / v.Tdec) v.aT demoSpecies.eta
        (by norm_num [demoSpecies]) hvl j hj'
      unfold collComponent particleDistribution
      simp only [List.getElem?_eq_getElem hj', hvo, Bool.false_eq_true, if_false]
      rw [hval]
      exact C15_auto_total _ _ _ _ _
    unfold collisionTerm
    simp only [hv, outputs, kinWorld, collect]
    simp only [← hv]
    have hg : demoSpecies.grid.length = 2 := rfl
    rw [hg]
    simp only [List.range_succ, List.range_zero, List.nil_append, List.cons_append, List.mapM_cons, List.mapM_nil]
    obtain ⟨x, hx⟩ := hc _ _ 0 (by norm_num)
    obtain ⟨y, hy⟩ := hc _ _ 1 (by norm_num)
    rw [hx, hy]
    exact ⟨[x, y], rfl, rfl⟩
  obtain ⟨c, ht, hcl⟩ := ht
  have hdec' : ¬ (v.integrals = [] ∨ v.decayed = true) := by
    rintro (h | h)
    · simp [hv] at h
    · have : s.decayed = true := by rw [← u5]; exact h
      rw [hdec] at this; cases this
  have hcol : calculateCollisions kinWorld p [(demoSpecies, v)] = .ok [(demoSpecies, { v with coll := c })] := by
    have hp : calculateCollisions kinWorld p [(demoSpecies, v)] = collideAll kinWorld p [0] [(demoSpecies, v)] := by
      unfold calculateCollisions
      congr 1
    have hf : demoSpecies.fastDecay = false := rfl
    rw [hp]
    simp only [collideAll, collideOne, List.getElem?_cons_zero, hd, ht, hf]
    rw [if_neg hdec']
    rfl
  have hup := updateDistribution_ok demoSpecies p (c.map .fin) { v with coll := c } c hvo (sanitize_map_fin _)
    (by rw [hcl]; exact hvl.symm)
  have hrun : ∀ t, updateDistribution demoSpecies p (c.map .fin) { v with coll := c } = .ok t →
      universeStep kinWorld (fun _ _ _ => 1) [0] p [(demoSpecies, s)] = .ok [(demoSpecies, t)] := by
    intro t h
    simp only [universeStep]
    rw [hi, hcol]
    simp only [updateDistributions, h]
  exact ⟨_, hrun _ hup⟩

/-- The hypotheses of `C120_universe` hold for this universe over any number of steps of size `1 / 16` or less. -/
example (N : ℕ) (h : ℝ) (h0 : 0 ≤ h) (h16 : 16 * h ≤ 1) :
    ∃ l : ℕ → List (Part ℕ), l 0 = [(demoSpecies, demoState)] ∧ ∃ s', (l N)[0]? = some (demoSpecies, s') ∧
      |(s'.dist[0]?).getD 0 - Real.exp (N * h) * (1 / 2)| ≤
        (N * h * Real.exp (5 * (N * h)) * (17 + 2 * (1 / 10)) * (1 / 2 + 1 / 10)) * h := by
  classical
  let q : Params := { demoP with h := h }
  let next : List (Part ℕ) → List (Part ℕ) := fun v =>
    match universeStep kinWorld (fun _ _ _ => 1) [0] q v with
    | .ok v => v
    | .error _ => v
  let l : ℕ → List (Part ℕ) := fun n => next^[n] [(demoSpecies, demoState)]
  have inv : ∀ n, ∃ s, l n = [(demoSpecies, s)] ∧ s.dist.length = 2 ∧ s.decayed = false ∧ s.integrals = [] ∧
      s.Tdec = 2 ∧ s.aT = 1 ∧ inEq demoSpecies s = false ∧
      universeStep kinWorld (fun _ _ _ => 1) [0] q (l n) = .ok (l (n + 1)) := by
    have key : ∀ n s, l n = [(demoSpecies, s)] → s.dist.length = 2 → s.decayed = false → s.integrals = [] →
        s.Tdec = 2 → s.aT = 1 → inEq demoSpecies s = false →
        ∃ s', universeStep kinWorld (fun _ _ _ => 1) [0] q (l n) = .ok (l (n + 1)) ∧ l (n + 1) = [(demoSpecies, s')] ∧
          s'.dist.length = 2 ∧ s'.decayed = false ∧ s'.integrals = [] ∧
          s'.Tdec = 2 ∧ s'.aT = 1 ∧ inEq demoSpecies s' = false := by
      intro n s hl hlen hdec hint hT ha ho
      have e2 : q.T < s.Tdec := by rw [hT]; norm_num [q, demoP]
      have e3 : s.aT / q.a ≤ s.Tdec := by rw [hT, ha]; norm_num [q, demoP]
      obtain ⟨s', hs'⟩ := kinWorld_step q s hlen hdec hint e2 ho e3
      have hn : l (n + 1) = [(demoSpecies, s')] := by
        have : l (n + 1) = next (l n) := Function.iterate_succ_apply' next n _
        rw [this, hl]
        simp only [next, hs']
      obtain ⟨t, A, B, f1, f2, -⟩ := (C92_step kinWorld kinWorld_ignores _ [0] q _ _ hs').2 0 demoSpecies s rfl hint
      obtain ⟨t', c, v, e, hcl, hd, -, hat, htd, hdc, ho', -⟩ := massless_step demoSpecies (fun _ _ => 1)
        ([0].filter fun i => kinWorld.owner i == 0) (fun _ => A) (fun _ => B) q s rfl (Or.inl rfl)
        (by norm_num [demoSpecies]) hlen (by simp [kinWorld]) hdec e2 ho e3
      have htt : t' = t := by
        rw [f2, Except.ok.injEq] at e; exact e.symm
      have hts : s' = t := by simpa using f1
      subst htt; subst hts
      refine ⟨s', by rw [hl, hn]; exact hs', hn, by rw [hd]; simp [hcl, hlen, demoSpecies], hdc,
        (step_fields f2).2.2.2.2 hint, htd.trans hT, hat.trans ha, ho'⟩
    intro n
    have base : ∃ s, l n = [(demoSpecies, s)] ∧ s.dist.length = 2 ∧ s.decayed = false ∧ s.integrals = [] ∧
        s.Tdec = 2 ∧ s.aT = 1 ∧ inEq demoSpecies s = false := by
      induction n with
      | zero => exact ⟨demoState, rfl, rfl, rfl, rfl, rfl, rfl, demoState_out⟩
      | succ n ih =>
        obtain ⟨s, a1, a2, a3, a4, a5, a6, a7⟩ := ih
        obtain ⟨s', -, b⟩ := key n s a1 a2 a3 a4 a5 a6 a7
        exact ⟨s', b⟩
    obtain ⟨s, a1, a2, a3, a4, a5, a6, a7⟩ := base
    obtain ⟨s', b, -⟩ := key n s a1 a2 a3 a4 a5 a6 a7
    exact ⟨s, a1, a2, a3, a4, a5, a6, a7, b⟩
  refine ⟨l, rfl, ?_⟩
  have hrun : ∀ n < N, universeStep kinWorld (fun _ _ _ => 1) [0] q (l n) = .ok (l (n + 1)) := fun n _ => by
    obtain ⟨s, -, -, -, -, -, -, -, b⟩ := inv n
    exact b
  have := C120_universe kinWorld kinWorld_ignores (fun _ _ _ => 1) [0] (fun _ => q) l N hrun 0 demoSpecies demoState
    rfl rfl (by simp [kinWorld]) (1 / 2) (1 / 10) h rfl (Or.inl rfl) (by norm_num [demoSpecies]) rfl
    (by norm_num [demoState]) (by simp [demoState]) demoState_out rfl
    (fun n _ => ⟨rfl, by norm_num [q, demoP, demoState], by norm_num [q, demoP, demoState]⟩)
    (by norm_num) h0 h16 (by linarith) (by norm_num) (by
      intro i v q o _ _ ho
      simp only [kinWorld, Except.ok.injEq] at ho
      subst ho
      refine ⟨by simp [IntOut.Shaped, kinWorld, demoSpecies], fun j hj => ?_⟩
      have hj' : j < 2 := hj
      have hb : |max (-1 / 10 : ℝ) (min (1 / 10) (1 - (v.map fun x => x.2.dist.sum).sum))| ≤ 1 / 10 := by
        rw [abs_le]
        exact ⟨by rw [← neg_div]; exact le_max_left _ _, max_le (by norm_num) (min_le_left _ _)⟩
      simp only [IntOut.slope, IntOut.implicit, kinWorld]
      rw [List.getElem?_replicate, if_pos hj', Option.getD_some]
      simp
      simpa using hb) 0 (by simp [demoSpecies])
  simpa [demoState] using this

end PyBBN
