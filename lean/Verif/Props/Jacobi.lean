import Verif.Lemmas.Jacobi
import Verif.Props.Orthopoly
import Mathlib.Probability.Distributions.Beta
import Mathlib.Analysis.SpecialFunctions.Integrability.Basic
import Mathlib.Analysis.Calculus.Deriv.Polynomial
/-!
# C129: the coefficients of `rec_jacobi`
-/
namespace PyBBN
open Polynomial Matrix MeasureTheory intervalIntegral

/-! ## Specification -/

/-- The weight of the documentation (orthopoly.py 139–140). -/
noncomputable def jacobiWeight (a b x : ℝ) : ℝ := (1 - x) ^ a * (1 + x) ^ b

theorem jacobiWeight_integrable {a b : ℝ} (ha : -1 < a) (hb : -1 < b) :
    IntervalIntegrable (jacobiWeight a b) volume (-1) 1 := by
  have h1 : IntervalIntegrable (jacobiWeight a b) volume (-1) 0 := by
    have hi : IntervalIntegrable (fun x : ℝ => (1 + x) ^ b) volume (-1) 0 := by
      have := (intervalIntegrable_rpow' (a := 0) (b := 1) hb).comp_add_left 1
      simpa using this
    refine hi.continuousOn_mul (g := fun x : ℝ => (1 - x) ^ a) ?_
    rw [Set.uIcc_of_le (by norm_num)]
    refine ContinuousOn.rpow_const (by fun_prop) fun x hx => Or.inl ?_
    have := hx.2; linarith
  have h2 : IntervalIntegrable (jacobiWeight a b) volume 0 1 := by
    have hi : IntervalIntegrable (fun x : ℝ => (1 - x) ^ a) volume 0 1 := by
      have := (intervalIntegrable_rpow' (a := 1) (b := 0) ha).comp_sub_left 1
      simpa using this
    refine hi.mul_continuousOn (f := fun x : ℝ => (1 - x) ^ a) (g := fun x : ℝ => (1 + x) ^ b) ?_
    rw [Set.uIcc_of_le (by norm_num)]
    refine ContinuousOn.rpow_const (by fun_prop) fun x hx => Or.inl ?_
    have := hx.1; linarith
  exact h1.trans h2

theorem jacobi_integrable {a b : ℝ} (ha : -1 < a) (hb : -1 < b) (f : ℝ[X]) :
    IntervalIntegrable (fun x => f.eval x * jacobiWeight a b x) volume (-1) 1 :=
  (jacobiWeight_integrable ha hb).continuousOn_mul (g := fun x => f.eval x) f.continuous.continuousOn

/-- Integration over `[-1, 1]` with the weight. -/
noncomputable def jacobiIntegral (a b : ℝ) (ha : -1 < a) (hb : -1 < b) : ℝ[X] →ₗ[ℝ] ℝ where
  toFun f := ∫ x in (-1 : ℝ)..1, f.eval x * jacobiWeight a b x
  map_add' f g := by
    rw [← integral_add (jacobi_integrable ha hb f) (jacobi_integrable ha hb g)]
    refine integral_congr fun x _ => ?_
    simp only [eval_add]; ring
  map_smul' c f := by
    rw [RingHom.id_apply, smul_eq_mul, ← intervalIntegral.integral_const_mul]
    refine integral_congr fun x _ => ?_
    simp only [eval_smul, smul_eq_mul]; ring

/-! ## Orthogonality -/

theorem jacobi_pearson {a b : ℝ} (ha : -1 < a) (hb : -1 < b) (g : ℝ[X]) :
    jacobiIntegral a b ha hb ((1 - X ^ 2) * derivative g + (C (b - a) - C (a + b + 2) * X) * g) = 0 := by
  change (∫ x in (-1 : ℝ)..1, ((1 - X ^ 2) * derivative g + (C (b - a) - C (a + b + 2) * X) * g).eval x *
    jacobiWeight a b x) = 0
  have hc : ContinuousOn (fun x : ℝ => (1 - x) ^ (a + 1) * (1 + x) ^ (b + 1) * g.eval x) (Set.Icc (-1) 1) := by
    refine ContinuousOn.mul (ContinuousOn.mul ?_ ?_) g.continuous.continuousOn
    · exact ContinuousOn.rpow_const (by fun_prop) fun x _ => Or.inr (by linarith)
    · exact ContinuousOn.rpow_const (by fun_prop) fun x _ => Or.inr (by linarith)
  have := integral_eq_sub_of_hasDerivAt_of_le (a := (-1 : ℝ)) (b := 1) (by norm_num) hc
    (f' := fun x => ((1 - X ^ 2) * derivative g + (C (b - a) - C (a + b + 2) * X) * g).eval x * jacobiWeight a b x)
    (fun x hx => by
      have h1 : 0 < 1 - x := by linarith [hx.2]
      have h2 : 0 < 1 + x := by linarith [hx.1]
      have d1 : HasDerivAt (fun x : ℝ => (1 - x) ^ (a + 1)) (-1 * (a + 1) * (1 - x) ^ (a + 1 - 1)) x :=
        ((hasDerivAt_id x).const_sub 1).rpow_const (Or.inl h1.ne')
      have d2 : HasDerivAt (fun x : ℝ => (1 + x) ^ (b + 1)) (1 * (b + 1) * (1 + x) ^ (b + 1 - 1)) x :=
        ((hasDerivAt_id x).const_add 1).rpow_const (Or.inl h2.ne')
      have d := (d1.mul d2).mul (g.hasDerivAt x)
      refine d.congr_deriv ?_
      have e1 : (1 - x) ^ (a + 1) = (1 - x) ^ a * (1 - x) := Real.rpow_add_one h1.ne' a
      have e2 : (1 + x) ^ (b + 1) = (1 + x) ^ b * (1 + x) := Real.rpow_add_one h2.ne' b
      simp only [Pi.mul_apply, add_sub_cancel_right, jacobiWeight, eval_add, eval_mul, eval_sub, eval_one, eval_pow, eval_X, eval_C]
      rw [e1, e2]
      ring)
    (jacobi_integrable ha hb _)
  rw [this]
  have z1 : (1 - (1 : ℝ)) ^ (a + 1) = 0 := by rw [sub_self, Real.zero_rpow (by linarith)]
  have z2 : (1 + (-1 : ℝ)) ^ (b + 1) = 0 := by rw [add_neg_cancel, Real.zero_rpow (by linarith)]
  rw [z1, z2]
  ring

theorem jacobi_orthogonal {a b : ℝ} (ha : -1 < a) (hb : -1 < b) {j k : ℕ} (hjk : j < k) :
    jacobiIntegral a b ha hb (monicP (jacA a b) (jacBt a b) j * monicP (jacA a b) (jacBt a b) k) = 0 := by
  set p := monicP (jacA a b) (jacBt a b) j
  set q := monicP (jacA a b) (jacBt a b) k
  have hp := jacobi_equation ha hb j
  have hq := jacobi_equation ha hb k
  have h := jacobi_pearson ha hb (p * derivative q - q * derivative p)
  have e : (1 - X ^ 2) * derivative (p * derivative q - q * derivative p) +
      (C (b - a) - C (a + b + 2) * X) * (p * derivative q - q * derivative p) =
      ((j : ℝ) * (j + (a + b) + 1) - k * (k + (a + b) + 1)) • (p * q) := by
    rw [smul_eq_C_mul, C_sub (a := (j : ℝ) * (j + (a + b) + 1)), derivative_sub, derivative_mul, derivative_mul]
    linear_combination p * hq - q * hp
  rw [e, map_smul, smul_eq_mul] at h
  refine (mul_eq_zero.mp h).resolve_left ?_
  have h1 : (j : ℝ) + 1 ≤ k := by exact_mod_cast hjk
  have h2 : (0 : ℝ) ≤ j := Nat.cast_nonneg j
  have h3 : 0 < ((k : ℝ) - j) * (k + j + (a + b) + 1) := mul_pos (by linarith) (by linarith)
  have : (j : ℝ) * (j + (a + b) + 1) - k * (k + (a + b) + 1) = -(((k : ℝ) - j) * (k + j + (a + b) + 1)) := by ring
  rw [this]
  exact (neg_neg_of_pos h3).ne

/-- The integral of the weight. -/
theorem jacobi_mass {a b : ℝ} (ha : -1 < a) (hb : -1 < b) : jacobiIntegral a b ha hb 1 = jacobiMu a b := by
  change (∫ x in (-1 : ℝ)..1, (1 : ℝ[X]).eval x * jacobiWeight a b x) = _
  simp only [eval_one, one_mul]
  have h := integral_comp_mul_sub (a := (0 : ℝ)) (b := 1) (jacobiWeight a b) (two_ne_zero) 1
  have e1 : (2 : ℝ) * 0 - 1 = -1 := by norm_num
  have e2 : (2 : ℝ) * 1 - 1 = 1 := by norm_num
  rw [e1, e2, smul_eq_mul] at h
  have hbeta := ProbabilityTheory.beta_eq_betaIntegralReal (b + 1) (a + 1) (by linarith) (by linarith)
  have hc : (Complex.betaIntegral ((b + 1 : ℝ) : ℂ) ((a + 1 : ℝ) : ℂ)).re = ∫ x in (0 : ℝ)..1, x ^ b * (1 - x) ^ a := by
    rw [Complex.betaIntegral]
    have : ∀ x ∈ Set.uIcc (0 : ℝ) 1, (x : ℂ) ^ (((b + 1 : ℝ) : ℂ) - 1) * (1 - (x : ℂ)) ^ (((a + 1 : ℝ) : ℂ) - 1) =
        ((x ^ b * (1 - x) ^ a : ℝ) : ℂ) := by
      intro x hx
      rw [Set.uIcc_of_le (by norm_num)] at hx
      rw [Complex.ofReal_mul, Complex.ofReal_cpow hx.1, Complex.ofReal_cpow (by linarith [hx.2])]
      push_cast
      congr 2 <;> ring
    rw [integral_congr this, intervalIntegral.integral_ofReal, Complex.ofReal_re]
  have hsub : (∫ x in (0 : ℝ)..1, jacobiWeight a b (2 * x - 1)) = 2 ^ (a + b) * ∫ x in (0 : ℝ)..1, x ^ b * (1 - x) ^ a := by
    rw [← intervalIntegral.integral_const_mul]
    refine integral_congr fun x hx => ?_
    rw [Set.uIcc_of_le (by norm_num)] at hx
    simp only [jacobiWeight]
    rw [show 1 - (2 * x - 1) = 2 * (1 - x) by ring, show 1 + (2 * x - 1) = 2 * x by ring,
      Real.mul_rpow (by norm_num) (by linarith [hx.2]), Real.mul_rpow (by norm_num) hx.1, Real.rpow_add (by norm_num)]
    ring
  rw [hsub, ← hc, ← hbeta, ProbabilityTheory.beta] at h
  have e3 : b + 1 + (a + 1) = a + b + 2 := by ring
  rw [e3] at h
  have e4 : (2 : ℝ) ^ (a + b + 1) = 2 ^ (a + b) * 2 := Real.rpow_add_one (by norm_num) _
  rw [jacobiMu, e4]
  linear_combination -2 * h

theorem jacobi_positive {a b : ℝ} (ha : -1 < a) (hb : -1 < b) : PositiveOn (jacobiIntegral a b ha hb) (-1) 1 := by
  intro f hf hf0
  change 0 < ∫ x in (-1 : ℝ)..1, f.eval x * jacobiWeight a b x
  obtain ⟨c, hc, hfc⟩ : ∃ c ∈ Set.Ioo (-1 : ℝ) 1, f.eval c ≠ 0 := by
    by_contra h
    push Not at h
    have hfin : (f.roots.toFinset : Set ℝ).Finite := Finset.finite_toSet _
    refine (Set.Ioo_infinite (show (-1 : ℝ) < 1 by norm_num)).mono (fun x hx => ?_) hfin
    simp [mem_roots hf0, IsRoot, h x hx]
  obtain ⟨ε, he, hl, hr⟩ : ∃ ε : ℝ, 0 < ε ∧ -1 < c - ε ∧ c + ε < 1 := by
    refine ⟨min (c + 1) (1 - c) / 2, ?_, ?_, ?_⟩
    · have := lt_min (show 0 < c + 1 by linarith [hc.1]) (show 0 < 1 - c by linarith [hc.2]); linarith
    · have := min_le_left (c + 1) (1 - c); linarith [hc.1]
    · have := min_le_right (c + 1) (1 - c); linarith [hc.2]
  have hwpos : ∀ x, -1 < x → x < 1 → 0 < jacobiWeight a b x := fun x h1 h2 =>
    mul_pos (Real.rpow_pos_of_pos (by linarith) _) (Real.rpow_pos_of_pos (by linarith) _)
  have h1 : 0 < ∫ x in (c - ε)..(c + ε), f.eval x * jacobiWeight a b x := by
    refine integral_pos (by linarith) ?_ (fun x hx => ?_) ⟨c, ⟨by linarith, by linarith⟩, ?_⟩
    · refine ContinuousOn.mul f.continuous.continuousOn (ContinuousOn.mul ?_ ?_)
      · exact ContinuousOn.rpow_const (by fun_prop) fun x hx => Or.inl (by linarith [hx.2])
      · exact ContinuousOn.rpow_const (by fun_prop) fun x hx => Or.inl (by linarith [hx.1])
    · exact mul_nonneg (hf x (by linarith [hx.1]) (by linarith [hx.2])) (hwpos x (by linarith [hx.1]) (by linarith [hx.2])).le
    · exact mul_pos (lt_of_le_of_ne (hf c hc.1 hc.2) (Ne.symm hfc)) (hwpos c hc.1 hc.2)
  refine lt_of_lt_of_le h1 (integral_mono_interval hl.le (by linarith) hr.le ?_ (jacobi_integrable ha hb f))
  rw [← restrict_Ioo_eq_restrict_Ioc]
  exact (ae_restrict_iff' measurableSet_Ioo).mpr (Filter.Eventually.of_forall fun x hx =>
    mul_nonneg (hf x hx.1 hx.2) (hwpos x hx.1 hx.2).le)

/-! ## The arrays -/

theorem recJacobi_arrays (n : ℕ) (a b : ℝ) : ∃ al be, recJacobi ((n + 2 : ℕ) : ℤ) a b = .arrays al be ∧
    al.length = n + 2 ∧ be.length = n + 2 ∧ (∀ k, k < n + 2 → arrayAt al k = jacA a b k) ∧
    (∀ k, k < n + 2 → arrayAt be k = jacBt a b k) := by
  have hN : ¬ ((n + 2 : ℕ) : ℤ) = 1 := by omega
  unfold recJacobi
  have ht : ((n + 2 : ℕ) : ℤ).toNat - 1 = n + 1 := by omega
  rw [if_neg hN]
  simp only [ht]
  refine ⟨_, _, rfl, ?_, ?_, ?_, ?_⟩
  · simp
  · simp
  · intro k hk
    cases k with
    | zero => simp [arrayAt, jacA]
    | succ k =>
      have h1 : k < n + 1 := by omega
      simp [arrayAt, jacA, List.getD_eq_getElem?_getD, h1]
  · intro k hk
    match k with
    | 0 => simp [arrayAt, jacBt]
    | 1 => simp [arrayAt, jacBt]
    | k + 2 =>
      have h1 : k < n := by omega
      simp [arrayAt, jacBt, List.getD_eq_getElem?_getD, List.range_succ_eq_map, h1]
      try (congr 1; ring)

theorem jacBt_pos {a b : ℝ} (ha : -1 < a) (hb : -1 < b) (k : ℕ) (hk : 0 < k) : 0 < jacBt a b k := by
  unfold jacBt
  rw [if_neg (by omega)]
  by_cases h1 : k = 1
  · rw [if_pos h1, jacobiB1]
    have h2 : 0 < a + 1 := by linarith
    have h3 : 0 < b + 1 := by linarith
    have h4 : 0 < a + b + 2 := by linarith
    have h5 : 0 < a + b + 3 := by linarith
    positivity
  · rw [if_neg h1, jacobiB]
    have hk2 : (2 : ℝ) ≤ k := by exact_mod_cast (by omega : 2 ≤ k)
    have h2 : 0 < (k : ℝ) + a := by linarith
    have h3 : 0 < (k : ℝ) + b := by linarith
    have h4 : 0 < (k : ℝ) + a + b := by linarith
    have h5 : 0 < 2 * (k : ℝ) + a + b := by linarith
    have h6 : 0 < 2 * (k : ℝ) + a + b + 1 := by linarith
    have h7 : 0 < 2 * (k : ℝ) + a + b - 1 := by linarith
    have h8 : 0 < (k : ℝ) := by linarith
    positivity

/-- **C129 (`rec_jacobi`).** For `N ≥ 2` and exponents above -1 the two arrays are the recursion coefficients, up to order `N`,
of the integral over `[-1, 1]` with the weight `(1-x)^a (1+x)^b`: the polynomials they generate are orthogonal and `beta[0]` is
the integral of the weight. -/
theorem C129_jacobi (n : ℕ) (a b : ℝ) (ha : -1 < a) (hb : -1 < b) :
    ∃ al be, recJacobi ((n + 2 : ℕ) : ℤ) a b = .arrays al be ∧ al.length = n + 2 ∧ be.length = n + 2 ∧
      (∀ k, 0 < k → k < n + 2 → 0 < arrayAt be k) ∧
      HasRecursion (jacobiIntegral a b ha hb) (arrayAt al) (arrayAt be) (n + 2) := by
  obtain ⟨al, be, e, hl, hl', hal, hbe⟩ := recJacobi_arrays n a b
  refine ⟨al, be, e, hl, hl', fun k h1 h2 => by rw [hbe k h2]; exact jacBt_pos ha hb k h1, ?_, ?_⟩
  · rw [jacobi_mass ha hb, hbe 0 (by omega), jacBt, if_pos rfl]
  · intro j k hjk hk
    have hc : ∀ m, m ≤ n + 2 → monicP (arrayAt al) (arrayAt be) m = monicP (jacA a b) (jacBt a b) m := fun m hm =>
      monicP_congr (fun i hi => hal i (by omega)) (fun i _ hi => hbe i (by omega))
    rw [hc j (by omega), hc k hk]
    exact jacobi_orthogonal ha hb hjk

/-! ## The unit interval -/

/-- Integration over `[0, 1]` with the weight `(1-x)^a x^b`. -/
noncomputable def unitIntegral (a b : ℝ) (f : ℝ[X]) : ℝ := ∫ x in (0 : ℝ)..1, f.eval x * ((1 - x) ^ a * x ^ b)

theorem unitIntegral_eq {a b : ℝ} (ha : -1 < a) (hb : -1 < b) (f : ℝ[X]) :
    unitIntegral a b f = (2 ^ (a + b + 1))⁻¹ * jacobiIntegral a b ha hb (f.comp (C (1 / 2) * X + C (1 / 2))) := by
  have h := integral_comp_mul_sub (a := (0 : ℝ)) (b := 1)
    (fun u => (f.comp (C (1 / 2) * X + C (1 / 2))).eval u * jacobiWeight a b u) (two_ne_zero) 1
  have e1 : (2 : ℝ) * 0 - 1 = -1 := by norm_num
  have e2 : (2 : ℝ) * 1 - 1 = 1 := by norm_num
  rw [e1, e2, smul_eq_mul] at h
  have hs : (∫ x in (0 : ℝ)..1, (f.comp (C (1 / 2) * X + C (1 / 2))).eval (2 * x - 1) * jacobiWeight a b (2 * x - 1)) =
      2 ^ (a + b) * unitIntegral a b f := by
    rw [unitIntegral, ← intervalIntegral.integral_const_mul]
    refine integral_congr fun x hx => ?_
    rw [Set.uIcc_of_le (by norm_num)] at hx
    simp only [jacobiWeight, eval_comp, eval_add, eval_mul, eval_C, eval_X]
    rw [show 1 - (2 * x - 1) = 2 * (1 - x) by ring, show 1 + (2 * x - 1) = 2 * x by ring,
      show 1 / 2 * (2 * x - 1) + 1 / 2 = x by ring,
      Real.mul_rpow (by norm_num) (by linarith [hx.2]), Real.mul_rpow (by norm_num) hx.1, Real.rpow_add (by norm_num)]
    ring
  rw [hs] at h
  change _ = _ * ∫ x in (-1 : ℝ)..1, (f.comp (C (1 / 2) * X + C (1 / 2))).eval x * jacobiWeight a b x
  have e4 : (2 : ℝ) ^ (a + b + 1) = 2 ^ (a + b) * 2 := Real.rpow_add_one (by norm_num) _
  have e5 : (2 : ℝ) ^ (a + b) ≠ 0 := (Real.rpow_pos_of_pos (by norm_num) _).ne'
  rw [e4, eq_inv_mul_iff_mul_eq₀ (by positivity)]
  linear_combination 2 * h

noncomputable def unitIntegralL (a b : ℝ) (ha : -1 < a) (hb : -1 < b) : ℝ[X] →ₗ[ℝ] ℝ where
  toFun := unitIntegral a b
  map_add' f g := by simp only [unitIntegral_eq ha hb, add_comp, map_add, mul_add]
  map_smul' c f := by
    simp only [unitIntegral_eq ha hb, smul_comp, map_smul, RingHom.id_apply, smul_eq_mul]; ring

theorem unit_positive {a b : ℝ} (ha : -1 < a) (hb : -1 < b) : PositiveOn (unitIntegralL a b ha hb) 0 1 := by
  intro f hf hf0
  change 0 < unitIntegral a b f
  rw [unitIntegral_eq ha hb]
  refine mul_pos (inv_pos.mpr (Real.rpow_pos_of_pos (by norm_num) _)) (jacobi_positive ha hb _ (fun x h1 h2 => ?_) ?_)
  · simp only [eval_comp, eval_add, eval_mul, eval_C, eval_X]
    exact hf _ (by linarith) (by linarith)
  · intro e
    apply hf0
    refine Polynomial.funext fun x => ?_
    have := congrArg (eval (2 * x - 1)) e
    simp only [eval_comp, eval_add, eval_mul, eval_C, eval_X, eval_zero] at this
    rw [show 1 / 2 * (2 * x - 1) + 1 / 2 = x by ring] at this
    rw [this, eval_zero]

/-- The polynomials of the halved coefficients are those of the original ones in `2 x - 1`. -/
theorem monicP_half {al be al' be' : ℕ → ℝ} {N : ℕ} (hal : ∀ k, k < N → al' k = (1 + al k) / 2)
    (hbe : ∀ k, 0 < k → k < N → be' k = be k / 4) (k : ℕ) (hk : k ≤ N) :
    (monicP al' be' k).comp (C (1 / 2) * X + C (1 / 2)) = C ((1 / 2) ^ k) * monicP al be k := by
  induction k using Nat.strong_induction_on with
  | _ k ih =>
    match k with
    | 0 => simp [monicP_zero]
    | 1 =>
      rw [monicP_one, monicP_one, hal 0 (by omega)]
      refine Polynomial.funext fun x => ?_
      simp only [eval_comp, eval_add, eval_mul, eval_C, eval_X, eval_sub]
      ring
    | k + 2 =>
      have h1 := ih (k + 1) (by omega) (by omega)
      have h0 := ih k (by omega) (by omega)
      refine Polynomial.funext fun x => ?_
      have h1' := congrArg (eval x) h1
      have h0' := congrArg (eval x) h0
      simp only [eval_comp, eval_add, eval_mul, eval_C, eval_X] at h1' h0'
      rw [monicP_succ, monicP_succ, hal (k + 1) (by omega), hbe (k + 1) (by omega) (by omega)]
      simp only [eval_comp, eval_add, eval_mul, eval_C, eval_X, eval_sub]
      rw [h1', h0']
      ring

/-- **C129 (`rec_jacobi01`).** The same for the interval `[0, 1]` and the weight `(1-x)^a x^b`. -/
theorem C129_jacobi01 (n : ℕ) (a b : ℝ) (ha : -1 < a) (hb : -1 < b) :
    ∃ al be, recJacobi01 ((n + 2 : ℕ) : ℤ) a b = .ok (al, be) ∧ al.length = n + 2 ∧ be.length = n + 2 ∧
      (∀ k, 0 < k → k < n + 2 → 0 < arrayAt be k) ∧
      HasRecursion (unitIntegralL a b ha hb) (arrayAt al) (arrayAt be) (n + 2) := by
  obtain ⟨al, be, e, hl, hl', hpos, hrec⟩ := C129_jacobi n a b ha hb
  have h1 : ¬ (a ≤ -1 ∨ b ≤ -1) := by push Not; exact ⟨ha, hb⟩
  have h2 : ¬ ((n + 2 : ℕ) : ℤ) < 1 := by omega
  unfold recJacobi01
  rw [if_neg h1, if_neg h2, e]
  match be, hl' with
  | d :: ds, hl' =>
    have hA : ∀ k, k < n + 2 → arrayAt (al.map fun v => (1 + v) / 2) k = (1 + arrayAt al k) / 2 := by
      intro k hk
      have : k < al.length := by omega
      simp [arrayAt, List.getD_eq_getElem?_getD, this]
    have hB : ∀ k, 0 < k → k < n + 2 → arrayAt (d / (2 : ℝ) ^ (a + b + 1) :: ds.map fun v => v / 4) k =
        arrayAt (d :: ds) k / 4 := by
      intro k hk hk'
      cases k with
      | zero => omega
      | succ k =>
        have : k < ds.length := by simp only [List.length_cons] at hl'; omega
        simp [arrayAt, List.getD_eq_getElem?_getD, this]
    refine ⟨_, _, rfl, by simp [hl], by simpa using hl', ?_, ?_, ?_⟩
    · intro k hk hk'
      have := hpos k hk hk'
      change 0 < arrayAt (d / (2 : ℝ) ^ (a + b + 1) :: ds.map fun v => v / 4) k
      rw [hB k hk hk']
      linarith
    · change unitIntegral a b 1 = arrayAt (d / (2 : ℝ) ^ (a + b + 1) :: ds.map fun v => v / 4) 0
      rw [unitIntegral_eq ha hb, one_comp, hrec.1]
      simp only [arrayAt, List.getD_cons_zero]
      rw [div_eq_inv_mul]
    · intro j k hjk hk
      have hm := fun m hm => monicP_half (al := arrayAt al) (be := arrayAt (d :: ds)) hA hB m hm
      change unitIntegral a b (monicP (arrayAt (al.map fun v => (1 + v) / 2))
        (arrayAt (d / (2 : ℝ) ^ (a + b + 1) :: ds.map fun v => v / 4)) j * monicP (arrayAt (al.map fun v => (1 + v) / 2))
        (arrayAt (d / (2 : ℝ) ^ (a + b + 1) :: ds.map fun v => v / 4)) k) = 0
      rw [unitIntegral_eq ha hb, mul_comp, hm j (by omega), hm k hk]
      have : C ((1 / 2 : ℝ) ^ j) * monicP (arrayAt al) (arrayAt (d :: ds)) j * (C ((1 / 2) ^ k) *
          monicP (arrayAt al) (arrayAt (d :: ds)) k) = ((1 / 2 : ℝ) ^ j * (1 / 2) ^ k) •
          (monicP (arrayAt al) (arrayAt (d :: ds)) j * monicP (arrayAt al) (arrayAt (d :: ds)) k) := by
        rw [smul_eq_C_mul, C_mul]; ring
      rw [this, map_smul, hrec.2 j k hjk hk, smul_zero, mul_zero]

/-- **C129 (one point), refuted.** For `N = 1`, `rec_jacobi` returns two numbers instead of arrays, and `rec_jacobi01` raises. -/
theorem C129_one_refuted (a b : ℝ) (ha : -1 < a) (hb : -1 < b) :
    (∀ al be, recJacobi 1 a b ≠ .arrays al be) ∧ recJacobi01 1 a b = .error .indexError := by
  have h1 : ¬ (a ≤ -1 ∨ b ≤ -1) := by push Not; exact ⟨ha, hb⟩
  refine ⟨fun al be => by simp [recJacobi], ?_⟩
  unfold recJacobi01
  rw [if_neg h1, if_neg (by norm_num)]
  simp [recJacobi]

/-- **C129 (rules for the interval).** `gauss(*rec_jacobi(N, a, b))` integrates polynomials up to degree `2 N - 1` times the
weight exactly, with distinct nodes inside `(-1, 1)` and positive weights. -/
theorem C129_rule (eig : EigBanded) (heig : EigContract eig) (n : ℕ) (a b : ℝ) (ha : -1 < a) (hb : -1 < b) :
    ∃ al be rule, recJacobi ((n + 2 : ℕ) : ℤ) a b = .arrays al be ∧ gauss eig al be = .ok rule ∧ rule.length = n + 2 ∧
      (∀ f : ℝ[X], f.natDegree ≤ 2 * (n + 2) - 1 → (rule.map fun xw => f.eval xw.1 * xw.2).sum =
        ∫ x in (-1 : ℝ)..1, f.eval x * ((1 - x) ^ a * (1 + x) ^ b)) ∧
      (rule.map Prod.fst).Nodup ∧ ∀ xw ∈ rule, -1 < xw.1 ∧ xw.1 < 1 ∧ 0 < xw.2 := by
  obtain ⟨al, be, e, hl, hl', hpos, hrec⟩ := C129_jacobi n a b ha hb
  obtain ⟨rule, er, hlen, hex, -⟩ := C129_gauss eig heig (n + 1) al be hl hl' hpos _ hrec
  obtain ⟨h1, h2⟩ := C129_nodes eig heig (n + 1) al be hl hl' hpos _ hrec (-1) 1 (jacobi_positive ha hb) rule er
  exact ⟨al, be, rule, e, er, hlen, fun f hf => hex f (by omega), h1, h2⟩

/-! ## Cases -/

/-- Eigenvalues and eigenvectors exist for every symmetric matrix. -/
theorem eig_exists : ∃ eig : EigBanded, EigContract eig := by
  classical
  have : ∀ (n : ℕ) (J : Matrix (Fin n) (Fin n) ℝ), ∃ r : (Fin n → ℝ) × Matrix (Fin n) (Fin n) ℝ,
      J.IsSymm → r.2ᵀ * r.2 = 1 ∧ J * r.2 = r.2 * diagonal r.1 := by
    intro n J
    by_cases h : J.IsSymm
    · have hH : J.IsHermitian := by
        rw [Matrix.IsHermitian, conjTranspose_eq_transpose_of_trivial]; exact h
      refine ⟨(hH.eigenvalues, (hH.eigenvectorUnitary : Matrix (Fin n) (Fin n) ℝ)), fun _ => ⟨?_, ?_⟩⟩
      · have := Unitary.coe_star_mul_self hH.eigenvectorUnitary
        rwa [star_eq_conjTranspose, conjTranspose_eq_transpose_of_trivial] at this
      · have h1 := hH.spectral_theorem
        have h2 := Unitary.coe_star_mul_self hH.eigenvectorUnitary
        rw [Unitary.conjStarAlgAut_apply] at h1
        have h3 := congrArg (· * (hH.eigenvectorUnitary : Matrix (Fin n) (Fin n) ℝ)) h1
        simp only [Matrix.mul_assoc, h2, Matrix.mul_one] at h3
        exact h3
    · exact ⟨(0, 0), fun h' => absurd h' h⟩
  choose eig h using this
  exact ⟨eig, h⟩

theorem solve_exists : ∃ solve : LinSolve, SolveContract solve ∧ ∀ n A f, IsUnit A → (solve n A f).isSome := by
  classical
  refine ⟨fun n A f => if IsUnit A then some (A⁻¹ *ᵥ f) else none, ?_, ?_⟩
  · intro n A f v h
    by_cases hA : IsUnit A
    · simp only [hA, if_true, Option.some.injEq] at h
      rw [← h, Matrix.mulVec_mulVec, Matrix.mul_nonsing_inv _ ((Matrix.isUnit_iff_isUnit_det _).mp hA), Matrix.one_mulVec]
    · simp [hA] at h
  · intro n A f hA
    simp [hA]

/-- Rules with any number of points from 2 exist which the wrapper of C19 integrates with exactly on every interval. -/
example (n : ℕ) : ∃ rule : Rule, rule.length = n + 2 ∧ ∀ (p : ℝ[X]), p.natDegree ≤ 2 * n + 3 → ∀ lo hi : ℝ,
    gaussian rule (fun x => p.eval x) lo hi = ∫ x in lo..hi, p.eval x := by
  obtain ⟨eig, heig⟩ := eig_exists
  obtain ⟨al, be, rule, -, -, hl, hex, -⟩ := C129_rule eig heig n 0 0 (by norm_num) (by norm_num)
  refine ⟨rule, hl, fun p hp lo hi => C19_exact_degree rule (2 * n + 3) (fun q hq => ?_) p hp lo hi⟩
  rw [hex q (by omega)]
  simp

/-- Radau's rule with two points for the weight 1 and the node -1 exists; the call changes the array it was given. -/
example : ∃ (eig : EigBanded) (solve : LinSolve) (out : (List ℝ × List ℝ) × Rule), EigContract eig ∧ SolveContract solve ∧
    radau eig solve [0, 0] [2, 1 / 3] (-1) = .ok out ∧ out.1.1 = [0, -1 + 1 / 3] := by
  obtain ⟨eig, heig⟩ := eig_exists
  obtain ⟨solve, hs, hu⟩ := solve_exists
  have hA : jacobiMatrix 1 (fun k => arrayAt [0, 0] k - (-1)) (arrayAt [2, 1 / 3]) = 1 := by
    ext i j
    fin_cases i; fin_cases j
    simp [jacobiMatrix, arrayAt]
  obtain ⟨d, hd⟩ := Option.isSome_iff_exists.mp (hu 1 1 (lastVector 1 (arrayAt [2, 1 / 3] 1)) isUnit_one)
  have hd' := hs 1 _ _ _ hd
  rw [Matrix.one_mulVec] at hd'
  obtain ⟨x, V, -, -, hr⟩ := gauss_ok heig (n := 1) (alpha := setLast [0, 0] (-1 + d (Fin.last 0)))
    (beta := [2, 1 / 3]) (by simp [setLast]) (by simp)
  refine ⟨eig, solve, ((setLast [0, 0] (-1 + d (Fin.last 0)), [2, 1 / 3]),
    List.ofFn fun i => (x i, arrayAt [2, 1 / 3] 0 * V 0 i ^ 2)), heig, hs, ?_, ?_⟩
  · unfold radau
    simp only [List.length_cons, List.length_nil, Nat.reduceAdd, if_true, hA, hd, hr]
  · rw [hd']
    simp [setLast, lastVector, arrayAt]

/-- Lobatto's rule with two points for the weight 1: the nodes -1 and 1. -/
example : ∃ (eig : EigBanded) (solve : LinSolve) (out : (List ℝ × List ℝ) × Rule), EigContract eig ∧ SolveContract solve ∧
    lobatto eig solve [0, 0] [2, 1 / 3] (-1) 1 = .ok out ∧ out.1 = ([0, 0], [2, 1]) := by
  obtain ⟨eig, heig⟩ := eig_exists
  obtain ⟨solve, hs, hu⟩ := solve_exists
  have hA : jacobiMatrix 1 (fun k => arrayAt [0, 0] k - (-1)) (arrayAt [2, 1 / 3]) = 1 := by
    ext i j
    fin_cases i; fin_cases j
    simp [jacobiMatrix, arrayAt]
  have hB : jacobiMatrix 1 (fun k => arrayAt [0, 0] k - 1) (arrayAt [2, 1 / 3]) = -1 := by
    ext i j
    fin_cases i; fin_cases j
    simp [jacobiMatrix, arrayAt]
  obtain ⟨d, hd⟩ := Option.isSome_iff_exists.mp (hu 1 1 (lastVector 1 1) isUnit_one)
  obtain ⟨g, hg⟩ := Option.isSome_iff_exists.mp (hu 1 (-1) (lastVector 1 1) isUnit_one.neg)
  have hd' := hs 1 _ _ _ hd
  have hg' := hs 1 _ _ _ hg
  rw [Matrix.one_mulVec] at hd'
  rw [Matrix.neg_mulVec, Matrix.one_mulVec, neg_eq_iff_eq_neg] at hg'
  have e1 : d (Fin.last 0) = 1 := by rw [hd']; simp [lastVector]
  have e2 : g (Fin.last 0) = -1 := by rw [hg']; simp [lastVector]
  have hU : IsUnit (!![1, -1; 1, - -1] : Matrix (Fin 2) (Fin 2) ℝ) := by
    rw [Matrix.isUnit_iff_isUnit_det]
    norm_num [Matrix.det_fin_two]
  obtain ⟨v, hv⟩ := Option.isSome_iff_exists.mp (hu 2 _ ![-1, 1] hU)
  have hv' := hs 2 _ _ _ hv
  have v0 := congrFun hv' 0
  have v1 := congrFun hv' 1
  simp [Matrix.mulVec, dotProduct, Fin.sum_univ_two] at v0 v1
  obtain ⟨x, V, -, -, hr⟩ := gauss_ok heig (n := 1) (alpha := setLast [0, 0] (v 0))
    (beta := setLast [2, 1 / 3] (v 1)) (by simp [setLast]) (by simp [setLast])
  refine ⟨eig, solve, ((setLast [0, 0] (v 0), setLast [2, 1 / 3] (v 1)),
    List.ofFn fun i => (x i, arrayAt (setLast [2, 1 / 3] (v 1)) 0 * V 0 i ^ 2)), heig, hs, ?_, ?_⟩
  · unfold lobatto
    simp only [List.length_cons, List.length_nil, Nat.reduceAdd, if_true, hA, hB, hd, hg, e1, e2, hv, hr]
  · have : v 0 = 0 := by linarith
    have : v 1 = 1 := by linarith
    simp [setLast, *]

end PyBBN
