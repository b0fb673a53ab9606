import Verif.Props.History
import Verif.Lemmas.Annihilation
import Mathlib.Analysis.Calculus.MeanValue
import Mathlib.Analysis.Calculus.Deriv.MeanValue
import Mathlib.Analysis.SpecialFunctions.Log.Deriv
/-!
# Lemmas for C117: error of the temperature steps
-/
namespace PyBBN

open MeasureTheory Set Filter Topology

/-! ## The weights of the multistep formula -/

/-- The weights add up to one and their absolute values to less than 13. -/
theorem abSlope_near (a D : ℝ) (t : List ℝ) (ht : t.length ≤ 4) (hD : ∀ b ∈ t, |b - a| ≤ D) (hD0 : 0 ≤ D) :
    |abSlope (a :: t) - a| ≤ 13 * D := by
  match t, ht with
  | [], _ => simp [abSlope, abWeights]; linarith
  | [b], _ =>
    have h1 := hD b (by simp)
    have e : abSlope [a, b] - a = -1 / 2 * (b - a) := by simp [abSlope, abWeights]; ring
    rw [e, abs_le]; rw [abs_le] at h1
    constructor <;> linarith
  | [b, c], _ =>
    have h1 := hD b (by simp)
    have h2 := hD c (by simp)
    have e : abSlope [a, b, c] - a = -4 / 3 * (b - a) + 5 / 12 * (c - a) := by
      simp [abSlope, abWeights]; ring
    rw [e, abs_le]; rw [abs_le] at h1 h2
    constructor <;> linarith
  | [b, c, d], _ =>
    have h1 := hD b (by simp)
    have h2 := hD c (by simp)
    have h3 := hD d (by simp)
    have e : abSlope [a, b, c, d] - a = -59 / 24 * (b - a) + 37 / 24 * (c - a) - 3 / 8 * (d - a) := by
      simp [abSlope, abWeights]; ring
    rw [e, abs_le]; rw [abs_le] at h1 h2 h3
    constructor <;> linarith
  | [b, c, d, g], _ =>
    have h1 := hD b (by simp)
    have h2 := hD c (by simp)
    have h3 := hD d (by simp)
    have h4 := hD g (by simp)
    have e : abSlope [a, b, c, d, g] - a = -1387 / 360 * (b - a) + 109 / 30 * (c - a)
        - 637 / 360 * (d - a) + 251 / 720 * (g - a) := by
      simp [abSlope, abWeights]; ring
    rw [e, abs_le]; rw [abs_le] at h1 h2 h3 h4
    constructor <;> linarith

theorem abSlope_near_take (a D : ℝ) (past : List ℝ) (hD : ∀ b ∈ past.take 4, |b - a| ≤ D) (hD0 : 0 ≤ D) :
    |abSlope ((a :: past).take 5) - a| ≤ 13 * D :=
  abSlope_near a D (past.take 4) (by simp) hD hD0

/-! ## A sequence of steps close to a solution -/

/-- Local error of the exact solution over one step `x → x (1 + h)`. -/
theorem solution_step (f : ℝ → ℝ → ℝ) (τ : ℝ → ℝ) (x₁ X lo hi L F x h : ℝ) (h1 : 0 < x₁) (hL : 0 ≤ L)
    (hF : ∀ x ∈ Icc x₁ X, ∀ θ ∈ Icc lo hi, |f x θ| ≤ F)
    (hLip : ∀ x ∈ Icc x₁ X, ∀ θ ∈ Icc lo hi, ∀ x' ∈ Icc x₁ X, ∀ θ' ∈ Icc lo hi,
      |f x θ - f x' θ'| ≤ L * (|x - x'| + |θ - θ'|))
    (hτ : ∀ x ∈ Icc x₁ X, τ x ∈ Icc lo hi ∧ HasDerivAt τ (f x (τ x) / x) x)
    (hh : 0 < h) (hx : x₁ ≤ x) (hX : x * (1 + h) ≤ X) :
    |τ (x * (1 + h)) - τ x - h * f x (τ x)| ≤ (L * (X + F) + F) * h ^ 2 := by
  have hx0 : 0 < x := h1.trans_le hx
  have hlt : x < x * (1 + h) := by nlinarith
  have hxI : x ∈ Icc x₁ X := ⟨hx, by linarith⟩
  have sub : ∀ y ∈ Icc x (x * (1 + h)), y ∈ Icc x₁ X := fun y hy => ⟨hx.trans hy.1, hy.2.trans hX⟩
  have hF0 : 0 ≤ F := (abs_nonneg _).trans (hF x hxI (τ x) (hτ x hxI).1)
  have cont : ContinuousOn τ (Icc x (x * (1 + h))) := fun y hy =>
    (hτ y (sub y hy)).2.continuousAt.continuousWithinAt
  obtain ⟨ξ, hξ, e⟩ := exists_hasDerivAt_eq_slope τ (fun y => f y (τ y) / y) hlt cont
    (fun y hy => (hτ y (sub y (Ioo_subset_Icc_self hy))).2)
  have hξI := sub ξ (Ioo_subset_Icc_self hξ)
  have hξ0 : 0 < ξ := hx0.trans hξ.1
  have e' : τ (x * (1 + h)) - τ x = h * (x / ξ * f ξ (τ ξ)) := by
    have hne : x * (1 + h) - x ≠ 0 := by linarith
    have : τ (x * (1 + h)) - τ x = f ξ (τ ξ) / ξ * (x * (1 + h) - x) := by
      rw [e, div_mul_cancel₀ _ hne]
    rw [this]; field_simp; ring
  -- the solution moves little between `x` and `ξ`
  have hmove : |τ ξ - τ x| ≤ F * h := by
    obtain ⟨ζ, hζ, e2⟩ := exists_hasDerivAt_eq_slope τ (fun y => f y (τ y) / y) hξ.1
      (cont.mono (Icc_subset_Icc_right hξ.2.le))
      (fun y hy => (hτ y (sub y ⟨hy.1.le, hy.2.le.trans hξ.2.le⟩)).2)
    have hζI := sub ζ ⟨hζ.1.le, hζ.2.le.trans hξ.2.le⟩
    have hζ0 : 0 < ζ := hx0.trans hζ.1
    have hne : ξ - x ≠ 0 := by linarith [hξ.1]
    have e3 : τ ξ - τ x = f ζ (τ ζ) * ((ξ - x) / ζ) := by
      have : τ ξ - τ x = f ζ (τ ζ) / ζ * (ξ - x) := by rw [e2]; field_simp
      rw [this]; ring
    rw [e3, abs_mul]
    have q : |(ξ - x) / ζ| ≤ h := by
      rw [abs_of_nonneg (by have := hξ.1; exact div_nonneg (by linarith) hζ0.le), div_le_iff₀ hζ0]
      nlinarith [hξ.2, hζ.1]
    exact mul_le_mul (hF ζ hζI _ (hτ ζ hζI).1) q (abs_nonneg _) hF0
  have hl := hLip ξ hξI _ (hτ ξ hξI).1 x hxI _ (hτ x hxI).1
  have hxξ : |ξ - x| ≤ X * h := by
    rw [abs_of_nonneg (by linarith [hξ.1])]
    nlinarith [hξ.2, hxI.2]
  have hq : |x / ξ - 1| ≤ h := by
    rw [abs_le]
    constructor
    · rw [neg_le_sub_iff_le_add, div_add' _ _ _ hξ0.ne', le_div_iff₀ hξ0]
      nlinarith [hξ.2, hξ.1]
    · have : x / ξ ≤ 1 := by rw [div_le_one hξ0]; exact hξ.1.le
      linarith
  have key : |x / ξ * f ξ (τ ξ) - f x (τ x)| ≤ (L * (X + F) + F) * h := by
    have : x / ξ * f ξ (τ ξ) - f x (τ x) = (f ξ (τ ξ) - f x (τ x)) + (x / ξ - 1) * f ξ (τ ξ) := by ring
    rw [this]
    refine (abs_add_le _ _).trans ?_
    rw [abs_mul]
    have a1 : |x / ξ - 1| * |f ξ (τ ξ)| ≤ h * F :=
      mul_le_mul hq (hF ξ hξI _ (hτ ξ hξI).1) (abs_nonneg _) hh.le
    have a2 : L * (|ξ - x| + |τ ξ - τ x|) ≤ L * (X * h + F * h) := by gcongr
    nlinarith
  rw [e', ← mul_sub, abs_mul, abs_of_pos hh]
  nlinarith

/-- Perturbed steps stay close to the solution. -/
theorem steps_error (f : ℝ → ℝ → ℝ) (τ : ℝ → ℝ) (x₁ X lo hi L F δ h A B : ℝ) (th σ : ℕ → ℝ) (h1 : 0 < x₁)
    (h1X : x₁ ≤ X) (hL : 0 ≤ L) (hA : 0 ≤ A) (hB : 0 ≤ B)
    (hF : ∀ x ∈ Icc x₁ X, ∀ θ ∈ Icc lo hi, |f x θ| ≤ F)
    (hLip : ∀ x ∈ Icc x₁ X, ∀ θ ∈ Icc lo hi, ∀ x' ∈ Icc x₁ X, ∀ θ' ∈ Icc lo hi,
      |f x θ - f x' θ'| ≤ L * (|x - x'| + |θ - θ'|))
    (hδ : 0 ≤ δ) (hτ : ∀ x ∈ Icc x₁ X, τ x ∈ Icc (lo + δ) (hi - δ) ∧ HasDerivAt τ (f x (τ x) / x) x)
    (hh : 0 < h) (h0 : th 0 = τ x₁) (N : ℕ) (hs : ∀ n, n < N → th (n + 1) = th n + h * σ n)
    (hσ : ∀ n, n < N → x₁ * (1 + h) ^ n ≤ X → (∀ i, i ≤ n → th i ∈ Icc lo hi) →
      |σ n - f (x₁ * (1 + h) ^ n) (th n)| ≤ A + if n < 4 then B else 0)
    (hsmall : Real.exp (L * (X / x₁)) * (X / x₁ * ((L * (X + F) + F) * h + A) + 4 * B * h) ≤ δ) :
    ∀ n, n ≤ N → x₁ * (1 + h) ^ n ≤ X → |th n - τ (x₁ * (1 + h) ^ n)| ≤
      Real.exp (L * (X / x₁)) * (X / x₁ * ((L * (X + F) + F) * h + A) + 4 * B * h) := by
  have hx₁ : x₁ ∈ Icc x₁ X := ⟨le_rfl, h1X⟩
  have hτ' : ∀ x ∈ Icc x₁ X, τ x ∈ Icc lo hi ∧ HasDerivAt τ (f x (τ x) / x) x := fun x hx =>
    ⟨⟨by linarith [(hτ x hx).1.1], by linarith [(hτ x hx).1.2]⟩, (hτ x hx).2⟩
  have hF0 : 0 ≤ F := (abs_nonneg _).trans (hF x₁ hx₁ (τ x₁) (hτ' x₁ hx₁).1)
  set c := L * (X + F) + F with hc
  have hX0 : 0 < X := h1.trans_le h1X
  have hc0 : 0 ≤ c := by positivity
  have hpow : ∀ n, x₁ ≤ x₁ * (1 + h) ^ n := fun n =>
    le_mul_of_one_le_right h1.le (one_le_pow₀ (by linarith))
  have hnh : ∀ n : ℕ, x₁ * (1 + h) ^ n ≤ X → n * h ≤ X / x₁ := by
    intro n hn
    have b := one_add_mul_le_pow (show (-2 : ℝ) ≤ h by linarith) n
    rw [le_div_iff₀ h1]
    nlinarith
  -- accumulated size of the perturbations
  set w : ℕ → ℝ := fun n => n * (h * (c * h + A)) + (min n 4 : ℕ) * (B * h) with hw
  have hw0 : ∀ n, 0 ≤ w n := fun n => by rw [hw]; positivity
  have hfin : ∀ n : ℕ, x₁ * (1 + h) ^ n ≤ X → (1 + L * h) ^ n * w n ≤
      Real.exp (L * (X / x₁)) * (X / x₁ * (c * h + A) + 4 * B * h) := by
    intro n hn
    have q := hnh n hn
    refine mul_le_mul ?_ ?_ (hw0 n) (Real.exp_pos _).le
    · calc (1 + L * h) ^ n ≤ Real.exp (L * h) ^ n := by
            refine pow_le_pow_left₀ (by positivity) ?_ n
            linarith [Real.add_one_le_exp (L * h)]
        _ = Real.exp (L * (n * h)) := by rw [← Real.exp_nat_mul]; ring_nf
        _ ≤ _ := by gcongr
    · have m4 : ((min n 4 : ℕ) : ℝ) ≤ 4 := by exact_mod_cast min_le_right n 4
      have a1 : n * (h * (c * h + A)) ≤ X / x₁ * (c * h + A) := by
        rw [← mul_assoc]; gcongr
      have a2 : ((min n 4 : ℕ) : ℝ) * (B * h) ≤ 4 * (B * h) := by gcongr
      rw [hw]; dsimp only; linarith
  have main : ∀ n, n ≤ N → x₁ * (1 + h) ^ n ≤ X →
      |th n - τ (x₁ * (1 + h) ^ n)| ≤ (1 + L * h) ^ n * w n := by
    intro n
    induction n using Nat.strong_induction_on with
    | _ n ih =>
    intro hnN hnX
    rcases n with _ | n
    · simp [hw, h0]
    have hxn : ∀ i, i ≤ n → x₁ * (1 + h) ^ i ≤ X := by
      intro i hi
      refine le_trans ?_ hnX
      gcongr
      · linarith
      · omega
    have hbox : ∀ i, i ≤ n → th i ∈ Icc lo hi := by
      intro i hi
      have b := (ih i (by omega) (by omega) (hxn i hi)).trans ((hfin i (hxn i hi)).trans hsmall)
      obtain ⟨t1, t2⟩ := (hτ _ ⟨hpow i, hxn i hi⟩).1
      rw [abs_le] at b
      constructor <;> linarith [b.1, b.2]
    have ihn := ih n (by omega) (by omega) (hxn n le_rfl)
    have hσn := hσ n (by omega) (hxn n le_rfl) hbox
    have hstep := solution_step f τ x₁ X lo hi L F (x₁ * (1 + h) ^ n) h h1 hL hF hLip hτ' hh (hpow n)
      (by rw [mul_assoc, ← pow_succ]; exact hnX)
    rw [mul_assoc, ← pow_succ, ← hc] at hstep
    have hI : x₁ * (1 + h) ^ n ∈ Icc x₁ X := ⟨hpow n, hxn n le_rfl⟩
    have hl := hLip _ hI _ (hbox n le_rfl) _ hI _ (hτ' _ hI).1
    rw [sub_self, abs_zero, zero_add] at hl
    set xn := x₁ * (1 + h) ^ n
    set en := |th n - τ xn|
    have hrec : |th (n + 1) - τ (x₁ * (1 + h) ^ (n + 1))| ≤
        (1 + L * h) * en + (h * (c * h + A) + (if n < 4 then B * h else 0)) := by
      have : th (n + 1) - τ (x₁ * (1 + h) ^ (n + 1)) = (th n - τ xn) + h * (σ n - f xn (th n)) +
          h * (f xn (th n) - f xn (τ xn)) - (τ (x₁ * (1 + h) ^ (n + 1)) - τ xn - h * f xn (τ xn)) := by
        rw [hs n (by omega)]; ring
      rw [this]
      refine (abs_sub _ _).trans ?_
      refine (add_le_add ((abs_add_le _ _).trans (add_le_add (abs_add_le _ _) le_rfl)) le_rfl).trans ?_
      rw [abs_mul, abs_mul, abs_of_pos hh]
      have a1 := mul_le_mul_of_nonneg_left hσn hh.le
      have a2 := mul_le_mul_of_nonneg_left hl hh.le
      split_ifs at a1 ⊢ <;> nlinarith
    refine hrec.trans ?_
    have hLh : 0 ≤ L * h := by positivity
    have p1 : 1 ≤ (1 + L * h) ^ (n + 1) := one_le_pow₀ (by linarith)
    have hw1 : w (n + 1) = w n + (h * (c * h + A) + (if n < 4 then B * h else 0)) := by
      rw [hw]; dsimp only
      split_ifs with h4
      · rw [min_eq_left (by omega : n + 1 ≤ 4), min_eq_left (by omega : n ≤ 4)]; push_cast; ring
      · rw [min_eq_right (by omega : 4 ≤ n + 1), min_eq_right (by omega : 4 ≤ n)]; push_cast; ring
    have pert : 0 ≤ h * (c * h + A) + (if n < 4 then B * h else 0) := by
      have : 0 ≤ B * h := by positivity
      split_ifs <;> positivity
    rw [hw1, mul_add, pow_succ]
    have b1 : (1 + L * h) * en ≤ (1 + L * h) ^ n * (1 + L * h) * w n := by
      calc (1 + L * h) * en ≤ (1 + L * h) * ((1 + L * h) ^ n * w n) := by gcongr
        _ = _ := by ring
    rw [pow_succ] at p1
    have b2 := mul_le_mul_of_nonneg_right p1 pert
    linarith
  intro n hn hnX
  exact (main n hn hnX).trans (hfin n hnX)

/-! ## The massive integrals are Lipschitz in the mass -/

theorem edge_hasDerivAt {eta : ℤ} (he : eta = 1 ∨ eta = -1) {e : ℝ} (h : 0 < e) :
    HasDerivAt (edge eta) (-(edge eta e * ((Real.exp e - eta) / (Real.exp e + eta)))) e := by
  have h3 := (eta_den he h).2.2
  have d1 := ((Real.hasDerivAt_exp e).add_const (eta : ℝ)).fun_pow 2
  have d := (Real.hasDerivAt_exp e).fun_div d1 (pow_ne_zero 2 h3.ne')
  refine d.congr_deriv ?_
  unfold edge
  push_cast
  field_simp
  ring

theorem edge_antitone {eta : ℤ} (he : eta = 1 ∨ eta = -1) : AntitoneOn (edge eta) (Ioi 0) := by
  refine antitoneOn_of_deriv_nonpos (convex_Ioi 0) (edge_continuousOn he) (fun e h => ?_) fun e h => ?_
  · rw [interior_Ioi] at h
    exact (edge_hasDerivAt he h).differentiableAt.differentiableWithinAt
  · rw [interior_Ioi] at h
    rw [(edge_hasDerivAt he h).deriv]
    have h1 := (edge_bound he h).1
    have h2 := (eta_den he h).2.2
    have h3 : 0 ≤ Real.exp e - eta := by
      have := Real.one_lt_exp_iff.mpr (mem_Ioi.mp h)
      rcases he with rfl | rfl <;> push_cast <;> linarith
    have : 0 ≤ edge eta e * ((Real.exp e - eta) / (Real.exp e + eta)) := by positivity
    linarith

/-- Relative slope of the edge above `u`. -/
noncomputable def edgeRate (u : ℝ) : ℝ := (Real.exp u + 1) / (Real.exp u - 1)

theorem edge_rate {eta : ℤ} (he : eta = 1 ∨ eta = -1) {u e : ℝ} (hu : 0 < u) (h : u ≤ e) :
    0 ≤ (Real.exp e - eta) / (Real.exp e + eta) ∧ (Real.exp e - eta) / (Real.exp e + eta) ≤ edgeRate u := by
  have h1 := Real.one_lt_exp_iff.mpr hu
  have h2 := Real.exp_le_exp.mpr h
  unfold edgeRate
  have h3 : 0 < Real.exp u - 1 := by linarith
  rcases he with rfl | rfl <;> push_cast
  · refine ⟨div_nonneg (by linarith) (by linarith), ?_⟩
    rw [div_le_div_iff₀ (by linarith) h3]
    nlinarith
  · refine ⟨div_nonneg (by linarith) (by linarith), ?_⟩
    rw [div_le_div_iff₀ (by linarith) h3]
    nlinarith

theorem edge_lipschitz {eta : ℤ} (he : eta = 1 ∨ eta = -1) {u e e' : ℝ} (hu : 0 < u) (h : u ≤ e) (h' : u ≤ e')
    {w : ℝ} (hw : 0 < w) (h1 : w ≤ e) (h2 : w ≤ e') :
    |edge eta e - edge eta e'| ≤ edgeRate u * edge eta w * |e - e'| := by
  wlog hle : e ≤ e' generalizing e e'
  · rw [abs_sub_comm, abs_sub_comm e]
    exact this h' h h2 h1 (le_of_not_ge hle)
  have hb : ∀ y ∈ Icc e e', ‖-(edge eta y * ((Real.exp y - eta) / (Real.exp y + eta)))‖ ≤
      edgeRate u * edge eta w := by
    intro y hy
    have hy0 : 0 < y := hu.trans_le (h.trans hy.1)
    obtain ⟨r0, r1⟩ := edge_rate he hu (h.trans hy.1)
    have p := (edge_bound he hy0).1
    have q := edge_antitone he (mem_Ioi.mpr hw) (mem_Ioi.mpr hy0) (h1.trans hy.1)
    rw [norm_neg, Real.norm_of_nonneg (mul_nonneg p.le r0), mul_comm (edgeRate u)]
    exact mul_le_mul q r1 r0 (p.le.trans q)
  have := Convex.norm_image_sub_le_of_norm_hasDerivWithin_le
    (f := edge eta) (s := Icc e e') (fun y hy =>
      (edge_hasDerivAt he (hu.trans_le (h.trans hy.1))).hasDerivWithinAt) hb (convex_Icc e e')
    (right_mem_Icc.mpr hle) (left_mem_Icc.mpr hle)
  simpa [Real.norm_eq_abs] using this

theorem energy_lipschitz (v u u' : ℝ) : |√(v ^ 2 + u ^ 2) - √(v ^ 2 + u' ^ 2)| ≤ |u - u'| := by
  wlog hle : √(v ^ 2 + u' ^ 2) ≤ √(v ^ 2 + u ^ 2) generalizing u u'
  · rw [abs_sub_comm, abs_sub_comm u]
    exact this u' u (le_of_not_ge hle)
  rw [abs_of_nonneg (by linarith)]
  have h : √(v ^ 2 + u ^ 2) ≤ √(v ^ 2 + u' ^ 2) + |u - u'| := by
    refine Real.sqrt_le_iff.mpr ⟨by positivity, ?_⟩
    have h1 : √(v ^ 2 + u' ^ 2) ^ 2 = v ^ 2 + u' ^ 2 := Real.sq_sqrt (by positivity)
    have h2 : |u'| ≤ √(v ^ 2 + u' ^ 2) := by
      rw [← Real.sqrt_sq_eq_abs]; exact Real.sqrt_le_sqrt (by nlinarith [sq_nonneg v])
    have h3 : |u - u'| ^ 2 = (u - u') ^ 2 := sq_abs _
    have h4 : u' * (u - u') ≤ |u'| * |u - u'| := by rw [← abs_mul]; exact le_abs_self _
    nlinarith [abs_nonneg (u - u')]
  linarith

theorem shell_one_integrable {eta : ℤ} (he : eta = 1 ∨ eta = -1) (u : ℝ) :
    IntegrableOn (fun v : ℝ => v ^ 2 * edge eta (√(v ^ 2 + u ^ 2))) (Ioi 0) := by
  refine Integrable.mono' (shell_dom_integrable 1 le_rfl) ?_ ?_
  · refine ContinuousOn.aestronglyMeasurable ?_ measurableSet_Ioi
    refine ContinuousOn.mul (by fun_prop) ?_
    exact (edge_continuousOn he).comp (by fun_prop) fun v hv => mem_Ioi.mpr (energy_pos (mem_Ioi.mp hv))
  · refine (ae_restrict_iff' measurableSet_Ioi).mpr (Eventually.of_forall fun v hv => ?_)
    have hv0 := mem_Ioi.mp hv
    have he0 := energy_pos (u := u) hv0
    have p := (edge_bound he he0).1
    have q := edge_antitone he hv (mem_Ioi.mpr he0) (energy_ge hv0.le)
    have r := (edge_bound he hv0).2
    rw [Real.norm_of_nonneg (by positivity)]
    calc v ^ 2 * edge eta (√(v ^ 2 + u ^ 2)) ≤ v ^ 2 * edge eta v := by gcongr
      _ = v * (v * edge eta v) := by ring
      _ ≤ v * ((1 + v) * (1 / (Real.exp v - 1))) := by gcongr
      _ = _ := by ring

theorem shell_one_lipschitz {eta : ℤ} (he : eta = 1 ∨ eta = -1) {u₀ u u' : ℝ} (h0 : 0 < u₀) (h : u₀ ≤ u)
    (h' : u₀ ≤ u') : |shell eta 1 u - shell eta 1 u'| ≤ edgeRate u₀ * shell eta 1 u₀ * |u - u'| := by
  rw [← shell_momentum eta 1 le_rfl u (h0.le.trans h), ← shell_momentum eta 1 le_rfl u' (h0.le.trans h'),
    ← shell_momentum eta 1 le_rfl u₀ h0.le]
  have i := shell_one_integrable he u
  have i' := shell_one_integrable he u'
  have i0 := shell_one_integrable he u₀
  simp only [Nat.reduceAdd]
  have e : edgeRate u₀ * (∫ v in Ioi (0 : ℝ), v ^ 2 * edge eta (√(v ^ 2 + u₀ ^ 2))) * |u - u'| =
      ∫ v in Ioi (0 : ℝ), (edgeRate u₀ * |u - u'|) * (v ^ 2 * edge eta (√(v ^ 2 + u₀ ^ 2))) := by
    rw [integral_const_mul]; ring
  rw [← integral_sub i i', e]
  have i1 : IntegrableOn (fun v : ℝ => (edgeRate u₀ * |u - u'|) * (v ^ 2 * edge eta (√(v ^ 2 + u₀ ^ 2)))) (Ioi 0) :=
    i0.const_mul _
  refine norm_integral_le_of_norm_le (f := fun v : ℝ => v ^ 2 * edge eta (√(v ^ 2 + u ^ 2)) -
    v ^ 2 * edge eta (√(v ^ 2 + u' ^ 2))) i1 ?_
  refine (ae_restrict_iff' measurableSet_Ioi).mpr (Eventually.of_forall fun v hv => ?_)
  have hv0 := mem_Ioi.mp hv
  have g : ∀ a, u₀ ≤ a → u₀ ≤ √(v ^ 2 + a ^ 2) ∧ √(v ^ 2 + u₀ ^ 2) ≤ √(v ^ 2 + a ^ 2) := by
    intro a ha
    refine ⟨?_, Real.sqrt_le_sqrt (by nlinarith)⟩
    calc u₀ ≤ a := ha
      _ = √(a ^ 2) := (Real.sqrt_sq (h0.le.trans ha)).symm
      _ ≤ _ := Real.sqrt_le_sqrt (by nlinarith [sq_nonneg v])
  have l := edge_lipschitz he h0 (g u h).1 (g u' h').1 (energy_pos (u := u₀) hv0) (g u h).2 (g u' h').2
  have l2 := energy_lipschitz v u u'
  have r0 : 0 ≤ edgeRate u₀ := (edge_rate he h0 le_rfl).1.trans (edge_rate he h0 le_rfl).2
  have p := (edge_bound he (energy_pos (u := u₀) hv0)).1
  rw [← mul_sub, norm_mul, Real.norm_of_nonneg (by positivity : (0:ℝ) ≤ v ^ 2), Real.norm_eq_abs]
  calc v ^ 2 * |edge eta √(v ^ 2 + u ^ 2) - edge eta √(v ^ 2 + u' ^ 2)|
      ≤ v ^ 2 * (edgeRate u₀ * edge eta √(v ^ 2 + u₀ ^ 2) * |u - u'|) := by gcongr; exact l.trans (by gcongr)
    _ = _ := by ring
end PyBBN
