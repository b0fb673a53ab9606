import Verif.Lemmas.Convergence
import Verif.Props.Annihilation
/-!
# Convergence of the recorded temperature history (C117)

Specification: a solution `τ` of `dτ/d ln x = f(x, τ)`.
-/
namespace PyBBN

open Set Filter Topology

variable {W : Type*}

/-! ## What the loop needs from the particles -/

/-- The slope the loop obtains from the particles at a regular state. -/
noncomputable def slopeOf (ph : Physics W) (w : W) (p : Params) : ℝ :=
  p.x * (ph.terms w p).2.1 / (ph.terms w p).2.2

/-- While the state is in a box of `x` and `a T` the slope is within `ε` of `f x (aT)`. -/
def SlopeNear (ph : Physics W) (m : ℝ) (f : ℝ → ℝ → ℝ) (ε x₁ X lo hi : ℝ) : Prop :=
  ∀ (w : W) (p : Params), p.Reg → p.log = true → p.m = m → p.x ∈ Icc x₁ X → p.aT ∈ Icc lo hi →
    |slopeOf ph w p - f p.x p.aT| ≤ ε

/-- A run about to start at `x₁` with `a T = θ₁` in logarithmic steps; the slopes in the table, possibly
left there by earlier runs, are at most `V`. -/
structure StartsAt (u : Uni W) (data : List Row) (m x₁ θ₁ V : ℝ) : Prop where
  reg : u.params.Reg
  log : u.params.log = true
  m : u.params.m = m
  h : u.params.h = u.params.dy
  x : u.params.x = x₁
  aT : u.params.aT = θ₁
  data : ∀ r ∈ data, |r.fraction| ≤ V
  fraction : |u.fraction| ≤ V

theorem StartsAt.dy {u : Uni W} {data : List Row} {m x₁ θ₁ V : ℝ} (h : StartsAt u data m x₁ θ₁ V) :
    0 < u.params.dy := by
  have a := h.reg.step h.log
  have b := h.reg.dx
  rw [a] at b
  exact pos_of_mul_pos_right b h.reg.x.le

theorem recent_slopes (g : ℕ → ℝ) (hist : List ℝ) (i : ℕ) (b : ℝ)
    (hb : b ∈ ((hist ++ (List.range i).map g).reverse).take 4) :
    (∃ j, i ≤ j + 4 ∧ j < i ∧ b = g j) ∨ (i < 4 ∧ b ∈ hist) := by
  rw [List.reverse_append, List.take_append] at hb
  rcases List.mem_append.mp hb with hb | hb
  · left
    obtain ⟨k, hk, rfl⟩ := List.mem_take_iff_getElem.mp hb
    simp only [List.length_reverse, List.length_map, List.length_range] at hk
    refine ⟨i - 1 - k, by omega, by omega, ?_⟩
    simp [List.getElem_reverse]
  · right
    simp only [List.length_reverse, List.length_map, List.length_range] at hb
    refine ⟨?_, by simpa using List.mem_of_mem_take hb⟩
    by_contra h
    rw [show 4 - i = 0 by omega] at hb
    simp at hb

theorem telescope_bound (a : ℕ → ℝ) (c : ℝ) (hc : 0 ≤ c) (i : ℕ) (h : ∀ k, k < i → |a (k + 1) - a k| ≤ c)
    (j : ℕ) (hj : j ≤ i) (h4 : i ≤ j + 4) : |a j - a i| ≤ 4 * c := by
  have : ∀ d, j + d ≤ i → |a j - a (j + d)| ≤ d * c := by
    intro d
    induction d with
    | zero => simp
    | succ d ih =>
      intro hd
      have h1 := ih (by omega)
      have h2 := h (j + d) (by omega)
      have e : a j - a (j + (d + 1)) = (a j - a (j + d)) - (a (j + d + 1) - a (j + d)) := by
        rw [← Nat.add_assoc]; ring
      rw [e]
      refine (abs_sub _ _).trans ?_
      push_cast; linarith
  obtain ⟨d, rfl⟩ := Nat.exists_eq_add_of_le hj
  refine (this d le_rfl).trans ?_
  have : (d : ℝ) ≤ 4 := by exact_mod_cast (by omega : d ≤ 4)
  gcongr

/-- The constant of the error bound, from the Lipschitz constant, the bound of the slope, the range and
the bound of the slopes recorded before. -/
noncomputable def errorConst (L F x₁ X V : ℝ) : ℝ :=
  Real.exp (L * (X / x₁)) *
    (X / x₁ * ((L * (X + F) + F) + 27 + 52 * L * (X + 27 * (F + V + 1))) + 104 * (F + V + 1))

theorem trace_error (f : ℝ → ℝ → ℝ) (τ : ℝ → ℝ) (x₁ X lo hi L F δ h ε V m : ℝ) (h1 : 0 < x₁)
    (h1X : x₁ ≤ X) (hL : 0 ≤ L)
    (hF : ∀ x ∈ Icc x₁ X, ∀ θ ∈ Icc lo hi, |f x θ| ≤ F)
    (hLip : ∀ x ∈ Icc x₁ X, ∀ θ ∈ Icc lo hi, ∀ x' ∈ Icc x₁ X, ∀ θ' ∈ Icc lo hi,
      |f x θ - f x' θ'| ≤ L * (|x - x'| + |θ - θ'|))
    (hδ : 0 ≤ δ) (hτ : ∀ x ∈ Icc x₁ X, τ x ∈ Icc (lo + δ) (hi - δ) ∧ HasDerivAt τ (f x (τ x) / x) x)
    (hh : 0 < h) (hε : 0 ≤ ε) (hε1 : ε ≤ 1) (hV : 0 ≤ V)
    (ph : Physics W) (hph : SlopeNear ph m f ε x₁ X lo hi) (c : Consts) (ab : Bool) (N : ℕ)
    (st : ℕ → List Row × Uni W) (hst : ∀ i, i < N → StepSpec ph c ab (st i) (st (i + 1)))
    (hreg : ∀ i, i ≤ N → (st i).2.params.Reg)
    (p0 : (st 0).2.params.log = true ∧ (st 0).2.params.m = m ∧ (st 0).2.params.h = h ∧
      (st 0).2.params.dy = h ∧ (st 0).2.params.x = x₁ ∧ (st 0).2.params.aT = τ x₁)
    (hhist : ∀ b ∈ (st 0).1.map Row.fraction, |b| ≤ V)
    (hsmall : errorConst L F x₁ X V * (h + ε) ≤ δ) :
    ∀ n, n ≤ N → (st n).2.params.x = x₁ * (1 + h) ^ n ∧
      ((st n).2.params.x ≤ X → |(st n).2.params.aT - τ (st n).2.params.x| ≤ errorConst L F x₁ X V * (h + ε)) := by
  have hx₁ : x₁ ∈ Icc x₁ X := ⟨le_rfl, h1X⟩
  have hX0 : 0 < X := h1.trans_le h1X
  have hF0 : 0 ≤ F := (abs_nonneg _).trans (hF x₁ hx₁ (τ x₁)
    ⟨by linarith [(hτ x₁ hx₁).1.1], by linarith [(hτ x₁ hx₁).1.2]⟩)
  set hist := (st 0).1.map Row.fraction with hhist_def
  set g : ℕ → ℝ := fun i => (st (i + 1)).2.fraction with hg
  have inv : ∀ n, n ≤ N → (st n).2.params.log = true ∧ (st n).2.params.m = m ∧ (st n).2.params.h = h ∧
      (st n).2.params.dy = h ∧ (st n).2.params.x = x₁ * (1 + h) ^ n ∧
      (st n).1.map Row.fraction = hist ++ (List.range n).map g := by
    intro n
    induction n with
    | zero =>
      intro _
      obtain ⟨a1, a2, a3, a4, a5, -⟩ := p0
      exact ⟨a1, a2, a3, a4, by rw [a5]; simp, by simp [hhist_def]⟩
    | succ n ih =>
      intro hn
      obtain ⟨a1, a2, a3, a4, a5, a6⟩ := ih (by omega)
      have s := hst n (by omega)
      refine ⟨by rw [s.log, a1], by rw [s.m, a2], by rw [s.h, a3], by rw [s.dy, a4], ?_, ?_⟩
      · rw [s.x, (hreg n (by omega)).step a1, a5, a4, pow_succ]; ring
      · obtain ⟨r, hr, e⟩ := s.row
        obtain ⟨-, -, -, -, -, -, -, rf, -⟩ := hr
        rw [e, List.map_append, a6, List.range_succ, List.map_append, ← List.append_assoc]
        simp [rf, hg]
  set G := F + V + 1 with hG
  have hG0 : 0 ≤ G := by positivity
  set th : ℕ → ℝ := fun n => (st n).2.params.aT with hth
  set σ : ℕ → ℝ := fun n => (th (n + 1) - th n) / h with hσ
  have hσg : ∀ n, n < N → σ n = if ab then abSlope ((g n :: (hist ++ (List.range n).map g).reverse).take 5)
      else g n := by
    intro n hn
    obtain ⟨-, -, a3, -, -, a6⟩ := inv n hn.le
    obtain ⟨d, hd, he, hab⟩ := (hst n hn).aT
    have e : σ n = d / h := by rw [hσ]; dsimp only; rw [hth]; dsimp only; rw [hd]; ring
    rw [e]
    cases ab
    · rw [he rfl, a3]; simp only [Bool.false_eq_true, if_false]
      exact mul_div_cancel_right₀ _ hh.ne'
    · have := adamsBashforth_weights _ _ _ _ (hab rfl)
      rw [a3, a6] at this
      rw [this]; simp only [if_true]
      exact mul_div_cancel_left₀ _ hh.ne'
  have hgf : ∀ n, n < N → x₁ * (1 + h) ^ n ≤ X → th n ∈ Icc lo hi → |g n - f (x₁ * (1 + h) ^ n) (th n)| ≤ ε := by
    intro n hn hX hbox
    obtain ⟨a1, a2, -, -, a5, -⟩ := inv n hn.le
    have hI : (st n).2.params.x ∈ Icc x₁ X := by
      rw [a5]; exact ⟨le_mul_of_one_le_right h1.le (one_le_pow₀ (by linarith)), hX⟩
    have := hph (st n).2.w (st n).2.params (hreg n hn.le) a1 a2 hI hbox
    have e : g n = slopeOf ph (st n).2.w (st n).2.params := by
      rw [hg]; dsimp only; rw [(hst n hn).frac, a1]; rfl
    rw [e, ← a5]; exact this
  have hxI : ∀ n, x₁ * (1 + h) ^ n ≤ X → ∀ i, i ≤ n → x₁ * (1 + h) ^ i ∈ Icc x₁ X := by
    intro n hn i hi
    refine ⟨le_mul_of_one_le_right h1.le (one_le_pow₀ (by linarith)), le_trans ?_ hn⟩
    gcongr; linarith
  have hgG : ∀ n, n < N → x₁ * (1 + h) ^ n ≤ X → (∀ i, i ≤ n → th i ∈ Icc lo hi) → ∀ i, i ≤ n → |g i| ≤ G := by
    intro n hn hX hbox i hi
    have a := hgf i (by omega) (hxI n hX i hi).2 (hbox i hi)
    have b := hF _ (hxI n hX i hi) _ (hbox i hi)
    rw [abs_le] at a b ⊢
    constructor <;> linarith [a.1, a.2, b.1, b.2]
  have hσG : ∀ n, n < N → x₁ * (1 + h) ^ n ≤ X → (∀ i, i ≤ n → th i ∈ Icc lo hi) →
      |σ n - g n| ≤ 26 * G := by
    intro n hn hX hbox
    rw [hσg n hn]
    cases ab
    · simp; positivity
    · simp only [if_true]
      have := abSlope_near_take (g n) (2 * G) (hist ++ (List.range n).map g).reverse (by
        intro b hb
        have hgn := hgG n hn hX hbox n le_rfl
        have hbG : |b| ≤ G := by
          rcases recent_slopes g hist n b hb with ⟨j, -, hj, rfl⟩ | ⟨-, hb⟩
          · exact hgG n hn hX hbox j hj.le
          · have := hhist b hb; linarith
        rw [abs_le] at hgn hbG ⊢
        constructor <;> linarith [hgn.1, hgn.2, hbG.1, hbG.2]) (by positivity)
      linarith
  have hthstep : ∀ n, n < N → x₁ * (1 + h) ^ n ≤ X → (∀ i, i ≤ n → th i ∈ Icc lo hi) →
      |th (n + 1) - th n| ≤ h * (27 * G) := by
    intro n hn hX hbox
    have a := hσG n hn hX hbox
    have b := hgG n hn hX hbox n le_rfl
    have e : th (n + 1) - th n = h * σ n := by rw [hσ]; dsimp only; field_simp
    rw [e, abs_mul, abs_of_pos hh]
    gcongr
    rw [abs_le] at a b ⊢
    constructor <;> linarith [a.1, a.2, b.1, b.2]
  have pert : ∀ n, n < N → x₁ * (1 + h) ^ n ≤ X → (∀ i, i ≤ n → th i ∈ Icc lo hi) →
      |σ n - f (x₁ * (1 + h) ^ n) (th n)| ≤
        (27 * ε + 52 * h * L * (X + 27 * G)) + if n < 4 then 26 * G else 0 := by
    intro n hn hX hbox
    have hgn := hgf n hn hX (hbox n le_rfl)
    have hpos : 0 ≤ 52 * h * L * (X + 27 * G) := by positivity
    have tri : |σ n - f (x₁ * (1 + h) ^ n) (th n)| ≤ |σ n - g n| + ε := by
      have : σ n - f (x₁ * (1 + h) ^ n) (th n) = (σ n - g n) + (g n - f (x₁ * (1 + h) ^ n) (th n)) := by ring
      rw [this]; exact (abs_add_le _ _).trans (by linarith)
    refine tri.trans ?_
    by_cases h4 : n < 4
    · rw [if_pos h4]
      linarith [hσG n hn hX hbox]
    · rw [if_neg h4]
      have : |σ n - g n| ≤ 13 * (2 * ε + L * (4 * (h * X) + 4 * (h * (27 * G)))) := by
        rw [hσg n hn]
        cases ab
        · simp; positivity
        · simp only [if_true]
          refine abSlope_near_take (g n) _ (hist ++ (List.range n).map g).reverse ?_ (by positivity)
          intro b hb
          rcases recent_slopes g hist n b hb with ⟨j, hj4, hj, rfl⟩ | ⟨h5, -⟩
          swap
          · exact absurd h5 h4
          have a1 := hgf j (by omega) (hxI n hX j hj.le).2 (hbox j hj.le)
          have a2 := hLip _ (hxI n hX j hj.le) _ (hbox j hj.le) _ (hxI n hX n le_rfl) _ (hbox n le_rfl)
          have a3 := telescope_bound (fun k => x₁ * (1 + h) ^ k) (h * X) (by positivity) n (by
            intro k hk
            have e : x₁ * (1 + h) ^ (k + 1) - x₁ * (1 + h) ^ k = h * (x₁ * (1 + h) ^ k) := by
              rw [pow_succ]; ring
            rw [e, abs_of_nonneg (by positivity)]
            exact mul_le_mul_of_nonneg_left (hxI n hX k hk.le).2 hh.le) j hj.le hj4
          have a4 := telescope_bound th (h * (27 * G)) (by positivity) n (fun k hk =>
            hthstep k (by omega) (hxI n hX k hk.le).2 fun i hi => hbox i (by omega)) j hj.le hj4
          have a5 : L * (|x₁ * (1 + h) ^ j - x₁ * (1 + h) ^ n| + |th j - th n|) ≤
              L * (4 * (h * X) + 4 * (h * (27 * G))) := by gcongr
          rw [abs_le] at a1 hgn ⊢
          have a6 := abs_le.mp (a2.trans a5)
          constructor <;> linarith [a1.1, a1.2, hgn.1, hgn.2, a6.1, a6.2]
      have e : 13 * (2 * ε + L * (4 * (h * X) + 4 * (h * (27 * G)))) =
          26 * ε + 52 * h * L * (X + 27 * G) := by ring
      rw [e] at this
      linarith
  have hbound : Real.exp (L * (X / x₁)) * (X / x₁ * ((L * (X + F) + F) * h +
      (27 * ε + 52 * h * L * (X + 27 * G))) + 4 * (26 * G) * h) ≤ errorConst L F x₁ X V * (h + ε) := by
    unfold errorConst
    rw [← hG, mul_assoc (Real.exp _)]
    refine mul_le_mul_of_nonneg_left ?_ (Real.exp_pos _).le
    have q : 0 ≤ X / x₁ := by positivity
    have c1 : 0 ≤ L * (X + F) + F := by positivity
    have c2 : 0 ≤ 52 * L * (X + 27 * G) := by positivity
    have e : X / x₁ * ((L * (X + F) + F) * h + (27 * ε + 52 * h * L * (X + 27 * G))) + 4 * (26 * G) * h =
      X / x₁ * ((L * (X + F) + F) * h + 27 * ε + (52 * L * (X + 27 * G)) * h) + 104 * G * h := by ring
    have e' : (X / x₁ * (L * (X + F) + F + 27 + 52 * L * (X + 27 * G)) + 104 * G) * (h + ε) =
      X / x₁ * ((L * (X + F) + F + 27 + 52 * L * (X + 27 * G)) * (h + ε)) + 104 * G * (h + ε) := by ring
    rw [e, e']
    have b1 : (L * (X + F) + F) * h + 27 * ε + (52 * L * (X + 27 * G)) * h ≤
        (L * (X + F) + F + 27 + 52 * L * (X + 27 * G)) * (h + ε) := by nlinarith
    have b2 : 104 * G * h ≤ 104 * G * (h + ε) := by gcongr; linarith
    exact add_le_add (mul_le_mul_of_nonneg_left b1 q) b2
  have main := steps_error f τ x₁ X lo hi L F δ h (27 * ε + 52 * h * L * (X + 27 * G)) (26 * G) th σ h1 h1X hL
    (by positivity) (by positivity) hF hLip hδ hτ hh p0.2.2.2.2.2 N
    (fun n _ => by rw [hσ]; dsimp only; field_simp; ring) pert (hbound.trans hsmall)
  intro n hn
  obtain ⟨-, -, -, -, a5, -⟩ := inv n hn
  refine ⟨a5, fun hX => ?_⟩
  rw [a5] at hX ⊢
  exact (main n hn hX).trans hbound

theorem runN_trace {ph : Physics W} {c : Consts} {ab : Bool} {n : ℕ} {s s' : List Row × Uni W}
    (hr : s.2.params.Reg) (h : runN ph c ab n s = .ok s') :
    ∃ st : ℕ → List Row × Uni W, st 0 = s ∧ st n = s' ∧
      (∀ i, i < n → StepSpec ph c ab (st i) (st (i + 1))) ∧ (∀ i, i ≤ n → (st i).2.params.Reg) := by
  haveI : Nonempty (List Row × Uni W) := ⟨s⟩
  choose! st hst using fun k (hk : k ≤ n) => runN_prefix h hk
  have h0 : st 0 = s := by
    have := hst 0 (Nat.zero_le _); simp only [runN] at this; injection this with this; exact this.symm
  have hn : st n = s' := by
    have := hst n (le_refl _); rw [h] at this; injection this with this; exact this.symm
  have hstep : ∀ i, i < n → StepSpec ph c ab (st i) (st (i + 1)) := by
    intro i hi
    have h2 := hst (i + 1) hi
    simp only [runN, hst i (by omega)] at h2
    exact loopBody_spec h2
  refine ⟨st, h0, hn, hstep, ?_⟩
  intro i
  induction i with
  | zero => intro _; rw [h0]; exact hr
  | succ i ih => intro hi; exact (hstep i hi).reg (ih (by omega))

/-- The slope `f` of the temperature equation is Lipschitz on a box and `τ` is a solution that keeps the
distance `δ` from the sides of the box. -/
structure Solves (f : ℝ → ℝ → ℝ) (τ : ℝ → ℝ) (x₁ X lo hi L δ : ℝ) : Prop where
  x_pos : 0 < x₁
  range : x₁ ≤ X
  lo_pos : 0 < lo
  L_nonneg : 0 ≤ L
  δ_pos : 0 < δ
  lip : ∀ x ∈ Icc x₁ X, ∀ θ ∈ Icc lo hi, ∀ x' ∈ Icc x₁ X, ∀ θ' ∈ Icc lo hi,
    |f x θ - f x' θ'| ≤ L * (|x - x'| + |θ - θ'|)
  inside : ∀ x ∈ Icc x₁ X, τ x ∈ Icc (lo + δ) (hi - δ)
  solution : ∀ x ∈ Icc x₁ X, HasDerivAt τ (f x (τ x) / x) x

theorem loop_error {f : ℝ → ℝ → ℝ} {τ : ℝ → ℝ} {x₁ X lo hi L δ : ℝ} (hs : Solves f τ x₁ X lo hi L δ) (V : ℝ)
    (hV : 0 ≤ V) : ∃ K : ℝ, 0 < K ∧ ∀ (W : Type) (ph : Physics W) (c : Consts) (ab init : Bool) (ε m : ℝ)
      (data : List Row) (u : Uni W), StartsAt u data m x₁ (τ x₁) V → 0 ≤ ε → SlopeNear ph m f ε x₁ X lo hi →
      K * (u.params.dy + ε) ≤ δ → ∀ (st : ℕ → List Row × Uni W) (N : ℕ),
      evolveStart ph c init (data, u) = .ok (st 0) → (∀ i, i < N → StepSpec ph c ab (st i) (st (i + 1))) →
      (∀ i, i ≤ N → (st i).2.params.Reg) → ∀ n, n ≤ N → (st n).2.params.x = x₁ * (1 + u.params.dy) ^ n ∧
        (st n).2.params.m = m ∧ (st n).2.params.log = true ∧
        ((st n).2.params.x ≤ X → |(st n).2.params.aT - τ (st n).2.params.x| ≤ K * (u.params.dy + ε)) := by
  have h1 := hs.x_pos
  have h1X := hs.range
  have hL := hs.L_nonneg
  have hδ := hs.δ_pos
  have hlh : lo ≤ hi := by
    have := hs.inside x₁ ⟨le_rfl, h1X⟩
    linarith [this.1, this.2]
  have hLip := hs.lip
  set F := |f x₁ lo| + L * ((X - x₁) + (hi - lo)) with hF
  have hFb : ∀ x ∈ Icc x₁ X, ∀ θ ∈ Icc lo hi, |f x θ| ≤ F := by
    intro x hx θ hθ
    have a := hLip x hx θ hθ x₁ ⟨le_rfl, h1X⟩ lo ⟨le_rfl, hlh⟩
    rw [abs_of_nonneg (by linarith [hx.1] : 0 ≤ x - x₁), abs_of_nonneg (by linarith [hθ.1] : 0 ≤ θ - lo)] at a
    have b : L * (x - x₁ + (θ - lo)) ≤ L * ((X - x₁) + (hi - lo)) := by
      gcongr
      · exact hx.2
      · exact hθ.2
    have d := abs_sub_abs_le_abs_sub (f x θ) (f x₁ lo)
    linarith
  have hX0 : 0 < X := h1.trans_le h1X
  have hF0 : 0 ≤ F := (abs_nonneg _).trans (hFb x₁ ⟨le_rfl, h1X⟩ lo ⟨le_rfl, hlh⟩)
  have hK0 : 0 ≤ errorConst L F x₁ X V := by unfold errorConst; positivity
  refine ⟨errorConst L F x₁ X V + δ, by linarith, ?_⟩
  intro W ph c ab init ε m data u hu hε hph hsmall st N hstart hstep hreg n hn
  have hdy := hu.dy
  have hε1 : ε ≤ 1 := by
    by_contra hcon
    rw [not_le] at hcon
    nlinarith [mul_nonneg hK0 hdy.le, mul_nonneg hK0 hε, mul_pos hδ hdy, mul_lt_mul_of_pos_left hcon hδ]
  have hle : errorConst L F x₁ X V * (u.params.dy + ε) ≤ (errorConst L F x₁ X V + δ) * (u.params.dy + ε) := by
    have : 0 ≤ u.params.dy + ε := by positivity
    nlinarith
  obtain ⟨hr0, -, ef, eaT, ex, -, em, eh, edy, elog, -, -, -, -, r0, hrow0, hd0⟩ := evolveStart_spec hstart hu.reg
  have main := trace_error f τ x₁ X lo hi L F δ u.params.dy ε V m h1 h1X hL hFb hLip hδ.le
    (fun x hx => ⟨hs.inside x hx, hs.solution x hx⟩) hdy hε hε1 hV ph hph c ab N st hstep hreg
    (by
      exact ⟨by rw [elog]; exact hu.log, by rw [em]; exact hu.m, by rw [eh]; exact hu.h, edy,
        by rw [ex]; exact hu.x, by rw [eaT]; exact hu.aT⟩)
    (by
      intro b hb
      rw [hd0, List.map_append, List.mem_append] at hb
      rcases hb with hb | hb
      · obtain ⟨r, hr, rfl⟩ := List.mem_map.mp hb
        exact hu.data r hr
      · obtain ⟨-, -, -, -, -, -, -, rf, -⟩ := hrow0
        simp only [List.map_cons, List.map_nil, List.mem_singleton] at hb
        rw [hb, rf, ef]; exact hu.fraction)
    (hle.trans hsmall) n hn
  have hml : ∀ i, i ≤ N → (st i).2.params.m = m ∧ (st i).2.params.log = true := by
    intro i
    induction i with
    | zero => intro _; exact ⟨by rw [em]; exact hu.m, by rw [elog]; exact hu.log⟩
    | succ i ih =>
      intro hi
      obtain ⟨a, b⟩ := ih (by omega)
      exact ⟨by rw [(hstep i hi).m, a], by rw [(hstep i hi).log, b]⟩
  exact ⟨main.1, (hml n hn).1, (hml n hn).2, fun hX => (main.2 hX).trans hle⟩

/-- **C117 (convergence).** Let the slope of the temperature equation be a Lipschitz function of `x` and
`a T`, and let `τ` solve `dτ/d ln x = f`. Then there is a constant `K` such that every run started on the
solution, in either step mode of the temperature, with step `dy` and slopes accurate to `ε`, records
temperatures within `K (dy + ε)` of the solution, whatever the particles do, whatever (bounded) slopes an
earlier run left in the table, up to any fixed `X`. -/
theorem C117_convergence {f : ℝ → ℝ → ℝ} {τ : ℝ → ℝ} {x₁ X lo hi L δ : ℝ} (hs : Solves f τ x₁ X lo hi L δ) (V : ℝ)
    (hV : 0 ≤ V) : ∃ K : ℝ, 0 < K ∧ ∀ (W : Type) (ph : Physics W) (c : Consts) (ab init : Bool) (Tf ε m : ℝ)
      (fuel : ℕ) (data d' : List Row) (u u' : Uni W), StartsAt u data m x₁ (τ x₁) V → 0 ≤ ε →
      SlopeNear ph m f ε x₁ X lo hi → K * (u.params.dy + ε) ≤ δ →
      evolve ph c ab Tf init fuel (data, u) = .ok (some (d', u')) →
      ∃ rows, d' = data ++ rows ∧ ∀ r ∈ rows, r.x ≤ X → |r.aT - τ r.x| ≤ K * (u.params.dy + ε) := by
  obtain ⟨K, hK, main⟩ := loop_error hs V hV
  refine ⟨K, hK, ?_⟩
  intro W ph c ab init Tf ε m fuel data d' u u' hu hε hph hsmall hev
  obtain ⟨n, st, rows, -, hlen, hd, hlast, hstart, hstep, hreg, hrows, -⟩ := evolve_trace hu.reg hev
  have e := main W ph c ab init ε m data u hu hε hph hsmall st n hstart hstep hreg
  refine ⟨rows, hd, fun r hrm hrX => ?_⟩
  obtain ⟨i, hi, e1⟩ := List.mem_iff_getElem.mp hrm
  have hi' : rows[i]? = some r := by rw [List.getElem?_eq_getElem hi, e1]
  obtain ⟨hin, q1, -, -, q4, -⟩ := hrows i r hi'
  rw [q1, q4]
  rw [q4] at hrX
  exact (e i hin).2.2.2 hrX

/-- **C117 (completion).** Under the same conditions, if the denominators do not vanish in the box and
the final temperature lies within reach (`2 hi m ≤ T_final X`), the run ends normally. -/
theorem C117_completes {f : ℝ → ℝ → ℝ} {τ : ℝ → ℝ} {x₁ X lo hi L δ : ℝ} (hs : Solves f τ x₁ X lo hi L δ) (V : ℝ)
    (hV : 0 ≤ V) : ∃ K : ℝ, 0 < K ∧ ∀ (W : Type) (ph : Physics W) (c : Consts) (ab init : Bool) (Tf ε m : ℝ)
      (data : List Row) (u : Uni W), StartsAt u data m x₁ (τ x₁) V → 0 ≤ ε → SlopeNear ph m f ε x₁ X lo hi →
      K * (u.params.dy + ε) ≤ δ → u.params.dy ≤ 1 →
      (∀ (w : W) (p : Params), p.Reg → p.log = true → p.m = m → p.x ∈ Icc x₁ X → p.aT ∈ Icc lo hi →
        (ph.terms w p).2.2 ≠ 0) → (u.params.rho.isSome → u.params.S.isSome) → 2 * hi * m ≤ Tf * X →
      ∃ N r, r.2.params.x ≤ X ∧ r.2.params.aT ∈ Icc lo hi ∧
        ∀ fuel, N ≤ fuel → evolve ph c ab Tf init fuel (data, u) = .ok (some r) := by
  obtain ⟨K, hK, main⟩ := loop_error hs V hV
  refine ⟨K, hK, ?_⟩
  intro W ph c ab init Tf ε m data u hu hε hph hsmall hdy1 hden hS hTf
  have hdy := hu.dy
  have hm : 0 < m := by rw [← hu.m]; exact hu.reg.m
  obtain ⟨s0, h0⟩ := evolveStart_ok ph c init (data, u) hS
  have hr0 := (evolveStart_spec h0 hu.reg).1
  have state : ∀ n s', runN ph c ab n s0 = .ok s' → s'.2.params.x = x₁ * (1 + u.params.dy) ^ n ∧
      s'.2.params.Reg ∧ s'.2.params.m = m ∧ s'.2.params.log = true ∧
      (s'.2.params.x ≤ X → s'.2.params.x ∈ Icc x₁ X ∧ s'.2.params.aT ∈ Icc lo hi) := by
    intro n s' hr
    obtain ⟨st, e0, en, hstep, hreg⟩ := runN_trace hr0 hr
    obtain ⟨a1, a2, a3, a4⟩ := main W ph c ab init ε m data u hu hε hph hsmall st n (by rw [e0]; exact h0)
      hstep hreg n le_rfl
    have hrn := hreg n le_rfl
    rw [en] at a1 a2 a3 a4 hrn
    refine ⟨a1, hrn, a2, a3, fun hX => ?_⟩
    have hI : s'.2.params.x ∈ Icc x₁ X := by
      refine ⟨?_, hX⟩
      rw [a1]
      exact le_mul_of_one_le_right hs.x_pos.le (one_le_pow₀ (by linarith))
    have b := (a4 hX).trans hsmall
    have t := hs.inside _ hI
    rw [abs_le] at b
    exact ⟨hI, by linarith [b.1, t.1], by linarith [b.2, t.2]⟩
  have hrun : ∀ n : ℕ, (∀ i, i < n → x₁ * (1 + u.params.dy) ^ i ≤ X) → ∃ s', runN ph c ab n s0 = .ok s' := by
    intro n
    induction n with
    | zero => intro _; exact ⟨s0, rfl⟩
    | succ n ih =>
      intro hn
      obtain ⟨s', h'⟩ := ih fun i hi => hn i (by omega)
      obtain ⟨a1, a2, a3, a4, a5⟩ := state n s' h'
      obtain ⟨b1, b2⟩ := a5 (by rw [a1]; exact hn n (by omega))
      obtain ⟨s'', h''⟩ := loopBody_ok ph c ab s' (hden _ _ a2 a4 a3 b1 b2)
      exact ⟨s'', by simp only [runN, h']; exact h''⟩
  -- the last step inside
  obtain ⟨n, hnX, hnX'⟩ : ∃ n : ℕ, x₁ * (1 + u.params.dy) ^ n ≤ X ∧ X < x₁ * (1 + u.params.dy) ^ (n + 1) := by
    have h1 : 1 ≤ X / x₁ := by rw [one_le_div hs.x_pos]; exact hs.range
    obtain ⟨n, b1, b2⟩ := exists_nat_pow_near h1 (by linarith : 1 < 1 + u.params.dy)
    refine ⟨n, ?_, ?_⟩
    · rw [le_div_iff₀ hs.x_pos] at b1; linarith
    · rw [div_lt_iff₀ hs.x_pos] at b2; linarith
  have hex : ∃ k, k ≤ n ∧ ∃ s', runN ph c ab k s0 = .ok s' ∧ s'.2.params.T ≤ Tf := by
    obtain ⟨s', h'⟩ := hrun n fun i hi => le_trans
      (mul_le_mul_of_nonneg_left (pow_le_pow_right₀ (by linarith) hi.le) hs.x_pos.le) hnX
    obtain ⟨a1, a2, a3, a4, a5⟩ := state n s' h'
    obtain ⟨b1, b2⟩ := a5 (by rw [a1]; exact hnX)
    refine ⟨n, le_rfl, s', h', ?_⟩
    have hTx : s'.2.params.T * s'.2.params.x = s'.2.params.aT * m := by
      rw [← a2.cons.1, ← a2.cons.2, ← a3]; ring
    have hx2 : X ≤ 2 * s'.2.params.x := by
      rw [pow_succ, ← mul_assoc, ← a1] at hnX'
      nlinarith [a2.x]
    have hhi : 0 ≤ hi := by linarith [b2.1, b2.2, hs.lo_pos]
    have hTf0 : 0 ≤ Tf := by
      have : 0 ≤ Tf * X := le_trans (by positivity) hTf
      exact nonneg_of_mul_nonneg_left this (hs.x_pos.trans_le hs.range)
    refine le_of_mul_le_mul_right ?_ a2.x
    rw [hTx]
    have c1 : s'.2.params.aT * m ≤ hi * m := mul_le_mul_of_nonneg_right b2.2 hm.le
    have c2 : Tf * X ≤ Tf * (2 * s'.2.params.x) := mul_le_mul_of_nonneg_left hx2 hTf0
    linarith
  classical
  have hmin := Nat.find_spec hex
  have hminl := fun {k} => Nat.find_min hex (m := k)
  set k := Nat.find hex
  obtain ⟨hkn, s', hs', hle⟩ := hmin
  have hloop := evolveLoop_of_run hs' hle (by
    intro j hj sk hsk
    by_contra hc
    exact hminl hj ⟨by omega, sk, hsk, not_lt.mp hc⟩)
  obtain ⟨a1, a2, a3, a4, a5⟩ := state k s' hs'
  obtain ⟨b1, b2⟩ := a5 (by
    rw [a1]
    refine le_trans ?_ hnX
    have := hs.x_pos
    gcongr
    linarith)
  have hT : 0 < s'.2.params.T := by
    have hTx : s'.2.params.T * s'.2.params.x = s'.2.params.aT * m := by
      rw [← a2.cons.1, ← a2.cons.2, ← a3]; ring
    have : 0 < s'.2.params.T * s'.2.params.x := by
      rw [hTx]; exact mul_pos (hs.lo_pos.trans_le b2.1) hm
    exact pos_of_mul_pos_left this a2.x.le
  refine ⟨k, s', b1.2, b2, fun fuel hf => ?_⟩
  unfold evolve
  simp only [h0, hloop fuel (by omega)]
  rw [if_pos hT]

/-! ## The plasma -/

/-- Lipschitz on an interval. -/
def LipI (g : ℝ → ℝ) (a b : ℝ) : Prop :=
  ∃ L, 0 ≤ L ∧ ∀ w ∈ Icc a b, ∀ w' ∈ Icc a b, |g w - g w'| ≤ L * |w - w'|

theorem LipI.const (c a b : ℝ) : LipI (fun _ => c) a b := ⟨0, le_rfl, fun w _ w' _ => by simp⟩

theorem LipI.bounded {g : ℝ → ℝ} {a b : ℝ} (h : LipI g a b) : ∃ M, 0 ≤ M ∧ ∀ w ∈ Icc a b, |g w| ≤ M := by
  obtain ⟨L, hL, h⟩ := h
  refine ⟨|g a| + L * |b - a|, by positivity, fun w hw => ?_⟩
  have hab : a ≤ b := hw.1.trans hw.2
  have h1 := h w hw a ⟨le_rfl, hab⟩
  have h2 := abs_sub_abs_le_abs_sub (g w) (g a)
  have h3 : |w - a| ≤ |b - a| := by
    rw [abs_of_nonneg (by linarith [hw.1]), abs_of_nonneg (by linarith)]; linarith [hw.2]
  have h4 : L * |w - a| ≤ L * |b - a| := by gcongr
  linarith

theorem LipI.add {g k : ℝ → ℝ} {a b : ℝ} (hg : LipI g a b) (hk : LipI k a b) : LipI (fun w => g w + k w) a b := by
  obtain ⟨L, hL, h⟩ := hg
  obtain ⟨L', hL', h'⟩ := hk
  refine ⟨L + L', by positivity, fun w hw w' hw' => ?_⟩
  have : g w + k w - (g w' + k w') = (g w - g w') + (k w - k w') := by ring
  rw [this, add_mul]
  exact (abs_add_le _ _).trans (add_le_add (h w hw w' hw') (h' w hw w' hw'))

theorem LipI.mul {g k : ℝ → ℝ} {a b : ℝ} (hg : LipI g a b) (hk : LipI k a b) : LipI (fun w => g w * k w) a b := by
  obtain ⟨M, hM, m⟩ := hg.bounded
  obtain ⟨M', hM', m'⟩ := hk.bounded
  obtain ⟨L, hL, h⟩ := hg
  obtain ⟨L', hL', h'⟩ := hk
  refine ⟨L * M' + M * L', by positivity, fun w hw w' hw' => ?_⟩
  have : g w * k w - g w' * k w' = (g w - g w') * k w + g w' * (k w - k w') := by ring
  rw [this]
  refine (abs_add_le _ _).trans ?_
  rw [abs_mul, abs_mul, add_mul]
  refine add_le_add ?_ ?_
  · calc |g w - g w'| * |k w| ≤ (L * |w - w'|) * M' :=
        mul_le_mul (h w hw w' hw') (m' w hw) (abs_nonneg _) (by positivity)
      _ = _ := by ring
  · calc |g w'| * |k w - k w'| ≤ M * (L' * |w - w'|) :=
        mul_le_mul (m w' hw') (h' w hw w' hw') (abs_nonneg _) hM
      _ = _ := by ring

theorem LipI.linear (c a b : ℝ) : LipI (fun w => c * w) a b :=
  ⟨|c|, abs_nonneg c, fun w _ w' _ => by rw [← mul_sub, abs_mul]⟩

theorem bW_lip (m : ℝ) (t : TPart) (a b : ℝ) (hm : 0 < m) (ha : 0 < a)
    (hM : t.regime.massive → 0 < t.sp.mass) : LipI (bW m t) a b := by
  have mass : t.regime.massive → LipI (fun w => t.sp.dof / (6 * Real.pi ^ 2) *
      ((t.sp.mass / m * w) ^ 2 * shell t.sp.eta 1 (t.sp.mass / m * w))) a b := by
    intro h
    have hMt := hM h
    have hs : LipI (fun w => shell t.sp.eta 1 (t.sp.mass / m * w)) a b := by
      have hu : 0 < t.sp.mass / m * a := by positivity
      have hr : 0 ≤ edgeRate (t.sp.mass / m * a) :=
        (edge_rate (eta_cases t.sp) hu le_rfl).1.trans (edge_rate (eta_cases t.sp) hu le_rfl).2
      have hn := shell_nonneg (eta_cases t.sp) 1 (t.sp.mass / m * a)
      refine ⟨edgeRate (t.sp.mass / m * a) * shell t.sp.eta 1 (t.sp.mass / m * a) * (t.sp.mass / m),
        by positivity, fun w hw w' hw' => ?_⟩
      have := shell_one_lipschitz (eta_cases t.sp) hu
        (mul_le_mul_of_nonneg_left hw.1 (by positivity : 0 ≤ t.sp.mass / m))
        (mul_le_mul_of_nonneg_left hw'.1 (by positivity : 0 ≤ t.sp.mass / m))
      rw [← mul_sub, abs_mul, abs_of_pos (by positivity : 0 < t.sp.mass / m), ← mul_assoc] at this
      exact this
    have hl := LipI.linear (t.sp.mass / m) a b
    have := (LipI.const (t.sp.dof / (6 * Real.pi ^ 2)) a b).mul ((hl.mul hl).mul hs)
    simpa only [← sq] using this
  unfold bW
  cases hr : t.regime with
  | radiation => exact LipI.const 0 a b
  | intermediate => exact mass (Or.inl hr)
  | dust => exact mass (Or.inr hr)
  | noneq => exact LipI.const 0 a b

theorem sumB_lip (m : ℝ) (ts : List TPart) (a b : ℝ) (hm : 0 < m) (ha : 0 < a)
    (hM : ∀ t ∈ ts, t.regime.massive → 0 < t.sp.mass) : LipI (sumB m ts) a b := by
  induction ts with
  | nil =>
    have : sumB m [] = fun _ => 0 := by funext; simp [sumB]
    rw [this]; exact LipI.const 0 a b
  | cons t ts ih =>
    have : sumB m (t :: ts) = fun w => bW m t w + sumB m ts w := by funext; simp [sumB]
    rw [this]
    exact (bW_lip m t a b hm ha (hM t List.mem_cons_self)).add
      (ih fun t h => hM t (List.mem_cons_of_mem _ h))

theorem sumC_lip (m : ℝ) (ts : List TPart) (a b : ℝ) (hm : 0 < m) (ha : 0 < a)
    (hM : ∀ t ∈ ts, t.regime.massive → 0 < t.sp.mass) : LipI (sumC m ts) a b := by
  obtain ⟨M, hM0, hb⟩ := (sumB_lip m ts a b hm ha hM).bounded
  refine ⟨3 * M / a, by positivity, fun w hw w' hw' => ?_⟩
  have := Convex.norm_image_sub_le_of_norm_hasDerivWithin_le (f := sumC m ts)
    (f' := fun w => -(3 * sumB m ts w / w)) (s := Icc a b) (C := 3 * M / a)
    (fun y hy => (sumC_hasDerivAt m ts y (ha.trans_le hy.1).ne').hasDerivWithinAt) (fun y hy => by
      have hy0 := ha.trans_le hy.1
      rw [norm_neg, Real.norm_eq_abs, abs_div, abs_of_pos hy0, abs_mul, abs_of_pos (by norm_num : (0:ℝ) < 3)]
      have := hb y hy
      gcongr
      exact hy.1) (convex_Icc a b) hw' hw
  simpa [Real.norm_eq_abs] using this

/-- The program's slope `x d(aT)/dx` with exact integrals. -/
noncomputable def plasmaSlope (m : ℝ) (ts : List TPart) (x θ : ℝ) : ℝ :=
  θ * (sumB m ts (x / θ) / (sumC m ts (x / θ) + sumB m ts (x / θ)))

theorem plasmaSlope_lip (m : ℝ) (ts : List TPart) (x₁ X lo hi : ℝ) (hm : 0 < m) (h1 : 0 < x₁) (h1X : x₁ ≤ X)
    (hlo : 0 < lo) (hlh : lo ≤ hi) (hc : Content ts) :
    ∃ L, 0 ≤ L ∧ ∀ x ∈ Icc x₁ X, ∀ θ ∈ Icc lo hi, ∀ x' ∈ Icc x₁ X, ∀ θ' ∈ Icc lo hi,
      |plasmaSlope m ts x θ - plasmaSlope m ts x' θ'| ≤ L * (|x - x'| + |θ - θ'|) := by
  have hX0 : 0 < X := h1.trans_le h1X
  have hhi : 0 < hi := hlo.trans_le hlh
  obtain ⟨LB, hLB, hB⟩ := sumB_lip m ts (x₁ / hi) (X / lo) hm (by positivity) hc.massive
  obtain ⟨LC, hLC, hC⟩ := sumC_lip m ts (x₁ / hi) (X / lo) hm (by positivity) hc.massive
  set k := 2 * Real.pi ^ 2 / 45 * lightDof ts with hk
  have hk0 : 0 < k := by
    have := lightDof_pos ts hc
    have := Real.pi_pos
    positivity
  set D := (LB + LC) / k with hD
  have hD0 : 0 ≤ D := by positivity
  have ratio : ∀ w, 0 ≤ w → 0 ≤ sumB m ts w / (sumC m ts w + sumB m ts w) ∧
      sumB m ts w / (sumC m ts w + sumB m ts w) ≤ 1 := by
    intro w hw
    have b0 := sumB_nonneg m ts w hc.dof
    have c0 := sumC_pos m ts w hm hw hc
    exact ⟨by positivity, by rw [div_le_one (by positivity)]; linarith⟩
  have hH : ∀ w ∈ Icc (x₁ / hi) (X / lo), ∀ w' ∈ Icc (x₁ / hi) (X / lo),
      |sumB m ts w / (sumC m ts w + sumB m ts w) - sumB m ts w' / (sumC m ts w' + sumB m ts w')| ≤
        D * |w - w'| := by
    intro w hw w' hw'
    have w0 : 0 ≤ w := le_trans (by positivity) hw.1
    have w0' : 0 ≤ w' := le_trans (by positivity) hw'.1
    have b := sumB_nonneg m ts w hc.dof
    have b' := sumB_nonneg m ts w' hc.dof
    have c := (sumC_bounds m ts w hm w0 hc).1
    have c' := (sumC_bounds m ts w' hm w0' hc).1
    have lb := hB w hw w' hw'
    have lc := hC w hw w' hw'
    rw [← hk] at c c'
    generalize sumB m ts w = B at *
    generalize sumB m ts w' = B' at *
    generalize sumC m ts w = C at *
    generalize sumC m ts w' = C' at *
    have p : 0 < C + B := by linarith
    have p' : 0 < C' + B' := by linarith
    have e : B / (C + B) - B' / (C' + B') =
        ((B - B') * (C' / (C' + B')) - (B' / (C' + B')) * (C - C')) / (C + B) := by
      field_simp; ring
    rw [e, abs_div, abs_of_pos p, div_le_iff₀ p]
    have q1 : |C' / (C' + B')| ≤ 1 := by
      rw [abs_of_nonneg (div_nonneg (by linarith) p'.le), div_le_one p']; linarith
    have q2 : |B' / (C' + B')| ≤ 1 := by
      rw [abs_of_nonneg (div_nonneg b' p'.le), div_le_one p']; linarith
    have s1 : |(B - B') * (C' / (C' + B')) - (B' / (C' + B')) * (C - C')| ≤
        LB * |w - w'| + LC * |w - w'| := by
      refine (abs_sub _ _).trans ?_
      rw [abs_mul, abs_mul]
      refine add_le_add ?_ ?_
      · calc |B - B'| * |C' / (C' + B')| ≤ |B - B'| * 1 := by gcongr
          _ ≤ _ := by rw [mul_one]; exact lb
      · calc |B' / (C' + B')| * |C - C'| ≤ 1 * |C - C'| := by gcongr
          _ ≤ _ := by rw [one_mul]; exact lc
    refine s1.trans ?_
    have : LB * |w - w'| + LC * |w - w'| = D * |w - w'| * k := by rw [hD]; field_simp
    rw [this]
    have : 0 ≤ D * |w - w'| := by positivity
    gcongr
    linarith
  refine ⟨hi * D / lo + (1 + hi * D * X / lo ^ 2), by positivity, ?_⟩
  intro x hx θ hθ x' hx' θ' hθ'
  have t0 : 0 < θ := hlo.trans_le hθ.1
  have t0' : 0 < θ' := hlo.trans_le hθ'.1
  have x0 : 0 < x := h1.trans_le hx.1
  have x0' : 0 < x' := h1.trans_le hx'.1
  have wI : x / θ ∈ Icc (x₁ / hi) (X / lo) :=
    ⟨div_le_div₀ x0.le hx.1 t0 hθ.2, div_le_div₀ hX0.le hx.2 hlo hθ.1⟩
  have wI' : x' / θ' ∈ Icc (x₁ / hi) (X / lo) :=
    ⟨div_le_div₀ x0'.le hx'.1 t0' hθ'.2, div_le_div₀ hX0.le hx'.2 hlo hθ'.1⟩
  have hl := hH _ wI _ wI'
  have r' := ratio (x' / θ') (by positivity)
  have hw : |x / θ - x' / θ'| ≤ |x - x'| / lo + X / lo ^ 2 * |θ - θ'| := by
    have e : x / θ - x' / θ' = (x - x') / θ - x' / (θ * θ') * (θ - θ') := by field_simp; ring
    rw [e]
    refine (abs_sub _ _).trans (add_le_add ?_ ?_)
    · rw [abs_div, abs_of_pos t0]
      exact div_le_div_of_nonneg_left (abs_nonneg _) hlo hθ.1
    · rw [abs_mul, abs_of_nonneg (by positivity)]
      refine mul_le_mul_of_nonneg_right ?_ (abs_nonneg _)
      refine div_le_div₀ hX0.le hx'.2 (by positivity) ?_
      rw [sq]; exact mul_le_mul hθ.1 hθ'.1 hlo.le t0.le
  unfold plasmaSlope
  set R := sumB m ts (x / θ) / (sumC m ts (x / θ) + sumB m ts (x / θ))
  set R' := sumB m ts (x' / θ') / (sumC m ts (x' / θ') + sumB m ts (x' / θ'))
  have e : θ * R - θ' * R' = θ * (R - R') + (θ - θ') * R' := by ring
  rw [e]
  refine (abs_add_le _ _).trans ?_
  rw [abs_mul, abs_mul, abs_of_pos t0, abs_of_nonneg r'.1]
  have u1 : θ * |R - R'| ≤ hi * (D * (|x - x'| / lo + X / lo ^ 2 * |θ - θ'|)) := by
    refine mul_le_mul hθ.2 (hl.trans ?_) (abs_nonneg _) hhi.le
    gcongr
  have u2 : |θ - θ'| * R' ≤ |θ - θ'| * 1 := by gcongr; exact r'.2
  have v1 : 0 ≤ hi * D / lo * |θ - θ'| := by positivity
  have v2 : 0 ≤ (1 + hi * D * X / lo ^ 2) * |x - x'| := by positivity
  have e2 : hi * (D * (|x - x'| / lo + X / lo ^ 2 * |θ - θ'|)) + |θ - θ'| * 1 =
    hi * D / lo * |x - x'| + (1 + hi * D * X / lo ^ 2) * |θ - θ'| := by ring
  nlinarith

/-- The particles are the plasma `ts`: at every regular state (of the box) the slope the loop obtains is
within `ε` of the slope computed with integrals over all momenta. -/
def NearPlasma (ph : Physics W) (m : ℝ) (ts : List TPart) (ε x₁ X lo hi : ℝ) : Prop :=
  ∀ (w : W) (p : Params), p.Reg → p.log = true → p.m = m → p.x ∈ Icc x₁ X → p.aT ∈ Icc lo hi →
    ∃ l, List.Forall₂ (Stands p.aT) ts l ∧ |slopeOf ph w p - temperatureSlope fullInt p l| ≤ ε

theorem nearPlasma_slope (ph : Physics W) (m : ℝ) (ts : List TPart) (ε x₁ X lo hi : ℝ) (hlo : 0 < lo)
    (hc : Content ts) (h : NearPlasma ph m ts ε x₁ X lo hi) :
    SlopeNear ph m (plasmaSlope m ts) ε x₁ X lo hi := by
  intro w p hr hlog hpm hx hθ
  obtain ⟨l, st, hl⟩ := h w p hr hlog hpm hx hθ
  have ht : 0 < p.aT := hlo.trans_le hθ.1
  have hm : 0 < m := hpm ▸ hr.m
  have pa : p.a = p.x / m := by
    rw [← hr.cons.1, hpm]; field_simp
  have e := stands_sums m p.x p.aT ts l p hr.x hm ht hc.massive rfl hpm pa rfl st
  have : temperatureSlope fullInt p l = plasmaSlope m ts p.x p.aT := by
    unfold temperatureSlope plasmaSlope
    rw [e, hlog]
    simp only [if_true]
    have := sumC_pos m ts (p.x / p.aT) hm (by have := hr.x; positivity) hc
    have := sumB_nonneg m ts (p.x / p.aT) hc.dof
    have := hr.x
    generalize sumC m ts (p.x / p.aT) = C at *
    generalize sumB m ts (p.x / p.aT) = B at *
    have : C + B ≠ 0 := by linarith
    field_simp
  rw [← this]; exact hl

theorem plasma_solves (m : ℝ) (ts : List TPart) (θ : ℝ → ℝ) (x₁ X : ℝ) (hm : 0 < m) (h1 : 0 < x₁) (h1X : x₁ ≤ X)
    (hc : Content ts) (h : ∀ x ∈ Icc x₁ X, 0 < θ x ∧ Heats m ts θ x) :
    ∃ L, Solves (plasmaSlope m ts) θ x₁ X (θ x₁ / 2) (2 * θ X) L (θ x₁ / 2) := by
  have mono : ∀ a ∈ Icc x₁ X, ∀ b ∈ Icc x₁ X, a ≤ b → θ a ≤ θ b := fun a ha b hb hab =>
    (C116_entropy m ts θ a b hm (h1.trans_le ha.1) hab hc fun x hx =>
      h x ⟨ha.1.trans hx.1, hx.2.trans hb.2⟩).2
  have p1 := (h x₁ ⟨le_rfl, h1X⟩).1
  have hle := mono x₁ ⟨le_rfl, h1X⟩ X ⟨h1X, le_rfl⟩ h1X
  obtain ⟨L, hL, hLip⟩ := plasmaSlope_lip m ts x₁ X (θ x₁ / 2) (2 * θ X) hm h1 h1X (by linarith) (by linarith) hc
  refine ⟨L, h1, h1X, by linarith, hL, by linarith, hLip, fun x hx => ?_, fun x hx => ?_⟩
  · have a1 := mono x₁ ⟨le_rfl, h1X⟩ x hx hx.1
    have a2 := mono x hx X ⟨h1X, le_rfl⟩ hx.2
    exact ⟨by linarith, by linarith⟩
  · have x0 := h1.trans_le hx.1
    refine (heats_slope m ts θ x hm x0 (h x hx).1 hc (h x hx).2).congr_deriv ?_
    unfold plasmaSlope
    rw [mul_div_assoc', div_div, mul_comm x]

/-- **C117 (plasma).** For every content of massless, massive and decoupled species and every history `θ`
of C116 (which conserves the entropy): the temperatures recorded by a run started on it approach it
linearly in the step and in the error of the momentum integrals, up to any fixed `X`. -/
theorem C117_plasma (m : ℝ) (ts : List TPart) (θ : ℝ → ℝ) (x₁ X V : ℝ) (hm : 0 < m) (h1 : 0 < x₁) (h1X : x₁ ≤ X)
    (hV : 0 ≤ V) (hc : Content ts) (h : ∀ x ∈ Icc x₁ X, 0 < θ x ∧ Heats m ts θ x) :
    ∃ K δ : ℝ, 0 < K ∧ 0 < δ ∧ ∀ (W : Type) (ph : Physics W) (c : Consts) (ab init : Bool) (Tf ε : ℝ) (fuel : ℕ)
      (data d' : List Row) (u u' : Uni W), StartsAt u data m x₁ (θ x₁) V → 0 ≤ ε →
      NearPlasma ph m ts ε x₁ X (θ x₁ / 2) (2 * θ X) → u.params.dy + ε ≤ δ →
      evolve ph c ab Tf init fuel (data, u) = .ok (some (d', u')) →
      ∃ rows, d' = data ++ rows ∧ ∀ r ∈ rows, r.x ≤ X → |r.aT - θ r.x| ≤ K * (u.params.dy + ε) := by
  obtain ⟨L, hs⟩ := plasma_solves m ts θ x₁ X hm h1 h1X hc h
  obtain ⟨K, hK, main⟩ := C117_convergence hs V hV
  refine ⟨K, θ x₁ / 2 / K, hK, div_pos hs.δ_pos hK, ?_⟩
  intro W ph c ab init Tf ε fuel data d' u u' hu hε hph hsmall hev
  refine main W ph c ab init Tf ε m fuel data d' u u' hu hε
    (nearPlasma_slope ph m ts ε x₁ X _ _ hs.lo_pos hc hph) ?_ hev
  rw [le_div_iff₀ hK] at hsmall
  linarith

theorem entropy_strictMono (m : ℝ) (ts : List TPart) (x : ℝ) (hm : 0 < m) (hx : 0 < x) (hc : Content ts) :
    StrictMonoOn (fun t => t ^ 3 * sumC m ts (x / t)) (Ioi 0) := by
  have hd : ∀ t ∈ Ioi (0 : ℝ), HasDerivAt (fun t => t ^ 3 * sumC m ts (x / t))
      (3 * t ^ 2 * (sumC m ts (x / t) + sumB m ts (x / t))) t := by
    intro t ht
    have t0 : t ≠ 0 := (mem_Ioi.mp ht).ne'
    have dw : HasDerivAt (fun t => x / t) (-(x / t ^ 2)) t := by
      refine ((hasDerivAt_const t x).fun_div (hasDerivAt_id t) t0).congr_deriv ?_
      simp only [id]; ring
    have dC := (sumC_hasDerivAt m ts (x / t) (div_ne_zero hx.ne' t0)).comp t dw
    refine (((hasDerivAt_id t).fun_pow 3).mul dC).congr_deriv ?_
    simp only [id, Function.comp]
    push_cast
    generalize sumC m ts (x / t) = C
    generalize sumB m ts (x / t) = B
    field_simp
  refine strictMonoOn_of_deriv_pos (convex_Ioi 0) (fun t ht => (hd t ht).continuousAt.continuousWithinAt)
    fun t ht => ?_
  rw [interior_Ioi] at ht
  rw [(hd t ht).deriv]
  have t0 : 0 < t := ht
  have := sumC_pos m ts (x / t) hm (by positivity) hc
  have := sumB_nonneg m ts (x / t) hc.dof
  positivity

/-- Through every starting point there is a history of C116. -/
theorem history_through (m : ℝ) (ts : List TPart) (x₁ θ₁ : ℝ) (hm : 0 < m) (h1 : 0 < x₁) (hθ : 0 < θ₁)
    (hc : Content ts) (hz : ∀ t ∈ ts, t.regime = .noneq → ∀ k, t.coll k = 0) :
    ∃ θ : ℝ → ℝ, (∀ x, 0 < x → 0 < θ x ∧ Heats m ts θ x) ∧ θ x₁ = θ₁ := by
  have hC := sumC_pos m ts (x₁ / θ₁) hm (by positivity) hc
  obtain ⟨θ, h, hS⟩ := C116_exists m (θ₁ ^ 3 * sumC m ts (x₁ / θ₁)) ts hm (by positivity) hc hz
  refine ⟨θ, h, ?_⟩
  have e := hS x₁ h1
  rw [plasmaEntropy_eq m x₁ (θ x₁) ts h1 hm (h x₁ h1).1 hc.massive] at e
  exact (entropy_strictMono m ts x₁ hm h1 hc).injOn (h x₁ h1).1 hθ e

theorem NearPlasma.mono {ph : Physics W} {m : ℝ} {ts : List TPart} {ε x₁ X lo hi hi' : ℝ}
    (h : NearPlasma ph m ts ε x₁ X lo hi') (hle : hi ≤ hi') : NearPlasma ph m ts ε x₁ X lo hi :=
  fun w p a b c d e => h w p a b c d ⟨e.1, e.2.trans hle⟩

/-- **C117 (heating seen in the table).** Photons, electrons with positrons, decoupled neutrinos, started
above 19 electron masses (the test scripts start at 10 MeV) from any `a T`: there is `X₀` such that for
every `X`, once step and integration error are small enough, all rows the run records between `X₀` and
`X` have `a T` between 1.4 and 1.402 times its initial value. -/
theorem C117_heats (m : ℝ) (γ e : TPart) (ν : List TPart) (x₁ θ₁ V : ℝ) (hm : 0 < m) (h1 : 0 < x₁) (hθ : 0 < θ₁)
    (hV : 0 ≤ V) (hp : PhotonElectron γ e ν) (hz : ∀ t ∈ ν, ∀ k, t.coll k = 0)
    (hT : 19 * e.sp.mass ≤ θ₁ / (x₁ / m)) :
    ∃ X₀, x₁ ≤ X₀ ∧ ∀ X, X₀ ≤ X → ∃ δ : ℝ, 0 < δ ∧ ∀ (W : Type) (ph : Physics W) (c : Consts) (ab init : Bool)
      (Tf ε : ℝ) (fuel : ℕ) (data d' : List Row) (u u' : Uni W), StartsAt u data m x₁ θ₁ V → 0 ≤ ε →
      NearPlasma ph m (γ :: e :: ν) ε x₁ X (θ₁ / 2) (3 * θ₁) → u.params.dy + ε ≤ δ →
      evolve ph c ab Tf init fuel (data, u) = .ok (some (d', u')) →
      ∃ rows, d' = data ++ rows ∧ ∀ r ∈ rows, X₀ ≤ r.x → r.x ≤ X → 1.4 < r.aT / θ₁ ∧ r.aT / θ₁ < 1.402 := by
  have hc := hp.content
  obtain ⟨θ, hh, e1⟩ := history_through m (γ :: e :: ν) x₁ θ₁ hm h1 hθ hc (by
    intro t ht hr
    rcases List.mem_cons.mp ht with rfl | ht
    · rw [hp.γr] at hr; cases hr
    rcases List.mem_cons.mp ht with rfl | ht
    · rcases hp.er with he | he <;> rw [he] at hr <;> cases hr
    · exact hz t ht)
  obtain ⟨θe, t1, hb, hlo, hhi⟩ := C116_test_start m γ e ν θ x₁ hm h1 hp (fun x hx => hh x (h1.trans_le hx))
    (by rw [e1]; exact hT)
  rw [e1, lt_div_iff₀ hθ] at hlo
  rw [e1, div_lt_iff₀ hθ] at hhi
  have ev : ∀ᶠ x in atTop, 1.4006 * θ₁ < θ x := t1.eventually_const_lt (by linarith)
  obtain ⟨X₀, hX₀⟩ := eventually_atTop.mp ev
  refine ⟨max x₁ X₀, le_max_left _ _, fun X hX => ?_⟩
  have h1X : x₁ ≤ X := (le_max_left _ _).trans hX
  obtain ⟨K, δ, hK, hδ, main⟩ := C117_plasma m _ θ x₁ X V hm h1 h1X hV hc fun x hx => hh x (h1.trans_le hx.1)
  refine ⟨min δ (0.0005 * θ₁ / K), lt_min hδ (by positivity), ?_⟩
  intro W ph c ab init Tf ε fuel data d' u u' hu hε hph hsmall hev
  obtain ⟨rows, hd, hrows⟩ := main W ph c ab init Tf ε fuel data d' u u' (by rw [e1]; exact hu) hε
    (by
      rw [e1]
      refine hph.mono ?_
      linarith [hb X h1X]) (hsmall.trans (min_le_left _ _)) hev
  refine ⟨rows, hd, fun r hr h0 hrX => ?_⟩
  have a := hrows r hr hrX
  have b := hsmall.trans (min_le_right _ _)
  rw [le_div_iff₀ hK] at b
  have c1 := hX₀ r.x ((le_max_right _ _).trans h0)
  have c2 := hb r.x ((le_max_left _ _).trans h0)
  rw [abs_le] at a
  rw [lt_div_iff₀ hθ, div_lt_iff₀ hθ]
  constructor <;> linarith [a.1, a.2]

/-! ## The order is one -/

theorem log_step_gap (h : ℝ) (h0 : 0 ≤ h) (h1 : h ≤ 1) : Real.log (1 + h) * (1 + h / 4) ≤ h := by
  have mono : MonotoneOn (fun x : ℝ => x / (1 + x / 4) - Real.log (1 + x)) (Icc 0 1) := by
    have hd : ∀ x ∈ Icc (0 : ℝ) 1, HasDerivAt (fun x : ℝ => x / (1 + x / 4) - Real.log (1 + x))
        (1 / (1 + x / 4) ^ 2 - 1 / (1 + x)) x := by
      intro x hx
      have p1 : 1 + x / 4 ≠ 0 := by linarith [hx.1]
      have p2 : 1 + x ≠ 0 := by linarith [hx.1]
      have d1 := (hasDerivAt_id x).fun_div (((hasDerivAt_id x).div_const 4).const_add 1) p1
      have d2 := ((hasDerivAt_id x).const_add 1).log p2
      refine (d1.sub d2).congr_deriv ?_
      simp only [id]
      field_simp
      ring
    refine monotoneOn_of_deriv_nonneg (convex_Icc 0 1)
      (fun x hx => (hd x hx).continuousAt.continuousWithinAt)
      (fun x hx => (hd x (interior_subset hx)).differentiableAt.differentiableWithinAt) fun x hx => ?_
    have hx' := interior_subset hx
    rw [(hd x hx').deriv, sub_nonneg]
    refine one_div_le_one_div_of_le (by nlinarith [hx'.1]) ?_
    nlinarith [hx'.1, hx'.2]
  have := mono ⟨le_rfl, by norm_num⟩ ⟨h0, h1⟩ h0
  simp only [zero_div, add_zero, Real.log_one, sub_zero] at this
  rw [sub_nonneg, le_div_iff₀ (by positivity)] at this
  exact this

theorem firstRunWeight_ge (n : ℕ) : (n : ℝ) ≤ firstRunWeight n := by
  match n with
  | 0 => simp [firstRunWeight]
  | 1 => norm_num [firstRunWeight]
  | 2 => norm_num [firstRunWeight]
  | 3 => norm_num [firstRunWeight]
  | n + 4 => simp only [firstRunWeight]; linarith

/-- **C117 (the order is one).** The bound cannot be improved: with a constant slope `q`, solved exactly by
`aT + q ln(x/x₀)`, the error of a first run in logarithmic steps is at least `q dy/4 · ln(x/x₀)`, in the
Adams–Bashforth mode as in the plain mode. (`x` advances by the factor `1 + dy`, the slopes are weighted
with `dy` instead of `ln(1 + dy)`.) -/
theorem C117_first_order {ph : Physics W} {q : ℝ} (hq : ConstSlope ph q) (hq0 : 0 ≤ q) {c : Consts}
    {ab init : Bool} {w : W} {p : Params} (hr : p.Reg) (hlog : p.log = true) (hh : p.h = p.dy) (h1 : p.dy ≤ 1)
    {s0 : List Row × Uni W} (h0 : evolveStart ph c init ([], Uni.new w p) = .ok s0) {n : ℕ}
    {s' : List Row × Uni W} (h : runN ph c ab n s0 = .ok s') :
    q * (p.dy / 4) * Real.log (s'.2.params.x / p.x) ≤
      s'.2.params.aT - (p.aT + q * Real.log (s'.2.params.x / p.x)) := by
  have hdy : 0 < p.dy := by
    have a := hr.step hlog
    have b := hr.dx
    rw [a] at b
    exact pos_of_mul_pos_right b hr.x.le
  have hr' : (Uni.new w p).params.Reg := hr
  obtain ⟨hr0, -, -, eaT, ex, -, -, eh, edy, elog, -⟩ := evolveStart_spec h0 hr'
  have hx : s'.2.params.x = p.x * (1 + p.dy) ^ n := by
    refine (runN_invariant (fun n a => a.2.params.x = p.x * (1 + p.dy) ^ n ∧ a.2.params.dy = p.dy ∧
      a.2.params.log = true ∧ a.2.params.Reg) s0 ⟨by rw [ex]; simp [Uni.new], edy, elog.trans hlog, hr0⟩ ?_
      n s' h).1
    rintro n a b ⟨i1, i2, i3, i4⟩ st
    refine ⟨?_, by rw [st.dy, i2], by rw [st.log, i3], st.reg i4⟩
    rw [st.x, i4.step i3, i1, i2, pow_succ]; ring
  have haT : p.aT + n * (p.dy * q) ≤ s'.2.params.aT := by
    cases ab
    · have := C26_euler hq hr0 h
      rw [this, eaT, eh]
      simp only [Uni.new]
      rw [hh]; linarith
    · have := C26_first_run hq hr h0 h
      rw [this, hh]
      have := mul_le_mul_of_nonneg_right (firstRunWeight_ge n) (by positivity : 0 ≤ p.dy * q)
      linarith
  have hlogx : Real.log (s'.2.params.x / p.x) = n * Real.log (1 + p.dy) := by
    rw [hx, mul_div_cancel_left₀ _ hr.x.ne', Real.log_pow]
  rw [hlogx]
  have g := log_step_gap p.dy hdy.le h1
  have : q * n * (Real.log (1 + p.dy) * (1 + p.dy / 4)) ≤ q * n * p.dy := by gcongr
  nlinarith

/-! ## Concrete cases -/

/-- Particles whose momentum integrals are exact. -/
noncomputable def exactPlasma (ts : List TPart) : Physics Unit :=
  ⟨fun w p => (w, temperatureTerms fullInt p (ts.map fun t => { t with aT := p.aT })), fun _ _ => 1, fun _ _ => 1⟩

theorem exactPlasma_near (m : ℝ) (ts : List TPart) (x₁ X lo hi : ℝ)
    (hz : ∀ t ∈ ts, t.regime = .noneq → ∀ k, t.coll k = 0) : NearPlasma (exactPlasma ts) m ts 0 x₁ X lo hi := by
  intro w p _ hlog _ _ _
  refine ⟨ts.map fun t => { t with aT := p.aT }, ?_, ?_⟩
  · rw [List.forall₂_map_right_iff, List.forall₂_same]
    exact fun t ht => ⟨rfl, rfl, Or.inl rfl, fun h => hz t ht h⟩
  · unfold slopeOf temperatureSlope exactPlasma
    simp [hlog]

theorem exactPlasma_den (m : ℝ) (ts : List TPart) (hc : Content ts)
    (hz : ∀ t ∈ ts, t.regime = .noneq → ∀ k, t.coll k = 0) (w : Unit) (p : Params) (hr : p.Reg) (hpm : p.m = m)
    (hθ : 0 < p.aT) : ((exactPlasma ts).terms w p).2.2 ≠ 0 := by
  have hm : 0 < m := hpm ▸ hr.m
  have pa : p.a = p.x / m := by rw [← hr.cons.1, hpm]; field_simp
  have e := stands_sums m p.x p.aT ts (ts.map fun t => { t with aT := p.aT }) p hr.x hm hθ hc.massive rfl hpm pa
    rfl (by
      rw [List.forall₂_map_right_iff, List.forall₂_same]
      exact fun t ht => ⟨rfl, rfl, Or.inl rfl, fun h => hz t ht h⟩)
  have hx := hr.x
  have c1 := sumC_pos m ts (p.x / p.aT) hm (by positivity) hc
  have c2 := sumB_nonneg m ts (p.x / p.aT) hc.dof
  unfold exactPlasma
  simp only [e]
  positivity

/-- Start at `a = 1`, `T = 10` with step `dy`. -/
noncomputable def hotStart (dy : ℝ) : Uni Unit :=
  Uni.new () ⟨true, 1, 10, 1, 1, 1, none, 10, 0, 0, none, none, 0, dy, dy, dy⟩

theorem hotStart_starts (dy : ℝ) (h : 0 < dy) : StartsAt (hotStart dy) [] 1 1 10 0 := by
  refine ⟨⟨?_, ?_, ?_, ?_, ?_⟩, rfl, rfl, rfl, rfl, rfl, by simp, by simp [hotStart, Uni.new]⟩ <;>
    simp [hotStart, Uni.new, Params.Consistent, h]

/-- Non-vacuity of `C117_completes`, `C117_convergence` and `C117_heats`: the default mode applied to
photons, electrons and a decoupled neutrino of `library/SM.py` completes, and its last row shows the heating. -/
example : ∃ (dy Tf : ℝ) (fuel : ℕ) (d' : List Row) (u' : Uni Unit) (r : Row), 0 < dy ∧
    evolve (exactPlasma [demoPlasma.1, demoPlasma.2.1, demoPlasma.2.2]) ⟨1, 1⟩ true Tf true fuel
      ([], hotStart dy) = .ok (some (d', u')) ∧ d'.getLast? = some r ∧
    1.4 < r.aT / 10 ∧ r.aT / 10 < 1.402 := by
  set ts := [demoPlasma.1, demoPlasma.2.1, demoPlasma.2.2] with hts
  have hc : Content ts := demoPlasma_ok.content
  have hz : ∀ t ∈ ts, t.regime = .noneq → ∀ k, t.coll k = 0 := by
    intro t ht
    simp only [hts, List.mem_cons, List.not_mem_nil, or_false] at ht
    rcases ht with rfl | rfl | rfl <;> simp [demoPlasma]
  obtain ⟨X₀, h0, heat⟩ := C117_heats 1 demoPlasma.1 demoPlasma.2.1 [demoPlasma.2.2] 1 10 0 one_pos one_pos
    (by norm_num) le_rfl demoPlasma_ok (by simp [demoPlasma]) (by norm_num [demoPlasma])
  obtain ⟨θ, hh, e1⟩ := history_through 1 ts 1 10 one_pos one_pos (by norm_num) hc hz
  obtain ⟨θe, -, hb, -, hhi⟩ := C116_test_start 1 _ _ _ θ 1 one_pos one_pos demoPlasma_ok
    (fun x hx => hh x (one_pos.trans_le hx)) (by rw [e1]; norm_num [demoPlasma])
  rw [e1, div_lt_iff₀ (by norm_num)] at hhi
  have hX1 : (1 : ℝ) ≤ 12 * X₀ := by linarith
  obtain ⟨δ, hδ, heat⟩ := heat (12 * X₀) (by linarith)
  obtain ⟨L, hs⟩ := plasma_solves 1 ts θ 1 (12 * X₀) one_pos one_pos hX1 hc fun x hx => hh x (one_pos.trans_le hx.1)
  obtain ⟨K, hK, comp⟩ := C117_completes hs 0 le_rfl
  have hθX := hb (12 * X₀) hX1
  rw [e1] at hs comp
  obtain ⟨dy, hdy, d1, d2, d3⟩ : ∃ dy : ℝ, 0 < dy ∧ dy ≤ δ ∧ K * dy ≤ 5 ∧ dy ≤ 1 := by
    refine ⟨min δ (min (5 / K) 1), by positivity, min_le_left _ _, ?_, ?_⟩
    · have : min δ (min (5 / K) 1) ≤ 5 / K := (min_le_right _ _).trans (min_le_left _ _)
      rw [le_div_iff₀ hK] at this; linarith
    · exact (min_le_right _ _).trans (min_le_right _ _)
  have hu := hotStart_starts dy hdy
  obtain ⟨N, ⟨d', u'⟩, hxX, hbox, hev⟩ := comp Unit (exactPlasma ts) ⟨1, 1⟩ true true (60 / (12 * X₀)) 0 1 []
    (hotStart dy) hu le_rfl
    (nearPlasma_slope _ 1 ts 0 1 _ _ _ (by norm_num) hc (exactPlasma_near 1 ts _ _ _ _ hz))
    (by change K * (dy + 0) ≤ 10 / 2; linarith) d3
    (fun w p a _ b _ e => exactPlasma_den 1 ts hc hz w p a b (lt_of_lt_of_le (by norm_num) e.1))
    (by simp [hotStart, Uni.new]) (by
      rw [div_mul_cancel₀ _ (by linarith)]
      linarith)
  have ev := hev N le_rfl
  obtain ⟨rows, hd, hrows⟩ := heat Unit (exactPlasma ts) ⟨1, 1⟩ true true (60 / (12 * X₀)) 0 N [] d' (hotStart dy)
    u' hu le_rfl (exactPlasma_near 1 ts _ _ _ _ hz) (by change dy + 0 ≤ δ; linarith) ev
  rw [List.nil_append] at hd
  subst hd
  obtain ⟨n, st, rows, -, hl, hd, hlast, hstart, hstep, hreg, hrow, -, hTf, hT⟩ := evolve_trace hu.reg ev
  rw [List.nil_append] at hd
  subst hd
  have hg : d'[n]? = some (d'[n]'(by omega)) := List.getElem?_eq_getElem _
  obtain ⟨-, q1, q2, q3, q4, -⟩ := hrow n _ hg
  have hrn := hreg n le_rfl
  rw [hlast] at q1 q2 q3 q4 hrn
  have hx12 : X₀ ≤ u'.params.x := by
    have hm1 : u'.params.m = 1 := by
      have : ∀ i, i ≤ n → (st i).2.params.m = 1 := by
        intro i
        induction i with
        | zero => intro _; obtain ⟨-, -, -, -, -, -, em, -⟩ := evolveStart_spec hstart hu.reg; exact em
        | succ i ih => intro hi; rw [(hstep i hi).m]; exact ih (by omega)
      have := this n le_rfl
      rwa [hlast] at this
    have : u'.params.T * u'.params.x = u'.params.aT := by
      rw [← hrn.cons.1, ← hrn.cons.2, hm1]; ring
    have h5 : 10 / 2 ≤ u'.params.aT := hbox.1
    have h6 : u'.params.T * X₀ ≤ 5 := by
      rw [le_div_iff₀ (by linarith)] at hTf; linarith
    refine le_of_mul_le_mul_left ?_ hT
    linarith
  refine ⟨dy, 60 / (12 * X₀), N, d', u', d'[n]'(by omega), hdy, ev, ?_, ?_⟩
  · rw [List.getLast?_eq_getElem?, ← hg]; congr 1; omega
  · refine hrows _ (List.getElem_mem _) ?_ ?_
    · rw [q4]; exact hx12
    · rw [q4]; exact hxX

/-- Five Adams–Bashforth steps of `dy = 0.05` with slope 1: the error is at least `ln(x/x₀)/80`. -/
example : ∃ s0 s', evolveStart unitSlopePhysics ⟨1, 1⟩ true ([], Uni.new () demoParams) = .ok s0 ∧
    runN unitSlopePhysics ⟨1, 1⟩ true 5 s0 = .ok s' ∧
    1 / 80 * Real.log (s'.2.params.x / (1 / 10)) ≤
      s'.2.params.aT - (1 + Real.log (s'.2.params.x / (1 / 10))) := by
  obtain ⟨s0, h0⟩ := evolveStart_ok unitSlopePhysics ⟨1, 1⟩ true ([], Uni.new () demoParams)
    (by simp [Uni.new, demoParams])
  have hr0 := (evolveStart_spec h0 demoParams_reg).1
  have hrun : ∀ n, ∃ s', runN unitSlopePhysics ⟨1, 1⟩ true n s0 = .ok s' := by
    intro n
    induction n with
    | zero => exact ⟨s0, rfl⟩
    | succ n ih =>
      obtain ⟨s', h'⟩ := ih
      obtain ⟨s'', h''⟩ := loopBody_ok unitSlopePhysics ⟨1, 1⟩ true s' (unitSlope_const _ _ (runN_reg h' hr0)).1
      exact ⟨s'', by simp only [runN, h']; exact h''⟩
  obtain ⟨s', hs⟩ := hrun 5
  refine ⟨s0, s', h0, hs, ?_⟩
  have := C117_first_order unitSlope_const (by norm_num) demoParams_reg rfl rfl
    (by norm_num [demoParams]) h0 hs
  have e1 : demoParams.x = 1 / 10 := rfl
  have e2 : demoParams.aT = 1 := rfl
  have e3 : demoParams.dy = 0.05 := rfl
  rw [e1, e2, e3] at this
  norm_num at this ⊢
  linarith

end PyBBN
