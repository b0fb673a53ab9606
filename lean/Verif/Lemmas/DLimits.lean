import Verif.Lemmas.DSymm
import Mathlib.Analysis.SpecialFunctions.Sqrt
/-!
# Behaviour of the kernels when the first momentum tends to zero
-/
namespace PyBBN

open Filter Topology

/-- The sorting prologue of `Db1` is immaterial. -/
theorem Db1_eq (a b c : ℝ) :
    Db1 a b c = 1 / 2 * (sgn (a + b - c) + sgn (a - b + c) + sgn (-a + b + c) - sgn (a + b + c)) := by
  have key : ∀ x y z : ℝ, 0.5 * (sgn (x + y - z) + sgn (x - y + z) - sgn (x - y - z) - sgn (x + y + z))
      = 1 / 2 * (sgn (x + y - z) + sgn (x - y + z) + sgn (-x + y + z) - sgn (x + y + z)) := by
    intro x y z
    rw [show x - y - z = -(-x + y + z) by ring, sgn_neg]; norm_num
  unfold Db1
  simp only []
  rw [key]
  rcases le_total a b with h1 | h1 <;> rcases le_total b c with h2 | h2 <;>
    rcases le_total a c with h3 | h3 <;>
    (try (have e1 : a = b := by linarith)) <;> (try (have e2 : b = c := by linarith)) <;>
    (try subst e1) <;> (try subst e2) <;>
    simp only [max_eq_left, max_eq_right, min_eq_left, min_eq_right, h1, h2, h3, le_refl] <;>
    ring_nf

theorem Db1_swap23 (a b c : ℝ) : Db1 a b c = Db1 a c b := by
  rw [Db1_eq, Db1_eq]; ring_nf

theorem Db1_swap12 (a b c : ℝ) : Db1 a b c = Db1 b a c := by
  rw [Db1_eq, Db1_eq]; ring_nf

/-- `Db2` in terms of `Db1`. -/
theorem Db2_eq {a b c : ℝ} (ha : 0 ≤ a) (hb : 0 ≤ b) (hc : 0 ≤ c) :
    Db2 a b c = (b ^ 2 + c ^ 2 - a ^ 2) / 2 * Db1 a b c := by
  have key : ∀ b c : ℝ, c ≤ b → 0 ≤ c → Db2core a b c = (b ^ 2 + c ^ 2 - a ^ 2) / 2 * Db1 a b c := by
    intro b c hbc hc
    have h0 : 0 ≤ b := hc.trans hbc
    rw [Db1_eq]
    unfold Db2core
    have e1 : sgn (a - b - c) = -sgn (-a + b + c) := by rw [← sgn_neg]; ring_nf
    have p1 : ∀ x : ℝ, |x| = x * sgn x := by
      intro x
      rcases lt_trichotomy x 0 with h | h | h
      · rw [abs_of_neg h, sgn_of_neg h]; ring
      · subst h; simp [sgn]
      · rw [abs_of_pos h, sgn_pos h]; ring
    rw [e1, p1 (a - b + c), p1 (-a + b + c)]
    have hs : sgn (a + b + c) = 1 ∨ (a = 0 ∧ b = 0 ∧ c = 0) := by
      by_cases h : 0 < a + b + c
      · left; exact sgn_pos h
      · right; refine ⟨?_, ?_, ?_⟩ <;> linarith
    rcases hs with hs | ⟨h1, h2, h3⟩
    · rw [hs]
      have t1 : sgn (a + b - c) = 1 ∨ a + b - c = 0 := by
        by_cases h : 0 < a + b - c
        · left; exact sgn_pos h
        · right; linarith
      rcases t1 with t1 | t1
      · rw [t1]
        rcases lt_trichotomy (a - b + c) 0 with h | h | h
        · rw [sgn_of_neg h, sgn_pos (show 0 < -a + b + c by linarith)]; ring
        · rw [h, sgn_zero]
          have : a = b - c := by linarith
          rcases eq_or_lt_of_le hc with hc0 | hc0
          · subst hc0
            rw [show -a + b + 0 = 0 by linarith, sgn_zero]; subst this; ring
          · rw [sgn_pos (show 0 < -a + b + c by linarith)]; subst this; ring
        · rw [sgn_pos h]
          rcases lt_trichotomy (-a + b + c) 0 with g | g | g
          · rw [sgn_of_neg g]; ring
          · rw [g, sgn_zero]
            have : a = b + c := by linarith
            subst this; ring
          · rw [sgn_pos g]; ring
      · have a0 : a = 0 := by linarith
        have bc : b = c := by linarith
        subst a0; subst bc
        have : 0 < b := by
          rcases eq_or_lt_of_le h0 with h | h
          · subst h; simp [sgn] at hs
          · exact h
        rw [show (0:ℝ) + b - b = 0 by ring, show (0:ℝ) - b + b = 0 by ring, sgn_zero,
          show -(0:ℝ) + b + b = 2 * b by ring, sgn_pos (by linarith)]
        ring
    · subst h1; subst h2; subst h3; simp
  unfold Db2
  rw [ordMax_eq, ordMin_eq, key _ _ min_le_max (le_min hb hc)]
  rcases le_total b c with h | h
  · rw [max_eq_right h, min_eq_left h, Db1_swap23]; ring
  · rw [max_eq_left h, min_eq_right h]

/-- The interval of allowed `|p₀ + p₁|` for small `p₀ = x > 0`. -/
theorem small_overlap {a b c : ℝ} (ha : 0 ≤ a) (hb : 0 ≤ b) (hc : 0 ≤ c) :
    (Db1 a b c = 0 ∧ ∀ᶠ x in 𝓝[>] (0:ℝ), exHi x a b c = exLo x a b c) ∨
    (∃ u v : ℝ, Db1 a b c = (u + v) / 2 ∧ (a ≠ |b - c| → a ≠ b + c → u = v) ∧
      ∀ᶠ x in 𝓝[>] (0:ℝ), exLo x a b c = a - v * x ∧ exHi x a b c = a + u * x) := by
  have hLS : |b - c| ≤ b + c := abs_le.mpr ⟨by linarith, by linarith⟩
  have hev : ∀ δ : ℝ, 0 < δ → ∀ᶠ x in 𝓝[>] (0:ℝ), 0 < x ∧ x < δ := fun δ h =>
    (eventually_mem_nhdsWithin (α := ℝ) (a := 0) (s := Set.Ioi 0)).and
      (eventually_nhdsWithin_of_eventually_nhds (eventually_lt_nhds h))
  have sgnL : |b - c| = |b - c| := rfl
  -- value of Db1
  have dL : ∀ x y : ℝ, |b - c| < x → -(x) < b - c ∧ b - c < x := fun x _ h => abs_lt.mp h
  rcases eq_or_lt_of_le ha with ha0 | ha0
  · subst ha0
    left
    constructor
    · rw [Db1_eq, show (0:ℝ) + b - c = -(0 - b + c) by ring, sgn_neg,
        show -(0:ℝ) + b + c = 0 + b + c by ring]; ring
    · refine (hev 1 one_pos).mono ?_
      rintro x ⟨hx, -⟩
      unfold exHi exLo
      apply max_eq_left
      rw [sub_zero, add_zero, abs_of_pos hx]
      exact (min_le_left _ _).trans (le_max_left _ _)
  rcases lt_trichotomy a |b - c| with h | h | h
  · -- below the region
    left
    constructor
    · rw [Db1_eq]
      rcases lt_abs.mp h with g | g
      · rw [sgn_pos (show 0 < a + b - c by linarith), sgn_of_neg (show a - b + c < 0 by linarith),
          sgn_pos (show 0 < -a + b + c by linarith), sgn_pos (show 0 < a + b + c by linarith)]
        ring
      · rw [sgn_of_neg (show a + b - c < 0 by linarith), sgn_pos (show 0 < a - b + c by linarith),
          sgn_pos (show 0 < -a + b + c by linarith), sgn_pos (show 0 < a + b + c by linarith)]
        ring
    · refine (hev _ (sub_pos.mpr h)).mono ?_
      rintro x ⟨hx, hx2⟩
      unfold exHi exLo
      apply max_eq_left
      refine (min_le_left _ _).trans (le_trans ?_ (le_max_right _ _))
      linarith
  · -- a = |b - c|
    rcases eq_or_lt_of_le hLS with g | g
    · left
      have hbc : b = 0 ∨ c = 0 := by
        by_contra hh
        push Not at hh
        have hb' : 0 < b := lt_of_le_of_ne hb (Ne.symm hh.1)
        have hc' : 0 < c := lt_of_le_of_ne hc (Ne.symm hh.2)
        have := abs_lt.mpr (show -(b + c) < b - c ∧ b - c < b + c by constructor <;> linarith)
        linarith
      constructor
      · rw [Db1_eq]
        rcases hbc with hb0 | hc0
        · subst hb0
          have : a = c := by rw [h, g]; ring
          subst this
          ring_nf
          simp
        · subst hc0
          have : a = b := by rw [h, g]; ring
          subst this
          ring_nf
          simp
      · refine (hev a ha0).mono ?_
        rintro x ⟨hx, hx2⟩
        unfold exHi exLo
        apply max_eq_left
        refine (min_le_right _ _).trans (le_trans ?_ (le_max_right _ _))
        linarith
    · right
      refine ⟨1, 0, ?_, fun h' => absurd h h', ?_⟩
      · rw [Db1_eq]
        rcases le_total b c with hh | hh
        · rw [abs_of_nonpos (by linarith)] at h g
          rw [show a + b - c = 0 by linarith, sgn_zero, sgn_pos (show 0 < a - b + c by linarith),
            sgn_pos (show 0 < -a + b + c by linarith), sgn_pos (show 0 < a + b + c by linarith)]
          ring
        · rw [abs_of_nonneg (by linarith)] at h g
          rw [show a - b + c = 0 by linarith, sgn_zero, sgn_pos (show 0 < a + b - c by linarith),
            sgn_pos (show 0 < -a + b + c by linarith), sgn_pos (show 0 < a + b + c by linarith)]
          ring
      · refine (hev (min a (b + c - a)) (lt_min ha0 (by linarith))).mono ?_
        rintro x ⟨hx, hx2⟩
        have x1 := hx2.trans_le (min_le_left _ _)
        have x2 := hx2.trans_le (min_le_right _ _)
        have e : exLo x a b c = a := by
          unfold exLo
          rw [max_eq_right, ← h]
          rw [abs_of_neg (by linarith), ← h]; linarith
        refine ⟨by rw [e]; ring, ?_⟩
        unfold exHi
        rw [e, min_eq_left (by linarith), max_eq_right (by linarith)]; ring
  · rcases lt_trichotomy a (b + c) with g | g | g
    · right
      refine ⟨1, 1, ?_, fun _ _ => rfl, ?_⟩
      · obtain ⟨h1, h2⟩ := abs_lt.mp h
        rw [Db1_eq, sgn_pos (show 0 < a + b - c by linarith),
          sgn_pos (show 0 < a - b + c by linarith), sgn_pos (show 0 < -a + b + c by linarith),
          sgn_pos (show 0 < a + b + c by linarith)]
        ring
      · refine (hev (min (a - |b - c|) (b + c - a)) (lt_min (by linarith) (by linarith))).mono ?_
        rintro x ⟨hx, hx2⟩
        have x1 := hx2.trans_le (min_le_left _ _)
        have x2 := hx2.trans_le (min_le_right _ _)
        have hn := abs_nonneg (b - c)
        have e : exLo x a b c = a - x := by
          unfold exLo
          rw [abs_of_neg (show x - a < 0 by linarith), max_eq_left (by linarith)]; ring
        refine ⟨by rw [e]; ring, ?_⟩
        unfold exHi
        rw [e, min_eq_left (by linarith), max_eq_right (by linarith)]; ring
    · right
      refine ⟨0, 1, ?_, fun _ h' => absurd g h', ?_⟩
      · obtain ⟨h1, h2⟩ := abs_lt.mp h
        rw [Db1_eq, sgn_pos (show 0 < a + b - c by linarith),
          sgn_pos (show 0 < a - b + c by linarith), show -a + b + c = 0 by linarith, sgn_zero,
          sgn_pos (show 0 < a + b + c by linarith)]
        ring
      · refine (hev (a - |b - c|) (by linarith)).mono ?_
        rintro x ⟨hx, x1⟩
        have hn := abs_nonneg (b - c)
        have e : exLo x a b c = a - x := by
          unfold exLo
          rw [abs_of_neg (show x - a < 0 by linarith), max_eq_left (by linarith)]; ring
        refine ⟨by rw [e]; ring, ?_⟩
        unfold exHi
        rw [e, min_eq_right (by linarith), max_eq_right (by linarith)]; linarith
    · left
      constructor
      · obtain ⟨h1, h2⟩ := abs_lt.mp h
        rw [Db1_eq, sgn_pos (show 0 < a + b - c by linarith),
          sgn_pos (show 0 < a - b + c by linarith), sgn_of_neg (show -a + b + c < 0 by linarith),
          sgn_pos (show 0 < a + b + c by linarith)]
        ring
      · refine (hev (a - (b + c)) (by linarith)).mono ?_
        rintro x ⟨hx, x1⟩
        unfold exHi exLo
        apply max_eq_left
        refine (min_le_right _ _).trans (le_trans ?_ (le_max_left _ _))
        rw [abs_of_neg (by linarith)]; linarith

/-- Limit of a continuous function from the right, from an eventual equality. -/
theorem tendsto_right_of_eq {f g : ℝ → ℝ} {y : ℝ} (hg : Continuous g) (h0 : g 0 = y)
    (h : ∀ᶠ x in 𝓝[>] (0:ℝ), f x = g x) : Tendsto f (𝓝[>] 0) (𝓝 y) := by
  have : Tendsto g (𝓝[>] 0) (𝓝 y) := by
    rw [← h0]; exact (hg.tendsto 0).mono_left nhdsWithin_le_nhds
  exact this.congr' (h.mono fun x hx => hx.symm)

theorem eventually_pos : ∀ᶠ x in 𝓝[>] (0:ℝ), 0 < x :=
  eventually_mem_nhdsWithin (α := ℝ) (a := 0) (s := Set.Ioi 0)

variable {a b c : ℝ}

theorem D1_limit (ha : 0 ≤ a) (hb : 0 ≤ b) (hc : 0 ≤ c) :
    Tendsto (fun x => D1 x a b c / x) (𝓝[>] 0) (𝓝 (Db1 a b c)) := by
  rcases small_overlap ha hb hc with ⟨h0, h⟩ | ⟨u, v, h0, -, h⟩
  · refine tendsto_right_of_eq (g := fun _ => 0) continuous_const h0.symm ?_
    filter_upwards [h, eventually_pos] with x hx hp
    rw [D1_overlap hp.le ha hb hc, hx]; simp
  · refine tendsto_right_of_eq (g := fun _ => (u + v) / 2) continuous_const h0.symm ?_
    filter_upwards [h, eventually_pos] with x hx hp
    rw [D1_overlap hp.le ha hb hc, hx.1, hx.2]; field_simp; ring

theorem D2_limit (ha : 0 ≤ a) (hb : 0 ≤ b) (hc : 0 ≤ c) :
    Tendsto (fun x => D2 x a b c / x) (𝓝[>] 0) (𝓝 (Db2 a b c)) := by
  rw [Db2_eq ha hb hc]
  rcases small_overlap ha hb hc with ⟨h0, h⟩ | ⟨u, v, h0, -, h⟩
  · refine tendsto_right_of_eq (g := fun _ => 0) continuous_const (by rw [h0]; ring) ?_
    filter_upwards [h, eventually_pos] with x hx hp
    rw [D2_overlap hp.le ha hb hc, hx]; simp
  · refine tendsto_right_of_eq (g := fun x => -(1 / 4) * (u + v) *
      (((a + u * x) ^ 2 + (a + u * x) * (a - v * x) + (a - v * x) ^ 2) / 3 - (b ^ 2 + c ^ 2)))
      (by fun_prop) (by rw [h0]; ring) ?_
    filter_upwards [h, eventually_pos] with x hx hp
    rw [D2_overlap hp.le ha hb hc, hx.1, hx.2]; field_simp; ring

/-- With the small momentum in the second pair the limit is zero. -/
theorem D2_limit' (ha : 0 ≤ a) (hb : 0 ≤ b) (hc : 0 ≤ c) :
    Tendsto (fun x => D2 b c x a / x) (𝓝[>] 0) (𝓝 0) := by
  rcases small_overlap ha hb hc with ⟨h0, h⟩ | ⟨u, v, h0, -, h⟩
  · refine tendsto_right_of_eq (g := fun _ => 0) continuous_const rfl ?_
    filter_upwards [h, eventually_pos] with x hx hp
    rw [D2_overlap hb hc hp.le ha, exHi_pairs, exLo_pairs, hx]; simp
  · refine tendsto_right_of_eq (g := fun x => -(1 / 4) * (u + v) *
      (((a + u * x) ^ 2 + (a + u * x) * (a - v * x) + (a - v * x) ^ 2) / 3 - (x ^ 2 + a ^ 2)))
      (by fun_prop) (by ring) ?_
    filter_upwards [h, eventually_pos] with x hx hp
    rw [D2_overlap hb hc hp.le ha, exHi_pairs, exLo_pairs, hx.1, hx.2]; field_simp; ring

theorem D3_limit (ha : 0 ≤ a) (hb : 0 ≤ b) (hc : 0 ≤ c) :
    Tendsto (fun x => D3 x a b c / x) (𝓝[>] 0) (𝓝 0) := by
  rcases small_overlap ha hb hc with ⟨h0, h⟩ | ⟨u, v, h0, -, h⟩
  · refine tendsto_right_of_eq (g := fun _ => 0) continuous_const rfl ?_
    filter_upwards [h, eventually_pos] with x hx hp
    rw [D3_overlap hp.le ha hb hc, hx]; simp
  · refine tendsto_right_of_eq (g := fun x => 1 / 8 * (u + v) *
      (((a + u * x) ^ 4 + (a + u * x) ^ 3 * (a - v * x) + (a + u * x) ^ 2 * (a - v * x) ^ 2
          + (a + u * x) * (a - v * x) ^ 3 + (a - v * x) ^ 4) / 5
        - (x ^ 2 + a ^ 2 + (b ^ 2 + c ^ 2)) *
          ((a + u * x) ^ 2 + (a + u * x) * (a - v * x) + (a - v * x) ^ 2) / 3
        + (x ^ 2 + a ^ 2) * (b ^ 2 + c ^ 2)))
      (by fun_prop) (by ring) ?_
    filter_upwards [h, eventually_pos] with x hx hp
    rw [D3_overlap hp.le ha hb hc, hx.1, hx.2]; field_simp; ring

/-- Second-order statements, away from the edge of the allowed region. -/
theorem D3_limit_sq (ha : 0 ≤ a) (hb : 0 ≤ b) (hc : 0 ≤ c) (n1 : a ≠ |b - c|) (n2 : a ≠ b + c) :
    Tendsto (fun x => D3 x a b c / x ^ 2) (𝓝[>] 0) (𝓝 0) := by
  rcases small_overlap ha hb hc with ⟨h0, h⟩ | ⟨u, v, h0, huv, h⟩
  · refine tendsto_right_of_eq (g := fun _ => 0) continuous_const rfl ?_
    filter_upwards [h, eventually_pos] with x hx hp
    rw [D3_overlap hp.le ha hb hc, hx]; simp
  · obtain rfl := huv n1 n2
    refine tendsto_right_of_eq (g := fun x => u / 4 * x * (2 * a ^ 2 * u ^ 2 + u ^ 4 * x ^ 2 / 5
        - a ^ 2 - x ^ 2 * u ^ 2 / 3 - a ^ 2 * u ^ 2 / 3 - (b ^ 2 + c ^ 2) * u ^ 2 / 3
        + (b ^ 2 + c ^ 2)))
      (by fun_prop) (by ring) ?_
    filter_upwards [h, eventually_pos] with x hx hp
    rw [D3_overlap hp.le ha hb hc, hx.1, hx.2]; field_simp; ring

theorem D2_limit_sq' (ha : 0 ≤ a) (hb : 0 ≤ b) (hc : 0 ≤ c) (n1 : a ≠ |b - c|) (n2 : a ≠ b + c) :
    Tendsto (fun x => D2 b c x a / x ^ 2) (𝓝[>] 0) (𝓝 0) := by
  rcases small_overlap ha hb hc with ⟨h0, h⟩ | ⟨u, v, h0, huv, h⟩
  · refine tendsto_right_of_eq (g := fun _ => 0) continuous_const rfl ?_
    filter_upwards [h, eventually_pos] with x hx hp
    rw [D2_overlap hb hc hp.le ha, exHi_pairs, exLo_pairs, hx]; simp
  · obtain rfl := huv n1 n2
    refine tendsto_right_of_eq (g := fun x => -(u / 2) * x * (u ^ 2 / 3 - 1))
      (by fun_prop) (by ring) ?_
    filter_upwards [h, eventually_pos] with x hx hp
    rw [D2_overlap hb hc hp.le ha, exHi_pairs, exLo_pairs, hx.1, hx.2]; field_simp; ring

end PyBBN
