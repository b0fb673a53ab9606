import Verif.Lemmas.DFunctions
import Verif.Lemmas.DLimits
import Mathlib.Analysis.SpecialFunctions.Integrals.Basic
import Mathlib.MeasureTheory.Integral.Prod
import Mathlib.MeasureTheory.Integral.IntervalIntegral.FundThmCalculus
/-!
# The phase-space integral of a decay into three massless particles

Pure analysis, no program definitions except the exchange limits `exLo`, `exHi` (maxima and minima).
-/
namespace PyBBN

open MeasureTheory intervalIntegral Set

/-- A function that vanishes on `(a, b)` and `(c, d)`. -/
theorem integral_middle {f g : ℝ → ℝ} {a b c d : ℝ} (hab : a ≤ b) (hbc : b ≤ c) (hcd : c ≤ d)
    (h1 : ∀ x ∈ Ioo a b, f x = 0) (h2 : ∀ x ∈ Ioo b c, f x = g x) (h3 : ∀ x ∈ Ioo c d, f x = 0)
    (hg : IntervalIntegrable g volume b c) : ∫ x in a..d, f x = ∫ x in b..c, g x := by
  have z : IntervalIntegrable (fun _ : ℝ => (0 : ℝ)) volume a b := intervalIntegrable_const
  have z' : IntervalIntegrable (fun _ : ℝ => (0 : ℝ)) volume c d := intervalIntegrable_const
  have i1 : IntervalIntegrable f volume a b := z.congr_uIoo (fun x hx => by
    rw [uIoo_of_le hab] at hx; exact (h1 x hx).symm)
  have i2 : IntervalIntegrable f volume b c := hg.congr_uIoo (fun x hx => by
    rw [uIoo_of_le hbc] at hx; exact (h2 x hx).symm)
  have i3 : IntervalIntegrable f volume c d := z'.congr_uIoo (fun x hx => by
    rw [uIoo_of_le hcd] at hx; exact (h3 x hx).symm)
  rw [← integral_add_adjacent_intervals (i1.trans i2) i3, ← integral_add_adjacent_intervals i1 i2,
    integral_congr_Ioo_of_le hab h1, integral_congr_Ioo_of_le hbc h2, integral_congr_Ioo_of_le hcd h3]
  simp

/-- The integrability that goes with `integral_two`. -/
theorem integrable_two {f g h : ℝ → ℝ} {a b c : ℝ} (hab : a ≤ b) (hbc : b ≤ c)
    (h1 : ∀ x ∈ Ioo a b, f x = g x) (h2 : ∀ x ∈ Ioo b c, f x = h x)
    (hg : IntervalIntegrable g volume a b) (hh : IntervalIntegrable h volume b c) :
    IntervalIntegrable f volume a c :=
  (hg.congr_uIoo (fun x hx => by rw [uIoo_of_le hab] at hx; exact (h1 x hx).symm)).trans
    (hh.congr_uIoo (fun x hx => by rw [uIoo_of_le hbc] at hx; exact (h2 x hx).symm))

theorem integral_two {f g h : ℝ → ℝ} {a b c : ℝ} (hab : a ≤ b) (hbc : b ≤ c)
    (h1 : ∀ x ∈ Ioo a b, f x = g x) (h2 : ∀ x ∈ Ioo b c, f x = h x)
    (hg : IntervalIntegrable g volume a b) (hh : IntervalIntegrable h volume b c) :
    ∫ x in a..c, f x = (∫ x in a..b, g x) + ∫ x in b..c, h x := by
  have i1 : IntervalIntegrable f volume a b := hg.congr_uIoo (fun x hx => by
    rw [uIoo_of_le hab] at hx; exact (h1 x hx).symm)
  have i2 : IntervalIntegrable f volume b c := hh.congr_uIoo (fun x hx => by
    rw [uIoo_of_le hbc] at hx; exact (h2 x hx).symm)
  rw [← integral_add_adjacent_intervals i1 i2, integral_congr_Ioo_of_le hab h1,
    integral_congr_Ioo_of_le hbc h2]

/-- Substitution `u = |2b - S|`. -/
theorem integral_fold {f : ℝ → ℝ} (hf : Continuous f) {S : ℝ} (hS : 0 ≤ S) :
    ∫ b in (0:ℝ)..S, f |2 * b - S| = ∫ u in (0:ℝ)..S, f u := by
  have hc : Continuous fun b : ℝ => f |2 * b - S| := by fun_prop
  rw [← integral_add_adjacent_intervals (b := S / 2) (hc.intervalIntegrable _ _)
    (hc.intervalIntegrable _ _)]
  have e1 : ∫ b in (0:ℝ)..S / 2, f |2 * b - S| = ∫ b in (0:ℝ)..S / 2, f (S - 2 * b) := by
    apply integral_congr
    intro b hb
    rw [uIcc_of_le (by linarith)] at hb
    simp only
    rw [abs_of_nonpos (by linarith [hb.2])]
    ring_nf
  have e2 : ∫ b in S / 2..S, f |2 * b - S| = ∫ b in S / 2..S, f (2 * b - S) := by
    apply integral_congr
    intro b hb
    rw [uIcc_of_le (by linarith)] at hb
    simp only
    rw [abs_of_nonneg (by linarith [hb.1])]
  rw [e1, e2, integral_comp_sub_mul f two_ne_zero, integral_comp_mul_sub f two_ne_zero]
  simp only [smul_eq_mul]
  ring_nf

/-- Antiderivative in `d` of `(E a + (d² - q² - a²)/2) ((E - a)² - d²)/2`. -/
noncomputable def fG (E a q d : ℝ) : ℝ :=
  1 / 2 * ((E * a - (q ^ 2 + a ^ 2) / 2) * (E - a) ^ 2 * d
    + ((E - a) ^ 2 / 2 - (E * a - (q ^ 2 + a ^ 2) / 2)) * d ^ 3 / 3 - d ^ 5 / 10)

/-- The pair average at momenta `q; a, b, E - a - b`, with `a` the partner of `q`. -/
noncomputable def fPhi (E q a b : ℝ) : ℝ :=
  1 / 2 * (fG E a q (exHi q a b (E - a - b)) - fG E a q (exLo q a b (E - a - b)))

theorem fPhi_continuous (E q : ℝ) : Continuous fun x : ℝ × ℝ => fPhi E q x.1 x.2 := by
  unfold fPhi fG exHi exLo
  fun_prop

/-- Outside the triangle the average vanishes. -/
theorem fPhi_zero {E q a b : ℝ} (h : a ≤ 0 ∨ b ≤ 0 ∨ E - a - b ≤ 0) : fPhi E q a b = 0 := by
  have : min (q + a) (b + (E - a - b)) ≤ exLo q a b (E - a - b) := by
    unfold exLo
    rcases h with h | h | h
    · refine (min_le_left _ _).trans ((?_ : q + a ≤ _).trans (le_max_left _ _))
      exact le_trans (by linarith) (le_abs_self _)
    · refine (min_le_right _ _).trans ((?_ : b + (E - a - b) ≤ _).trans (le_max_right _ _))
      exact le_trans (by linarith) (neg_le_abs _)
    · refine (min_le_right _ _).trans ((?_ : b + (E - a - b) ≤ _).trans (le_max_right _ _))
      exact le_trans (by linarith) (le_abs_self _)
  unfold fPhi exHi
  rw [max_eq_left this]; ring

/-- Antiderivative of `d` times the amplitude. -/
noncomputable def fH (E a q d : ℝ) : ℝ :=
  1 / 2 * ((E * a - (q ^ 2 + a ^ 2) / 2) * (E - a) ^ 2 * d ^ 2 / 2
    + ((E - a) ^ 2 / 2 - (E * a - (q ^ 2 + a ^ 2) / 2)) * d ^ 4 / 4 - d ^ 6 / 12)

/-- Antiderivative of `fG`. -/
noncomputable def fGG (E a q d : ℝ) : ℝ :=
  1 / 2 * ((E * a - (q ^ 2 + a ^ 2) / 2) * (E - a) ^ 2 * d ^ 2 / 2
    + ((E - a) ^ 2 / 2 - (E * a - (q ^ 2 + a ^ 2) / 2)) * d ^ 4 / 12 - d ^ 6 / 60)

theorem fG_continuous (E a q : ℝ) : Continuous (fG E a q) := by unfold fG; fun_prop

theorem fGG_deriv (E a q d : ℝ) : HasDerivAt (fGG E a q) (fG E a q d) d := by
  unfold fGG fG
  have h2 := (hasDerivAt_pow 2 d)
  have h4 := (hasDerivAt_pow 4 d)
  have h6 := (hasDerivAt_pow 6 d)
  have := ((((h2.const_mul ((E * a - (q ^ 2 + a ^ 2) / 2) * (E - a) ^ 2)).div_const 2).add
    ((h4.const_mul ((E - a) ^ 2 / 2 - (E * a - (q ^ 2 + a ^ 2) / 2))).div_const 12)).sub
    (h6.div_const 60)).const_mul (1 / 2)
  refine this.congr_deriv ?_
  push_cast
  ring

theorem integral_fG (E a q x y : ℝ) : ∫ d in x..y, fG E a q d = fGG E a q y - fGG E a q x :=
  integral_eq_sub_of_hasDerivAt (fun d _ => fGG_deriv E a q d)
    ((fG_continuous E a q).intervalIntegrable _ _)

theorem fPhi_inner {E q a : ℝ} (ha : a ≤ E) (hL : |q - a| ≤ min (q + a) (E - a)) :
    ∫ b in (0:ℝ)..(E - a), fPhi E q a b = 1 / 2 * (fH E a q (min (q + a) (E - a)) - fH E a q |q - a|) := by
  set L := |q - a| with hLdef
  set hi := min (q + a) (E - a) with hhi
  have hS : 0 ≤ E - a := by linarith
  have hhiS : hi ≤ E - a := min_le_right _ _
  have hL0 : 0 ≤ L := abs_nonneg _
  let f : ℝ → ℝ := fun u => 1 / 2 * (fG E a q (max (max L u) hi) - fG E a q (max L u))
  have hf : Continuous f := by
    have := fG_continuous E a q
    fun_prop
  have e : ∀ b, fPhi E q a b = f |2 * b - (E - a)| := by
    intro b
    simp only [f]
    unfold fPhi exHi exLo
    rw [show b - (E - a - b) = 2 * b - (E - a) by ring, show b + (E - a - b) = E - a by ring]
  rw [integral_congr (g := fun b => f |2 * b - (E - a)|) (fun b _ => e b), integral_fold hf hS]
  have e0 : ∫ u in (0:ℝ)..(E - a), f u
      = (∫ u in (0:ℝ)..L, f u) + ((∫ u in L..hi, f u) + ∫ u in hi..(E - a), f u) := by
    rw [integral_add_adjacent_intervals (hf.intervalIntegrable _ _) (hf.intervalIntegrable _ _),
      integral_add_adjacent_intervals (hf.intervalIntegrable _ _) (hf.intervalIntegrable _ _)]
  have e1 : ∫ u in (0:ℝ)..L, f u = ∫ u in (0:ℝ)..L, 1 / 2 * (fG E a q hi - fG E a q L) := by
    apply integral_congr
    intro u hu
    rw [uIcc_of_le hL0] at hu
    simp only [f]
    rw [max_eq_left hu.2, max_eq_right hL]
  have e2 : ∫ u in L..hi, f u = ∫ u in L..hi, 1 / 2 * (fG E a q hi - fG E a q u) := by
    apply integral_congr
    intro u hu
    rw [uIcc_of_le hL] at hu
    simp only [f]
    rw [max_eq_right hu.1, max_eq_right hu.2]
  have e3 : ∫ u in hi..(E - a), f u = 0 := by
    rw [integral_congr (g := fun _ => 0)]
    · simp
    · intro u hu
      rw [uIcc_of_le hhiS] at hu
      simp only [f]
      rw [max_eq_right (hL.trans hu.1), max_eq_left hu.1]; ring
  rw [e0, e1, e2, e3, intervalIntegral.integral_const, intervalIntegral.integral_const_mul,
    intervalIntegral.integral_sub (by simp) ((fG_continuous E a q).intervalIntegrable _ _), integral_fG,
    intervalIntegral.integral_const]
  simp only [smul_eq_mul]
  unfold fG fH fGG
  ring

theorem fPhi_inner_zero {E q a : ℝ} (hL : min (q + a) (E - a) ≤ |q - a|) :
    ∫ b in (0:ℝ)..(E - a), fPhi E q a b = 0 := by
  rw [integral_congr (g := fun _ => 0)]
  · simp
  · intro b _
    simp only
    unfold fPhi exHi
    rw [max_eq_left]
    · ring
    · unfold exLo
      rw [show b + (E - a - b) = E - a by ring]
      exact hL.trans (le_max_left _ _)

theorem integral_cubic (c0 c2 c3 x y : ℝ) :
    ∫ a in x..y, (c0 + c2 * a ^ 2 + c3 * a ^ 3)
      = (c0 * y + c2 * y ^ 3 / 3 + c3 * y ^ 4 / 4) - (c0 * x + c2 * x ^ 3 / 3 + c3 * x ^ 4 / 4) := by
  have h : ∀ a : ℝ, HasDerivAt (fun a => c0 * a + c2 * a ^ 3 / 3 + c3 * a ^ 4 / 4)
      (c0 + c2 * a ^ 2 + c3 * a ^ 3) a := by
    intro a
    have h1 := (hasDerivAt_id a).const_mul c0
    have h3 := ((hasDerivAt_pow 3 a).const_mul c2).div_const 3
    have h4 := ((hasDerivAt_pow 4 a).const_mul c3).div_const 4
    refine ((h1.add h3).add h4).congr_deriv ?_
    push_cast
    ring
  exact integral_eq_sub_of_hasDerivAt (fun a _ => h a) (by
    apply Continuous.intervalIntegrable; fun_prop)

/-- **The integral over the decay products**, partner integrated last. -/
theorem fPhi_total {E q : ℝ} (hq : 0 ≤ q) (hE : q < E) :
    ∫ a in (0:ℝ)..E, ∫ b in (0:ℝ)..(E - a), fPhi E q a b = q * (E ^ 2 - q ^ 2) ^ 3 / 192 := by
  have p1 : ∀ a ∈ Ioo 0 ((E - q) / 2), ∫ b in (0:ℝ)..(E - a), fPhi E q a b
      = (0:ℝ) + (E ^ 3 * q / 2 - E * q ^ 3 / 2) * a ^ 2 + (- q ^ 3 / 3 - E ^ 2 * q) * a ^ 3 := by
    intro a ha
    have hm : min (q + a) (E - a) = q + a := min_eq_left (by linarith [ha.2])
    rw [fPhi_inner (by linarith [ha.2]) (by
      rw [hm, abs_le]; constructor <;> linarith [ha.1]), hm]
    have : ∀ x, fH E a q |x| = fH E a q x := by
      intro x
      unfold fH
      rw [sq_abs, show |x| ^ 4 = (|x| ^ 2) ^ 2 by ring, show |x| ^ 6 = (|x| ^ 2) ^ 3 by ring, sq_abs]
      ring
    rw [this]
    unfold fH
    ring
  have p2 : ∀ a ∈ Ioo ((E - q) / 2) ((E + q) / 2), ∫ b in (0:ℝ)..(E - a), fPhi E q a b
      = (E ^ 2 - q ^ 2) ^ 3 / 96
          + (q ^ 4 / 8 - E * q ^ 3 / 4 + E ^ 3 * q / 4 - E ^ 4 / 8) * a ^ 2
          + (- q ^ 3 / 6 + E * q ^ 2 / 2 - E ^ 2 * q / 2 + E ^ 3 / 6) * a ^ 3 := by
    intro a ha
    have hm : min (q + a) (E - a) = E - a := min_eq_right (by linarith [ha.1])
    rw [fPhi_inner (by linarith [ha.2]) (by
      rw [hm, abs_le]; constructor <;> linarith [ha.1, ha.2]), hm]
    have : ∀ x, fH E a q |x| = fH E a q x := by
      intro x
      unfold fH
      rw [sq_abs, show |x| ^ 4 = (|x| ^ 2) ^ 2 by ring, show |x| ^ 6 = (|x| ^ 2) ^ 3 by ring, sq_abs]
      ring
    rw [this]
    unfold fH
    ring
  have p3 : ∀ a ∈ Ioo ((E + q) / 2) E, ∫ b in (0:ℝ)..(E - a), fPhi E q a b = 0 := fun a ha =>
    fPhi_inner_zero ((min_le_right _ _).trans (le_trans (by linarith [ha.1]) (neg_le_abs _)))
  have hc : ∀ c0 c2 c3 x y : ℝ,
      IntervalIntegrable (fun a : ℝ => c0 + c2 * a ^ 2 + c3 * a ^ 3) volume x y := by
    intro c0 c2 c3 x y
    apply Continuous.intervalIntegrable; fun_prop
  rw [integral_two (b := (E - q) / 2) (by linarith) (by linarith) p1
    (h := fun a => ∫ b in (0:ℝ)..(E - a), fPhi E q a b) (fun a _ => rfl) (hc _ _ _ _ _)
    (integrable_two (b := (E + q) / 2) (by linarith) (by linarith) p2 p3 (hc _ _ _ _ _) intervalIntegrable_const),
    integral_two (b := (E + q) / 2) (by linarith) (by linarith) p2 p3 (hc _ _ _ _ _) intervalIntegrable_const,
    integral_cubic, integral_cubic]
  simp only [intervalIntegral.integral_zero]
  ring

/-! ## Functions on the triangle `0 < a, 0 < b, a + b < E` with a known integral -/

/-- The iterated integral of `w` over the triangle exists and equals `t`. -/
structure HasTri (E : ℝ) (w : ℝ → ℝ → ℝ) (t : ℝ) : Prop where
  inner : ∀ a ∈ Ioo 0 E, IntervalIntegrable (w a) volume 0 (E - a)
  outer : IntervalIntegrable (fun a => ∫ b in (0:ℝ)..(E - a), w a b) volume 0 E
  value : ∫ a in (0:ℝ)..E, ∫ b in (0:ℝ)..(E - a), w a b = t

theorem HasTri.congr {E : ℝ} {w w' : ℝ → ℝ → ℝ} {t : ℝ} (hE : 0 ≤ E) (h : HasTri E w t)
    (hw : ∀ a b, 0 < a → 0 < b → a + b < E → w' a b = w a b) : HasTri E w' t := by
  have hi : ∀ a ∈ Ioo 0 E, ∫ b in (0:ℝ)..(E - a), w a b = ∫ b in (0:ℝ)..(E - a), w' a b := by
    intro a ha
    refine integral_congr_Ioo_of_le (by linarith [ha.2]) fun b hb => ?_
    exact (hw a b ha.1 hb.1 (by linarith [hb.2])).symm
  refine ⟨fun a ha => ?_, ?_, ?_⟩
  · refine (h.inner a ha).congr_uIoo fun b hb => ?_
    rw [uIoo_of_le (by linarith [ha.2])] at hb
    exact (hw a b ha.1 hb.1 (by linarith [hb.2])).symm
  · refine h.outer.congr_uIoo fun a ha => ?_
    rw [uIoo_of_le hE] at ha
    exact hi a ha
  · rw [← h.value]
    exact (integral_congr_Ioo_of_le hE hi).symm

theorem HasTri.zero (E : ℝ) : HasTri E (fun _ _ => 0) 0 := by
  constructor <;> simp

theorem HasTri.mul {E t : ℝ} {w : ℝ → ℝ → ℝ} (k : ℝ) (h : HasTri E w t) :
    HasTri E (fun a b => k * w a b) (k * t) := by
  refine ⟨fun a ha => (h.inner a ha).const_mul k, ?_, ?_⟩
  · simp only [intervalIntegral.integral_const_mul]
    exact h.outer.const_mul k
  · simp only [intervalIntegral.integral_const_mul, h.value]

theorem HasTri.add {E t t' : ℝ} {w w' : ℝ → ℝ → ℝ} (hE : 0 ≤ E) (h : HasTri E w t) (h' : HasTri E w' t') :
    HasTri E (fun a b => w a b + w' a b) (t + t') := by
  have hi : ∀ a ∈ Ioo 0 E, (∫ b in (0:ℝ)..(E - a), w a b) + (∫ b in (0:ℝ)..(E - a), w' a b)
      = ∫ b in (0:ℝ)..(E - a), (w a b + w' a b) := fun a ha =>
    (intervalIntegral.integral_add (h.inner a ha) (h'.inner a ha)).symm
  refine ⟨fun a ha => (h.inner a ha).add (h'.inner a ha), ?_, ?_⟩
  · refine (h.outer.add h'.outer).congr_uIoo fun a ha => ?_
    rw [uIoo_of_le hE] at ha
    exact hi a ha
  · rw [← h.value, ← h'.value, ← intervalIntegral.integral_add h.outer h'.outer]
    exact (integral_congr_Ioo_of_le hE hi).symm

theorem HasTri.sum {E : ℝ} {α : Type*} (hE : 0 ≤ E) (k : α → ℝ) (w : α → ℝ → ℝ → ℝ) (t : ℝ) :
    ∀ l : List α, (∀ x ∈ l, HasTri E (w x) t) →
      HasTri E (fun a b => (l.map fun x => k x * w x a b).sum) ((l.map k).sum * t)
  | [], _ => by simpa using HasTri.zero E
  | x :: l, h => by
    have := ((h x (by simp)).mul (k x)).add hE (HasTri.sum hE k w t l fun y hy => h y (by simp [hy]))
    simp only [List.map_cons, List.sum_cons, add_mul]
    exact this

/-- Continuous functions. -/
theorem HasTri.of_continuous {E : ℝ} {w : ℝ → ℝ → ℝ} (hw : Continuous fun x : ℝ × ℝ => w x.1 x.2) :
    HasTri E w (∫ a in (0:ℝ)..E, ∫ b in (0:ℝ)..(E - a), w a b) := by
  refine ⟨fun a _ => ?_, ?_, rfl⟩
  · exact (hw.comp (by fun_prop : Continuous fun b : ℝ => (a, b))).intervalIntegrable _ _
  · refine (continuous_parametric_intervalIntegral_of_continuous
      (f := fun a b => w a b) hw (by fun_prop : Continuous fun a : ℝ => E - a)).intervalIntegrable _ _

/-- The integral of `fPhi` does not depend on which product is the partner. -/
theorem fPhi_tri_fst {E q : ℝ} (hq : 0 ≤ q) (hE : q < E) :
    HasTri E (fun a b => fPhi E q a b) (q * (E ^ 2 - q ^ 2) ^ 3 / 192) := by
  rw [← fPhi_total hq hE]
  exact HasTri.of_continuous (fPhi_continuous E q)

theorem fPhi_tri_snd {E q : ℝ} (hq : 0 ≤ q) (hE : q < E) :
    HasTri E (fun a b => fPhi E q b a) (q * (E ^ 2 - q ^ 2) ^ 3 / 192) := by
  have hc := fPhi_continuous E q
  have hc' : Continuous fun x : ℝ × ℝ => fPhi E q x.2 x.1 :=
    hc.comp (by fun_prop : Continuous fun x : ℝ × ℝ => (x.2, x.1))
  have hE0 : 0 ≤ E := by linarith
  have key : ∀ w : ℝ → ℝ → ℝ, (Continuous fun x : ℝ × ℝ => w x.1 x.2) →
      (∀ a b, E - a - b ≤ 0 → w a b = 0) →
      ∫ a in (0:ℝ)..E, ∫ b in (0:ℝ)..(E - a), w a b = ∫ a in (0:ℝ)..E, ∫ b in (0:ℝ)..E, w a b := by
    intro w hw hz
    refine integral_congr_Ioo_of_le hE0 fun a ha => ?_
    have hwa : Continuous (w a) := hw.comp (by fun_prop : Continuous fun b : ℝ => (a, b))
    have := integral_two (f := w a) (g := w a) (h := fun _ => 0) (a := 0) (b := E - a) (c := E)
      (by linarith [ha.2]) (by linarith [ha.1]) (fun _ _ => rfl) (fun b hb => hz a b (by linarith [hb.1]))
      (hwa.intervalIntegrable _ _) intervalIntegrable_const
    simp only [intervalIntegral.integral_zero, add_zero] at this
    exact this.symm
  have e : q * (E ^ 2 - q ^ 2) ^ 3 / 192 = ∫ a in (0:ℝ)..E, ∫ b in (0:ℝ)..(E - a), fPhi E q b a := by
    rw [← fPhi_total hq hE, key (fun a b => fPhi E q a b) hc fun a b h => fPhi_zero (Or.inr (Or.inr h)),
      key (fun a b => fPhi E q b a) hc' fun a b h => fPhi_zero (Or.inr (Or.inr (by linarith)))]
    refine intervalIntegral_intervalIntegral_swap ?_
    refine (hc.continuousOn.integrableOn_compact
      ((isCompact_uIcc (a := (0:ℝ)) (b := E)).prod (isCompact_uIcc (a := (0:ℝ)) (b := E)))).mono_set ?_
    exact prod_mono uIoc_subset_uIcc uIoc_subset_uIcc
  rw [e]
  exact HasTri.of_continuous hc'

theorem fPhi_symm (E q a b : ℝ) : fPhi E q a (E - a - b) = fPhi E q a b := by
  unfold fPhi exHi exLo
  rw [show E - a - (E - a - b) = b by ring, abs_sub_comm (E - a - b) b, add_comm (E - a - b) b]

theorem fPhi_tri_thd {E q : ℝ} (hq : 0 ≤ q) (hE : q < E) :
    HasTri E (fun a b => fPhi E q (E - a - b) b) (q * (E ^ 2 - q ^ 2) ^ 3 / 192) := by
  have hc : Continuous fun x : ℝ × ℝ => fPhi E q (E - x.1 - x.2) x.2 := by
    unfold fPhi fG exHi exLo
    fun_prop
  have e : ∫ a in (0:ℝ)..E, ∫ b in (0:ℝ)..(E - a), fPhi E q (E - a - b) b
      = ∫ a in (0:ℝ)..E, ∫ b in (0:ℝ)..(E - a), fPhi E q b a := by
    apply integral_congr
    intro a _
    beta_reduce
    have := intervalIntegral.integral_comp_sub_left (fun b => fPhi E q b a) (E - a) (a := 0) (b := E - a)
    rw [sub_self, sub_zero] at this
    rw [← this]
    refine congrArg (fun f : ℝ → ℝ => ∫ b in (0:ℝ)..(E - a), f b) (funext fun b => ?_)
    have h := fPhi_symm E q (E - a - b) b
    rw [show E - (E - a - b) - b = a by ring] at h
    exact h.symm
  rw [← (fPhi_tri_snd hq hE).value, ← e]
  exact HasTri.of_continuous hc

/-! ## The decaying particle at rest -/

theorem Db1_in {a b c : ℝ} (h1 : c < a + b) (h2 : b < a + c) (h3 : a < b + c) : Db1 a b c = 1 := by
  rw [Db1_eq, sgn_pos (by linarith), sgn_pos (by linarith), sgn_pos (by linarith), sgn_pos (by linarith)]
  norm_num

theorem Db1_out {a b c : ℝ} (ha : 0 < a) (hb : 0 < b) (hc : 0 < c)
    (h : a + b < c ∨ a + c < b ∨ b + c < a) : Db1 a b c = 0 := by
  rw [Db1_eq]
  rcases h with h | h | h
  · rw [sgn_of_neg (show a + b - c < 0 by linarith), sgn_pos (by linarith), sgn_pos (by linarith), sgn_pos (by linarith)]
    norm_num
  · rw [sgn_of_neg (show a - b + c < 0 by linarith), sgn_pos (by linarith), sgn_pos (by linarith), sgn_pos (by linarith)]
    norm_num
  · rw [sgn_of_neg (show -a + b + c < 0 by linarith), sgn_pos (by linarith), sgn_pos (by linarith), sgn_pos (by linarith)]
    norm_num

theorem rest_tri {m : ℝ} (hm : 0 < m) {g : ℝ → ℝ → ℝ} (hg : Continuous fun x : ℝ × ℝ => g x.1 x.2) :
    HasTri m (fun a b => Db1 a b (m - a - b) * g a b)
      (∫ a in (0:ℝ)..m / 2, ∫ b in (m / 2 - a)..m / 2, g a b) := by
  have hga : ∀ a, Continuous (g a) := fun a => hg.comp (by fun_prop : Continuous fun b : ℝ => (a, b))
  have z1 : ∀ a ∈ Ioo 0 (m / 2), ∀ b ∈ Ioo 0 (m / 2 - a), Db1 a b (m - a - b) * g a b = 0 := by
    intro a ha b hb
    rw [Db1_out ha.1 hb.1 (by linarith [ha.2, hb.2]) (Or.inl (by linarith [hb.2])), zero_mul]
  have z2 : ∀ a ∈ Ioo 0 (m / 2), ∀ b ∈ Ioo (m / 2 - a) (m / 2), Db1 a b (m - a - b) * g a b = g a b := by
    intro a ha b hb
    rw [Db1_in (by linarith [hb.1]) (by linarith [hb.2]) (by linarith [ha.2]), one_mul]
  have z3 : ∀ a ∈ Ioo 0 (m / 2), ∀ b ∈ Ioo (m / 2) (m - a), Db1 a b (m - a - b) * g a b = 0 := by
    intro a ha b hb
    rw [Db1_out ha.1 (by linarith [ha.1, ha.2, hb.1]) (by linarith [hb.2]) (Or.inr (Or.inl (by linarith [hb.1]))),
      zero_mul]
  have z4 : ∀ a ∈ Ioo (m / 2) m, ∀ b ∈ Ioo 0 (m - a), Db1 a b (m - a - b) * g a b = 0 := by
    intro a ha b hb
    rw [Db1_out (by linarith [ha.1]) hb.1 (by linarith [hb.2]) (Or.inr (Or.inr (by linarith [ha.1]))), zero_mul]
  have i1 : ∀ a ∈ Ioo 0 (m / 2), ∫ b in (0:ℝ)..(m - a), Db1 a b (m - a - b) * g a b
      = ∫ b in (m / 2 - a)..m / 2, g a b := fun a ha =>
    integral_middle (by linarith [ha.2]) (by linarith [ha.1]) (by linarith [ha.2]) (z1 a ha) (z2 a ha) (z3 a ha)
      ((hga a).intervalIntegrable _ _)
  have i2 : ∀ a ∈ Ioo (m / 2) m, ∫ b in (0:ℝ)..(m - a), Db1 a b (m - a - b) * g a b = 0 := by
    intro a ha
    rw [integral_congr_Ioo_of_le (g := fun _ => 0) (by linarith [ha.2]) (z4 a ha)]
    simp
  have hc : Continuous fun a => ∫ b in (m / 2 - a)..m / 2, g a b := by
    have e : (fun a => ∫ b in (m / 2 - a)..m / 2, g a b)
        = fun a => (∫ b in (0:ℝ)..m / 2, g a b) - ∫ b in (0:ℝ)..(m / 2 - a), g a b := by
      funext a
      rw [integral_interval_sub_left ((hga a).intervalIntegrable _ _) ((hga a).intervalIntegrable _ _)]
    rw [e]
    exact (continuous_parametric_intervalIntegral_of_continuous (f := fun a b => g a b) hg continuous_const).sub
      (continuous_parametric_intervalIntegral_of_continuous (f := fun a b => g a b) hg (by fun_prop))
  refine ⟨fun a ha => ?_, ?_, ?_⟩
  · rcases lt_or_ge a (m / 2) with h | h
    · have ha' : a ∈ Ioo 0 (m / 2) := ⟨ha.1, h⟩
      exact integrable_two (b := m / 2 - a) (by linarith) (by linarith) (z1 a ha') (fun _ _ => rfl)
        intervalIntegrable_const (integrable_two (b := m / 2) (by linarith [ha.1]) (by linarith) (z2 a ha') (z3 a ha')
          ((hga a).intervalIntegrable _ _) intervalIntegrable_const)
    · refine (((hga a).intervalIntegrable 0 (m - a)).const_mul (1 / 2 * (1 + sgn (m - 2 * a)))).congr_uIoo
        fun b hb => ?_
      rw [uIoo_of_le (by linarith [ha.2])] at hb
      beta_reduce
      rw [Db1_eq, sgn_pos (show 0 < a + b - (m - a - b) by linarith [hb.1]),
        sgn_pos (show 0 < a - b + (m - a - b) by linarith [hb.2]),
        sgn_pos (show 0 < a + b + (m - a - b) by linarith), show -a + b + (m - a - b) = m - 2 * a by ring]
      ring
  · exact integrable_two (b := m / 2) (by linarith) (by linarith) i1 i2 (hc.intervalIntegrable _ _)
      intervalIntegrable_const
  · rw [integral_two (b := m / 2) (by linarith) (by linarith) i1 i2 (hc.intervalIntegrable _ _)
      intervalIntegrable_const]
    simp

theorem integral_rest (m x y : ℝ) : ∫ b in x..y, b * (m ^ 2 - 2 * m * b) / 2
    = (m ^ 2 / 4 * y ^ 2 - m / 3 * y ^ 3) - (m ^ 2 / 4 * x ^ 2 - m / 3 * x ^ 3) := by
  have h : ∀ b : ℝ, HasDerivAt (fun b => m ^ 2 / 4 * b ^ 2 - m / 3 * b ^ 3) (b * (m ^ 2 - 2 * m * b) / 2) b := by
    intro b
    refine (((hasDerivAt_pow 2 b).const_mul (m ^ 2 / 4)).sub
      ((hasDerivAt_pow 3 b).const_mul (m / 3))).congr_deriv ?_
    push_cast
    ring
  exact integral_eq_sub_of_hasDerivAt (fun b _ => h b) (by apply Continuous.intervalIntegrable; fun_prop)

theorem integral_rest_outer (m : ℝ) :
    ∫ a in (0:ℝ)..m / 2, ∫ b in (m / 2 - a)..m / 2, b * (m ^ 2 - 2 * m * b) / 2 = m ^ 5 / 192 := by
  rw [integral_congr (g := fun a => 0 + m ^ 2 / 4 * a ^ 2 + (-m / 3) * a ^ 3)
    (fun a _ => by beta_reduce; rw [integral_rest]; ring), integral_cubic]
  ring

theorem rest_tri_fst {m : ℝ} (hm : 0 < m) :
    HasTri m (fun a b => Db1 a b (m - a - b) * (a * (m ^ 2 - 2 * m * a) / 2)) (m ^ 5 / 192) := by
  have h := rest_tri hm (g := fun a _ => a * (m ^ 2 - 2 * m * a) / 2) (by fun_prop)
  have e : ∫ a in (0:ℝ)..m / 2, ∫ b in (m / 2 - a)..m / 2, a * (m ^ 2 - 2 * m * a) / 2 = m ^ 5 / 192 := by
    simp only [intervalIntegral.integral_const, smul_eq_mul]
    rw [integral_congr (g := fun a => 0 + m ^ 2 / 2 * a ^ 2 + (-m) * a ^ 3) (fun a _ => by ring_nf), integral_cubic]
    ring
  rwa [e] at h

theorem rest_tri_snd {m : ℝ} (hm : 0 < m) :
    HasTri m (fun a b => Db1 a b (m - a - b) * (b * (m ^ 2 - 2 * m * b) / 2)) (m ^ 5 / 192) := by
  have h := rest_tri hm (g := fun _ b => b * (m ^ 2 - 2 * m * b) / 2) (by fun_prop)
  have e : ∫ a in (0:ℝ)..m / 2, ∫ b in (m / 2 - a)..m / 2, b * (m ^ 2 - 2 * m * b) / 2 = m ^ 5 / 192 :=
    integral_rest_outer m
  rwa [e] at h

theorem rest_tri_thd {m : ℝ} (hm : 0 < m) :
    HasTri m (fun a b => Db1 a b (m - a - b) * ((m - a - b) * (m ^ 2 - 2 * m * (m - a - b)) / 2)) (m ^ 5 / 192) := by
  have h := rest_tri hm (g := fun a b => (m - a - b) * (m ^ 2 - 2 * m * (m - a - b)) / 2) (by fun_prop)
  have e : ∫ a in (0:ℝ)..m / 2, ∫ b in (m / 2 - a)..m / 2, (m - a - b) * (m ^ 2 - 2 * m * (m - a - b)) / 2
      = m ^ 5 / 192 := by
    rw [← integral_rest_outer m]
    apply integral_congr
    intro a _
    beta_reduce
    have := intervalIntegral.integral_comp_sub_left (fun b => b * (m ^ 2 - 2 * m * b) / 2) (m - a)
      (a := m / 2 - a) (b := m / 2)
    rw [show m - a - m / 2 = m / 2 - a by ring, show m - a - (m / 2 - a) = m / 2 by ring] at this
    exact this
  rwa [e] at h

end PyBBN
