import Verif.Lemmas.Phase4
import Mathlib.MeasureTheory.Measure.Haar.Unique
/-!
# Triple integrals over the energies of a scattering
-/
namespace PyBBN
open MeasureTheory

/-- Reflection of the last variable. -/
theorem Nice3.refl {H : ℝ → ℝ → ℝ → ℝ} (h : Nice3 H) : Nice3 fun x y z => H x y (x + y - z) := by
  obtain ⟨C, hC⟩ := h.bdd
  obtain ⟨R, hR⟩ := h.box
  refine ⟨?_, ⟨C, fun x y z => hC _ _ _⟩, ⟨3 * R, ?_⟩⟩
  · exact h.meas.comp (measurable_fst.prodMk ((measurable_fst.comp measurable_snd).prodMk
      ((measurable_fst.add (measurable_fst.comp measurable_snd)).sub (measurable_snd.comp measurable_snd))))
  · intro x y z hne
    obtain ⟨a, b, c⟩ := hR _ _ _ hne
    have hR0 := (abs_nonneg _).trans a
    refine ⟨by linarith, by linarith, ?_⟩
    calc |z| = |x + y - (x + y - z)| := by congr 1; ring
      _ ≤ |x + y| + |x + y - z| := abs_sub _ _
      _ ≤ |x| + |y| + |x + y - z| := by linarith [abs_add_le x y]
      _ ≤ 3 * R := by linarith

theorem Nice3.int_refl (H : ℝ → ℝ → ℝ → ℝ) :
    ∫ x, ∫ y, ∫ z, H x y (x + y - z) = ∫ x, ∫ y, ∫ z, H x y z := by
  congr 1
  funext x
  congr 1
  funext y
  exact integral_sub_left_eq_self (μ := volume) (fun z => H x y z) (x + y)

/-- Shift of the last variable. -/
theorem Nice3.slide {H : ℝ → ℝ → ℝ → ℝ} (h : Nice3 H) : Nice3 fun x y z => H x y (y - x + z) := by
  obtain ⟨C, hC⟩ := h.bdd
  obtain ⟨R, hR⟩ := h.box
  refine ⟨?_, ⟨C, fun x y z => hC _ _ _⟩, ⟨3 * R, ?_⟩⟩
  · exact h.meas.comp (measurable_fst.prodMk ((measurable_fst.comp measurable_snd).prodMk
      (((measurable_fst.comp measurable_snd).sub measurable_fst).add (measurable_snd.comp measurable_snd))))
  · intro x y z hne
    obtain ⟨a, b, c⟩ := hR _ _ _ hne
    have hR0 := (abs_nonneg _).trans a
    refine ⟨by linarith, by linarith, ?_⟩
    calc |z| = |x - y + (y - x + z)| := by congr 1; ring
      _ ≤ |x - y| + |y - x + z| := abs_add_le _ _
      _ ≤ |x| + |y| + |y - x + z| := by linarith [abs_sub x y]
      _ ≤ 3 * R := by linarith

theorem Nice3.int_slide (H : ℝ → ℝ → ℝ → ℝ) :
    ∫ x, ∫ y, ∫ z, H x y (y - x + z) = ∫ x, ∫ y, ∫ z, H x y z := by
  congr 1
  funext x
  congr 1
  funext y
  exact integral_add_left_eq_self (μ := volume) (fun z => H x y z) (y - x)

/-- The energies of a scattering from those of the first three particles. -/
def conserve2 (x y z : ℝ) : Fin 4 → ℝ := ![x, y, z, x + y - z]

/-- The energies in the order of the reaction, given those of the first three particles of a view. -/
def place2 (σ : Equiv.Perm (Fin 4)) (a b c : ℝ) : Fin 4 → ℝ := fun i => conserve2 a b c (σ.symm i)

/-- The particle on the same side of a scattering. -/
def mate : Fin 4 → Fin 4 := ![1, 0, 3, 2]

theorem perm_cases2 (σ : Equiv.Perm (Fin 4)) (h : σ 1 = mate (σ 0)) :
    (σ 0 = 0 ∧ σ 1 = 1 ∧ σ 2 = 2 ∧ σ 3 = 3) ∨ (σ 0 = 0 ∧ σ 1 = 1 ∧ σ 2 = 3 ∧ σ 3 = 2) ∨
    (σ 0 = 1 ∧ σ 1 = 0 ∧ σ 2 = 2 ∧ σ 3 = 3) ∨ (σ 0 = 1 ∧ σ 1 = 0 ∧ σ 2 = 3 ∧ σ 3 = 2) ∨
    (σ 0 = 2 ∧ σ 1 = 3 ∧ σ 2 = 0 ∧ σ 3 = 1) ∨ (σ 0 = 2 ∧ σ 1 = 3 ∧ σ 2 = 1 ∧ σ 3 = 0) ∨
    (σ 0 = 3 ∧ σ 1 = 2 ∧ σ 2 = 0 ∧ σ 3 = 1) ∨ (σ 0 = 3 ∧ σ 1 = 2 ∧ σ 2 = 1 ∧ σ 3 = 0) := by
  have key : ∀ a b c d : Fin 4, a ≠ c ∧ a ≠ d ∧ b ≠ c ∧ b ≠ d ∧ c ≠ d ∧ b = mate a →
    (a = 0 ∧ b = 1 ∧ c = 2 ∧ d = 3) ∨ (a = 0 ∧ b = 1 ∧ c = 3 ∧ d = 2) ∨
    (a = 1 ∧ b = 0 ∧ c = 2 ∧ d = 3) ∨ (a = 1 ∧ b = 0 ∧ c = 3 ∧ d = 2) ∨
    (a = 2 ∧ b = 3 ∧ c = 0 ∧ d = 1) ∨ (a = 2 ∧ b = 3 ∧ c = 1 ∧ d = 0) ∨
    (a = 3 ∧ b = 2 ∧ c = 0 ∧ d = 1) ∨ (a = 3 ∧ b = 2 ∧ c = 1 ∧ d = 0) := by
    intro a b c d
    fin_cases a <;> fin_cases b <;> revert c d <;> decide
  have hne : ∀ i j, i ≠ j → σ i ≠ σ j := fun i j hij h => hij (σ.injective h)
  exact key _ _ _ _ ⟨hne 0 2 (by decide), hne 0 3 (by decide), hne 1 2 (by decide), hne 1 3 (by decide),
    hne 2 3 (by decide), h⟩

theorem place2_apply (σ : Equiv.Perm (Fin 4)) (a b c : ℝ) (j : Fin 4) :
    place2 σ a b c (σ j) = conserve2 a b c j := by
  unfold place2
  rw [σ.symm_apply_apply]

theorem place2_eq (σ : Equiv.Perm (Fin 4)) (a b c : ℝ) (v : Fin 4 → ℝ) (h0 : v (σ 0) = a) (h1 : v (σ 1) = b)
    (h2 : v (σ 2) = c) (h3 : v (σ 3) = a + b - c) : place2 σ a b c = v := by
  funext i
  obtain ⟨j, rfl⟩ := σ.surjective i
  rw [place2_apply]
  fin_cases j
  · exact h0.symm
  · exact h1.symm
  · exact h2.symm
  · exact h3.symm

section
variable {w : ℝ → ℝ → ℝ → ℝ}

/-- From the energies of the first pair to those of the second. -/
theorem Nice3.across (h : Nice3 w) :
    Nice3 (fun a b c => w c (a + b - c) a) ∧
    ∫ a, ∫ b, ∫ c, w c (a + b - c) a = ∫ x, ∫ y, ∫ z, w x y z := by
  have k := h.exch23.slide
  have e : (fun a b c : ℝ => w c (a + b - c) a) = fun a b c => (fun x y z => (fun x y z => w x z y) x y (y - x + z)) c a b := by
    funext a b c
    dsimp only
    rw [show a + b - c = a - c + b by ring]
  have e' : ∀ a b c : ℝ, w c (a + b - c) a = (fun x y z => (fun x y z => w x z y) x y (y - x + z)) c a b := by
    intro a b c
    dsimp only
    rw [show a + b - c = a - c + b by ring]
  constructor
  · rw [e]
    exact k.exch12.exch23
  · simp only [e']
    exact k.exch12.int23.trans (k.int12.trans ((Nice3.int_slide fun x y z => w x z y).trans h.int23))

/-- One function of the energies, integrated in the order of any view. -/
theorem place2_total (F : (Fin 4 → ℝ) → ℝ) (h : Nice3 fun x y z => F (conserve2 x y z)) (σ : Equiv.Perm (Fin 4))
    (hσ : σ 1 = mate (σ 0)) :
    Nice3 (fun a b c => F (place2 σ a b c)) ∧
    ∫ a, ∫ b, ∫ c, F (place2 σ a b c) = ∫ x, ∫ y, ∫ z, F (conserve2 x y z) := by
  have fin : ∀ (W : ℝ → ℝ → ℝ → ℝ), Nice3 W → (∀ a b c, F (place2 σ a b c) = W a b c) →
      (∫ a, ∫ b, ∫ c, W a b c) = (∫ x, ∫ y, ∫ z, F (conserve2 x y z)) →
      Nice3 (fun a b c => F (place2 σ a b c)) ∧
      ∫ a, ∫ b, ∫ c, F (place2 σ a b c) = ∫ x, ∫ y, ∫ z, F (conserve2 x y z) := by
    intro W hW hp ht
    simp only [hp]
    exact ⟨hW, ht⟩
  have pl : ∀ a b c x y z, conserve2 x y z (σ 0) = a → conserve2 x y z (σ 1) = b → conserve2 x y z (σ 2) = c →
      conserve2 x y z (σ 3) = a + b - c → F (place2 σ a b c) = F (conserve2 x y z) := by
    intro a b c x y z h0 h1 h2 h3
    rw [place2_eq σ a b c _ h0 h1 h2 h3]
  rcases perm_cases2 σ hσ with ⟨s0, s1, s2, s3⟩ | ⟨s0, s1, s2, s3⟩ | ⟨s0, s1, s2, s3⟩ | ⟨s0, s1, s2, s3⟩ |
    ⟨s0, s1, s2, s3⟩ | ⟨s0, s1, s2, s3⟩ | ⟨s0, s1, s2, s3⟩ | ⟨s0, s1, s2, s3⟩ <;> rw [s0, s1, s2, s3] at pl
  · exact fin _ h (fun a b c => pl a b c a b c rfl rfl rfl rfl) rfl
  · exact fin _ h.refl (fun a b c => pl a b c a b (a + b - c) rfl rfl (by change a + b - (a + b - c) = c; ring) rfl)
      (Nice3.int_refl fun x y z => F (conserve2 x y z))
  · exact fin _ h.exch12 (fun a b c => pl a b c b a c rfl rfl rfl (by change b + a - c = _; ring)) h.int12
  · exact fin _ h.refl.exch12 (fun a b c => pl a b c b a (b + a - c) rfl rfl
      (by change b + a - (b + a - c) = c; ring) (by change b + a - c = _; ring)) 
      (h.refl.int12.trans (Nice3.int_refl fun x y z => F (conserve2 x y z)))
  · exact fin _ h.across.1 (fun a b c => pl a b c c (a + b - c) a rfl (by change c + (a + b - c) - a = b; ring) rfl rfl)
      h.across.2
  · exact fin _ h.exch12.across.1
      (fun a b c => pl a b c (a + b - c) c a rfl (by change a + b - c + c - a = b; ring) rfl rfl)
      (h.exch12.across.2.trans h.int12)
  · exact fin _ h.across.1.exch12 (fun a b c => pl a b c c (b + a - c) b (by change c + (b + a - c) - b = a; ring) rfl rfl
      (by change b + a - c = _; ring)) (h.across.1.int12.trans h.across.2)
  · exact fin _ h.exch12.across.1.exch12
      (fun a b c => pl a b c (b + a - c) c b (by change b + a - c + c - b = a; ring) rfl rfl
        (by change b + a - c = _; ring)) (h.exch12.across.1.int12.trans (h.exch12.across.2.trans h.int12))

end

section
variable {ev : (Fin 4 → ℝ) → ℝ}

/-- Weight depending on the energy of one particle. -/
theorem nice_weight (h : Nice3 fun x y z => ev (conserve2 x y z)) (q : ℝ → ℝ) (hq : Measurable q)
    (hqb : ∀ S, ∃ C, ∀ E, |E| ≤ S → |q E| ≤ C) (i : Fin 4) :
    Nice3 fun x y z => q (conserve2 x y z i) * ev (conserve2 x y z) := by
  refine h.mul (fun x y z => q (conserve2 x y z i)) ?_ fun S => ?_
  · refine hq.comp ?_
    fin_cases i
    · exact measurable_fst
    · exact measurable_fst.comp measurable_snd
    · exact measurable_snd.comp measurable_snd
    · exact (measurable_fst.add (measurable_fst.comp measurable_snd)).sub (measurable_snd.comp measurable_snd)
  · obtain ⟨C, hC⟩ := hqb (3 * |S|)
    refine ⟨C, fun x y z a b c => hC _ ?_⟩
    have hS := le_abs_self S
    have hS0 := abs_nonneg S
    fin_cases i
    · change |x| ≤ _; linarith
    · change |y| ≤ _; linarith
    · change |z| ≤ _; linarith
    · change |x + y - z| ≤ _
      have := abs_sub (x + y) z
      have := abs_add_le x y
      linarith

/-- The weighted total seen from one particle. -/
theorem view_total (h : Nice3 fun x y z => ev (conserve2 x y z)) (q : ℝ → ℝ) (hq : Measurable q)
    (hqb : ∀ S, ∃ C, ∀ E, |E| ≤ S → |q E| ≤ C) (σ : Equiv.Perm (Fin 4)) (hσ : σ 1 = mate (σ 0)) :
    Integrable (fun a => q a * ∫ b, ∫ c, ev (place2 σ a b c)) ∧
    ∫ a, q a * ∫ b, ∫ c, ev (place2 σ a b c) =
      ∫ x, ∫ y, ∫ z, q (conserve2 x y z (σ 0)) * ev (conserve2 x y z) := by
  have e : (fun a => q a * ∫ b, ∫ c, ev (place2 σ a b c)) =
      fun a => ∫ b, ∫ c, q (place2 σ a b c (σ 0)) * ev (place2 σ a b c) := by
    funext a
    rw [← integral_const_mul]
    congr 1
    funext b
    rw [← integral_const_mul]
    congr 1
    funext c
    rw [place2_apply]
    rfl
  obtain ⟨n, t⟩ := place2_total (fun e => q (e (σ 0)) * ev e) (nice_weight h q hq hqb (σ 0)) σ hσ
  rw [e]
  exact ⟨n.inner.inner, t⟩

theorem integral_sub4 {f g k l : ℝ → ℝ} (hf : Integrable f) (hg : Integrable g) (hk : Integrable k)
    (hl : Integrable l) :
    (∫ x, f x) + (∫ x, g x) - (∫ x, k x) - (∫ x, l x) = ∫ x, f x + g x - k x - l x := by
  have e : ∫ x, f x + g x - k x = (∫ x, f x + g x) - ∫ x, k x := integral_sub (hf.add hg) hk
  have e' : ∫ x, f x + g x - k x - l x = (∫ x, f x + g x - k x) - ∫ x, l x := integral_sub ((hf.add hg).sub hk) hl
  rw [e', e, integral_add hf hg]

/-- The totals of the four particles as one integral over the events. -/
theorem totals_scat {evL evR : (Fin 4 → ℝ) → ℝ} (hL : Nice3 fun x y z => evL (conserve2 x y z))
    (hR : Nice3 fun x y z => evR (conserve2 x y z)) (q : Fin 4 → ℝ → ℝ) (hq : ∀ i, Measurable (q i))
    (hqb : ∀ S, ∃ C, ∀ i E, |E| ≤ S → |q i E| ≤ C)
    (σ : Fin 4 → Equiv.Perm (Fin 4)) (h0 : ∀ i, σ i 0 = i) (h1 : ∀ i, σ i 1 = mate i) :
    (∫ a, q 0 a * ∫ b, ∫ c, evL (place2 (σ 0) a b c)) + (∫ a, q 1 a * ∫ b, ∫ c, evL (place2 (σ 1) a b c)) -
      (∫ a, q 2 a * ∫ b, ∫ c, evR (place2 (σ 2) a b c)) - (∫ a, q 3 a * ∫ b, ∫ c, evR (place2 (σ 3) a b c)) =
    ∫ x, ∫ y, ∫ z, ((q 0 x + q 1 y) * evL (conserve2 x y z) - (q 2 z + q 3 (x + y - z)) * evR (conserve2 x y z)) := by
  have hqb' : ∀ i S, ∃ C, ∀ E, |E| ≤ S → |q i E| ≤ C := fun i S => by
    obtain ⟨C, hC⟩ := hqb S; exact ⟨C, hC i⟩
  have hσ : ∀ i, σ i 1 = mate (σ i 0) := fun i => by rw [h0, h1]
  have t := fun i => (view_total hL (q i) (hq i) (hqb' i) (σ i) (hσ i)).2
  have t' := fun i => (view_total hR (q i) (hq i) (hqb' i) (σ i) (hσ i)).2
  rw [t 0, t 1, t' 2, t' 3, h0, h0, h0, h0]
  have w0 := nice_weight hL (q 0) (hq 0) (hqb' 0) 0
  have w1 := nice_weight hL (q 1) (hq 1) (hqb' 1) 1
  have w2 := nice_weight hR (q 2) (hq 2) (hqb' 2) 2
  have w3 := nice_weight hR (q 3) (hq 3) (hqb' 3) 3
  rw [integral_sub4 w0.inner.inner w1.inner.inner w2.inner.inner w3.inner.inner]
  congr 1
  funext x
  rw [integral_sub4 (w0.inner.slice x) (w1.inner.slice x) (w2.inner.slice x) (w3.inner.slice x)]
  congr 1
  funext y
  rw [integral_sub4 ((w0.slice x).slice y) ((w1.slice x).slice y) ((w2.slice x).slice y) ((w3.slice x).slice y)]
  congr 1
  funext z
  change q 0 x * _ + q 1 y * _ - q 2 z * _ - q 3 (x + y - z) * _ = _
  ring

end

end PyBBN
