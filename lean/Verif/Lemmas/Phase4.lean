import Verif.Lemmas.Phase
/-!
# Triple integrals over energies
-/
namespace PyBBN
open MeasureTheory

/-- Measurable and bounded with bounded support, two variables. -/
structure Nice2 (G : ℝ → ℝ → ℝ) : Prop where
  meas : Measurable fun z : ℝ × ℝ => G z.1 z.2
  bdd : ∃ C, ∀ x y, |G x y| ≤ C
  box : ∃ R, ∀ x y, G x y ≠ 0 → |x| ≤ R ∧ |y| ≤ R

/-- The same for three variables. -/
structure Nice3 (H : ℝ → ℝ → ℝ → ℝ) : Prop where
  meas : Measurable fun z : ℝ × ℝ × ℝ => H z.1 z.2.1 z.2.2
  bdd : ∃ C, ∀ x y z, |H x y z| ≤ C
  box : ∃ R, ∀ x y z, H x y z ≠ 0 → |x| ≤ R ∧ |y| ≤ R ∧ |z| ≤ R

theorem Nice2.integrable {G : ℝ → ℝ → ℝ} (h : Nice2 G) :
    Integrable (fun z : ℝ × ℝ => G z.1 z.2) (volume.prod volume) := by
  obtain ⟨C, hC⟩ := h.bdd
  obtain ⟨R, hR⟩ := h.box
  exact integrable_box _ h.meas C R (fun z => hC _ _) (fun z => hR _ _)

theorem Nice2.swap {G : ℝ → ℝ → ℝ} (h : Nice2 G) : ∫ x, ∫ y, G x y = ∫ y, ∫ x, G x y :=
  integral_integral_swap h.integrable

theorem Nice2.inner {G : ℝ → ℝ → ℝ} (h : Nice2 G) : Integrable fun x => ∫ y, G x y :=
  h.integrable.integral_prod_left

theorem Nice2.slice {G : ℝ → ℝ → ℝ} (h : Nice2 G) (x : ℝ) : Integrable (G x) := by
  obtain ⟨C, hC⟩ := h.bdd
  obtain ⟨R, hR⟩ := h.box
  have hs : IntegrableOn (G x) (Set.Icc (-R) R) := by
    apply Measure.integrableOn_of_bounded (M := C)
    · simp
    · exact (h.meas.comp (measurable_const.prodMk measurable_id)).aestronglyMeasurable
    · exact Filter.Eventually.of_forall (hC x)
  apply hs.integrable_of_forall_notMem_eq_zero
  intro y hy
  by_contra hne
  exact hy (abs_le.mp (hR x y hne).2)

theorem Nice3.slice {H : ℝ → ℝ → ℝ → ℝ} (h : Nice3 H) (x : ℝ) : Nice2 (H x) where
  meas := h.meas.comp (measurable_const.prodMk measurable_id)
  bdd := by obtain ⟨C, hC⟩ := h.bdd; exact ⟨C, hC x⟩
  box := by obtain ⟨R, hR⟩ := h.box; exact ⟨R, fun y z hne => (hR x y z hne).2⟩

theorem Nice3.inner {H : ℝ → ℝ → ℝ → ℝ} (h : Nice3 H) : Nice2 fun x y => ∫ z, H x y z := by
  obtain ⟨C, hC⟩ := h.bdd
  obtain ⟨R, hR⟩ := h.box
  refine ⟨?_, ⟨C * (2 * |R|), ?_⟩, ⟨R, ?_⟩⟩
  · have hm : Measurable fun z : (ℝ × ℝ) × ℝ => H z.1.1 z.1.2 z.2 :=
      h.meas.comp ((measurable_fst.comp measurable_fst).prodMk
        ((measurable_snd.comp measurable_fst).prodMk measurable_snd))
    exact (hm.stronglyMeasurable.integral_prod_right').measurable
  · intro x y
    have hC0 : 0 ≤ C := (abs_nonneg _).trans (hC 0 0 0)
    have e : ∫ z, H x y z = ∫ z in Set.Icc (-|R|) |R|, H x y z := by
      symm
      apply setIntegral_eq_integral_of_forall_compl_eq_zero
      intro z hz
      by_contra hne
      exact hz (abs_le.mp ((hR x y z hne).2.2.trans (le_abs_self R)))
    rw [e]
    have := norm_setIntegral_le_of_norm_le_const (μ := volume) (s := Set.Icc (-|R|) |R|) (C := C)
      (f := fun z => H x y z) (by simp) (fun z _ => hC x y z)
    rw [Real.norm_eq_abs] at this
    refine this.trans (le_of_eq ?_)
    rw [Measure.real, Real.volume_Icc, ENNReal.toReal_ofReal (by linarith [abs_nonneg R])]
    ring
  · intro x y hne
    by_contra hn
    apply hne
    have : ∀ z, H x y z = 0 := by
      intro z
      by_contra hz
      exact hn ⟨(hR x y z hz).1, (hR x y z hz).2.1⟩
    simp [this]

theorem Nice3.integrable {H : ℝ → ℝ → ℝ → ℝ} (h : Nice3 H) :
    Integrable (fun z : ℝ × ℝ × ℝ => H z.1 z.2.1 z.2.2) (volume.prod (volume.prod volume)) := by
  obtain ⟨C, hC⟩ := h.bdd
  obtain ⟨R, hR⟩ := h.box
  have hs : IntegrableOn (fun z : ℝ × ℝ × ℝ => H z.1 z.2.1 z.2.2)
      (Set.Icc (-R) R ×ˢ (Set.Icc (-R) R ×ˢ Set.Icc (-R) R)) (volume.prod (volume.prod volume)) := by
    apply Measure.integrableOn_of_bounded (M := C)
    · exact ((isCompact_Icc.prod (isCompact_Icc.prod isCompact_Icc)).measure_lt_top
        (μ := (volume : Measure ℝ).prod ((volume : Measure ℝ).prod (volume : Measure ℝ)))).ne
    · exact h.meas.aestronglyMeasurable
    · exact Filter.Eventually.of_forall fun z => hC _ _ _
  apply hs.integrable_of_forall_notMem_eq_zero
  intro z hz
  by_contra hne
  obtain ⟨a, b, c⟩ := hR _ _ _ hne
  exact hz ⟨abs_le.mp a, abs_le.mp b, abs_le.mp c⟩

theorem Nice3.integral {H : ℝ → ℝ → ℝ → ℝ} (h : Nice3 H) :
    ∫ x, ∫ y, ∫ z, H x y z = ∫ z : ℝ × ℝ × ℝ, H z.1 z.2.1 z.2.2 ∂(volume.prod (volume.prod volume)) := by
  rw [integral_prod _ h.integrable]
  congr 1
  funext x
  exact (integral_prod _ (h.slice x).integrable).symm

/-- Exchange of the first two variables. -/
theorem Nice3.exch12 {H : ℝ → ℝ → ℝ → ℝ} (h : Nice3 H) : Nice3 fun x y z => H y x z where
  meas := h.meas.comp ((measurable_fst.comp measurable_snd).prodMk
    (measurable_fst.prodMk (measurable_snd.comp measurable_snd)))
  bdd := by obtain ⟨C, hC⟩ := h.bdd; exact ⟨C, fun x y z => hC y x z⟩
  box := by obtain ⟨R, hR⟩ := h.box; exact ⟨R, fun x y z hne => ⟨(hR _ _ _ hne).2.1, (hR _ _ _ hne).1, (hR _ _ _ hne).2.2⟩⟩

/-- Exchange of the last two variables. -/
theorem Nice3.exch23 {H : ℝ → ℝ → ℝ → ℝ} (h : Nice3 H) : Nice3 fun x y z => H x z y where
  meas := h.meas.comp (measurable_fst.prodMk ((measurable_snd.comp measurable_snd).prodMk
    (measurable_fst.comp measurable_snd)))
  bdd := by obtain ⟨C, hC⟩ := h.bdd; exact ⟨C, fun x y z => hC x z y⟩
  box := by obtain ⟨R, hR⟩ := h.box; exact ⟨R, fun x y z hne => ⟨(hR _ _ _ hne).1, (hR _ _ _ hne).2.2, (hR _ _ _ hne).2.1⟩⟩

theorem Nice3.int12 {H : ℝ → ℝ → ℝ → ℝ} (h : Nice3 H) :
    ∫ x, ∫ y, ∫ z, H y x z = ∫ x, ∫ y, ∫ z, H x y z := h.exch12.inner.swap

theorem Nice3.int23 {H : ℝ → ℝ → ℝ → ℝ} (h : Nice3 H) :
    ∫ x, ∫ y, ∫ z, H x z y = ∫ x, ∫ y, ∫ z, H x y z := by
  congr 1
  funext x
  exact (h.exch23.slice x).swap

/-- Multiplication by a locally bounded function of one variable. -/
theorem Nice3.mul {H : ℝ → ℝ → ℝ → ℝ} (h : Nice3 H) (w : ℝ → ℝ → ℝ → ℝ)
    (hw : Measurable fun z : ℝ × ℝ × ℝ => w z.1 z.2.1 z.2.2)
    (hb : ∀ S, ∃ C, ∀ x y z, |x| ≤ S → |y| ≤ S → |z| ≤ S → |w x y z| ≤ C) :
    Nice3 fun x y z => w x y z * H x y z := by
  obtain ⟨C, hC⟩ := h.bdd
  obtain ⟨R, hR⟩ := h.box
  obtain ⟨D, hD⟩ := hb R
  refine ⟨hw.mul h.meas, ⟨|D| * C, ?_⟩, ⟨R, fun x y z hne => hR x y z (right_ne_zero_of_mul hne)⟩⟩
  intro x y z
  have hC0 : 0 ≤ C := (abs_nonneg _).trans (hC x y z)
  by_cases hne : H x y z = 0
  · rw [hne, mul_zero, abs_zero]; positivity
  · obtain ⟨a, b, c⟩ := hR x y z hne
    rw [abs_mul]
    exact mul_le_mul ((hD x y z a b c).trans (le_abs_self D)) (hC x y z) (abs_nonneg _) (abs_nonneg _)

/-- From the energies of the products to that of the decaying particle and of two products. -/
theorem Nice3.shear {H : ℝ → ℝ → ℝ → ℝ} (h : Nice3 H) : Nice3 fun x y z => H y z (x - y - z) := by
  obtain ⟨C, hC⟩ := h.bdd
  obtain ⟨R, hR⟩ := h.box
  refine ⟨?_, ⟨C, fun x y z => hC _ _ _⟩, ⟨3 * R, ?_⟩⟩
  · exact h.meas.comp ((measurable_fst.comp measurable_snd).prodMk ((measurable_snd.comp measurable_snd).prodMk
      ((measurable_fst.sub (measurable_fst.comp measurable_snd)).sub (measurable_snd.comp measurable_snd))))
  · intro x y z hne
    obtain ⟨a, b, c⟩ := hR _ _ _ hne
    have hR0 := (abs_nonneg _).trans a
    refine ⟨?_, by linarith, by linarith⟩
    calc |x| = |y + z + (x - y - z)| := by congr 1; ring
      _ ≤ |y + z| + |x - y - z| := abs_add_le _ _
      _ ≤ |y| + |z| + |x - y - z| := by linarith [abs_add_le y z]
      _ ≤ 3 * R := by linarith

theorem Nice3.int_shear {H : ℝ → ℝ → ℝ → ℝ} (h : Nice3 H) :
    ∫ x, ∫ y, ∫ z, H y z (x - y - z) = ∫ x, ∫ y, ∫ z, H x y z := by
  -- x, y, z ↦ y, x, z ↦ y, z, x
  rw [← h.shear.int12]
  rw [← h.shear.exch12.int23]
  congr 1
  funext y
  congr 1
  funext z
  have := integral_sub_right_eq_self (μ := volume) (fun x => H y z x) (y + z)
  rw [← this]
  congr 1
  funext x
  rw [sub_sub]

/-- Energies of the four particles in the order of the reaction, given those of the first three particles of a view
in which the decaying particle comes last. -/
def place (σ : Equiv.Perm (Fin 4)) (a b c : ℝ) : Fin 4 → ℝ := fun i => (![a, b, c, a + b + c] : Fin 4 → ℝ) (σ.symm i)

theorem perm_cases (σ : Equiv.Perm (Fin 4)) (h : σ 3 = 0) :
    (σ 0 = 1 ∧ σ 1 = 2 ∧ σ 2 = 3) ∨ (σ 0 = 1 ∧ σ 1 = 3 ∧ σ 2 = 2) ∨ (σ 0 = 2 ∧ σ 1 = 1 ∧ σ 2 = 3) ∨
    (σ 0 = 2 ∧ σ 1 = 3 ∧ σ 2 = 1) ∨ (σ 0 = 3 ∧ σ 1 = 1 ∧ σ 2 = 2) ∨ (σ 0 = 3 ∧ σ 1 = 2 ∧ σ 2 = 1) := by
  have key : ∀ a b c : Fin 4, a ≠ b ∧ a ≠ c ∧ a ≠ 0 ∧ b ≠ c ∧ b ≠ 0 ∧ c ≠ 0 →
    (a = 1 ∧ b = 2 ∧ c = 3) ∨ (a = 1 ∧ b = 3 ∧ c = 2) ∨ (a = 2 ∧ b = 1 ∧ c = 3) ∨
    (a = 2 ∧ b = 3 ∧ c = 1) ∨ (a = 3 ∧ b = 1 ∧ c = 2) ∨ (a = 3 ∧ b = 2 ∧ c = 1) := by decide
  have hne : ∀ i j, i ≠ j → σ i ≠ σ j := fun i j hij h => hij (σ.injective h)
  exact key _ _ _ ⟨hne 0 1 (by decide), hne 0 2 (by decide), h ▸ hne 0 3 (by decide), hne 1 2 (by decide),
    h ▸ hne 1 3 (by decide), h ▸ hne 2 3 (by decide)⟩

theorem place_eq (σ : Equiv.Perm (Fin 4)) (a b c : ℝ) (v : Fin 4 → ℝ) (h0 : v (σ 0) = a) (h1 : v (σ 1) = b)
    (h2 : v (σ 2) = c) (h3 : v (σ 3) = a + b + c) : place σ a b c = v := by
  funext i
  obtain ⟨j, rfl⟩ := σ.surjective i
  unfold place
  rw [σ.symm_apply_apply]
  fin_cases j
  · exact h0.symm
  · exact h1.symm
  · exact h2.symm
  · exact h3.symm

section
variable (ev : (Fin 4 → ℝ) → ℝ)

/-- A density of events as a function of the energies of the products. -/
def ofProducts (x y z : ℝ) : ℝ := ev ![x + y + z, x, y, z]

variable {ev}

theorem integral_subs {f g k l : ℝ → ℝ} (hf : Integrable f) (hg : Integrable g) (hk : Integrable k)
    (hl : Integrable l) :
    (∫ x, f x) - (∫ x, g x) - (∫ x, k x) - (∫ x, l x) = ∫ x, f x - g x - k x - l x := by
  have e : ∫ x, f x - g x - k x = (∫ x, f x - g x) - ∫ x, k x := integral_sub (hf.sub hg) hk
  have e' : ∫ x, f x - g x - k x - l x = (∫ x, f x - g x - k x) - ∫ x, l x := integral_sub ((hf.sub hg).sub hk) hl
  rw [e', e, integral_sub hf hg]

/-- The weighted total seen by one product. -/
theorem product_total (h : Nice3 (ofProducts ev)) (q : ℝ → ℝ) (hq : Measurable q)
    (hqb : ∀ S, ∃ C, ∀ E, |E| ≤ S → |q E| ≤ C) (σ : Equiv.Perm (Fin 4)) (hσ : σ 3 = 0) :
    Integrable (fun a => q a * ∫ b, ∫ c, ev (place σ a b c)) ∧
    ∫ a, q a * ∫ b, ∫ c, ev (place σ a b c) =
      ∫ x, ∫ y, ∫ z, q ((![0, x, y, z] : Fin 4 → ℝ) (σ 0)) * ofProducts ev x y z := by
  have e : (fun a => q a * ∫ b, ∫ c, ev (place σ a b c)) = fun a => ∫ b, ∫ c, q a * ev (place σ a b c) := by
    funext a
    rw [← integral_const_mul]
    congr 1
    funext b
    rw [← integral_const_mul]
  rw [e]
  have w1 : Nice3 fun x y z => q x * ofProducts ev x y z := h.mul (fun x _ _ => q x) (hq.comp measurable_fst)
    fun S => by obtain ⟨C, hC⟩ := hqb S; exact ⟨C, fun x y z a _ _ => hC x a⟩
  have w2 : Nice3 fun x y z => q y * ofProducts ev x y z := h.mul (fun _ y _ => q y)
    (hq.comp (measurable_fst.comp measurable_snd))
    fun S => by obtain ⟨C, hC⟩ := hqb S; exact ⟨C, fun x y z _ a _ => hC y a⟩
  have w3 : Nice3 fun x y z => q z * ofProducts ev x y z := h.mul (fun _ _ z => q z)
    (hq.comp (measurable_snd.comp measurable_snd))
    fun S => by obtain ⟨C, hC⟩ := hqb S; exact ⟨C, fun x y z _ _ a => hC z a⟩
  have fin : ∀ (W : ℝ → ℝ → ℝ → ℝ), Nice3 W → (∀ a b c, q a * ev (place σ a b c) = W a b c) →
      (∫ a, ∫ b, ∫ c, W a b c) = (∫ x, ∫ y, ∫ z, q ((![0, x, y, z] : Fin 4 → ℝ) (σ 0)) * ofProducts ev x y z) →
      Integrable (fun a => ∫ b, ∫ c, q a * ev (place σ a b c)) ∧
      ∫ a, ∫ b, ∫ c, q a * ev (place σ a b c) =
        ∫ x, ∫ y, ∫ z, q ((![0, x, y, z] : Fin 4 → ℝ) (σ 0)) * ofProducts ev x y z := by
    intro W hW hp ht
    simp only [hp]
    exact ⟨hW.inner.inner, ht⟩
  rcases perm_cases σ hσ with ⟨s0, s1, s2⟩ | ⟨s0, s1, s2⟩ | ⟨s0, s1, s2⟩ | ⟨s0, s1, s2⟩ | ⟨s0, s1, s2⟩ | ⟨s0, s1, s2⟩
  · refine fin _ w1 (fun a b c => ?_) ?_
    · rw [place_eq σ a b c ![a + b + c, a, b, c] (by rw [s0]; rfl) (by rw [s1]; rfl) (by rw [s2]; rfl)
        (by rw [hσ]; rfl)]; rfl
    · rw [s0]; rfl
  · refine fin _ w1.exch23 (fun a b c => ?_) ?_
    · rw [place_eq σ a b c ![a + c + b, a, c, b] (by rw [s0]; rfl) (by rw [s1]; rfl) (by rw [s2]; rfl)
        (by rw [hσ]; change a + c + b = _; ring)]; rfl
    · rw [s0]; exact w1.int23
  · refine fin _ w2.exch12 (fun a b c => ?_) ?_
    · rw [place_eq σ a b c ![b + a + c, b, a, c] (by rw [s0]; rfl) (by rw [s1]; rfl) (by rw [s2]; rfl)
        (by rw [hσ]; change b + a + c = _; ring)]; rfl
    · rw [s0]; exact w2.int12
  · -- a = y, b = z, c = x
    refine fin _ w2.exch12.exch23 (fun a b c => ?_) ?_
    · rw [place_eq σ a b c ![c + a + b, c, a, b] (by rw [s0]; rfl) (by rw [s1]; rfl) (by rw [s2]; rfl)
        (by rw [hσ]; change c + a + b = _; ring)]; rfl
    · rw [s0]; exact w2.exch12.int23.trans w2.int12
  · -- a = z, b = x, c = y
    refine fin _ w3.exch23.exch12 (fun a b c => ?_) ?_
    · rw [place_eq σ a b c ![b + c + a, b, c, a] (by rw [s0]; rfl) (by rw [s1]; rfl) (by rw [s2]; rfl)
        (by rw [hσ]; change b + c + a = _; ring)]; rfl
    · rw [s0]; exact w3.exch23.int12.trans w3.int23
  · -- a = z, b = y, c = x
    refine fin _ w3.exch23.exch12.exch23 (fun a b c => ?_) ?_
    · rw [place_eq σ a b c ![c + b + a, c, b, a] (by rw [s0]; rfl) (by rw [s1]; rfl) (by rw [s2]; rfl)
        (by rw [hσ]; change c + b + a = _; ring)]; rfl
    · rw [s0]; exact w3.exch23.exch12.int23.trans (w3.exch23.int12.trans w3.int23)

/-- The weighted total seen by the decaying particle. -/
theorem parent_total (h : Nice3 (ofProducts ev)) (q : ℝ → ℝ) (hq : Measurable q)
    (hqb : ∀ S, ∃ C, ∀ E, |E| ≤ S → |q E| ≤ C) :
    Integrable (fun x => q x * ∫ y, ∫ z, ev ![x, y, z, x - y - z]) ∧
    ∫ x, q x * ∫ y, ∫ z, ev ![x, y, z, x - y - z] =
      ∫ x, ∫ y, ∫ z, q (x + y + z) * ofProducts ev x y z := by
  have e : (fun x => q x * ∫ y, ∫ z, ev ![x, y, z, x - y - z]) =
      fun x => ∫ y, ∫ z, q x * ev ![x, y, z, x - y - z] := by
    funext a
    rw [← integral_const_mul]
    congr 1
    funext b
    rw [← integral_const_mul]
  have w : Nice3 fun x y z => q (x + y + z) * ofProducts ev x y z := by
    refine h.mul (fun x y z => q (x + y + z)) ?_ fun S => ?_
    · exact hq.comp ((measurable_fst.add (measurable_fst.comp measurable_snd)).add
        (measurable_snd.comp measurable_snd))
    · obtain ⟨C, hC⟩ := hqb (S + S + S)
      refine ⟨C, fun x y z a b c => hC _ ?_⟩
      exact (abs_add_le _ _).trans (add_le_add ((abs_add_le _ _).trans (add_le_add a b)) c)
  have e2 : (fun x : ℝ => ∫ y, ∫ z, q x * ev ![x, y, z, x - y - z]) =
      fun x => ∫ y, ∫ z, (fun a b c => q (a + b + c) * ofProducts ev a b c) y z (x - y - z) := by
    funext x
    congr 1
    funext y
    congr 1
    funext z
    unfold ofProducts
    dsimp only
    rw [show y + z + (x - y - z) = x by ring]
  rw [e, e2]
  exact ⟨w.shear.inner.inner, w.int_shear⟩

/-- The totals of the four particles as one integral over the events. -/
theorem totals4 (h : Nice3 (ofProducts ev)) (q : Fin 4 → ℝ → ℝ) (hq : ∀ i, Measurable (q i))
    (hqb : ∀ S, ∃ C, ∀ i E, |E| ≤ S → |q i E| ≤ C) (σ : Fin 4 → Equiv.Perm (Fin 4))
    (h0 : ∀ i, σ i 0 = i) (h3 : ∀ i, i ≠ 0 → σ i 3 = 0) :
    Nice3 (fun x y z => (q 0 (x + y + z) - q 1 x - q 2 y - q 3 z) * ofProducts ev x y z) ∧
    (∫ x, q 0 x * ∫ y, ∫ z, ev ![x, y, z, x - y - z]) - (∫ a, q 1 a * ∫ b, ∫ c, ev (place (σ 1) a b c)) -
      (∫ a, q 2 a * ∫ b, ∫ c, ev (place (σ 2) a b c)) - (∫ a, q 3 a * ∫ b, ∫ c, ev (place (σ 3) a b c)) =
    ∫ x, ∫ y, ∫ z, (q 0 (x + y + z) - q 1 x - q 2 y - q 3 z) * ofProducts ev x y z := by
  have hqb' : ∀ i S, ∃ C, ∀ E, |E| ≤ S → |q i E| ≤ C := fun i S => by
    obtain ⟨C, hC⟩ := hqb S; exact ⟨C, hC i⟩
  rw [(parent_total h (q 0) (hq 0) (hqb' 0)).2,
    (product_total h (q 1) (hq 1) (hqb' 1) (σ 1) (h3 1 (by decide))).2,
    (product_total h (q 2) (hq 2) (hqb' 2) (σ 2) (h3 2 (by decide))).2,
    (product_total h (q 3) (hq 3) (hqb' 3) (σ 3) (h3 3 (by decide))).2, h0 1, h0 2, h0 3]
  change _ ∧ (∫ x, ∫ y, ∫ z, q 0 (x + y + z) * ofProducts ev x y z) -
    (∫ x, ∫ y, ∫ z, q 1 x * ofProducts ev x y z) - (∫ x, ∫ y, ∫ z, q 2 y * ofProducts ev x y z) -
    (∫ x, ∫ y, ∫ z, q 3 z * ofProducts ev x y z) = _
  have m0 : Measurable fun z : ℝ × ℝ × ℝ => q 0 (z.1 + z.2.1 + z.2.2) :=
    (hq 0).comp ((measurable_fst.add (measurable_fst.comp measurable_snd)).add (measurable_snd.comp measurable_snd))
  have b0 : ∀ S, ∃ C, ∀ x y z, |x| ≤ S → |y| ≤ S → |z| ≤ S → |q 0 (x + y + z)| ≤ C := fun S => by
    obtain ⟨C, hC⟩ := hqb' 0 (S + S + S)
    refine ⟨C, fun x y z a b c => hC _ ?_⟩
    exact (abs_add_le _ _).trans (add_le_add ((abs_add_le _ _).trans (add_le_add a b)) c)
  have m1 : Measurable fun z : ℝ × ℝ × ℝ => q 1 z.1 := (hq 1).comp measurable_fst
  have m2 : Measurable fun z : ℝ × ℝ × ℝ => q 2 z.2.1 := (hq 2).comp (measurable_fst.comp measurable_snd)
  have m3 : Measurable fun z : ℝ × ℝ × ℝ => q 3 z.2.2 := (hq 3).comp (measurable_snd.comp measurable_snd)
  have w0 : Nice3 fun x y z => q 0 (x + y + z) * ofProducts ev x y z := h.mul (fun x y z => q 0 (x + y + z)) m0 b0
  have w1 : Nice3 fun x y z => q 1 x * ofProducts ev x y z := h.mul (fun x _ _ => q 1 x) m1
    fun S => by obtain ⟨C, hC⟩ := hqb' 1 S; exact ⟨C, fun x y z a _ _ => hC x a⟩
  have w2 : Nice3 fun x y z => q 2 y * ofProducts ev x y z := h.mul (fun _ y _ => q 2 y) m2
    fun S => by obtain ⟨C, hC⟩ := hqb' 2 S; exact ⟨C, fun x y z _ a _ => hC y a⟩
  have w3 : Nice3 fun x y z => q 3 z * ofProducts ev x y z := h.mul (fun _ _ z => q 3 z) m3
    fun S => by obtain ⟨C, hC⟩ := hqb' 3 S; exact ⟨C, fun x y z _ _ a => hC z a⟩
  refine ⟨h.mul (fun x y z => q 0 (x + y + z) - q 1 x - q 2 y - q 3 z) (((m0.sub m1).sub m2).sub m3) fun S => ?_, ?_⟩
  · obtain ⟨C0, hC0⟩ := b0 S
    obtain ⟨C1, hC1⟩ := hqb S
    refine ⟨C0 + C1 + C1 + C1, fun x y z a b c => ?_⟩
    have := hC0 x y z a b c
    have h1 := hC1 1 x a
    have h2 := hC1 2 y b
    have h3 := hC1 3 z c
    rw [abs_le] at this h1 h2 h3 ⊢
    constructor <;> linarith
  rw [integral_subs w0.inner.inner w1.inner.inner w2.inner.inner w3.inner.inner]
  congr 1
  funext x
  rw [integral_subs (w0.inner.slice x) (w1.inner.slice x) (w2.inner.slice x) (w3.inner.slice x)]
  congr 1
  funext y
  rw [integral_subs ((w0.slice x).slice y) ((w1.slice x).slice y) ((w2.slice x).slice y) ((w3.slice x).slice y)]
  congr 1
  funext z
  ring

end

/-- Double integral with the velocities of two particles as weights. -/
noncomputable def inner4 (m0 m1 m2 : ℝ) (J : ℝ → ℝ → ℝ → ℝ) (p0 : ℝ) : ℝ :=
  innerOf m0 m1 (fun p0 p1 => ∫ p2 in Set.Ioi 0, p2 / energyOf m2 p2 * J p0 p1 p2) p0

theorem inner4_energies (m1 m2 : ℝ) (hm2 : 0 ≤ m2) (J : ℝ → ℝ → ℝ → ℝ) (p0 E : ℝ) :
    (∫ p2 in Set.Ioi 0, p2 / energyOf m2 p2 * J p0 (momOf m1 E) p2) =
      ∫ E2 in Set.Ioi m2, J p0 (momOf m1 E) (momOf m2 E2) := by
  rw [← integral_toEnergy m2 hm2]
  apply setIntegral_congr_fun measurableSet_Ioi
  intro p2 h2
  simp only [momOf_energyOf m2 p2 (le_of_lt h2)]

/-- The limits of an integral removed, when nothing lies outside. -/
theorem integral_limits' (lo hi : ℝ) (g G : ℝ → ℝ) (h0 : 0 ≤ lo) (hlh : lo ≤ hi)
    (h1 : ∀ p, 0 < p → G p ≠ 0 → lo ≤ p ∧ p ≤ hi) (h2 : ∀ p, 0 < p → lo < p → p < hi → g p = G p) :
    ∫ p in lo..hi, g p = ∫ p in Set.Ioi 0, G p := by
  rw [intervalIntegral.integral_of_le hlh, integral_Ioc_eq_integral_Ioo]
  have e : ∫ p in Set.Ioi (0 : ℝ), G p = ∫ p in Set.Ioi (0 : ℝ), (Set.Ioo lo hi).indicator G p := by
    apply setIntegral_congr_ae measurableSet_Ioi
    have hf : ∀ᵐ x : ℝ, x ∉ ({lo, hi} : Set ℝ) := (Set.toFinite ({lo, hi} : Set ℝ)).countable.ae_notMem volume
    filter_upwards [hf] with p hp hp0
    simp only [Set.mem_insert_iff, Set.mem_singleton_iff, not_or] at hp
    by_cases hm : p ∈ Set.Ioo lo hi
    · rw [Set.indicator_of_mem hm]
    · rw [Set.indicator_of_notMem hm]
      by_contra hne
      obtain ⟨a, b⟩ := h1 p hp0 hne
      exact hm ⟨lt_of_le_of_ne a (Ne.symm hp.1), lt_of_le_of_ne b hp.2⟩
  rw [e, setIntegral_indicator measurableSet_Ioo]
  rw [show Set.Ioi (0 : ℝ) ∩ Set.Ioo lo hi = Set.Ioo lo hi from
    Set.inter_eq_right.mpr fun x hx => lt_of_le_of_lt h0 hx.1]
  apply setIntegral_congr_fun measurableSet_Ioo
  intro p hp
  exact h2 p (lt_of_le_of_lt h0 hp.1) hp.1 hp.2

/-- The same for nested integrals, the limits of the inner one depending on the outer variable. -/
theorem integral_limits2 (lo hi : ℝ) (lim : ℝ → Option (ℝ × ℝ)) (v h : ℝ → ℝ → ℝ) (h0 : 0 ≤ lo) (hlh : lo ≤ hi)
    (ho : ∀ p a b, 0 < p → lim p = some (a, b) → 0 ≤ a ∧ a ≤ b)
    (h1 : ∀ p q, 0 < p → 0 < q → h p q ≠ 0 → lo ≤ p ∧ p ≤ hi ∧ ∃ a b, lim p = some (a, b) ∧ a ≤ q ∧ q ≤ b)
    (h2 : ∀ p q a b, 0 < p → 0 < q → lo < p → p < hi → lim p = some (a, b) → a < q → q < b → v p q = h p q) :
    (∫ p in lo..hi, match lim p with | none => 0 | some (a, b) => ∫ q in a..b, v p q) =
      ∫ p in Set.Ioi 0, ∫ q in Set.Ioi 0, h p q := by
  apply integral_limits' _ _ _ _ h0 hlh
  · intro p hp hne
    by_contra hn
    apply hne
    apply setIntegral_eq_zero_of_forall_eq_zero
    intro q hq
    by_contra hq'
    obtain ⟨a, b, -⟩ := h1 p q hp hq hq'
    exact hn ⟨a, b⟩
  · intro p hp hl hu
    rcases hlim : lim p with _ | ⟨a, b⟩
    · dsimp only
      symm
      apply setIntegral_eq_zero_of_forall_eq_zero
      intro q hq
      by_contra hq'
      obtain ⟨-, -, a, b, hs, -⟩ := h1 p q hp hq hq'
      rw [hlim] at hs
      exact absurd hs (by simp)
    · dsimp only
      obtain ⟨ha, hab⟩ := ho p a b hp hlim
      apply integral_limits' _ _ _ _ ha hab
      · intro q hq hne
        obtain ⟨-, -, a', b', hs, x, y⟩ := h1 p q hp hq hne
        rw [hlim] at hs
        have := Option.some.inj hs
        rw [Prod.mk.injEq] at this
        rw [this.1, this.2]
        exact ⟨x, y⟩
      · intro q hq h3 h4
        exact h2 p q a b hp hq hl hu hlim h3 h4

end PyBBN
