import Verif.Lemmas.Fermi
import Verif.Lemmas.Phase4
/-!
# Energies of three decay products with mass

Pure analysis: the region of energies allowed by momentum conservation and integrals over it.
-/
namespace PyBBN

open MeasureTheory Set

/-! ## From momenta to energies -/

theorem integral_energy_upto (m : ℝ) (hm : 0 ≤ m) {P E1 : ℝ} (hP : 0 ≤ P) (hE : energyOf m P = E1) (g : ℝ → ℝ) :
    ∫ p in (0:ℝ)..P, p / energyOf m p * g (energyOf m p) = ∫ E in m..E1, g E := by
  have h1 : m ≤ E1 := by
    rw [← hE]; unfold energyOf; exact Real.le_sqrt_of_sq_le (by nlinarith)
  have himg : energyOf m '' Ioo 0 P = Ioo m E1 := by
    ext E
    constructor
    · rintro ⟨p, hp, rfl⟩
      refine ⟨energyOf_gt m p hm hp.1, ?_⟩
      rw [← hE]
      unfold energyOf
      exact Real.sqrt_lt_sqrt (by positivity) (by nlinarith [hp.1, hp.2])
    · intro h
      refine ⟨momOf m E, ⟨momOf_pos m E hm h.1, ?_⟩, energyOf_momOf m E hm h.1.le⟩
      by_contra hn
      push Not at hn
      have := (momOf_le m E (momOf m E) hm h.1.le (Real.sqrt_nonneg _)).mp le_rfl
      have h2 : energyOf m P ≤ E := by
        rw [← energyOf_momOf m E hm h.1.le]
        unfold energyOf
        exact Real.sqrt_le_sqrt (by nlinarith)
      rw [hE] at h2
      exact absurd h.2 (not_lt.mpr h2)
  rw [intervalIntegral.integral_of_le hP, intervalIntegral.integral_of_le h1, integral_Ioc_eq_integral_Ioo,
    integral_Ioc_eq_integral_Ioo, ← himg, integral_image_eq_integral_abs_deriv_smul measurableSet_Ioo
      (fun x hx => (energyOf_hasDeriv' m x hx.1).hasDerivWithinAt)
      ((energyOf_injOn m).mono Ioo_subset_Ioi_self)]
  apply setIntegral_congr_fun measurableSet_Ioo
  intro p hp
  simp only [smul_eq_mul, abs_velocity m p hp.1]

theorem momOf_nonneg (m E : ℝ) : 0 ≤ momOf m E := Real.sqrt_nonneg _

/-! ## The allowed region -/

/-- Källén's triangle function. -/
def kallen (x y z : ℝ) : ℝ := x ^ 2 + y ^ 2 + z ^ 2 - 2 * x * y - 2 * y * z - 2 * z * x

theorem kallen_factor (s b c : ℝ) : kallen s (b ^ 2) (c ^ 2) = (s - (b + c) ^ 2) * (s - (b - c) ^ 2) := by
  unfold kallen; ring

theorem Db1_in_sq {p1 p2 p3 : ℝ} (h1 : 0 ≤ p1) (h2 : 0 ≤ p2) (h3 : 0 ≤ p3)
    (h : (p1 ^ 2 - p2 ^ 2 - p3 ^ 2) ^ 2 < 4 * p2 ^ 2 * p3 ^ 2) : Db1 p1 p2 p3 = 1 := by
  have h' : |p1 ^ 2 - p2 ^ 2 - p3 ^ 2| < 2 * (p2 * p3) := by
    apply abs_lt_of_sq_lt_sq _ (by positivity)
    nlinarith
  obtain ⟨ha, hb⟩ := abs_lt.mp h'
  apply Db1_in
  · by_contra hn; push Not at hn; nlinarith
  · by_contra hn; push Not at hn; nlinarith
  · by_contra hn; push Not at hn; nlinarith

theorem Db1_out_sq {p1 p2 p3 : ℝ} (h1 : 0 < p1) (h2 : 0 < p2) (h3 : 0 < p3)
    (h : 4 * p2 ^ 2 * p3 ^ 2 < (p1 ^ 2 - p2 ^ 2 - p3 ^ 2) ^ 2) : Db1 p1 p2 p3 = 0 := by
  have h' : 2 * (p2 * p3) < |p1 ^ 2 - p2 ^ 2 - p3 ^ 2| := by
    rw [← abs_of_pos (show 0 < 2 * (p2 * p3) by positivity)]
    apply sq_lt_sq.mp
    nlinarith
  apply Db1_out h1 h2 h3
  rcases lt_abs.mp h' with h | h
  · right; right
    by_contra hn; push Not at hn; nlinarith
  · by_contra hn
    push Not at hn
    obtain ⟨n1, n2, n3⟩ := hn
    nlinarith

/-- The quadratic form that decides whether three momenta can close. -/
theorem region_identity {W p1 p2 p3 y m2 m3 s : ℝ} (hs : s = W ^ 2 - p1 ^ 2) (h2 : p2 ^ 2 = y ^ 2 - m2 ^ 2)
    (h3 : p3 ^ 2 = (W - y) ^ 2 - m3 ^ 2) :
    s * (4 * p2 ^ 2 * p3 ^ 2 - (p1 ^ 2 - p2 ^ 2 - p3 ^ 2) ^ 2)
      = p1 ^ 2 * kallen s (m2 ^ 2) (m3 ^ 2) - (2 * s * y - W * (s + m2 ^ 2 - m3 ^ 2)) ^ 2 := by
  rw [h2, h3, hs]; unfold kallen; ring

theorem vertex_ge {W s m2 m3 : ℝ} (hW : 0 < W) (hsW : s ≤ W ^ 2) (h2 : 0 ≤ m2) (h3 : 0 ≤ m3) (hs : (m2 + m3) ^ 2 < s) :
    2 * s * m2 ≤ W * (s + m2 ^ 2 - m3 ^ 2) := by
  have hs0 : 0 < s := lt_of_le_of_lt (sq_nonneg _) hs
  obtain ⟨t, ht, rfl⟩ : ∃ t, 0 < t ∧ s = t ^ 2 := ⟨√s, Real.sqrt_pos.mpr hs0, (Real.sq_sqrt hs0.le).symm⟩
  have htW : t ≤ W := abs_le_of_sq_le_sq' hsW hW.le |>.2
  have ht' : m2 + m3 < t := abs_lt_of_sq_lt_sq' hs ht.le |>.2
  have h4 : 2 * t * m2 ≤ t ^ 2 + m2 ^ 2 - m3 ^ 2 := by nlinarith
  have h5 : 0 ≤ t ^ 2 + m2 ^ 2 - m3 ^ 2 := le_trans (by positivity) h4
  nlinarith [mul_le_mul_of_nonneg_right htW h5, mul_le_mul_of_nonneg_left h4 ht.le]

theorem lower_edge {W p1 s m2 m3 : ℝ} (hW : 0 < W) (hs : s = W ^ 2 - p1 ^ 2) (h2 : 0 ≤ m2) (h3 : 0 ≤ m3)
    (hs' : (m2 + m3) ^ 2 < s) :
    p1 * √(kallen s (m2 ^ 2) (m3 ^ 2)) ≤ W * (s + m2 ^ 2 - m3 ^ 2) - 2 * s * m2 := by
  have hs0 : 0 < s := lt_of_le_of_lt (sq_nonneg _) hs'
  have hk : 0 ≤ kallen s (m2 ^ 2) (m3 ^ 2) := by
    rw [kallen_factor]
    apply mul_nonneg (by linarith)
    nlinarith [mul_nonneg h2 h3]
  have hv := vertex_ge hW (by rw [hs]; nlinarith) h2 h3 hs'
  apply abs_le_of_sq_le_sq' _ (by linarith) |>.2
  rw [mul_pow, Real.sq_sqrt hk]
  have e : p1 ^ 2 * kallen s (m2 ^ 2) (m3 ^ 2) - (W * (s + m2 ^ 2 - m3 ^ 2) - 2 * s * m2) ^ 2
      = - (s * (p1 ^ 2 - ((W - m2) ^ 2 - m3 ^ 2)) ^ 2) := by rw [hs]; unfold kallen; ring
  have : 0 ≤ s * (p1 ^ 2 - ((W - m2) ^ 2 - m3 ^ 2)) ^ 2 := by positivity
  linarith

/-- Range of the energy of the second product when that of the first is known, as a length. -/
theorem inner_length {W p1 s m2 m3 : ℝ} (hW : 0 < W) (hs : s = W ^ 2 - p1 ^ 2) (h1 : 0 < p1) (h2 : 0 ≤ m2) (h3 : 0 ≤ m3)
    (hs' : (m2 + m3) ^ 2 < s) :
    ∫ y in m2..(W - m3), Db1 p1 (momOf m2 y) (momOf m3 (W - y)) = p1 * √(kallen s (m2 ^ 2) (m3 ^ 2)) / s := by
  have hs0 : 0 < s := lt_of_le_of_lt (sq_nonneg _) hs'
  have hk : 0 ≤ kallen s (m2 ^ 2) (m3 ^ 2) := by
    rw [kallen_factor]
    apply mul_nonneg (by linarith)
    nlinarith [mul_nonneg h2 h3]
  set r := √(kallen s (m2 ^ 2) (m3 ^ 2)) with hr
  have hr0 : 0 ≤ r := Real.sqrt_nonneg _
  have hr2 : r ^ 2 = kallen s (m2 ^ 2) (m3 ^ 2) := Real.sq_sqrt hk
  set V := W * (s + m2 ^ 2 - m3 ^ 2) with hV
  have lo := lower_edge hW hs h2 h3 hs'
  have hi := lower_edge hW hs h3 h2 (by rwa [add_comm])
  rw [← hr, ← hV] at lo
  have hkc : kallen s (m3 ^ 2) (m2 ^ 2) = kallen s (m2 ^ 2) (m3 ^ 2) := by unfold kallen; ring
  rw [hkc, ← hr] at hi
  have ea : m2 ≤ (V - p1 * r) / (2 * s) := by rw [le_div_iff₀ (by positivity)]; linarith
  have eb : (V + p1 * r) / (2 * s) ≤ W - m3 := by rw [div_le_iff₀ (by positivity)]; nlinarith
  have em : (V - p1 * r) / (2 * s) ≤ (V + p1 * r) / (2 * s) := by
    apply div_le_div_of_nonneg_right _ (by positivity); nlinarith [mul_nonneg h1.le hr0]
  have key : ∀ y, m2 < y → y < W - m3 →
      s * (4 * momOf m2 y ^ 2 * momOf m3 (W - y) ^ 2 - (p1 ^ 2 - momOf m2 y ^ 2 - momOf m3 (W - y) ^ 2) ^ 2)
        = (p1 * r) ^ 2 - (2 * s * y - V) ^ 2 := by
    intro y hy hy'
    rw [mul_pow, hr2]
    apply region_identity hs
    · unfold momOf; rw [Real.sq_sqrt (by nlinarith)]
    · unfold momOf; rw [Real.sq_sqrt (by nlinarith)]
  have out : ∀ y, m2 < y → y < W - m3 → (p1 * r) ^ 2 < (2 * s * y - V) ^ 2 →
      Db1 p1 (momOf m2 y) (momOf m3 (W - y)) = 0 := by
    intro y hy hy' hq
    apply Db1_out_sq h1 (momOf_pos _ _ h2 hy) (momOf_pos _ _ h3 (by linarith))
    have := key y hy hy'
    by_contra hn
    push Not at hn
    have := mul_nonneg hs0.le (sub_nonneg.mpr hn)
    linarith
  have hpr : 0 ≤ p1 * r := mul_nonneg h1.le hr0
  rw [integral_middle (g := fun _ => 1) ea em eb, intervalIntegral.integral_const]
  · rw [smul_eq_mul, mul_one]; field_simp; ring
  · intro y hy
    have hlt : 2 * s * y < V - p1 * r := by
      have := (lt_div_iff₀ (by positivity)).mp hy.2; linarith
    exact out y hy.1 (by linarith [hy.2]) (by nlinarith)
  · intro y hy
    have l1 : V - p1 * r < 2 * s * y := by have := (div_lt_iff₀ (by positivity)).mp hy.1; linarith
    have l2 : 2 * s * y < V + p1 * r := by have := (lt_div_iff₀ (by positivity)).mp hy.2; linarith
    have y1 : m2 < y := by linarith [hy.1]
    have y2 : y < W - m3 := by linarith [hy.2]
    apply Db1_in_sq h1.le (momOf_nonneg _ _) (momOf_nonneg _ _)
    have := key y y1 y2
    by_contra hn
    push Not at hn
    have h0 := mul_nonneg hs0.le (sub_nonneg.mpr hn)
    nlinarith
  · intro y hy
    have hlt : V + p1 * r < 2 * s * y := by
      have := (div_lt_iff₀ (by positivity)).mp hy.1; linarith
    exact out y (by linarith [hy.1]) hy.2 (by nlinarith)
  · exact intervalIntegrable_const

/-- Beyond the largest energy of the first product nothing is allowed. -/
theorem beyond_edge {W p1 y m2 m3 : ℝ} (h1 : 0 < p1) (h2 : 0 ≤ m2) (h3 : 0 ≤ m3) (hy : m2 < y) (hy' : y < W - m3)
    (h : W ^ 2 - p1 ^ 2 < (m2 + m3) ^ 2) : Db1 p1 (momOf m2 y) (momOf m3 (W - y)) = 0 := by
  have a2 := momOf_pos m2 y h2 hy
  have a3 := momOf_pos m3 (W - y) h3 (by linarith)
  apply Db1_out h1 a2 a3
  right; right
  have e2 : momOf m2 y ^ 2 = y ^ 2 - m2 ^ 2 := by unfold momOf; rw [Real.sq_sqrt (by nlinarith)]
  have e3 : momOf m3 (W - y) ^ 2 = (W - y) ^ 2 - m3 ^ 2 := by unfold momOf; rw [Real.sq_sqrt (by nlinarith)]
  set p := momOf m2 y
  set q := momOf m3 (W - y)
  have cs : p * q + m2 * m3 ≤ y * (W - y) := by
    apply abs_le_of_sq_le_sq' _ (mul_nonneg (by linarith) (by linarith)) |>.2
    have : (y * (W - y)) ^ 2 = (p ^ 2 + m2 ^ 2) * (q ^ 2 + m3 ^ 2) := by rw [e2, e3]; ring
    rw [this]
    nlinarith [sq_nonneg (p * m3 - q * m2)]
  apply abs_lt_of_sq_lt_sq' _ h1.le |>.2
  nlinarith

/-! ## Integrals over the energies of the products -/

/-- Energies of two products that leave enough for the third. -/
def triSet (M m1 m2 m3 : ℝ) : Set (ℝ × ℝ) := {z | m1 < z.1 ∧ m2 < z.2 ∧ z.1 + z.2 < M - m3}

theorem triSet_measurable (M m1 m2 m3 : ℝ) : MeasurableSet (triSet M m1 m2 m3) := by
  unfold triSet
  exact (measurableSet_lt measurable_const measurable_fst).inter
    ((measurableSet_lt measurable_const measurable_snd).inter
      (measurableSet_lt (measurable_fst.add measurable_snd) measurable_const))

theorem triSet_finite (M m1 m2 m3 : ℝ) : (volume.prod volume) (triSet M m1 m2 m3) ≠ ⊤ := by
  have : triSet M m1 m2 m3 ⊆ Ioo m1 (M - m3 - m2) ×ˢ Ioo m2 (M - m3 - m1) := by
    rintro ⟨x, y⟩ ⟨h1, h2, h3⟩
    dsimp only at h1 h2 h3
    exact ⟨⟨h1, by dsimp only; linarith⟩, ⟨h2, by dsimp only; linarith⟩⟩
  refine ne_top_of_le_ne_top ?_ (measure_mono this)
  rw [Measure.prod_prod, Real.volume_Ioo, Real.volume_Ioo]
  exact ENNReal.mul_ne_top ENNReal.ofReal_ne_top ENNReal.ofReal_ne_top

/-- Measurable and bounded on the region. -/
structure TriNice (M m1 m2 m3 : ℝ) (w : ℝ → ℝ → ℝ) : Prop where
  meas : Measurable fun z : ℝ × ℝ => w z.1 z.2
  bdd : ∃ C, ∀ z ∈ triSet M m1 m2 m3, |w z.1 z.2| ≤ C

theorem TriNice.integrable {M m1 m2 m3 : ℝ} {w : ℝ → ℝ → ℝ} (h : TriNice M m1 m2 m3 w) :
    IntegrableOn (fun z : ℝ × ℝ => w z.1 z.2) (triSet M m1 m2 m3) (volume.prod volume) := by
  obtain ⟨C, hC⟩ := h.bdd
  apply Measure.integrableOn_of_bounded (M := C) (triSet_finite M m1 m2 m3) h.meas.aestronglyMeasurable
  rw [ae_restrict_iff' (triSet_measurable M m1 m2 m3)]
  exact Filter.Eventually.of_forall fun z hz => by rw [Real.norm_eq_abs]; exact hC z hz

theorem TriNice.iterated {M m1 m2 m3 : ℝ} {w : ℝ → ℝ → ℝ} (h : TriNice M m1 m2 m3 w) (hM : m1 + m2 + m3 ≤ M) :
    ∫ z in triSet M m1 m2 m3, w z.1 z.2 ∂(volume.prod volume)
      = ∫ x in m1..(M - m2 - m3), ∫ y in m2..(M - m3 - x), w x y := by
  rw [← integral_indicator (triSet_measurable M m1 m2 m3),
    integral_prod _ ((integrable_indicator_iff (triSet_measurable M m1 m2 m3)).mpr h.integrable),
    intervalIntegral.integral_of_le (by linarith), integral_Ioc_eq_integral_Ioo, ← integral_indicator measurableSet_Ioo]
  congr 1
  funext x
  by_cases hx : x ∈ Ioo m1 (M - m2 - m3)
  · rw [indicator_of_mem hx, intervalIntegral.integral_of_le (by linarith [hx.2]), integral_Ioc_eq_integral_Ioo,
      ← integral_indicator measurableSet_Ioo]
    congr 1
    funext y
    by_cases hy : y ∈ Ioo m2 (M - m3 - x)
    · rw [indicator_of_mem hy, indicator_of_mem]
      exact ⟨hx.1, hy.1, by dsimp only; linarith [hy.2]⟩
    · rw [indicator_of_notMem hy, indicator_of_notMem]
      rintro ⟨h1, h2, h3⟩
      dsimp only at h1 h2 h3
      exact hy ⟨h2, by linarith⟩
  · rw [indicator_of_notMem hx]
    rw [show (fun y => (triSet M m1 m2 m3).indicator (fun z : ℝ × ℝ => w z.1 z.2) (x, y)) = fun _ => 0 from ?_]
    · simp
    funext y
    rw [indicator_of_notMem]
    rintro ⟨h1, h2, h3⟩
    dsimp only at h1 h2 h3
    exact hx ⟨h1, by linarith⟩

theorem TriNice.swap {M m1 m2 m3 : ℝ} {w : ℝ → ℝ → ℝ} (h : TriNice M m1 m2 m3 w) :
    TriNice M m2 m1 m3 (fun y x => w x y) where
  meas := h.meas.comp measurable_swap
  bdd := by
    obtain ⟨C, hC⟩ := h.bdd
    exact ⟨C, fun z hz => hC z.swap ⟨hz.2.1, hz.1, by rw [Prod.fst_swap, Prod.snd_swap, add_comm]; exact hz.2.2⟩⟩

theorem tri_exchange {M m1 m2 m3 : ℝ} {w : ℝ → ℝ → ℝ} (h : TriNice M m1 m2 m3 w) (hM : m1 + m2 + m3 ≤ M) :
    ∫ x in m1..(M - m2 - m3), ∫ y in m2..(M - m3 - x), w x y
      = ∫ y in m2..(M - m1 - m3), ∫ x in m1..(M - m3 - y), w x y := by
  rw [← h.iterated hM, ← h.swap.iterated (by linarith), ← integral_indicator (triSet_measurable M m1 m2 m3),
    ← integral_indicator (triSet_measurable M m2 m1 m3), ← integral_prod_swap]
  congr 1
  funext z
  by_cases hz : z.swap ∈ triSet M m1 m2 m3
  · rw [indicator_of_mem hz, indicator_of_mem]
    · rfl
    · exact ⟨hz.2.1, hz.1, by have := hz.2.2; rw [Prod.fst_swap, Prod.snd_swap] at this; linarith⟩
  · rw [indicator_of_notMem hz, indicator_of_notMem]
    intro hz'
    exact hz ⟨hz'.2.1, hz'.1, by rw [Prod.fst_swap, Prod.snd_swap]; linarith [hz'.2.2]⟩

theorem tri_reflect (M m1 m2 m3 : ℝ) (w : ℝ → ℝ → ℝ) :
    ∫ x in m1..(M - m2 - m3), ∫ y in m2..(M - m3 - x), w x y
      = ∫ x in m1..(M - m3 - m2), ∫ z in m3..(M - m2 - x), w x (M - x - z) := by
  rw [show M - m2 - m3 = M - m3 - m2 by ring]
  apply intervalIntegral.integral_congr
  intro x _
  beta_reduce
  have := intervalIntegral.integral_comp_sub_left (fun y => w x y) (M - x) (a := m3) (b := M - m2 - x)
  rw [show M - x - (M - m2 - x) = m2 by ring, show M - x - m3 = M - m3 - x by ring] at this
  exact this.symm

theorem sgn_measurable : Measurable sgn := by
  unfold sgn
  exact (Measurable.ite measurableSet_Ioi measurable_const measurable_const).sub
    (Measurable.ite measurableSet_Iio measurable_const measurable_const)

theorem sgn_abs_le (x : ℝ) : |sgn x| ≤ 1 := by
  unfold sgn; split_ifs <;> norm_num

theorem Db1_abs_le (a b c : ℝ) : |Db1 a b c| ≤ 2 := by
  rw [Db1_eq]
  have h1 := abs_le.mp (sgn_abs_le (a + b - c))
  have h2 := abs_le.mp (sgn_abs_le (a - b + c))
  have h3 := abs_le.mp (sgn_abs_le (-a + b + c))
  have h4 := abs_le.mp (sgn_abs_le (a + b + c))
  rw [abs_le]
  constructor <;> linarith [h1.1, h1.2, h2.1, h2.2, h3.1, h3.2, h4.1, h4.2]

theorem Db1_measurable {α : Type*} [MeasurableSpace α] {f g h : α → ℝ} (hf : Measurable f) (hg : Measurable g) (hh : Measurable h) :
    Measurable fun z => Db1 (f z) (g z) (h z) := by
  have e : (fun z => Db1 (f z) (g z) (h z)) = fun z => 1 / 2 * (sgn (f z + g z - h z) + sgn (f z - g z + h z)
      + sgn (-f z + g z + h z) - sgn (f z + g z + h z)) := by funext z; exact Db1_eq _ _ _
  rw [e]
  refine Measurable.const_mul ?_ _
  exact (((sgn_measurable.comp ((hf.add hg).sub hh)).add (sgn_measurable.comp ((hf.sub hg).add hh))).add
    (sgn_measurable.comp ((hf.neg.add hg).add hh))).sub (sgn_measurable.comp ((hf.add hg).add hh))

/-! ## Three products, one of them with a weight -/

/-- Phase space of three products of masses `a`, `b`, `c` of a particle of mass `M` at rest, with a weight that depends on the
energy of the first: `∫ dE p √λ(s, b², c²) / s w(E)` with the invariant mass squared `s` of the other two. -/
noncomputable def dalitz (M a b c : ℝ) (w : ℝ → ℝ) : ℝ :=
  ∫ E in a..(M ^ 2 + a ^ 2 - (b + c) ^ 2) / (2 * M),
    √(E ^ 2 - a ^ 2) * √(kallen (M ^ 2 + a ^ 2 - 2 * M * E) (b ^ 2) (c ^ 2)) / (M ^ 2 + a ^ 2 - 2 * M * E) * w E

theorem dalitz_comm (M a b c : ℝ) (w : ℝ → ℝ) : dalitz M a b c w = dalitz M a c b w := by
  unfold dalitz
  rw [add_comm b c]
  congr 1
  funext E
  rw [show kallen (M ^ 2 + a ^ 2 - 2 * M * E) (b ^ 2) (c ^ 2) = kallen (M ^ 2 + a ^ 2 - 2 * M * E) (c ^ 2) (b ^ 2) by
    unfold kallen; ring]

/-- Whether the momenta belonging to the energies can close. -/
noncomputable def closes (M m1 m2 m3 x y : ℝ) : ℝ := Db1 (momOf m1 x) (momOf m2 y) (momOf m3 (M - x - y))

theorem closes_swap (M m1 m2 m3 x y : ℝ) : closes M m1 m2 m3 x y = closes M m2 m1 m3 y x := by
  unfold closes
  rw [Db1_swap12, show M - x - y = M - y - x by ring]

theorem closes_reflect (M m1 m2 m3 x z : ℝ) : closes M m1 m2 m3 x (M - x - z) = closes M m1 m3 m2 x z := by
  unfold closes
  rw [Db1_swap23, show M - x - (M - x - z) = z by ring]

theorem dalitz_fst {M m1 m2 m3 : ℝ} (hM : 0 < M) (h1 : 0 ≤ m1) (h2 : 0 ≤ m2) (h3 : 0 ≤ m3) (ho : m1 + m2 + m3 ≤ M)
    (G : ℝ → ℝ) :
    ∫ x in m1..(M - m2 - m3), ∫ y in m2..(M - m3 - x), closes M m1 m2 m3 x y * G x = dalitz M m1 m2 m3 G := by
  set X := (M ^ 2 + m1 ^ 2 - (m2 + m3) ^ 2) / (2 * M) with hX
  have x1 : m1 ≤ X := by rw [hX, le_div_iff₀ (by positivity)]; nlinarith
  have x2 : X ≤ M - m2 - m3 := by rw [hX, div_le_iff₀ (by positivity)]; nlinarith
  have inv : ∀ x, m1 ≤ x → (M - x) ^ 2 - momOf m1 x ^ 2 = M ^ 2 + m1 ^ 2 - 2 * M * x := by
    intro x hx
    unfold momOf
    rw [Real.sq_sqrt (by nlinarith)]
    ring
  unfold dalitz
  rw [← hX, intervalIntegral.integral_of_le (x1.trans x2), intervalIntegral.integral_of_le x1,
    setIntegral_eq_of_subset_of_forall_sdiff_eq_zero measurableSet_Ioc (Ioc_subset_Ioc_right x2),
    integral_Ioc_eq_integral_Ioo, integral_Ioc_eq_integral_Ioo]
  · apply setIntegral_congr_fun measurableSet_Ioo
    intro x hx
    beta_reduce
    have hs : (m2 + m3) ^ 2 < M ^ 2 + m1 ^ 2 - 2 * M * x := by
      have := (lt_div_iff₀ (by positivity)).mp hx.2; linarith
    have hW : 0 < M - x := by linarith [hx.2]
    rw [intervalIntegral.integral_mul_const, show M - m3 - x = M - x - m3 by ring]
    unfold closes
    rw [inner_length hW (inv x hx.1.le).symm (momOf_pos m1 x h1 hx.1) h2 h3 hs]
    rfl
  · intro x hx
    have hx1 : X < x := by
      by_contra hn
      exact hx.2 ⟨hx.1.1, not_lt.mp hn⟩
    have hs : M ^ 2 + m1 ^ 2 - 2 * M * x < (m2 + m3) ^ 2 := by
      have := (div_lt_iff₀ (by positivity)).mp hx1; linarith
    rw [intervalIntegral.integral_congr_Ioo_of_le (g := fun _ => 0) (by linarith [hx.1.2])]
    · simp
    · intro y hy
      unfold closes
      beta_reduce
      rw [beyond_edge (momOf_pos m1 x h1 (by linarith)) h2 h3 hy.1 (by linarith [hy.2]) (by rw [inv x (by linarith)]; exact hs),
        zero_mul]

theorem closes_nice (M m1 m2 m3 : ℝ) {g : ℝ → ℝ → ℝ} (hg : Continuous fun z : ℝ × ℝ => g z.1 z.2) :
    TriNice M m1 m2 m3 (fun x y => closes M m1 m2 m3 x y * g x y) where
  meas := by
    refine Measurable.mul ?_ hg.measurable
    exact Db1_measurable ((momOf_measurable m1).comp measurable_fst) ((momOf_measurable m2).comp measurable_snd)
      ((momOf_measurable m3).comp ((measurable_const.sub measurable_fst).sub measurable_snd))
  bdd := by
    obtain ⟨C, hC⟩ := (isCompact_Icc (a := (m1, m2)) (b := (M - m3 - m2, M - m3 - m1))).exists_bound_of_continuousOn hg.continuousOn
    refine ⟨2 * C, fun z hz => ?_⟩
    obtain ⟨z1, z2, z3⟩ := hz
    have := hC z ⟨⟨z1.le, z2.le⟩, ⟨by dsimp only; linarith, by dsimp only; linarith⟩⟩
    rw [Real.norm_eq_abs] at this
    rw [abs_mul]
    exact mul_le_mul (Db1_abs_le _ _ _) this (abs_nonneg _) (by norm_num)

/-- The double integral over the energies, whichever of the three products carries the weight. -/
theorem dalitz_all {M m1 m2 m3 : ℝ} (hM : 0 < M) (h1 : 0 ≤ m1) (h2 : 0 ≤ m2) (h3 : 0 ≤ m3) (ho : m1 + m2 + m3 ≤ M)
    {G : ℝ → ℝ} (hG : Continuous G) :
    (∫ x in m1..(M - m2 - m3), ∫ y in m2..(M - m3 - x), closes M m1 m2 m3 x y * G x = dalitz M m1 m2 m3 G) ∧
    (∫ x in m1..(M - m2 - m3), ∫ y in m2..(M - m3 - x), closes M m1 m2 m3 x y * G y = dalitz M m2 m1 m3 G) ∧
    (∫ x in m1..(M - m2 - m3), ∫ y in m2..(M - m3 - x), closes M m1 m2 m3 x y * G (M - x - y) = dalitz M m3 m1 m2 G) := by
  have snd : ∀ a b c : ℝ, 0 ≤ a → 0 ≤ b → 0 ≤ c → a + b + c ≤ M →
      ∫ x in a..(M - b - c), ∫ y in b..(M - c - x), closes M a b c x y * G y = dalitz M b a c G := by
    intro a b c ha hb hc hs
    rw [tri_exchange (closes_nice M a b c (g := fun _ y => G y) (by fun_prop)) hs,
      ← dalitz_fst hM hb ha hc (by linarith)]
    simp only [closes_swap M a b c]
  refine ⟨dalitz_fst hM h1 h2 h3 ho G, snd m1 m2 m3 h1 h2 h3 ho, ?_⟩
  rw [tri_reflect, ← snd m1 m3 m2 h1 h3 h2 (by linarith)]
  simp only [closes_reflect, show ∀ x z : ℝ, M - x - (M - x - z) = z from fun x z => by ring]

/-- Sums over matrix elements. -/
theorem tri_sum {M m1 m2 m3 : ℝ} (ho : m1 + m2 + m3 ≤ M) {α : Type*} (w : α → ℝ → ℝ → ℝ) (t : α → ℝ) : ∀ l : List α,
    (∀ a ∈ l, TriNice M m1 m2 m3 (w a)) →
    (∀ a ∈ l, ∫ x in m1..(M - m2 - m3), ∫ y in m2..(M - m3 - x), w a x y = t a) →
    TriNice M m1 m2 m3 (fun x y => (l.map fun a => w a x y).sum) ∧
    ∫ x in m1..(M - m2 - m3), ∫ y in m2..(M - m3 - x), (l.map fun a => w a x y).sum = (l.map t).sum
  | [], _, _ => by
    refine ⟨⟨by simp, ⟨0, by simp⟩⟩, by simp⟩
  | a :: l, hn, ht => by
    obtain ⟨n, e⟩ := tri_sum ho w t l (fun b hb => hn b (by simp [hb])) (fun b hb => ht b (by simp [hb]))
    have na := hn a (by simp)
    have hsum : TriNice M m1 m2 m3 (fun x y => w a x y + (l.map fun a => w a x y).sum) := by
      refine ⟨na.meas.add n.meas, ?_⟩
      obtain ⟨C, hC⟩ := na.bdd
      obtain ⟨D, hD⟩ := n.bdd
      exact ⟨C + D, fun z hz => (abs_add_le _ _).trans (add_le_add (hC z hz) (hD z hz))⟩
    simp only [List.map_cons, List.sum_cons]
    refine ⟨hsum, ?_⟩
    rw [← e, ← ht a (by simp), ← hsum.iterated ho, ← na.iterated ho, ← n.iterated ho]
    exact integral_add na.integrable n.integrable

end PyBBN
