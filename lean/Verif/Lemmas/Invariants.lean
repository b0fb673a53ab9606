import Mathlib.Analysis.Calculus.MeanValue
import Mathlib.MeasureTheory.Integral.IntervalIntegral.FundThmCalculus
import Mathlib.Topology.MetricSpace.Pseudo.Pi
/-!
# Quantities conserved by all events of a reaction are affine in the energy
-/
namespace PyBBN

open Set Filter Topology

/-- Cauchy's equation near zero. -/
theorem additive_local {G : ℝ → ℝ} {δ : ℝ} (hδ : 0 < δ) (hc : ContinuousOn G (Ioo (-δ) δ))
    (H : ∀ s t, |s| < δ → |t| < δ → |s + t| < δ → G (s + t) = G s + G t) :
    ∃ c, ∀ s, |s| < δ / 4 → G s = c * s := by
  have h0 : G 0 = 0 := by
    have := H 0 0 (by simpa) (by simpa) (by simpa)
    simp at this; exact this
  set K : ℝ → ℝ := fun x => G (max (-(δ / 2)) (min x (δ / 2))) with hK
  have hKc : Continuous K := by
    refine hc.comp_continuous (by fun_prop) fun x => ⟨?_, ?_⟩
    · exact lt_of_lt_of_le (by linarith) (le_max_left _ _)
    · exact max_lt (by linarith) (lt_of_le_of_lt (min_le_right _ _) (by linarith))
  have hKG : ∀ x, |x| ≤ δ / 2 → K x = G x := by
    intro x hx
    rw [abs_le] at hx
    simp only [hK]
    rw [min_eq_left hx.2, max_eq_right hx.1]
  have hη : 0 < δ / 4 := by linarith
  set η := δ / 4 with hηd
  have key : ∀ s, |s| < η → G s = ((∫ x in (0 : ℝ)..(s + η), K x) - (∫ x in (0 : ℝ)..s, K x) - ∫ x in (0 : ℝ)..η, K x) / η := by
    intro s hs
    rw [abs_lt] at hs
    have e1 : (∫ x in (0 : ℝ)..(s + η), K x) - (∫ x in (0 : ℝ)..s, K x) = ∫ x in s..(s + η), K x :=
      intervalIntegral.integral_interval_sub_left (hKc.intervalIntegrable _ _) (hKc.intervalIntegrable _ _)
    have e2 : ∫ x in s..(s + η), K x = ∫ t in (0 : ℝ)..η, K (s + t) := by
      rw [intervalIntegral.integral_comp_add_left (f := K)]; simp
    have e3 : ∫ t in (0 : ℝ)..η, K (s + t) = ∫ t in (0 : ℝ)..η, (G s + K t) := by
      apply intervalIntegral.integral_congr
      intro t ht
      rw [uIcc_of_le hη.le] at ht
      obtain ⟨t1, t2⟩ := ht
      have a1 : |s + t| ≤ δ / 2 := by rw [abs_le]; constructor <;> linarith
      have a2 : |t| ≤ δ / 2 := by rw [abs_le]; constructor <;> linarith
      simp only
      rw [hKG _ a1, hKG _ a2, H s t (by rw [abs_lt]; constructor <;> linarith) (by linarith) (by linarith)]
    rw [e1, e2, e3, intervalIntegral.integral_add intervalIntegrable_const (hKc.intervalIntegrable _ _),
      intervalIntegral.integral_const]
    simp only [sub_zero, smul_eq_mul, add_sub_cancel_right]
    field_simp
  have hF : ∀ x, HasDerivAt (fun y => ∫ z in (0 : ℝ)..y, K z) (K x) x := fun x =>
    (hKc.integral_hasStrictDerivAt 0 x).hasDerivAt
  have hd : ∀ s ∈ Ioo (-η) η, HasDerivAt G (G η / η) s := by
    intro s hs
    have hs' : |s| < η := abs_lt.mpr hs
    have h1 : HasDerivAt (fun s => ((∫ x in (0 : ℝ)..(s + η), K x) - (∫ x in (0 : ℝ)..s, K x) - ∫ x in (0 : ℝ)..η, K x) / η)
        ((K (s + η) - K s) / η) s := by
      have g : HasDerivAt (fun s => ∫ x in (0 : ℝ)..(s + η), K x) (K (s + η)) s := by
        have := (hF (s + η)).comp s ((hasDerivAt_id s).add_const η)
        rw [mul_one] at this
        exact this
      exact ((g.sub (hF s)).sub_const _).div_const _
    have e : (K (s + η) - K s) / η = G η / η := by
      rw [hKG _ (by rw [abs_le]; constructor <;> linarith [hs.1, hs.2]), hKG s (by linarith),
        H s η (by linarith) (by rw [abs_of_pos hη]; linarith) (by rw [abs_lt]; constructor <;> linarith [hs.1, hs.2])]
      ring
    rw [← e]
    refine h1.congr_of_eventuallyEq ?_
    filter_upwards [Ioo_mem_nhds hs.1 hs.2] with x hx
    exact key x (abs_lt.mpr hx)
  refine ⟨G η / η, fun s hs => ?_⟩
  have hs' := abs_lt.mp hs
  have hd2 : ∀ x ∈ Ioo (-η) η, HasDerivAt (fun x => G x - G η / η * x) 0 x := by
    intro x hx
    have := (hd x hx).sub ((hasDerivAt_id x).const_mul (G η / η))
    rw [mul_one, sub_self] at this
    exact this
  have := IsOpen.is_const_of_deriv_eq_zero isOpen_Ioo isPreconnected_Ioo
    (fun x hx => (hd2 x hx).differentiableAt.differentiableWithinAt) (fun x hx => (hd2 x hx).deriv)
    (show s ∈ Ioo (-η) η from hs') (show (0 : ℝ) ∈ Ioo (-η) η from ⟨by linarith, hη⟩)
  simp only [h0, mul_zero, sub_zero] at this
  linarith

/-- Pexider's equation near zero. -/
theorem pexider_local {A B C : ℝ → ℝ} {δ : ℝ} (hδ : 0 < δ) (hc : ContinuousOn A (Ioo (-δ) δ))
    (hA : A 0 = 0) (hB : B 0 = 0) (H : ∀ s t, |s| < δ → |t| < δ → A s + B t = C (s + t)) :
    ∃ c, ∀ s, |s| < δ / 4 → A s = c * s ∧ B s = c * s ∧ C s = c * s := by
  have z : |(0 : ℝ)| < δ := by simpa
  have e1 : ∀ s, |s| < δ → A s = C s := fun s hs => by
    have := H s 0 hs z; rw [hB] at this; simpa using this
  have e2 : ∀ s, |s| < δ → B s = C s := fun s hs => by
    have := H 0 s z hs; rw [hA] at this; simpa using this
  obtain ⟨c, h⟩ := additive_local hδ hc fun s t hs ht hst => by
    rw [e1 _ hst, ← H s t hs ht, e2 t ht, e1 t ht]
  refine ⟨c, fun s hs => ?_⟩
  have hs' : |s| < δ := by linarith
  exact ⟨h s hs, by rw [e2 s hs', ← e1 s hs', h s hs], by rw [← e1 s hs', h s hs]⟩

/-- Locally affine functions on an open interval are affine. -/
theorem affine_of_local {S : Set ℝ} (hS : IsOpen S) (hSc : IsPreconnected S) {x0 : ℝ} (hx0 : x0 ∈ S) {φ k : ℝ → ℝ}
    (h : ∀ x, x ∈ S → ∃ ε, 0 < ε ∧ ∀ s, |s| < ε → φ (x + s) = φ x + k x * s) :
    ∃ c d, (∀ x, x ∈ S → φ x = c * x + d) ∧ ∀ x, x ∈ S → k x = c := by
  have hd : ∀ x, x ∈ S → ∀ᶠ y in 𝓝 x, HasDerivAt φ (k x) y := by
    intro x hx
    obtain ⟨ε, hε, hs⟩ := h x hx
    filter_upwards [Ioo_mem_nhds (show x - ε < x by linarith) (show x < x + ε by linarith)] with y hy
    have h1 : HasDerivAt (fun z => φ x + k x * (z - x)) (k x) y := by
      have := (((hasDerivAt_id y).sub_const x).const_mul (k x)).const_add (φ x)
      simpa using this
    refine h1.congr_of_eventuallyEq ?_
    filter_upwards [Ioo_mem_nhds hy.1 hy.2] with z hz
    have := hs (z - x) (by rw [abs_lt]; constructor <;> linarith [hz.1, hz.2])
    rw [show x + (z - x) = z by ring] at this
    exact this
  have hk : ∀ x, x ∈ S → deriv φ x = k x := fun x hx => (hd x hx).self_of_nhds.deriv
  have hdd : ∀ x, x ∈ S → HasDerivAt (deriv φ) 0 x := by
    intro x hx
    have h1 : deriv φ =ᶠ[𝓝 x] fun _ => k x := by
      filter_upwards [hd x hx] with y hy
      exact hy.deriv
    exact (hasDerivAt_const x (k x)).congr_of_eventuallyEq h1
  have hconst : ∀ x, x ∈ S → k x = k x0 := by
    intro x hx
    rw [← hk x hx, ← hk x0 hx0]
    exact IsOpen.is_const_of_deriv_eq_zero hS hSc
      (fun y hy => (hdd y hy).differentiableAt.differentiableWithinAt) (fun y hy => (hdd y hy).deriv) hx hx0
  set c := k x0 with hcdef
  have hz : ∀ x, x ∈ S → HasDerivAt (fun x => φ x - c * x) 0 x := by
    intro x hx
    have h1 := (hd x hx).self_of_nhds
    rw [hconst x hx] at h1
    have := h1.sub ((hasDerivAt_id x).const_mul c)
    rw [mul_one, sub_self] at this
    exact this
  refine ⟨c, φ x0 - c * x0, fun x hx => ?_, hconst⟩
  have := IsOpen.is_const_of_deriv_eq_zero hS hSc
    (fun y hy => (hz y hy).differentiableAt.differentiableWithinAt) (fun y hy => (hz y hy).deriv) hx hx0
  linarith

section
variable {n : ℕ} (σ m : Fin n → ℝ) (φ : Fin n → ℝ → ℝ) (U : Set (Fin n → ℝ))

/-- Changing three energies so that the total is kept. -/
noncomputable def shift3 (i j k : Fin n) (s t : ℝ) : Fin n → ℝ :=
  fun l => σ l * ((Pi.single i s : Fin n → ℝ) l + (Pi.single j t : Fin n → ℝ) l - (Pi.single k (s + t) : Fin n → ℝ) l)

variable {σ m φ U}

/-- A function of three or more energies conserved in all events near a possible one has the same slope in each. -/
theorem invariant_local (hσ : ∀ l, σ l * σ l = 1) (hU : IsOpen U)
    (hcons : ∀ e ∈ U, ∑ l, σ l * e l = 0 → ∑ l, σ l * φ l (e l) = 0) {e : Fin n → ℝ} (he : e ∈ U) (h0 : ∑ l, σ l * e l = 0)
    (hcont : ∀ l, ∀ᶠ x in 𝓝 (e l), ContinuousAt (φ l) x) {i j k : Fin n} (hij : i ≠ j) (hik : i ≠ k) (hjk : j ≠ k) :
    ∃ c ε, 0 < ε ∧ ∀ s, |s| < ε → φ i (e i + s) = φ i (e i) + c * s ∧ φ j (e j + s) = φ j (e j) + c * s := by
  have hsc : Continuous fun q : ℝ × ℝ => e + shift3 σ i j k q.1 q.2 := by
    refine continuous_const.add (continuous_pi fun l => ?_)
    unfold shift3
    by_cases a : l = i
    · subst a; simp [hij, hik]; fun_prop
    · by_cases b : l = j
      · subst b; simp [a, hjk]; fun_prop
      · by_cases c : l = k
        · subst c; simp [a, b]; fun_prop
        · simp [a, b, c]; fun_prop
  have hz : e + shift3 σ i j k 0 0 = e := by
    funext l; simp [shift3]
  have hnear : ∀ᶠ q : ℝ × ℝ in 𝓝 (0, 0), e + shift3 σ i j k q.1 q.2 ∈ U := by
    have : Tendsto (fun q : ℝ × ℝ => e + shift3 σ i j k q.1 q.2) (𝓝 (0, 0)) (𝓝 e) := by
      have := hsc.tendsto (0, 0)
      simp only [hz] at this
      exact this
    exact this (hU.mem_nhds he)
  obtain ⟨δ₁, hδ₁, hb⟩ := Metric.eventually_nhds_iff.mp hnear
  obtain ⟨δ₂, hδ₂, hb2⟩ := Metric.eventually_nhds_iff.mp (hcont i)
  set δ := min δ₁ δ₂ with hδd
  have hδ : 0 < δ := lt_min hδ₁ hδ₂
  have habs : ∀ l, |σ l| = 1 := fun l => by
    have h := hσ l
    have h2 : |σ l| * |σ l| = 1 := by rw [abs_mul_abs_self]; exact h
    nlinarith [abs_nonneg (σ l)]
  let A : ℝ → ℝ := fun s => σ i * (φ i (e i + σ i * s) - φ i (e i))
  let B : ℝ → ℝ := fun s => σ j * (φ j (e j + σ j * s) - φ j (e j))
  let C : ℝ → ℝ := fun s => -(σ k * (φ k (e k - σ k * s) - φ k (e k)))
  have hA : ContinuousOn A (Ioo (-δ) δ) := by
    intro s hs
    have h1 : ContinuousAt (φ i) (e i + σ i * s) := by
      apply hb2
      rw [Real.dist_eq, add_sub_cancel_left, abs_mul, habs, one_mul]
      exact lt_of_lt_of_le (abs_lt.mpr hs) (min_le_right _ _)
    have h2 : ContinuousAt (fun s => φ i (e i + σ i * s)) s :=
      ContinuousAt.comp (f := fun s => e i + σ i * s) h1 (by fun_prop)
    exact (continuousAt_const.mul (h2.sub continuousAt_const)).continuousWithinAt
  have hH : ∀ s t, |s| < δ → |t| < δ → A s + B t = C (s + t) := by
    intro s t hs ht
    have hmem : e + shift3 σ i j k s t ∈ U := by
      refine hb (y := (s, t)) ?_
      rw [Prod.dist_eq, Real.dist_eq, Real.dist_eq, sub_zero, sub_zero]
      exact max_lt (lt_of_lt_of_le hs (min_le_left _ _)) (lt_of_lt_of_le ht (min_le_left _ _))
    have hsum : ∑ l, σ l * (e + shift3 σ i j k s t) l = 0 := by
      have e1 : ∀ l, σ l * (e + shift3 σ i j k s t) l = σ l * e l +
          ((Pi.single i s : Fin n → ℝ) l + (Pi.single j t : Fin n → ℝ) l - (Pi.single k (s + t) : Fin n → ℝ) l) := by
        intro l
        rw [Pi.add_apply, shift3]
        linear_combination ((Pi.single i s : Fin n → ℝ) l + (Pi.single j t : Fin n → ℝ) l -
          (Pi.single k (s + t) : Fin n → ℝ) l) * hσ l
      rw [Finset.sum_congr rfl fun l _ => e1 l, Finset.sum_add_distrib, h0, Finset.sum_sub_distrib, Finset.sum_add_distrib,
        Finset.sum_pi_single', Finset.sum_pi_single', Finset.sum_pi_single']
      simp
    have h1 := hcons _ hmem hsum
    have h2 := hcons e he h0
    have h3 : ∑ l, ((Pi.single i (A s) : Fin n → ℝ) l + (Pi.single j (B t) : Fin n → ℝ) l -
        (Pi.single k (C (s + t)) : Fin n → ℝ) l) = 0 := by
      have e1 : ∀ l, (Pi.single i (A s) : Fin n → ℝ) l + (Pi.single j (B t) : Fin n → ℝ) l -
          (Pi.single k (C (s + t)) : Fin n → ℝ) l = σ l * φ l ((e + shift3 σ i j k s t) l) - σ l * φ l (e l) := by
        intro l
        rw [Pi.add_apply, shift3]
        by_cases a : l = i
        · subst a
          simp only [Pi.single_eq_same, Pi.single_eq_of_ne hij, Pi.single_eq_of_ne hik]
          simp only [A]; ring_nf
        · by_cases b : l = j
          · subst b
            simp only [Pi.single_eq_same, Pi.single_eq_of_ne a, Pi.single_eq_of_ne hjk]
            simp only [B]; ring_nf
          · by_cases c : l = k
            · subst c
              simp only [Pi.single_eq_same, Pi.single_eq_of_ne a, Pi.single_eq_of_ne b]
              simp only [C]; ring_nf
            · simp only [Pi.single_eq_of_ne a, Pi.single_eq_of_ne b, Pi.single_eq_of_ne c]
              simp
      rw [Finset.sum_congr rfl fun l _ => e1 l, Finset.sum_sub_distrib, h1, h2, sub_zero]
    rw [Finset.sum_sub_distrib, Finset.sum_add_distrib, Finset.sum_pi_single', Finset.sum_pi_single',
      Finset.sum_pi_single'] at h3
    simp at h3
    linarith
  obtain ⟨c, hc⟩ := pexider_local hδ hA (by simp [A]) (by simp [B]) hH
  have hfin : ∀ l : Fin n, ∀ s : ℝ, σ l * (φ l (e l + σ l * (σ l * s)) - φ l (e l)) = c * (σ l * s) →
      φ l (e l + s) = φ l (e l) + c * s := by
    intro l s h
    rw [← mul_assoc, hσ l, one_mul] at h
    have := hσ l
    linear_combination (-(φ l (e l + s) - φ l (e l)) + c * s) * hσ l + σ l * h
  refine ⟨c, δ / 4, by linarith, fun s hs => ⟨hfin i s ?_, hfin j s ?_⟩⟩
  · exact (hc (σ i * s) (by rwa [abs_mul, habs, one_mul])).1
  · exact (hc (σ j * s) (by rwa [abs_mul, habs, one_mul])).2.1

/-- Functions of the energies of three or more particles whose sum is conserved in all possible events are affine, with a
common slope, on intervals of energies which occur in some event. -/
theorem invariant_affine {S : Fin n → Set ℝ} (hS : ∀ l, IsOpen (S l)) (hSc : ∀ l, IsPreconnected (S l)) (hS0 : ∀ l, (S l).Nonempty) (hn : 3 ≤ n) (hσ : ∀ l, σ l * σ l = 1) (hU : IsOpen U)
    (hcons : ∀ e ∈ U, ∑ l, σ l * e l = 0 → ∑ l, σ l * φ l (e l) = 0)
    (hreach : ∀ l, ∀ E ∈ S l, ∃ e ∈ U, ∑ l, σ l * e l = 0 ∧ e l = E) (hm : ∀ e ∈ U, ∀ l, e l ∈ S l)
    (hcont : ∀ l, ContinuousOn (φ l) (S l)) :
    ∃ (β : ℝ) (ν : Fin n → ℝ), ∑ l, σ l * ν l = 0 ∧ ∀ l, ∀ E ∈ S l, φ l E = β * E - ν l := by
  have hev : ∀ e ∈ U, ∀ l, ∀ᶠ x in 𝓝 (e l), ContinuousAt (φ l) x := by
    intro e he l
    filter_upwards [(hS l).mem_nhds (hm e he l)] with x hx
    exact (hcont l).continuousAt ((hS l).mem_nhds hx)
  have third : ∀ i j : Fin n, ∃ k, k ≠ i ∧ k ≠ j := by
    intro i j
    by_contra hcon
    push Not at hcon
    have : (Finset.univ : Finset (Fin n)) ⊆ {i, j} := by
      intro k _
      by_cases h : k = i
      · simp [h]
      · simp [hcon k h]
    have h2 := Finset.card_le_card this
    rw [Finset.card_univ, Fintype.card_fin] at h2
    have := Finset.card_le_two (a := i) (b := j)
    omega
  have other : ∀ i : Fin n, ∃ j, j ≠ i := fun i => (third i i).imp fun _ h => h.1
  -- slopes
  have loc : ∀ l, ∀ E ∈ S l, ∃ c, ∃ ε, 0 < ε ∧ ∀ s, |s| < ε → φ l (E + s) = φ l E + c * s := by
    intro l E hE
    obtain ⟨e, he, h0, rfl⟩ := hreach l E hE
    obtain ⟨j, hj⟩ := other l
    obtain ⟨k, k1, k2⟩ := third l j
    obtain ⟨c, ε, hε, h⟩ := invariant_local hσ hU hcons he h0 (hev e he) hj.symm k1.symm k2.symm
    exact ⟨c, ε, hε, fun s hs => (h s hs).1⟩
  choose! K hK using loc
  have glob : ∀ l, ∃ c d, (∀ x, x ∈ S l → φ l x = c * x + d) ∧ ∀ x, x ∈ S l → K l x = c := fun l =>
    affine_of_local (hS l) (hSc l) (hS0 l).some_mem fun x hx => hK l x hx
  choose c d hcd _ using glob
  have hslope : ∀ i j, c i = c j := by
    intro i j
    by_cases hij : i = j
    · rw [hij]
    obtain ⟨e, he, h0, -⟩ := hreach i _ (hS0 i).some_mem
    obtain ⟨k, k1, k2⟩ := third i j
    obtain ⟨c', ε, hε, h⟩ := invariant_local hσ hU hcons he h0 (hev e he) hij k1.symm k2.symm
    have mi := hm e he i
    have mj := hm e he j
    have near : ∀ l, ∀ᶠ s in 𝓝 (0 : ℝ), e l + s ∈ S l := fun l => by
      have hc : ContinuousAt (fun s : ℝ => e l + s) 0 := by fun_prop
      exact hc.eventually_mem ((hS l).mem_nhds (by simpa using hm e he l))
    have hall : ∀ᶠ s in 𝓝[>] (0 : ℝ), (e i + s ∈ S i ∧ e j + s ∈ S j) ∧ |s| < ε ∧ 0 < s := by
      filter_upwards [((near i).and (near j)).filter_mono nhdsWithin_le_nhds, nhdsWithin_le_nhds (Metric.ball_mem_nhds (0 : ℝ) hε),
        self_mem_nhdsWithin] with s h1 h2 h3
      exact ⟨h1, by simpa using h2, h3⟩
    obtain ⟨s, ⟨si, sj⟩, hs, hs0⟩ := hall.exists
    have h1 := (h _ hs).1
    have h2 := (h _ hs).2
    rw [hcd i _ si, hcd i _ mi] at h1
    rw [hcd j _ sj, hcd j _ mj] at h2
    have a1 : (c i - c') * s = 0 := by linarith
    have a2 : (c j - c') * s = 0 := by linarith
    have ne : s ≠ 0 := hs0.ne'
    have b1 := (mul_eq_zero.mp a1).resolve_right ne
    have b2 := (mul_eq_zero.mp a2).resolve_right ne
    linarith
  have l0 : Fin n := ⟨0, by omega⟩
  refine ⟨c l0, fun l => -d l, ?_, fun l E hE => by rw [hcd l E hE, hslope l l0]; ring⟩
  obtain ⟨e, he, h0, -⟩ := hreach l0 _ (hS0 l0).some_mem
  have h1 := hcons e he h0
  have e1 : ∀ l, σ l * φ l (e l) = c l0 * (σ l * e l) + σ l * d l := by
    intro l
    rw [hcd l _ (hm e he l), hslope l l0]; ring
  rw [Finset.sum_congr rfl fun l _ => e1 l, Finset.sum_add_distrib, ← Finset.mul_sum, h0, mul_zero, zero_add] at h1
  simp only [mul_neg, Finset.sum_neg_distrib, h1, neg_zero]

/-- The same if every energy above the mass occurs. -/
theorem invariant_affine_Ioi (hn : 3 ≤ n) (hσ : ∀ l, σ l * σ l = 1) (hU : IsOpen U)
    (hcons : ∀ e ∈ U, ∑ l, σ l * e l = 0 → ∑ l, σ l * φ l (e l) = 0)
    (hreach : ∀ l E, m l < E → ∃ e ∈ U, ∑ l, σ l * e l = 0 ∧ e l = E) (hm : ∀ e ∈ U, ∀ l, m l < e l)
    (hcont : ∀ l, ContinuousOn (φ l) (Ioi (m l))) :
    ∃ (β : ℝ) (ν : Fin n → ℝ), ∑ l, σ l * ν l = 0 ∧ ∀ l E, m l < E → φ l E = β * E - ν l :=
  invariant_affine (S := fun l => Ioi (m l)) (fun _ => isOpen_Ioi) (fun _ => isPreconnected_Ioi) (fun _ => nonempty_Ioi)
    hn hσ hU hcons (fun l E hE => hreach l E hE) hm hcont

end
end PyBBN
