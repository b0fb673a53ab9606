import Verif.Lemmas.Phase4
import Verif.Props.Balance
/-!
# C102: a three-body decay and its inverse conserve particle numbers and energy

The four species of `X → a + b + c` compute their collision integrals separately, each from its own view of the
reaction, in two parts (`A` and the coefficient `B` of its own occupation number).  Specification: whatever is
additive in the decay is lost by `X`, up to the end `P` of its momentum grid, exactly as it is gained by the
products, for arbitrary spectra.
-/
namespace PyBBN
open MeasureTheory

/-! ## The kernel is a continuous function of the momenta and energies -/

/-- Sum of the averaged amplitudes. -/
noncomputable def kern (r : Fin 4 → Reactant) (Ms : List CM) (p E : Fin 4 → ℝ) : ℝ :=
  (Ms.map fun M => pairAverage (p (M.order 0)) (p (M.order 1)) (p (M.order 2)) (p (M.order 3))
    (amplitude E p (fun i => (r i).specie.m) (fun i => (r i).side) M.K1 M.K2
      (M.order 0) (M.order 1) (M.order 2) (M.order 3))).sum

theorem integral_even (a b c x y : ℝ) : ∫ d in x..y, (a + b * d ^ 2 + c * d ^ 4) =
    (a * y + b * (y ^ 3 / 3) + c * (y ^ 5 / 5)) - (a * x + b * (x ^ 3 / 3) + c * (x ^ 5 / 5)) := by
  have i1 : IntervalIntegrable (fun _ : ℝ => a) volume x y := by simp
  have i2 : IntervalIntegrable (fun d : ℝ => b * d ^ 2) volume x y :=
    (by simp : IntervalIntegrable (fun d : ℝ => d ^ 2) volume x y).const_mul b
  have i3 : IntervalIntegrable (fun d : ℝ => c * d ^ 4) volume x y :=
    (by simp : IntervalIntegrable (fun d : ℝ => d ^ 4) volume x y).const_mul c
  rw [intervalIntegral.integral_add (i1.add i2) i3, intervalIntegral.integral_add i1 i2,
    intervalIntegral.integral_const_mul, intervalIntegral.integral_const_mul]
  simp; ring

theorem average_continuous (m : Fin 4 → ℝ) (s : Fin 4 → ℤ) (K1 K2 : ℝ) (i j k l : Fin 4) :
    Continuous fun z : (Fin 4 → ℝ) × (Fin 4 → ℝ) =>
      pairAverage (z.1 i) (z.1 j) (z.1 k) (z.1 l) (amplitude z.2 z.1 m s K1 K2 i j k l) := by
  set σ : ℝ := s i * s j
  set τ : ℝ := s k * s l
  let A : (Fin 4 → ℝ) × (Fin 4 → ℝ) → ℝ := fun z => z.2 i * z.2 j + σ * (z.1 i ^ 2 + z.1 j ^ 2) / 2
  let B : (Fin 4 → ℝ) × (Fin 4 → ℝ) → ℝ := fun z => z.2 k * z.2 l + τ * (z.1 k ^ 2 + z.1 l ^ 2) / 2
  let c0 : (Fin 4 → ℝ) × (Fin 4 → ℝ) → ℝ := fun z => K1 * A z * B z + K2 * m i * m j * B z
  let c2 : (Fin 4 → ℝ) × (Fin 4 → ℝ) → ℝ := fun z => -(K1 * (A z * τ + B z * σ) / 2) - K2 * m i * m j * τ / 2
  let c4 : ℝ := K1 * σ * τ / 4
  have hA : Continuous A := by fun_prop
  have hB : Continuous B := by fun_prop
  have e : ∀ z : (Fin 4 → ℝ) × (Fin 4 → ℝ), pairAverage (z.1 i) (z.1 j) (z.1 k) (z.1 l)
      (amplitude z.2 z.1 m s K1 K2 i j k l) =
      1 / 2 * ((c0 z * exHi (z.1 i) (z.1 j) (z.1 k) (z.1 l) + c2 z * (exHi (z.1 i) (z.1 j) (z.1 k) (z.1 l) ^ 3 / 3) +
          c4 * (exHi (z.1 i) (z.1 j) (z.1 k) (z.1 l) ^ 5 / 5)) -
        (c0 z * exLo (z.1 i) (z.1 j) (z.1 k) (z.1 l) + c2 z * (exLo (z.1 i) (z.1 j) (z.1 k) (z.1 l) ^ 3 / 3) +
          c4 * (exLo (z.1 i) (z.1 j) (z.1 k) (z.1 l) ^ 5 / 5))) := by
    intro z
    apply pairAverage_eq _ _ _ _ _ (fun d => c0 z * d + c2 z * (d ^ 3 / 3) + c4 * (d ^ 5 / 5))
    intro a b
    rw [← integral_even]
    congr 1
    funext d
    simp only [amplitude, fourProduct, dot, c0, c2, c4, A, B, σ, τ]
    ring
  simp only [e]
  have hc0 : Continuous c0 := by fun_prop
  have hc2 : Continuous c2 := by fun_prop
  have h1 : Continuous fun z : (Fin 4 → ℝ) × (Fin 4 → ℝ) => exHi (z.1 i) (z.1 j) (z.1 k) (z.1 l) := by
    unfold exHi exLo; fun_prop
  have h2 : Continuous fun z : (Fin 4 → ℝ) × (Fin 4 → ℝ) => exLo (z.1 i) (z.1 j) (z.1 k) (z.1 l) := by
    unfold exLo; fun_prop
  fun_prop

theorem kern_continuous (r : Fin 4 → Reactant) (Ms : List CM) :
    Continuous fun z : (Fin 4 → ℝ) × (Fin 4 → ℝ) => kern r Ms z.1 z.2 := by
  unfold kern
  induction Ms with
  | nil => simpa using continuous_const
  | cons M Ms ih =>
    simp only [List.map_cons, List.sum_cons]
    exact (average_continuous _ _ _ _ _ _ _ _).add ih

theorem kern_bound (r : Fin 4 → Reactant) (Ms : List CM) (R : ℝ) :
    ∃ C, ∀ p E : Fin 4 → ℝ, (∀ i, |p i| ≤ R) → (∀ i, |E i| ≤ R) → |kern r Ms p E| ≤ C := by
  have hc : IsCompact ((Set.univ.pi fun _ : Fin 4 => Set.Icc (-R) R) ×ˢ (Set.univ.pi fun _ : Fin 4 => Set.Icc (-R) R)) :=
    (isCompact_univ_pi fun _ => isCompact_Icc).prod (isCompact_univ_pi fun _ => isCompact_Icc)
  obtain ⟨C, hC⟩ := hc.exists_bound_of_continuousOn (kern_continuous r Ms).continuousOn
  refine ⟨C, fun p E hp hE => hC (p, E) ⟨?_, ?_⟩⟩
  · exact fun i _ => abs_le.mp (hp i)
  · exact fun i _ => abs_le.mp (hE i)

/-- The kernel does not depend on the view. -/
theorem kern_view (r : Fin 4 → Reactant) (Ms : List CM) (σ : Equiv.Perm (Fin 4)) (s : ℤ) (hs : s = 1 ∨ s = -1)
    (p E : Fin 4 → ℝ) : kern (viewOf r σ s) (viewMs Ms σ) (p ∘ σ) (E ∘ σ) = kern r Ms p E := by
  unfold kern viewMs
  rw [List.map_map]
  congr 1
  apply List.map_congr_left
  intro M _
  simp only [Function.comp_apply]
  have := amplitude_view r p E σ s hs M.K1 M.K2 M.order
  rw [this]
  simp

/-! ## Statistics factors -/

/-- Creation minus destruction. -/
noncomputable def netFlux4 (s : Fin 4 → Reactant) (f : Fin 4 → ℝ) : ℝ := flux s f 1 - flux s f (-1)

theorem flux_update {n : ℕ} (s : Fin n → Reactant) (f : Fin n → ℝ) (i : Fin n) (x : ℝ) (t : ℤ) :
    flux s (Function.update f i x) t = (if (s i).side = t then x else 1 - (s i).specie.eta * x) *
      ∏ j ∈ Finset.univ.erase i, if (s j).side = t then f j else 1 - (s j).specie.eta * f j := by
  unfold flux
  rw [← Finset.mul_prod_erase _ _ (Finset.mem_univ i), Function.update_self]
  congr 1
  apply Finset.prod_congr rfl
  intro j hj
  rw [Function.update_of_ne (Finset.ne_of_mem_erase hj)]

theorem flux_affine {n : ℕ} (s : Fin n → Reactant) (f : Fin n → ℝ) (i : Fin n) (t : ℤ) :
    flux s f t = flux s (Function.update f i 0) t +
      f i * (flux s (Function.update f i 1) t - flux s (Function.update f i 0) t) := by
  conv_lhs => rw [← Function.update_eq_self i f]
  rw [flux_update, flux_update, flux_update]
  by_cases h : (s i).side = t
  · simp only [if_pos h]; ring
  · simp only [if_neg h]; ring

/-- The net rate is an affine function of each occupation number. -/
theorem netFlux4_affine (s : Fin 4 → Reactant) (f : Fin 4 → ℝ) (i : Fin 4) :
    netFlux4 s f = netFlux4 s (Function.update f i 0) +
      f i * (netFlux4 s (Function.update f i 1) - netFlux4 s (Function.update f i 0)) := by
  unfold netFlux4
  rw [flux_affine s f i 1, flux_affine s f i (-1)]
  ring

theorem netRate_flux (s : Fin 4 → Reactant) (f : Fin 4 → ℝ) (hs : ∀ i, (s i).side = 1 ∨ (s i).side = -1) (x : ℝ) :
    netRate (s 0) ([s 1, s 2, s 3].zip [f 1, f 2, f 3]) x = netFlux4 s (Function.update f 0 x) := by
  unfold netRate netFlux4
  have g := gain_four s (Function.update f 0 x) hs
  have l := loss_four s (Function.update f 0 x) hs
  unfold flux
  rw [← g, ← l]
  rfl

section
variable {s : Fin 4 → Reactant}

/-- The two kinds of integrals computed by `integrate`. -/
theorem kind_parts (f : Fin 4 → ℝ) (hs : ∀ i, (s i).side = 1 ∨ (s i).side = -1) (s0 : (s 0).side = -1)
    (hf : ∀ i, 0 ≤ f i) :
    kindFactor (Kind.ofInt 1) [s 0, s 1, s 2, s 3] [f 0, f 1, f 2, f 3] =
      .ok (netFlux4 s (Function.update f 0 0)) ∧
    kindFactor (Kind.ofInt 2) [s 0, s 1, s 2, s 3] [f 0, f 1, f 2, f 3] =
      .ok (netFlux4 s (Function.update f 0 1) - netFlux4 s (Function.update f 0 0)) := by
  have h2 : TwoSided ([s 1, s 2, s 3].zip [f 1, f 2, f 3]) := by
    intro x hx
    simp only [List.zip_cons_cons, List.zip_nil_right, List.mem_cons, List.not_mem_nil, or_false] at hx
    rcases hx with rfl | rfl | rfl <;> exact hs _
  have hf' : ∀ x ∈ [s 1, s 2, s 3].zip [f 1, f 2, f 3], 0 ≤ x.2 := by
    intro x hx
    simp only [List.zip_cons_cons, List.zip_nil_right, List.mem_cons, List.not_mem_nil, or_false] at hx
    rcases hx with rfl | rfl | rfl <;> exact hf _
  constructor
  · rw [(C84_kinds (s 0) _ (f 0) _ s0 h2 (hf 0) hf' 1).1 rfl, netRate_flux s f hs]
  · rw [(C84_kinds (s 0) _ (f 0) _ s0 h2 (hf 0) hf' 2).2.1 rfl, netRate_flux s f hs, netRate_flux s f hs]

open Classical in
/-- Integrand without the velocities, for occupation numbers `v`. -/
noncomputable def dens4 (s : Fin 4 → Reactant) (Ms : List CM) (v : Fin 4 → ℝ → ℝ) (cut : ℝ → ℝ → ℝ → Prop)
    (p0 p1 p2 : ℝ) : ℝ :=
  if (s 3).specie.m ≤ lastEnergy4 s p0 p1 p2 ∧ cut p0 p1 p2 then
    kern s Ms (momenta4 s p0 p1 p2) (energies4 s p0 p1 p2) *
      netFlux4 s (fun i => v i (momenta4 s p0 p1 p2 i)) else 0

/-- The configuration of the integrand is on shell. -/
theorem onShell4 (hs : ∀ i, (s i).side = 1 ∨ (s i).side = -1) (hm : ∀ i, 0 ≤ (s i).specie.m) {p0 p1 p2 : ℝ}
    (h0 : 0 ≤ p0) (h1 : 0 ≤ p1) (h2 : 0 ≤ p2) (h : (s 3).specie.m ≤ lastEnergy4 s p0 p1 p2) :
    OnShell s (momenta4 s p0 p1 p2) (energies4 s p0 p1 p2) where
  sides := hs
  mass := hm
  mom := momenta4_nonneg s h0 h1 h2
  energy i := by
    fin_cases i
    · exact (energyOf_eq _ _).symm
    · exact (energyOf_eq _ _).symm
    · exact (energyOf_eq _ _).symm
    · exact (energyOf_momOf _ _ (hm 3) h).symm
  conserved := by
    rw [Fin.sum_univ_four]
    change ((s 0).side : ℝ) * energy p0 _ + (s 1).side * energy p1 _ + (s 2).side * energy p2 _ +
      (s 3).side * lastEnergy4 s p0 p1 p2 = 0
    have h3 : ((s 3).side : ℝ) * (s 3).side = 1 := by
      rcases hs 3 with e | e <;> rw [e] <;> norm_num
    unfold lastEnergy4
    linear_combination (-(((s 0).side : ℝ) * energy p0 (s 0).specie.m + (s 1).side * energy p1 (s 1).specie.m +
      (s 2).side * energy p2 (s 2).specie.m)) * h3

open Classical in
/-- The integrand of the code for a kind with statistics factor `N`. -/
theorem integrand4_kind {F : Fin 4 → ℝ → ℝ} {Ms : List CM} (hMs : Ms ≠ []) (hK : ∀ M ∈ Ms, M.K = 0)
    (ho : ∀ M ∈ Ms, M.order.Bijective) (hs : ∀ i, (s i).side = 1 ∨ (s i).side = -1) (hm : ∀ i, 0 ≤ (s i).specie.m)
    (hocc : ∀ i p, 0 ≤ p → occAt (s i).specie p = .ok (F i p)) (k : ℤ) (N : ℝ) {p0 p1 p2 : ℝ}
    (h0 : 0 < p0) (h1 : 0 < p1) (h2 : 0 < p2)
    (hN : kindFactor (Kind.ofInt k) [s 0, s 1, s 2, s 3] [F 0 (momenta4 s p0 p1 p2 0), F 1 (momenta4 s p0 p1 p2 1),
      F 2 (momenta4 s p0 p1 p2 2), F 3 (momenta4 s p0 p1 p2 3)] = .ok N) :
    integrandFull4 p0 p1 p2 s Ms k = .ok ((p1 / energyOf (s 1).specie.m p1) / (p0 * energyOf (s 0).specie.m p0) *
      ((p2 / energyOf (s 2).specie.m p2) * (if (s 3).specie.m ≤ lastEnergy4 s p0 p1 p2 then
        kern s Ms (momenta4 s p0 p1 p2) (energies4 s p0 p1 p2) * N else 0))) := by
  by_cases h : (s 3).specie.m ≤ lastEnergy4 s p0 p1 p2
  · rw [if_pos h]
    have sh := onShell4 hs hm h0.le h1.le h2.le h
    have := C85_integrand_partial s (momenta4 s p0 p1 p2) (energies4 s p0 p1 p2) sh Ms hMs hK ho k
      (fun i => F i (momenta4 s p0 p1 p2 i)) N (fun i => hocc i _ (sh.mom i)) hN h0 h1 h2
    refine this.trans ?_
    congr 1
    change deriv _ p1 * deriv _ p2 * (kern s Ms _ _ / (p0 * energy p0 _)) * N = _
    rw [energyOf_deriv _ _ h1, energyOf_deriv _ _ h2, ← energyOf_eq]
    ring
  · rw [if_neg h, mul_zero, mul_zero]
    unfold integrandFull4
    rw [if_pos (not_le.mp h)]

/-- The two integrands in terms of the density. -/
theorem integrand4_parts {F : Fin 4 → ℝ → ℝ} {Ms : List CM} (hMs : Ms ≠ []) (hK : ∀ M ∈ Ms, M.K = 0)
    (ho : ∀ M ∈ Ms, M.order.Bijective) (hs : ∀ i, (s i).side = 1 ∨ (s i).side = -1) (s0 : (s 0).side = -1)
    (hm : ∀ i, 0 ≤ (s i).specie.m)
    (hocc : ∀ i p, 0 ≤ p → occAt (s i).specie p = .ok (F i p)) (hF : ∀ i p, 0 ≤ p → 0 ≤ F i p) {p0 p1 p2 : ℝ}
    (h0 : 0 < p0) (h1 : 0 < p1) (h2 : 0 < p2) (cut : ℝ → ℝ → ℝ → Prop) (hc : cut p0 p1 p2) :
    valOf (integrandFull4 p0 p1 p2 s Ms 1) =
      (p1 / energyOf (s 1).specie.m p1) / (p0 * energyOf (s 0).specie.m p0) * ((p2 / energyOf (s 2).specie.m p2) *
        dens4 s Ms (Function.update F 0 fun _ => 0) cut p0 p1 p2) ∧
    valOf (integrandFull4 p0 p1 p2 s Ms 2) =
      (p1 / energyOf (s 1).specie.m p1) / (p0 * energyOf (s 0).specie.m p0) * ((p2 / energyOf (s 2).specie.m p2) *
        (dens4 s Ms (Function.update F 0 fun _ => 1) cut p0 p1 p2 -
          dens4 s Ms (Function.update F 0 fun _ => 0) cut p0 p1 p2)) := by
  have hn := momenta4_nonneg s h0.le h1.le h2.le
  obtain ⟨k1, k2⟩ := kind_parts (fun i => F i (momenta4 s p0 p1 p2 i)) hs s0 fun i => hF i _ (hn i)
  have hu : ∀ c : ℝ, (fun i => (Function.update F 0 fun _ => c) i (momenta4 s p0 p1 p2 i)) =
      Function.update (fun i => F i (momenta4 s p0 p1 p2 i)) 0 c := by
    intro c
    funext i
    by_cases h : i = 0
    · subst h; simp
    · rw [Function.update_of_ne h, Function.update_of_ne h]
  rw [integrand4_kind hMs hK ho hs hm hocc 1 _ h0 h1 h2 k1, integrand4_kind hMs hK ho hs hm hocc 2 _ h0 h1 h2 k2]
  unfold dens4 valOf
  dsimp only
  rw [hu, hu]
  by_cases h : (s 3).specie.m ≤ lastEnergy4 s p0 p1 p2
  · rw [if_pos h, if_pos ⟨h, hc⟩, if_pos h, if_pos ⟨h, hc⟩]
    exact ⟨rfl, by ring⟩
  · rw [if_neg h, if_neg fun h' => h h'.1, if_neg h, if_neg fun h' => h h'.1]
    exact ⟨rfl, by ring⟩

/-! ## One entry of the loop -/

theorem exactQuad4_eq (s : Fin 4 → Reactant) (Ms : List CM) (kind : ℤ) (max3 : ℝ) (dflt : ℝ × ℝ) (p0 lo hi : ℝ) :
    exactQuad4 s Ms kind max3 dflt p0 lo hi = .ok (∫ p1 in lo..hi,
      match innerLimits (loopCtx4 s max3).type (loopCtx4 s max3).m0 (loopCtx4 s max3).m1 (loopCtx4 s max3).m2
        (loopCtx4 s max3).m3 (loopCtx4 s max3).max3 p0 p1 dflt with
      | none => 0
      | some (a, b) => ∫ p2 in a..b, valOf (integrandFull4 p0 p1 p2 s Ms kind)) := by
  unfold exactQuad4 valOf
  rfl

theorem ok_of_valOf {x : Except Err ℝ} (h : valOf x ≠ 0) : x = .ok (valOf x) := by
  cases x with
  | ok v => rfl
  | error e => exact absurd rfl h

/-- Entry of a decaying particle. -/
theorem entry4_decay (Ms : List CM) (kind : ℤ) (max3 max1 : ℝ) (dflt : ℝ × ℝ)
    (s0 : (s 0).side = -1) (s1 : (s 1).side = 1) (s2 : (s 2).side = 1) (s3 : (s 3).side = 1)
    (p0 : ℝ) (h0 : 0 < p0) (h : ℝ → ℝ → ℝ)
    (hv : ∀ p1 p2, 0 < p1 → 0 < p2 → valOf (integrandFull4 p0 p1 p2 s Ms kind) = h p1 p2) :
    alone (loopCtx4 s max3) (exactQuad4 s Ms kind max3 dflt) (0, max1) p0 =
      .ok (∫ p1 in Set.Ioi 0, ∫ p2 in Set.Ioi 0, h p1 p2) := by
  have ht : (loopCtx4 s max3).type = 2 := by simp [loopCtx4, reactionTypeSum, s0, s1, s2, s3]
  have hlim : outerLimits (loopCtx4 s max3) p0 (0, max1) =
      ((0, √((energy p0 (s 0).specie.m - (s 2).specie.m - (s 3).specie.m) ^ 2 - (s 1).specie.m ^ 2)), true) := by
    unfold outerLimits
    rw [if_pos ht]
    rfl
  unfold alone
  dsimp only
  rw [hlim, if_pos rfl, exactQuad4_eq]
  congr 1
  have hin : ∀ p1, innerLimits (loopCtx4 s max3).type (loopCtx4 s max3).m0 (loopCtx4 s max3).m1
      (loopCtx4 s max3).m2 (loopCtx4 s max3).m3 (loopCtx4 s max3).max3 p0 p1 dflt =
      some (0, p2MaxDec (s 0).specie.m (s 1).specie.m (s 2).specie.m (s 3).specie.m p0 p1) := by
    intro p1
    unfold innerLimits
    rw [if_pos ht]
    rfl
  apply integral_limits2 _ _ _ _ _ le_rfl (Real.sqrt_nonneg _)
  · intro p a b _ hp
    rw [hin] at hp
    have := Option.some.inj hp
    rw [Prod.mk.injEq] at this
    rw [← this.1, ← this.2]
    exact ⟨le_rfl, Real.sqrt_nonneg _⟩
  · intro p q hp hq hne
    rw [← hv p q hp hq] at hne
    obtain ⟨-, -, c, a, b, e, x, y⟩ := C64_decay s Ms kind max3 p0 p q _ (0, max1) dflt s0 s1 s2 s3 h0.le hp.le hq.le
      hne (ok_of_valOf hne)
    change p ≤ (outerLimits (loopCtx4 s max3) p0 (0, max1)).1.2 at c
    rw [hlim] at c
    exact ⟨hp.le, c, a, b, e, x, y⟩
  · intro p q a b hp hq _ _ _ _ _
    exact hv p q hp hq

/-- Entry of a product. -/
theorem entry4_creation (Ms : List CM) (kind : ℤ) (P max1 : ℝ) (dflt : ℝ × ℝ) (hP : 0 ≤ P)
    (s0 : (s 0).side = -1) (s1 : (s 1).side = -1) (s2 : (s 2).side = -1) (s3 : (s 3).side = 1)
    (hm2 : 0 ≤ (s 2).specie.m) (hm3 : 0 < (s 3).specie.m) (p0 : ℝ) (h0 : 0 < p0) (h : ℝ → ℝ → ℝ)
    (hv : ∀ p1 p2, 0 < p1 → 0 < p2 → momenta4 s p0 p1 p2 3 ≤ P → valOf (integrandFull4 p0 p1 p2 s Ms kind) = h p1 p2)
    (hz : ∀ p1 p2, 0 < p1 → 0 < p2 → ¬ momenta4 s p0 p1 p2 3 ≤ P → h p1 p2 = 0) :
    alone (loopCtx4 s P) (exactQuad4 s Ms kind P dflt) (0, max1) p0 =
      .ok (∫ p1 in Set.Ioi 0, ∫ p2 in Set.Ioi 0, h p1 p2) := by
  have ht : (loopCtx4 s P).type = -2 := by simp [loopCtx4, reactionTypeSum, s0, s1, s2, s3]
  have hC : ∀ p q, 0 < p → 0 < q → h p q ≠ 0 → (outerLimits (loopCtx4 s P) p0 (0, max1)).2 = true ∧
      (outerLimits (loopCtx4 s P) p0 (0, max1)).1.1 ≤ p ∧ p ≤ (outerLimits (loopCtx4 s P) p0 (0, max1)).1.2 ∧
      InnerCovered (loopCtx4 s P) p0 p q dflt := by
    intro p q hp hq hne
    have hc : momenta4 s p0 p q 3 ≤ P := by
      by_contra hn
      exact hne (hz p q hp hq hn)
    rw [← hv p q hp hq hc] at hne
    exact C64_creation s Ms kind P p0 p q _ (0, max1) dflt s0 s1 s2 s3 hm3 hm2 h0.le hp hq hne (ok_of_valOf hne) hc
  by_cases hfl : (outerLimits (loopCtx4 s P) p0 (0, max1)).2 = true
  · unfold alone
    dsimp only
    rw [if_pos hfl, exactQuad4_eq]
    congr 1
    have hord : 0 ≤ (outerLimits (loopCtx4 s P) p0 (0, max1)).1.1 ∧
        (outerLimits (loopCtx4 s P) p0 (0, max1)).1.1 ≤ (outerLimits (loopCtx4 s P) p0 (0, max1)).1.2 := by
      unfold outerLimits at hfl ⊢
      rw [if_neg (by rw [ht]; decide), if_neg (by rw [ht]; decide), if_pos ht] at hfl ⊢
      by_cases a : (loopCtx4 s P).m3 = 0
      · rw [if_pos a] at hfl; simp at hfl
      · rw [if_neg a] at hfl ⊢
        dsimp only at hfl ⊢
        split_ifs at hfl ⊢
        exact ⟨le_rfl, Real.sqrt_nonneg _⟩
    apply integral_limits2 _ _ _ _ _ hord.1 hord.2
    · intro p a b _ hp
      unfold innerLimits at hp
      rw [if_neg (by rw [ht]; decide), if_neg (by rw [ht]; decide), if_pos ht] at hp
      dsimp only at hp
      split_ifs at hp with c1 c2
      · have := Option.some.inj hp
        rw [Prod.mk.injEq] at this
        rw [← this.1, ← this.2]
        exact ⟨le_rfl, Real.sqrt_nonneg _⟩
      · have := Option.some.inj hp
        rw [Prod.mk.injEq] at this
        rw [← this.1, ← this.2]
        refine ⟨Real.sqrt_nonneg _, Real.sqrt_le_sqrt ?_⟩
        push Not at c2
        have hE : (loopCtx4 s P).m3 ≤ energy (loopCtx4 s P).max3 (loopCtx4 s P).m3 := mass_le_energy _ _
        have := pow_le_pow_left₀ c2.1.le (show (loopCtx4 s P).m3 - energy p0 (loopCtx4 s P).m0 -
          energy p (loopCtx4 s P).m1 ≤ energy (loopCtx4 s P).max3 (loopCtx4 s P).m3 - energy p0 (loopCtx4 s P).m0 -
          energy p (loopCtx4 s P).m1 by linarith) 2
        linarith
    · intro p q hp hq hne
      obtain ⟨-, a, b, c⟩ := hC p q hp hq hne
      obtain ⟨lo, hi, e, x, y⟩ := c
      exact ⟨a, b, lo, hi, e, x, y⟩
    · intro p q a b hp hq _ _ hlim ha hb
      apply hv p q hp hq
      unfold innerLimits at hlim
      rw [if_neg (by rw [ht]; decide), if_neg (by rw [ht]; decide), if_pos ht] at hlim
      dsimp only at hlim
      split_ifs at hlim with c1
      all_goals
        have hb' := (Prod.mk.injEq _ _ _ _ ▸ Option.some.inj hlim).2
        push Not at c1
        have ee : lastEnergy4 s p0 p q = energy p0 (s 0).specie.m + energy p (s 1).specie.m
            + energy q (s 2).specie.m := by
          unfold lastEnergy4
          rw [s0, s1, s2, s3]; push_cast; ring
        change √(lastEnergy4 s p0 p q ^ 2 - (s 3).specie.m ^ 2) ≤ P
        rw [← hb'] at hb
        have h1 := (Real.lt_sqrt hq.le).mp hb
        have h2 : energy q (s 2).specie.m ≤ energy P (s 3).specie.m - energy p0 (s 0).specie.m -
            energy p (s 1).specie.m := by
          apply (sq_le_sq₀ (energy_nonneg _ _) c1.1.le).mp
          rw [energy_sq]
          have : (loopCtx4 s P).m2 = (s 2).specie.m := rfl
          rw [this] at h1
          change _ ≤ (energy (loopCtx4 s P).max3 (loopCtx4 s P).m3 - energy p0 (loopCtx4 s P).m0 -
            energy p (loopCtx4 s P).m1) ^ 2
          linarith
        rw [Real.sqrt_le_left hP]
        have n0 := energy_nonneg p0 (s 0).specie.m
        have n1 := energy_nonneg p (s 1).specie.m
        have n2 := energy_nonneg q (s 2).specie.m
        have h3 := pow_le_pow_left₀ (show 0 ≤ lastEnergy4 s p0 p q by rw [ee]; linarith)
          (show lastEnergy4 s p0 p q ≤ energy P (s 3).specie.m by rw [ee]; linarith) 2
        rw [energy_sq] at h3
        linarith
  · unfold alone
    dsimp only
    rw [if_neg hfl]
    congr 1
    symm
    apply setIntegral_eq_zero_of_forall_eq_zero
    intro p hp
    apply setIntegral_eq_zero_of_forall_eq_zero
    intro q hq
    by_contra hne
    exact hfl (hC p q hp hq hne).1

end

/-! ## Density of events -/

section
variable (r : Fin 4 → Reactant) (Ms : List CM) (v : Fin 4 → ℝ → ℝ) (P : ℝ)

open Classical in
/-- Density of events over the energies of the four particles. -/
noncomputable def events4 (e : Fin 4 → ℝ) : ℝ :=
  if (∀ i, (r i).specie.m ≤ e i) ∧ e 0 ≤ energyOf (r 0).specie.m P then
    kern r Ms (fun i => momOf (r i).specie.m (e i)) e * netFlux4 r (fun i => v i (momOf (r i).specie.m (e i))) else 0

variable {r Ms v P}

theorem events4_support {e : Fin 4 → ℝ} (h : events4 r Ms v P e ≠ 0) :
    (∀ i, (r i).specie.m ≤ e i) ∧ e 0 ≤ energyOf (r 0).specie.m P := by
  by_contra hn
  apply h
  unfold events4
  exact if_neg hn

theorem update_apply_fun (i j : Fin 4) (c x : ℝ) (v : Fin 4 → ℝ → ℝ) (y : Fin 4 → ℝ) :
    (fun j => (Function.update v i fun _ => c) j (y j)) = Function.update (fun j => v j (y j)) i c := by
  funext j
  by_cases h : j = i
  · subst h; simp
  · rw [Function.update_of_ne h, Function.update_of_ne h]

/-- The density is affine in each spectrum. -/
theorem events4_affine (i : Fin 4) (e : Fin 4 → ℝ) :
    events4 r Ms v P e = events4 r Ms (Function.update v i fun _ => 0) P e +
      v i (momOf (r i).specie.m (e i)) * (events4 r Ms (Function.update v i fun _ => 1) P e -
        events4 r Ms (Function.update v i fun _ => 0) P e) := by
  unfold events4
  rw [update_apply_fun i i 0 0, update_apply_fun i i 1 0]
  split_ifs with h
  · rw [netFlux4_affine r _ i]; ring
  · ring

theorem netFlux4_measurable (hv : ∀ i, Measurable (v i)) {g : (ℝ × ℝ × ℝ) → Fin 4 → ℝ} (hg : ∀ i, Measurable fun z => g z i) :
    Measurable fun z => netFlux4 r (fun i => v i (g z i)) := by
  unfold netFlux4 flux
  have a : ∀ i, Measurable fun z => v i (g z i) := fun i => (hv i).comp (hg i)
  apply Measurable.sub <;>
  · apply Finset.measurable_fun_prod
    intro i _
    split_ifs
    · exact a i
    · exact measurable_const.sub ((a i).const_mul _)

theorem flux_bound4 (B : ℝ) (hB : 1 ≤ B) (heta : ∀ i, (r i).specie.eta = 1 ∨ (r i).specie.eta = -1)
    (x : Fin 4 → ℝ) (hx : ∀ i, |x i| ≤ B) (t : ℤ) : |flux r x t| ≤ (2 * B) ^ 4 := by
  unfold flux
  rw [Finset.abs_prod, ← Fin.prod_const 4 (2 * B)]
  apply Finset.prod_le_prod
  · intro i _; exact abs_nonneg _
  · intro i _
    have := hx i
    split_ifs
    · linarith
    · rcases heta i with h | h
      · rw [h]
        refine (abs_sub _ _).trans ?_
        push_cast
        rw [one_mul, abs_one]; linarith
      · rw [h]
        refine (abs_sub _ _).trans ?_
        push_cast
        rw [neg_one_mul, abs_neg, abs_one]; linarith

theorem momOf_le_self (m E : ℝ) (hE : 0 ≤ E) : |momOf m E| ≤ E := by
  unfold momOf
  rw [abs_of_nonneg (Real.sqrt_nonneg _), Real.sqrt_le_left hE]
  nlinarith [sq_nonneg m]

/-- The density as a function of the energies of the products. -/
theorem events4_nice (B : ℝ) (hm : ∀ i, 0 ≤ (r i).specie.m)
    (heta : ∀ i, (r i).specie.eta = 1 ∨ (r i).specie.eta = -1) (hv : ∀ i, Measurable (v i))
    (hB : ∀ i p, 0 ≤ p → |v i p| ≤ B) : Nice3 (ofProducts (events4 r Ms v P)) := by
  classical
  set R := energyOf (r 0).specie.m P with hR
  have hbox : ∀ x y z, ((∀ i, (r i).specie.m ≤ (![x + y + z, x, y, z] : Fin 4 → ℝ) i) ∧
      (![x + y + z, x, y, z] : Fin 4 → ℝ) 0 ≤ R) → (0 ≤ x ∧ 0 ≤ y ∧ 0 ≤ z) ∧ x + y + z ≤ R := by
    rintro x y z ⟨h, h0⟩
    exact ⟨⟨(hm 1).trans (h 1), (hm 2).trans (h 2), (hm 3).trans (h 3)⟩, h0⟩
  refine ⟨?_, ?_, ⟨R, ?_⟩⟩
  · unfold ofProducts events4
    have he : ∀ i, Measurable fun z : ℝ × ℝ × ℝ => (![z.1 + z.2.1 + z.2.2, z.1, z.2.1, z.2.2] : Fin 4 → ℝ) i := by
      intro i
      fin_cases i
      · exact (measurable_fst.add (measurable_fst.comp measurable_snd)).add (measurable_snd.comp measurable_snd)
      · exact measurable_fst
      · exact measurable_fst.comp measurable_snd
      · exact measurable_snd.comp measurable_snd
    have hmom : ∀ i, Measurable fun z : ℝ × ℝ × ℝ =>
        momOf (r i).specie.m ((![z.1 + z.2.1 + z.2.2, z.1, z.2.1, z.2.2] : Fin 4 → ℝ) i) :=
      fun i => (momOf_measurable _).comp (he i)
    apply Measurable.ite
    · apply MeasurableSet.inter
      · have : {z : ℝ × ℝ × ℝ | ∀ i, (r i).specie.m ≤ (![z.1 + z.2.1 + z.2.2, z.1, z.2.1, z.2.2] : Fin 4 → ℝ) i} =
            ⋂ i, {z | (r i).specie.m ≤ (![z.1 + z.2.1 + z.2.2, z.1, z.2.1, z.2.2] : Fin 4 → ℝ) i} := by
          ext z; simp
        have hms : MeasurableSet {z : ℝ × ℝ × ℝ |
            ∀ i, (r i).specie.m ≤ (![z.1 + z.2.1 + z.2.2, z.1, z.2.1, z.2.2] : Fin 4 → ℝ) i} := by
          rw [this]
          exact MeasurableSet.iInter fun i => measurableSet_le measurable_const (he i)
        exact hms
      · exact measurableSet_le (he 0) measurable_const
    · apply Measurable.mul
      · exact (kern_continuous r Ms).measurable.comp ((measurable_pi_lambda _ hmom).prodMk (measurable_pi_lambda _ he))
      · exact netFlux4_measurable hv hmom
    · exact measurable_const
  · obtain ⟨C, hC⟩ := kern_bound r Ms R
    refine ⟨|C| * (2 * (2 * max B 1) ^ 4), fun x y z => ?_⟩
    unfold ofProducts events4
    split_ifs with h
    · obtain ⟨⟨hx, hy, hz⟩, hs⟩ := hbox x y z h
      have hE : ∀ i, 0 ≤ (![x + y + z, x, y, z] : Fin 4 → ℝ) i ∧ (![x + y + z, x, y, z] : Fin 4 → ℝ) i ≤ R := by
        intro i
        fin_cases i
        · exact ⟨by change 0 ≤ x + y + z; linarith, hs⟩
        · exact ⟨hx, by change x ≤ R; linarith⟩
        · exact ⟨hy, by change y ≤ R; linarith⟩
        · exact ⟨hz, by change z ≤ R; linarith⟩
      rw [abs_mul]
      apply mul_le_mul _ _ (abs_nonneg _) (abs_nonneg _)
      · refine (hC _ _ (fun i => ?_) (fun i => ?_)).trans (le_abs_self _)
        · exact (momOf_le_self _ _ (hE i).1).trans (hE i).2
        · rw [abs_of_nonneg (hE i).1]; exact (hE i).2
      · have hb : ∀ i, |v i (momOf (r i).specie.m ((![x + y + z, x, y, z] : Fin 4 → ℝ) i))| ≤ max B 1 :=
          fun i => (hB i _ (Real.sqrt_nonneg _)).trans (le_max_left _ _)
        refine (abs_sub _ _).trans ?_
        linarith [flux_bound4 (r := r) (max B 1) (le_max_right _ _) heta _ hb 1,
          flux_bound4 (r := r) (max B 1) (le_max_right _ _) heta _ hb (-1)]
    · rw [abs_zero]; positivity
  · intro x y z hne
    obtain ⟨⟨hx, hy, hz⟩, hs⟩ := hbox x y z (events4_support hne)
    rw [abs_of_nonneg hx, abs_of_nonneg hy, abs_of_nonneg hz]
    exact ⟨by linarith, by linarith, by linarith⟩

/-- The density seen by the decaying particle. -/
theorem dens4_decay (s0 : (r 0).side = -1) (s1 : (r 1).side = 1) (s2 : (r 2).side = 1) (s3 : (r 3).side = 1)
    (hP : 0 ≤ P) (hm : ∀ i, 0 ≤ (r i).specie.m) (x y z : ℝ) (hx : (r 0).specie.m ≤ x) (hy : (r 1).specie.m ≤ y)
    (hz : (r 2).specie.m ≤ z) :
    dens4 r Ms v (fun p0 _ _ => p0 ≤ P) (momOf (r 0).specie.m x) (momOf (r 1).specie.m y) (momOf (r 2).specie.m z) =
      events4 r Ms v P ![x, y, z, x - y - z] := by
  have hL : lastEnergy4 r (momOf (r 0).specie.m x) (momOf (r 1).specie.m y) (momOf (r 2).specie.m z) = x - y - z := by
    unfold lastEnergy4
    rw [s0, s1, s2, s3, ← energyOf_eq, ← energyOf_eq, ← energyOf_eq, energyOf_momOf _ _ (hm 0) hx,
      energyOf_momOf _ _ (hm 1) hy, energyOf_momOf _ _ (hm 2) hz]
    push_cast; ring
  have hp : momenta4 r (momOf (r 0).specie.m x) (momOf (r 1).specie.m y) (momOf (r 2).specie.m z) =
      fun i => momOf (r i).specie.m ((![x, y, z, x - y - z] : Fin 4 → ℝ) i) := by
    funext i
    fin_cases i
    · rfl
    · rfl
    · rfl
    · change √(lastEnergy4 r _ _ _ ^ 2 - _) = _
      rw [hL]; rfl
  have hE : energies4 r (momOf (r 0).specie.m x) (momOf (r 1).specie.m y) (momOf (r 2).specie.m z) =
      ![x, y, z, x - y - z] := by
    unfold energies4
    rw [hL, ← energyOf_eq, ← energyOf_eq, ← energyOf_eq, energyOf_momOf _ _ (hm 0) hx,
      energyOf_momOf _ _ (hm 1) hy, energyOf_momOf _ _ (hm 2) hz]
  unfold dens4 events4
  rw [hp, hE]
  refine ite_iff ?_ fun _ => rfl
  dsimp only
  rw [hL, momOf_le _ _ _ (hm 0) hx hP]
  constructor
  · rintro ⟨a, b⟩
    refine ⟨fun i => ?_, b⟩
    fin_cases i
    · exact hx
    · exact hy
    · exact hz
    · exact a
  · rintro ⟨a, b⟩
    exact ⟨a 3, b⟩

/-- The density seen by a product. -/
theorem dens4_product (s0 : (r 0).side = -1) (s1 : (r 1).side = 1) (s2 : (r 2).side = 1) (s3 : (r 3).side = 1)
    (hP : 0 ≤ P) (hm : ∀ i, 0 ≤ (r i).specie.m) (σ : Equiv.Perm (Fin 4)) (hσ : σ 3 = 0) (a b c : ℝ)
    (ha : (r (σ 0)).specie.m ≤ a) (hb : (r (σ 1)).specie.m ≤ b) (hc : (r (σ 2)).specie.m ≤ c) :
    dens4 (viewOf r σ (-1)) (viewMs Ms σ) (fun j => v (σ j))
      (fun p0 p1 p2 => momenta4 (viewOf r σ (-1)) p0 p1 p2 3 ≤ P)
      (momOf (r (σ 0)).specie.m a) (momOf (r (σ 1)).specie.m b) (momOf (r (σ 2)).specie.m c) =
      -events4 r Ms v P (place σ a b c) := by
  have hside : ∀ j, j ≠ 3 → (r (σ j)).side = 1 := by
    intro j hj
    have h : σ j ≠ 0 := fun h => hj (σ.injective (h.trans hσ.symm))
    have : ∀ k : Fin 4, k ≠ 0 → k = 1 ∨ k = 2 ∨ k = 3 := by decide
    rcases this _ h with e | e | e <;> rw [e] <;> assumption
  have hL : lastEnergy4 (viewOf r σ (-1)) (momOf (r (σ 0)).specie.m a) (momOf (r (σ 1)).specie.m b)
      (momOf (r (σ 2)).specie.m c) = a + b + c := by
    change (0 + ((-1 * (r (σ 0)).side : ℤ) : ℝ) * energy _ (r (σ 0)).specie.m +
      ((-1 * (r (σ 1)).side : ℤ) : ℝ) * energy _ (r (σ 1)).specie.m +
      ((-1 * (r (σ 2)).side : ℤ) : ℝ) * energy _ (r (σ 2)).specie.m) * (-((-1 * (r (σ 3)).side : ℤ) : ℝ)) = _
    rw [hσ, s0, hside 0 (by decide), hside 1 (by decide), hside 2 (by decide), ← energyOf_eq, ← energyOf_eq,
      ← energyOf_eq, energyOf_momOf _ _ (hm _) ha, energyOf_momOf _ _ (hm _) hb, energyOf_momOf _ _ (hm _) hc]
    push_cast; ring
  have hpl : ∀ j, place σ a b c (σ j) = (![a, b, c, a + b + c] : Fin 4 → ℝ) j := by
    intro j
    unfold place
    rw [σ.symm_apply_apply]
  have hp : momenta4 (viewOf r σ (-1)) (momOf (r (σ 0)).specie.m a) (momOf (r (σ 1)).specie.m b)
      (momOf (r (σ 2)).specie.m c) = (fun i => momOf (r i).specie.m (place σ a b c i)) ∘ σ := by
    funext j
    rw [Function.comp_apply, hpl]
    fin_cases j
    · rfl
    · rfl
    · rfl
    · change √(lastEnergy4 (viewOf r σ (-1)) _ _ _ ^ 2 - _) = _
      rw [hL]; rfl
  have hE : energies4 (viewOf r σ (-1)) (momOf (r (σ 0)).specie.m a) (momOf (r (σ 1)).specie.m b)
      (momOf (r (σ 2)).specie.m c) = place σ a b c ∘ σ := by
    funext j
    rw [Function.comp_apply, hpl]
    fin_cases j
    · change energy _ (r (σ 0)).specie.m = a
      rw [← energyOf_eq, energyOf_momOf _ _ (hm _) ha]
    · change energy _ (r (σ 1)).specie.m = b
      rw [← energyOf_eq, energyOf_momOf _ _ (hm _) hb]
    · change energy _ (r (σ 2)).specie.m = c
      rw [← energyOf_eq, energyOf_momOf _ _ (hm _) hc]
    · exact hL
  have h0 : place σ a b c 0 = a + b + c := by rw [← hσ, hpl]; rfl
  unfold dens4 events4
  refine ite_iff_neg ?_ fun _ => ?_
  · dsimp only
    rw [hL, hp, h0]
    change (r (σ 3)).specie.m ≤ _ ∧ momOf (r (σ 3)).specie.m (place σ a b c (σ 3)) ≤ P ↔ _
    rw [hσ, h0]
    constructor
    · rintro ⟨x, y⟩
      refine ⟨fun i => ?_, (momOf_le _ _ _ (hm 0) x hP).mp y⟩
      obtain ⟨j, rfl⟩ := σ.surjective i
      rw [hpl]
      fin_cases j
      · exact ha
      · exact hb
      · exact hc
      · change (r (σ 3)).specie.m ≤ a + b + c
        rw [hσ]; exact x
    · rintro ⟨x, y⟩
      have := x 0
      rw [h0] at this
      exact ⟨this, (momOf_le _ _ _ (hm 0) this hP).mpr y⟩
  · rw [hp, hE, kern_view r Ms σ (-1) (Or.inr rfl)]
    have := flux_net r (fun i => v i (momOf (r i).specie.m (place σ a b c i))) σ (-1) (Or.inr rfl)
    unfold netFlux4
    change _ * (flux (viewOf r σ (-1)) ((fun i => v i (momOf (r i).specie.m (place σ a b c i))) ∘ σ) 1 -
      flux (viewOf r σ (-1)) ((fun i => v i (momOf (r i).specie.m (place σ a b c i))) ∘ σ) (-1)) = _
    rw [this]
    push_cast; ring

end

/-! ## Totals -/

theorem nice2_affine {G0 G1 : ℝ → ℝ → ℝ} (h0 : Nice2 G0) (h1 : Nice2 G1) (c : ℝ) :
    ∫ x, ∫ y, (G0 x y + c * (G1 x y - G0 x y)) = (∫ x, ∫ y, G0 x y) + c * ∫ x, ∫ y, (G1 x y - G0 x y) := by
  have e : ∀ x, ∫ y, (G0 x y + c * (G1 x y - G0 x y)) = (∫ y, G0 x y) + c * ∫ y, (G1 x y - G0 x y) := by
    intro x
    have hi : Integrable fun y => c * (G1 x y - G0 x y) := ((h1.slice x).sub (h0.slice x)).const_mul c
    rw [integral_add (h0.slice x) hi, integral_const_mul]
  have hd : Integrable fun x => ∫ y, (G1 x y - G0 x y) := by
    have : (fun x => ∫ y, (G1 x y - G0 x y)) = fun x => (∫ y, G1 x y) - ∫ y, G0 x y := by
      funext x
      exact integral_sub (h1.slice x) (h0.slice x)
    rw [this]
    exact h1.inner.sub h0.inner
  simp only [e]
  rw [integral_add h0.inner (hd.const_mul c), integral_const_mul]

theorem setIntegral_all' (m : ℝ) (g : ℝ → ℝ) (h : ∀ x, x < m → g x = 0) :
    ∫ x in Set.Ioi m, g x = ∫ x, g x := by
  rw [← integral_Ici_eq_integral_Ioi]
  exact setIntegral_eq_integral_of_forall_compl_eq_zero fun x hx => h x (not_le.mp hx)

theorem setIntegral_all2 (m1 m2 : ℝ) (G : ℝ → ℝ → ℝ) (h : ∀ y z, G y z ≠ 0 → m1 ≤ y ∧ m2 ≤ z) :
    ∫ y in Set.Ioi m1, ∫ z in Set.Ioi m2, G y z = ∫ y, ∫ z, G y z := by
  have e : ∀ y, ∫ z in Set.Ioi m2, G y z = ∫ z, G y z := by
    intro y
    apply setIntegral_all'
    intro z hz
    by_contra hn
    exact absurd (h y z hn).2 (not_le.mpr hz)
  simp only [e]
  apply setIntegral_all'
  intro y hy
  have : ∀ z, G y z = 0 := by
    intro z
    by_contra hn
    exact absurd (h y z hn).1 (not_le.mpr hy)
  simp only [this, integral_zero]

theorem inner4_eq (m0 m1 m2 : ℝ) (hm1 : 0 ≤ m1) (hm2 : 0 ≤ m2) (J : ℝ → ℝ → ℝ → ℝ) (p : ℝ) :
    (∫ p1 in Set.Ioi 0, ∫ p2 in Set.Ioi 0,
      (p1 / energyOf m1 p1) / (p * energyOf m0 p) * ((p2 / energyOf m2 p2) * J p p1 p2)) =
      (p * energyOf m0 p)⁻¹ * ∫ y in Set.Ioi m1, ∫ z in Set.Ioi m2, J p (momOf m1 y) (momOf m2 z) := by
  have h := innerOf_eq m0 m1 hm1 (fun p0 p1 => ∫ p2 in Set.Ioi 0, p2 / energyOf m2 p2 * J p0 p1 p2) p
  simp only [inner4_energies m1 m2 hm2 J p] at h
  rw [← h]
  unfold innerOf
  simp only [integral_const_mul]

/-- A weighted total over momenta as one over energies. -/
theorem weighted4 (m : ℝ) (hm : 0 ≤ m) (I W q : ℝ → ℝ)
    (hI : ∀ p, 0 < p → I p = (p * energyOf m p)⁻¹ * W (energyOf m p)) (hint : Integrable fun E => q E * W E)
    (hz : ∀ E, E < m → W E = 0) :
    IntegrableOn (fun p => p ^ 2 * q (energyOf m p) * I p) (Set.Ioi 0) ∧
    ∫ p in Set.Ioi 0, p ^ 2 * q (energyOf m p) * I p = ∫ E, q E * W E := by
  have e : ∀ p ∈ Set.Ioi (0 : ℝ), p ^ 2 * q (energyOf m p) * I p =
      p / energyOf m p * (fun E => q E * W E) (energyOf m p) := by
    intro p hp
    have hp' : (0 : ℝ) < p := hp
    have : 0 < energyOf m p := lt_of_le_of_lt hm (energyOf_gt m p hm hp')
    rw [hI p hp]
    field_simp
  constructor
  · exact IntegrableOn.congr_fun (integrable_toEnergy m hm _ hint.integrableOn) (fun p hp => (e p hp).symm)
      measurableSet_Ioi
  · exact (setIntegral_congr_fun measurableSet_Ioi e).trans ((integral_toEnergy m hm fun E => q E * W E).trans
      (setIntegral_all' m _ fun x hx => by rw [hz x hx, mul_zero]))

/-- The density over the energies in the order of a view. -/
theorem nice_place {ev : (Fin 4 → ℝ) → ℝ} (h : Nice3 (ofProducts ev)) (σ : Equiv.Perm (Fin 4)) (hσ : σ 3 = 0) :
    Nice3 fun a b c => ev (place σ a b c) := by
  have fin : ∀ (W : ℝ → ℝ → ℝ → ℝ), Nice3 W → (∀ a b c, ev (place σ a b c) = W a b c) →
      Nice3 fun a b c => ev (place σ a b c) := by
    intro W hW hp
    simp only [hp]
    exact hW
  rcases perm_cases σ hσ with ⟨s0, s1, s2⟩ | ⟨s0, s1, s2⟩ | ⟨s0, s1, s2⟩ | ⟨s0, s1, s2⟩ | ⟨s0, s1, s2⟩ | ⟨s0, s1, s2⟩
  · refine fin _ h (fun a b c => ?_)
    rw [place_eq σ a b c ![a + b + c, a, b, c] (by rw [s0]; rfl) (by rw [s1]; rfl) (by rw [s2]; rfl)
        (by rw [hσ]; rfl)]; rfl
  · refine fin _ h.exch23 (fun a b c => ?_)
    rw [place_eq σ a b c ![a + c + b, a, c, b] (by rw [s0]; rfl) (by rw [s1]; rfl) (by rw [s2]; rfl)
        (by rw [hσ]; change a + c + b = _; ring)]; rfl
  · refine fin _ h.exch12 (fun a b c => ?_)
    rw [place_eq σ a b c ![b + a + c, b, a, c] (by rw [s0]; rfl) (by rw [s1]; rfl) (by rw [s2]; rfl)
        (by rw [hσ]; change b + a + c = _; ring)]; rfl
  · refine fin _ h.exch12.exch23 (fun a b c => ?_)
    rw [place_eq σ a b c ![c + a + b, c, a, b] (by rw [s0]; rfl) (by rw [s1]; rfl) (by rw [s2]; rfl)
        (by rw [hσ]; change c + a + b = _; ring)]; rfl
  · refine fin _ h.exch23.exch12 (fun a b c => ?_)
    rw [place_eq σ a b c ![b + c + a, b, c, a] (by rw [s0]; rfl) (by rw [s1]; rfl) (by rw [s2]; rfl)
        (by rw [hσ]; change b + c + a = _; ring)]; rfl
  · refine fin _ h.exch23.exch12.exch23 (fun a b c => ?_)
    rw [place_eq σ a b c ![c + b + a, c, b, a] (by rw [s0]; rfl) (by rw [s1]; rfl) (by rw [s2]; rfl)
        (by rw [hσ]; change c + b + a = _; ring)]; rfl

theorem nice_parent {ev : (Fin 4 → ℝ) → ℝ} (h : Nice3 (ofProducts ev)) :
    Nice3 fun x y z => ev ![x, y, z, x - y - z] := by
  have := h.shear
  unfold ofProducts at this
  have e : (fun x y z : ℝ => ev ![y + z + (x - y - z), y, z, x - y - z]) = fun x y z => ev ![x, y, z, x - y - z] := by
    funext x y z
    rw [show y + z + (x - y - z) = x by ring]
  rw [e] at this
  exact this

/-- A decay `X → a + b + c` with spectra `f` and matrix elements `Ms`; it is open and `X` is massive. -/
structure Decay4 (r : Fin 4 → Reactant) (Ms : List CM) (f : Fin 4 → ℝ → ℝ) : Prop where
  parent : (r 0).side = -1
  products : ∀ i, i ≠ 0 → (r i).side = 1
  massive : 0 < (r 0).specie.m
  masses : ∀ i, 0 ≤ (r i).specie.m
  isOpen : (r 1).specie.m + (r 2).specie.m + (r 3).specie.m ≤ (r 0).specie.m
  eta : ∀ i, (r i).specie.eta = 1 ∨ (r i).specie.eta = -1
  occ : ∀ i p, 0 ≤ p → occAt (r i).specie p = .ok (f i p)
  nonneg : ∀ i p, 0 ≤ p → 0 ≤ f i p
  meas : ∀ i, Measurable (f i)
  bdd : ∃ B, ∀ i p, 0 ≤ p → f i p ≤ B
  some : Ms ≠ []
  plain : ∀ M ∈ Ms, M.K = 0
  order : ∀ M ∈ Ms, M.order.Bijective

section
variable {r : Fin 4 → Reactant} {Ms : List CM} {f : Fin 4 → ℝ → ℝ} {P : ℝ}

theorem Decay4.sides (d : Decay4 r Ms f) (i : Fin 4) : (r i).side = 1 ∨ (r i).side = -1 := by
  by_cases h : i = 0
  · subst h; exact Or.inr d.parent
  · exact Or.inl (d.products i h)

theorem Decay4.nice (d : Decay4 r Ms f) (i : Fin 4) (c : ℝ) :
    Nice3 (ofProducts (events4 r Ms (Function.update f i fun _ => c) P)) := by
  obtain ⟨B, hB⟩ := d.bdd
  apply events4_nice (max B |c|) d.masses d.eta
  · intro j
    by_cases h : j = i
    · subst h; rw [Function.update_self]; exact measurable_const
    · rw [Function.update_of_ne h]; exact d.meas j
  · intro j p hp
    by_cases h : j = i
    · subst h; rw [Function.update_self]; exact le_max_right _ _
    · rw [Function.update_of_ne h, abs_of_nonneg (d.nonneg j p hp)]; exact (hB j p hp).trans (le_max_left _ _)

theorem Decay4.nice' (d : Decay4 r Ms f) : Nice3 (ofProducts (events4 r Ms f P)) := by
  obtain ⟨B, hB⟩ := d.bdd
  apply events4_nice B d.masses d.eta d.meas
  intro j p hp
  rw [abs_of_nonneg (d.nonneg j p hp)]; exact hB j p hp

/-- The collision integral of the decaying particle in terms of the density of events. -/
theorem value_decay (d : Decay4 r Ms f) (hP : 0 ≤ P) (max3 max1 : ℝ) (dflt : ℝ × ℝ) (p : ℝ) (hp : 0 < p)
    (hpP : p ≤ P) :
    valOf (alone (loopCtx4 r max3) (exactQuad4 r Ms 1 max3 dflt) (0, max1) p) +
      f 0 p * valOf (alone (loopCtx4 r max3) (exactQuad4 r Ms 2 max3 dflt) (0, max1) p) =
    (p * energyOf (r 0).specie.m p)⁻¹ * ∫ y, ∫ z, events4 r Ms f P
      ![energyOf (r 0).specie.m p, y, z, energyOf (r 0).specie.m p - y - z] := by
  have s1 := d.products 1 (by decide)
  have s2 := d.products 2 (by decide)
  have s3 := d.products 3 (by decide)
  set E := energyOf (r 0).specie.m p with hE
  have hEm : (r 0).specie.m ≤ E := (energyOf_gt _ p (d.masses 0) hp).le
  have hpE : momOf (r 0).specie.m E = p := momOf_energyOf _ _ hp.le
  set c : ℝ → ℝ → ℝ → Prop := fun p0 _ _ => p0 ≤ P
  have parts := fun p1 p2 (h1 : 0 < p1) (h2 : 0 < p2) =>
    integrand4_parts d.some d.plain d.order d.sides d.parent d.masses d.occ d.nonneg hp h1 h2 c hpP
  rw [entry4_decay Ms 1 max3 max1 dflt d.parent s1 s2 s3 p hp _ fun p1 p2 h1 h2 => (parts p1 p2 h1 h2).1,
    entry4_decay Ms 2 max3 max1 dflt d.parent s1 s2 s3 p hp _ fun p1 p2 h1 h2 => (parts p1 p2 h1 h2).2]
  change (∫ p1 in Set.Ioi 0, ∫ p2 in Set.Ioi 0, _) + f 0 p * (∫ p1 in Set.Ioi 0, ∫ p2 in Set.Ioi 0, _) = _
  rw [inner4_eq _ _ _ (d.masses 1) (d.masses 2) (dens4 r Ms (Function.update f 0 fun _ => 0) c),
    inner4_eq _ _ _ (d.masses 1) (d.masses 2) (fun p0 p1 p2 => dens4 r Ms (Function.update f 0 fun _ => 1) c p0 p1 p2 -
      dens4 r Ms (Function.update f 0 fun _ => 0) c p0 p1 p2)]
  set G : (Fin 4 → ℝ → ℝ) → ℝ → ℝ → ℝ := fun v y z => events4 r Ms v P ![E, y, z, E - y - z] with hG
  have hdens : ∀ v : Fin 4 → ℝ → ℝ, ∀ y, (r 1).specie.m < y → ∀ z, (r 2).specie.m < z →
      dens4 r Ms v c p (momOf (r 1).specie.m y) (momOf (r 2).specie.m z) = G v y z := by
    intro v y hy z hz
    have := dens4_decay (Ms := Ms) (v := v) d.parent s1 s2 s3 hP d.masses E y z hEm hy.le hz.le
    rw [hpE] at this
    exact this
  have hsup : ∀ v y z, G v y z ≠ 0 → (r 1).specie.m ≤ y ∧ (r 2).specie.m ≤ z := by
    intro v y z h
    have := (events4_support h).1
    exact ⟨this 1, this 2⟩
  have i0 : ∫ y in Set.Ioi (r 1).specie.m, ∫ z in Set.Ioi (r 2).specie.m,
      dens4 r Ms (Function.update f 0 fun _ => 0) c p (momOf (r 1).specie.m y) (momOf (r 2).specie.m z) =
      ∫ y, ∫ z, G (Function.update f 0 fun _ => 0) y z := by
    rw [← setIntegral_all2 _ _ _ (hsup _)]
    apply setIntegral_congr_fun measurableSet_Ioi
    intro y hy
    apply setIntegral_congr_fun measurableSet_Ioi
    intro z hz
    exact hdens _ y hy z hz
  have i1 : ∫ y in Set.Ioi (r 1).specie.m, ∫ z in Set.Ioi (r 2).specie.m,
      (dens4 r Ms (Function.update f 0 fun _ => 1) c p (momOf (r 1).specie.m y) (momOf (r 2).specie.m z) -
      dens4 r Ms (Function.update f 0 fun _ => 0) c p (momOf (r 1).specie.m y) (momOf (r 2).specie.m z)) =
      ∫ y, ∫ z, (G (Function.update f 0 fun _ => 1) y z - G (Function.update f 0 fun _ => 0) y z) := by
    rw [← setIntegral_all2 (r 1).specie.m (r 2).specie.m]
    · apply setIntegral_congr_fun measurableSet_Ioi
      intro y hy
      apply setIntegral_congr_fun measurableSet_Ioi
      intro z hz
      change dens4 _ _ _ _ _ _ _ - dens4 _ _ _ _ _ _ _ = _
      rw [hdens _ y hy z hz, hdens _ y hy z hz]
    · intro y z h
      by_cases h1 : G (Function.update f 0 fun _ => 1) y z = 0
      · exact hsup (Function.update f 0 fun _ => 0) y z fun h0 => h (by rw [h0, h1, sub_zero])
      · exact hsup _ y z h1
  rw [i0, i1]
  have hlin := nice2_affine ((nice_parent (d.nice (P := P) 0 0)).slice E) ((nice_parent (d.nice (P := P) 0 1)).slice E)
    (f 0 p)
  have hpt : ∀ y z, G f y z = G (Function.update f 0 fun _ => 0) y z + f 0 p *
      (G (Function.update f 0 fun _ => 1) y z - G (Function.update f 0 fun _ => 0) y z) := by
    intro y z
    have := events4_affine (r := r) (Ms := Ms) (v := f) (P := P) 0 ![E, y, z, E - y - z]
    change _ = _ + f 0 (momOf (r 0).specie.m E) * _ at this
    rw [hpE] at this
    exact this
  change _ = (p * E)⁻¹ * ∫ y, ∫ z, G f y z
  simp only [hpt]
  change (∫ y, ∫ z, (G (Function.update f 0 fun _ => 0) y z + f 0 p *
      (G (Function.update f 0 fun _ => 1) y z - G (Function.update f 0 fun _ => 0) y z))) =
      (∫ y, ∫ z, G (Function.update f 0 fun _ => 0) y z) + f 0 p *
      ∫ y, ∫ z, (G (Function.update f 0 fun _ => 1) y z - G (Function.update f 0 fun _ => 0) y z) at hlin
  rw [hlin]
  ring

/-- The collision integral of a product in terms of the density of events. -/
theorem value_product (d : Decay4 r Ms f) (hP : 0 ≤ P) (σ : Equiv.Perm (Fin 4)) (hσ : σ 3 = 0) (max1 : ℝ)
    (dflt : ℝ × ℝ) (p : ℝ) (hp : 0 < p) :
    valOf (alone (loopCtx4 (viewOf r σ (-1)) P) (exactQuad4 (viewOf r σ (-1)) (viewMs Ms σ) 1 P dflt) (0, max1) p) +
      f (σ 0) p * valOf (alone (loopCtx4 (viewOf r σ (-1)) P)
        (exactQuad4 (viewOf r σ (-1)) (viewMs Ms σ) 2 P dflt) (0, max1) p) =
    -((p * energyOf (r (σ 0)).specie.m p)⁻¹ * ∫ b, ∫ c, events4 r Ms f P
      (place σ (energyOf (r (σ 0)).specie.m p) b c)) := by
  have s1 := d.products 1 (by decide)
  have s2 := d.products 2 (by decide)
  have s3 := d.products 3 (by decide)
  have hside : ∀ j, j ≠ 3 → (viewOf r σ (-1) j).side = -1 := by
    intro j hj
    have h : σ j ≠ 0 := fun h => hj (σ.injective (h.trans hσ.symm))
    change -1 * (r (σ j)).side = -1
    rw [d.products _ h]; rfl
  have hs3 : (viewOf r σ (-1) 3).side = 1 := by
    change -1 * (r (σ 3)).side = 1
    rw [hσ, d.parent]; rfl
  have t0 := hside 0 (by decide)
  have t1 := hside 1 (by decide)
  have t2 := hside 2 (by decide)
  have hm3 : 0 < (viewOf r σ (-1) 3).specie.m := by
    change 0 < (r (σ 3)).specie.m
    rw [hσ]; exact d.massive
  have hMs : viewMs Ms σ ≠ [] := by
    unfold viewMs; simpa using d.some
  have hK : ∀ M ∈ viewMs Ms σ, M.K = 0 := by
    intro M hM
    obtain ⟨M', h, rfl⟩ := List.mem_map.mp hM
    exact d.plain M' h
  have ho : ∀ M ∈ viewMs Ms σ, M.order.Bijective := by
    intro M hM
    obtain ⟨M', h, rfl⟩ := List.mem_map.mp hM
    exact σ.symm.bijective.comp (d.order M' h)
  set m0 := (r (σ 0)).specie.m with hm0
  set m1 := (r (σ 1)).specie.m with hm1
  set m2 := (r (σ 2)).specie.m with hm2
  set E := energyOf m0 p with hE
  have hEm : m0 ≤ E := (energyOf_gt _ p (d.masses _) hp).le
  have hpE : momOf m0 E = p := momOf_energyOf _ _ hp.le
  set F : Fin 4 → ℝ → ℝ := fun j => f (σ j) with hF
  set c : ℝ → ℝ → ℝ → Prop := fun p0 p1 p2 => momenta4 (viewOf r σ (-1)) p0 p1 p2 3 ≤ P with hc
  have parts := fun p1 p2 (h1 : 0 < p1) (h2 : 0 < p2) (hcc : c p p1 p2) =>
    integrand4_parts (F := F) hMs hK ho (view_sides r σ (-1) (Or.inr rfl) d.sides) t0 (fun j => d.masses (σ j))
      (fun j => d.occ (σ j)) (fun j => d.nonneg (σ j)) hp h1 h2 c hcc
  have hz : ∀ v p1 p2, ¬ c p p1 p2 → dens4 (viewOf r σ (-1)) (viewMs Ms σ) v c p p1 p2 = 0 := by
    intro v p1 p2 h
    unfold dens4
    exact if_neg fun h' => h h'.2
  rw [entry4_creation (viewMs Ms σ) 1 P max1 dflt hP t0 t1 t2 hs3 (d.masses _) hm3 p hp _
      (fun p1 p2 h1 h2 hcc => (parts p1 p2 h1 h2 hcc).1)
      (fun p1 p2 h1 h2 hcc => by rw [hz _ _ _ hcc, mul_zero, mul_zero]),
    entry4_creation (viewMs Ms σ) 2 P max1 dflt hP t0 t1 t2 hs3 (d.masses _) hm3 p hp _
      (fun p1 p2 h1 h2 hcc => (parts p1 p2 h1 h2 hcc).2)
      (fun p1 p2 h1 h2 hcc => by rw [hz _ _ _ hcc, hz _ _ _ hcc, sub_zero, mul_zero, mul_zero])]
  change (∫ p1 in Set.Ioi 0, ∫ p2 in Set.Ioi 0, _) + f (σ 0) p * (∫ p1 in Set.Ioi 0, ∫ p2 in Set.Ioi 0, _) = _
  have e0 : (viewOf r σ (-1) 0).specie.m = m0 := rfl
  have e1 : (viewOf r σ (-1) 1).specie.m = m1 := rfl
  have e2 : (viewOf r σ (-1) 2).specie.m = m2 := rfl
  rw [e0, e1, e2]
  rw [inner4_eq m0 m1 m2 (d.masses _) (d.masses _)
      (dens4 (viewOf r σ (-1)) (viewMs Ms σ) (Function.update F 0 fun _ => 0) c),
    inner4_eq m0 m1 m2 (d.masses _) (d.masses _) (fun p0 p1 p2 =>
      dens4 (viewOf r σ (-1)) (viewMs Ms σ) (Function.update F 0 fun _ => 1) c p0 p1 p2 -
      dens4 (viewOf r σ (-1)) (viewMs Ms σ) (Function.update F 0 fun _ => 0) c p0 p1 p2)]
  set G : (Fin 4 → ℝ → ℝ) → ℝ → ℝ → ℝ := fun v y z => events4 r Ms v P (place σ E y z) with hG
  have hup : ∀ x : ℝ, Function.update F 0 (fun _ => x) = fun j => (Function.update f (σ 0) fun _ => x) (σ j) := by
    intro x
    funext j
    by_cases h : j = 0
    · subst h; rw [Function.update_self, Function.update_self]
    · rw [Function.update_of_ne h, Function.update_of_ne fun h' => h (σ.injective h')]
  have hdens : ∀ x : ℝ, ∀ y, m1 < y → ∀ z, m2 < z →
      dens4 (viewOf r σ (-1)) (viewMs Ms σ) (Function.update F 0 fun _ => x) c p (momOf m1 y) (momOf m2 z) =
      -G (Function.update f (σ 0) fun _ => x) y z := by
    intro x y hy z hz
    have := dens4_product (Ms := Ms) (v := Function.update f (σ 0) fun _ => x) d.parent s1 s2 s3 hP d.masses σ hσ
      E y z hEm hy.le hz.le
    rw [← hm0, hpE, ← hup x] at this
    exact this
  have hsup : ∀ v y z, G v y z ≠ 0 → m1 ≤ y ∧ m2 ≤ z := by
    intro v y z h
    have h1 := (events4_support h).1 (σ 1)
    have h2 := (events4_support h).1 (σ 2)
    unfold place at h1 h2
    rw [σ.symm_apply_apply] at h1 h2
    exact ⟨h1, h2⟩
  have i0 : ∫ y in Set.Ioi m1, ∫ z in Set.Ioi m2,
      dens4 (viewOf r σ (-1)) (viewMs Ms σ) (Function.update F 0 fun _ => 0) c p (momOf m1 y) (momOf m2 z) =
      -∫ y, ∫ z, G (Function.update f (σ 0) fun _ => 0) y z := by
    rw [← setIntegral_all2 _ _ _ (hsup _), ← integral_neg]
    apply setIntegral_congr_fun measurableSet_Ioi
    intro y hy
    dsimp only
    rw [← integral_neg]
    apply setIntegral_congr_fun measurableSet_Ioi
    intro z hz
    exact hdens _ y hy z hz
  have i1 : ∫ y in Set.Ioi m1, ∫ z in Set.Ioi m2,
      (dens4 (viewOf r σ (-1)) (viewMs Ms σ) (Function.update F 0 fun _ => 1) c p (momOf m1 y) (momOf m2 z) -
      dens4 (viewOf r σ (-1)) (viewMs Ms σ) (Function.update F 0 fun _ => 0) c p (momOf m1 y) (momOf m2 z)) =
      -∫ y, ∫ z, (G (Function.update f (σ 0) fun _ => 1) y z - G (Function.update f (σ 0) fun _ => 0) y z) := by
    rw [← setIntegral_all2 m1 m2, ← integral_neg]
    · apply setIntegral_congr_fun measurableSet_Ioi
      intro y hy
      dsimp only
      rw [← integral_neg]
      apply setIntegral_congr_fun measurableSet_Ioi
      intro z hz
      change dens4 _ _ _ _ _ _ _ - dens4 _ _ _ _ _ _ _ = _
      rw [hdens _ y hy z hz, hdens _ y hy z hz]
      ring
    · intro y z h
      by_cases h1 : G (Function.update f (σ 0) fun _ => 1) y z = 0
      · exact hsup (Function.update f (σ 0) fun _ => 0) y z fun h0 => h (by rw [h0, h1, sub_zero])
      · exact hsup _ y z h1
  rw [i0, i1]
  have hlin := nice2_affine ((nice_place (d.nice (P := P) (σ 0) 0) σ hσ).slice E)
    ((nice_place (d.nice (P := P) (σ 0) 1) σ hσ).slice E) (f (σ 0) p)
  have hpt : ∀ y z, G f y z = G (Function.update f (σ 0) fun _ => 0) y z + f (σ 0) p *
      (G (Function.update f (σ 0) fun _ => 1) y z - G (Function.update f (σ 0) fun _ => 0) y z) := by
    intro y z
    have := events4_affine (r := r) (Ms := Ms) (v := f) (P := P) (σ 0) (place σ E y z)
    rw [show place σ E y z (σ 0) = E by unfold place; rw [σ.symm_apply_apply]; rfl, ← hm0, hpE] at this
    exact this
  change _ = -((p * E)⁻¹ * ∫ y, ∫ z, G f y z)
  simp only [hpt]
  change (∫ y, ∫ z, (G (Function.update f (σ 0) fun _ => 0) y z + f (σ 0) p *
      (G (Function.update f (σ 0) fun _ => 1) y z - G (Function.update f (σ 0) fun _ => 0) y z))) =
      (∫ y, ∫ z, G (Function.update f (σ 0) fun _ => 0) y z) + f (σ 0) p *
      ∫ y, ∫ z, (G (Function.update f (σ 0) fun _ => 1) y z - G (Function.update f (σ 0) fun _ => 0) y z) at hlin
  rw [hlin]
  ring

theorem array4 (s : Fin 4 → Reactant) (Ms : List CM) (kind : ℤ) (max1 min2 max2 max3 : ℝ)
    (hT : reactionTypeSum [s 0, s 1, s 2, s 3] ≠ 0) (ps : List ℝ) (sched : List (List ℕ))
    (hsch : ValidSchedule ps.length sched) :
    integration4Exact s Ms kind ps 0 max1 min2 max2 max3 sched =
      .ok (ps.map fun p => valOf (alone (loopCtx4 s max3) (exactQuad4 s Ms kind max3 (min2, max2)) (0, max1) p)) := by
  unfold integration4Exact
  rw [C40_four_not_scattering _ hT _ _ _ _ _ hsch]
  apply mapM_ok_map
  intro p _
  unfold alone exactQuad4 valOf
  dsimp only
  split <;> rfl

/-- **C102, totals.** For `X → a + b + c` and its inverse with arbitrary spectra: the arrays `A` and `B` computed by the
four species on any momentum grids are samples of functions, and the weighted totals of the collision integrals
`A + f B` add up to an integral over all events. -/
theorem C102_totals (d : Decay4 r Ms f) (hP : 0 ≤ P) (σ : Fin 4 → Equiv.Perm (Fin 4)) (h0 : ∀ i, σ i 0 = i)
    (h3 : ∀ i, i ≠ 0 → σ i 3 = 0) (max1 min2 max2 : Fin 4 → ℝ) (max3 : ℝ) :
    ∃ A B : Fin 4 → ℝ → ℝ,
      (∀ (ps : List ℝ) (sched : List (List ℕ)), ValidSchedule ps.length sched →
        integration4Exact r Ms 1 ps 0 (max1 0) (min2 0) (max2 0) max3 sched = .ok (ps.map (A 0)) ∧
        integration4Exact r Ms 2 ps 0 (max1 0) (min2 0) (max2 0) max3 sched = .ok (ps.map (B 0)) ∧
        ∀ i, i ≠ 0 →
          integration4Exact (viewOf r (σ i) (-1)) (viewMs Ms (σ i)) 1 ps 0 (max1 i) (min2 i) (max2 i) P sched =
            .ok (ps.map (A i)) ∧
          integration4Exact (viewOf r (σ i) (-1)) (viewMs Ms (σ i)) 2 ps 0 (max1 i) (min2 i) (max2 i) P sched =
            .ok (ps.map (B i))) ∧
      (∀ i, i ≠ 0 → ∀ p, 0 < p → A i p + f i p * B i p ≠ 0 →
        energyOf (r i).specie.m p + (r (σ i 1)).specie.m + (r (σ i 2)).specie.m ≤ energyOf (r 0).specie.m P) ∧
      ∀ q : Fin 4 → ℝ → ℝ, (∀ i, Measurable (q i)) → (∀ S, ∃ C, ∀ i E, |E| ≤ S → |q i E| ≤ C) →
        IntegrableOn (fun p => p ^ 2 * q 0 (energyOf (r 0).specie.m p) * (A 0 p + f 0 p * B 0 p)) (Set.Ioc 0 P) ∧
        (∀ i, i ≠ 0 →
          IntegrableOn (fun p => p ^ 2 * q i (energyOf (r i).specie.m p) * (A i p + f i p * B i p)) (Set.Ioi 0)) ∧
        Nice3 (fun x y z => (q 0 (x + y + z) - q 1 x - q 2 y - q 3 z) * events4 r Ms f P ![x + y + z, x, y, z]) ∧
        (∫ p in Set.Ioc 0 P, p ^ 2 * q 0 (energyOf (r 0).specie.m p) * (A 0 p + f 0 p * B 0 p)) +
        (∫ p in Set.Ioi 0, p ^ 2 * q 1 (energyOf (r 1).specie.m p) * (A 1 p + f 1 p * B 1 p)) +
        (∫ p in Set.Ioi 0, p ^ 2 * q 2 (energyOf (r 2).specie.m p) * (A 2 p + f 2 p * B 2 p)) +
        (∫ p in Set.Ioi 0, p ^ 2 * q 3 (energyOf (r 3).specie.m p) * (A 3 p + f 3 p * B 3 p)) =
        ∫ x, ∫ y, ∫ z, (q 0 (x + y + z) - q 1 x - q 2 y - q 3 z) * events4 r Ms f P ![x + y + z, x, y, z] := by
  classical
  let X : ℤ → Fin 4 → ℝ → ℝ := fun k i p => if i = 0 then
    valOf (alone (loopCtx4 r max3) (exactQuad4 r Ms k max3 (min2 0, max2 0)) (0, max1 0) p)
    else valOf (alone (loopCtx4 (viewOf r (σ i) (-1)) P)
      (exactQuad4 (viewOf r (σ i) (-1)) (viewMs Ms (σ i)) k P (min2 i, max2 i)) (0, max1 i) p)
  have hX0 : ∀ k, X k 0 = fun p =>
      valOf (alone (loopCtx4 r max3) (exactQuad4 r Ms k max3 (min2 0, max2 0)) (0, max1 0) p) := by
    intro k; funext p; exact if_pos rfl
  have hX : ∀ k i, i ≠ 0 → X k i = fun p => valOf (alone (loopCtx4 (viewOf r (σ i) (-1)) P)
      (exactQuad4 (viewOf r (σ i) (-1)) (viewMs Ms (σ i)) k P (min2 i, max2 i)) (0, max1 i) p) := by
    intro k i hi; funext p; exact if_neg hi
  have hI0 : ∀ p, 0 < p → p ≤ P → X 1 0 p + f 0 p * X 2 0 p = (p * energyOf (r 0).specie.m p)⁻¹ *
      ∫ y, ∫ z, events4 r Ms f P ![energyOf (r 0).specie.m p, y, z, energyOf (r 0).specie.m p - y - z] := by
    intro p hp hpP
    rw [hX0, hX0]
    exact value_decay d hP max3 (max1 0) _ p hp hpP
  have hI : ∀ i, i ≠ 0 → ∀ p, 0 < p → X 1 i p + f i p * X 2 i p = (p * energyOf (r i).specie.m p)⁻¹ *
      (fun E => -∫ b, ∫ c, events4 r Ms f P (place (σ i) E b c)) (energyOf (r i).specie.m p) := by
    intro i hi p hp
    rw [hX _ _ hi, hX _ _ hi]
    have := value_product d hP (σ i) (h3 i hi) (max1 i) (min2 i, max2 i) p hp
    rw [h0 i] at this
    rw [this]
    ring
  refine ⟨X 1, X 2, ?_, ?_, ?_⟩
  · intro ps sched hsch
    have hT0 : reactionTypeSum [r 0, r 1, r 2, r 3] ≠ 0 := by
      simp [reactionTypeSum, d.parent, d.products 1 (by decide), d.products 2 (by decide), d.products 3 (by decide)]
    rw [hX0, hX0]
    refine ⟨array4 _ _ _ _ _ _ _ hT0 _ _ hsch, array4 _ _ _ _ _ _ _ hT0 _ _ hsch, fun i hi => ?_⟩
    have hT : reactionTypeSum [viewOf r (σ i) (-1) 0, viewOf r (σ i) (-1) 1, viewOf r (σ i) (-1) 2,
        viewOf r (σ i) (-1) 3] ≠ 0 := by
      have hside : ∀ j, j ≠ 3 → (viewOf r (σ i) (-1) j).side = -1 := by
        intro j hj
        have h : σ i j ≠ 0 := fun h => hj ((σ i).injective (h.trans (h3 i hi).symm))
        change -1 * (r (σ i j)).side = -1
        rw [d.products _ h]; rfl
      have hs3 : (viewOf r (σ i) (-1) 3).side = 1 := by
        change -1 * (r (σ i 3)).side = 1
        rw [h3 i hi, d.parent]; rfl
      simp [reactionTypeSum, hside 0 (by decide), hside 1 (by decide), hside 2 (by decide), hs3]
    rw [hX _ _ hi, hX _ _ hi]
    exact ⟨array4 _ _ _ _ _ _ _ hT _ _ hsch, array4 _ _ _ _ _ _ _ hT _ _ hsch⟩
  · intro i hi p hp hne
    rw [hI i hi p hp] at hne
    by_contra hn
    apply hne
    have : ∀ b c, events4 r Ms f P (place (σ i) (energyOf (r i).specie.m p) b c) = 0 := by
      intro b c
      by_contra he
      apply hn
      obtain ⟨ha, hb⟩ := events4_support he
      have h1 := ha (σ i 1)
      have h2 := ha (σ i 2)
      unfold place at h1 h2 hb
      rw [(σ i).symm_apply_apply] at h1 h2
      rw [← h3 i hi, (σ i).symm_apply_apply, h3 i hi] at hb
      change _ ≤ b at h1
      change _ ≤ c at h2
      change energyOf (r i).specie.m p + b + c ≤ _ at hb
      linarith
    simp only [this, integral_zero, neg_zero, mul_zero]
  · intro q hq hqb
    have hqb' : ∀ i S, ∃ C, ∀ E, |E| ≤ S → |q i E| ≤ C := fun i S => by
      obtain ⟨C, hC⟩ := hqb S; exact ⟨C, hC i⟩
    have hprod : ∀ i, i ≠ 0 →
        IntegrableOn (fun p => p ^ 2 * q i (energyOf (r i).specie.m p) * (X 1 i p + f i p * X 2 i p)) (Set.Ioi 0) ∧
        ∫ p in Set.Ioi 0, p ^ 2 * q i (energyOf (r i).specie.m p) * (X 1 i p + f i p * X 2 i p) =
          -∫ a, q i a * ∫ b, ∫ c, events4 r Ms f P (place (σ i) a b c) := by
      intro i hi
      have hint := (product_total (d.nice' (P := P)) (q i) (hq i) (hqb' i) (σ i) (h3 i hi)).1
      have hint' : Integrable fun E => q i E * (fun E => -∫ b, ∫ c, events4 r Ms f P (place (σ i) E b c)) E := by
        have e : (fun E => q i E * (fun E => -∫ b, ∫ c, events4 r Ms f P (place (σ i) E b c)) E) =
            -(fun E => q i E * ∫ b, ∫ c, events4 r Ms f P (place (σ i) E b c)) := by
          funext E
          change q i E * -_ = -(q i E * _)
          ring
        rw [e]
        exact hint.neg
      have hz : ∀ E, E < (r i).specie.m → (fun E => -∫ b, ∫ c, events4 r Ms f P (place (σ i) E b c)) E = 0 := by
        intro E hE
        have : ∀ b c, events4 r Ms f P (place (σ i) E b c) = 0 := by
          intro b c
          by_contra he
          have := (events4_support he).1 (σ i 0)
          unfold place at this
          rw [(σ i).symm_apply_apply, h0 i] at this
          exact absurd this (not_le.mpr hE)
        simp only [this, integral_zero, neg_zero]
      obtain ⟨j, t⟩ := weighted4 _ (d.masses i) _ _ (q i) (hI i hi) hint' hz
      refine ⟨j, t.trans ?_⟩
      rw [← integral_neg]
      congr 1
      funext E
      ring
    -- the decaying particle, up to `P`
    have hint0 := (parent_total (d.nice' (P := P)) (q 0) (hq 0) (hqb' 0)).1
    set W : ℝ → ℝ := fun E => ∫ y, ∫ z, events4 r Ms f P ![E, y, z, E - y - z] with hW
    have hW0 : ∀ E, ¬ ((r 0).specie.m ≤ E ∧ E ≤ energyOf (r 0).specie.m P) → W E = 0 := by
      intro E hE
      have : ∀ y z, events4 r Ms f P ![E, y, z, E - y - z] = 0 := by
        intro y z
        by_contra he
        obtain ⟨a, b⟩ := events4_support he
        exact hE ⟨a 0, b⟩
      rw [hW]
      simp only [this, integral_zero]
    obtain ⟨j0, t0⟩ := weighted4 _ (d.masses 0) (fun p => if p ≤ P then X 1 0 p + f 0 p * X 2 0 p else 0) W (q 0)
      (by
        intro p hp
        by_cases h : p ≤ P
        · rw [if_pos h, hI0 p hp h]
        · rw [if_neg h, hW0, mul_zero]
          rintro ⟨a, b⟩
          apply h
          rw [← momOf_energyOf (r 0).specie.m p hp.le]
          exact (momOf_le _ _ _ (d.masses 0) a hP).mpr b)
      hint0 (fun E hE => hW0 E fun h => absurd h.1 (not_le.mpr hE))
    have hsub : Set.Ioi (0 : ℝ) ∩ Set.Ioc 0 P = Set.Ioc 0 P := Set.inter_eq_right.mpr fun x hx => hx.1
    have hind : ∀ p ∈ Set.Ioi (0 : ℝ), p ^ 2 * q 0 (energyOf (r 0).specie.m p) *
        (if p ≤ P then X 1 0 p + f 0 p * X 2 0 p else 0) = (Set.Ioc 0 P).indicator (fun p =>
          p ^ 2 * q 0 (energyOf (r 0).specie.m p) * (X 1 0 p + f 0 p * X 2 0 p)) p := by
      intro p hp
      by_cases h : p ≤ P
      · rw [if_pos h, Set.indicator_of_mem (show p ∈ Set.Ioc 0 P from ⟨hp, h⟩)]
      · rw [if_neg h, Set.indicator_of_notMem fun hmem => h hmem.2, mul_zero]
    have e0 : ∫ p in Set.Ioc 0 P, p ^ 2 * q 0 (energyOf (r 0).specie.m p) * (X 1 0 p + f 0 p * X 2 0 p) =
        ∫ E, q 0 E * W E := by
      rw [← t0, setIntegral_congr_fun measurableSet_Ioi hind, setIntegral_indicator measurableSet_Ioc, hsub]
    obtain ⟨hn, ht⟩ := totals4 (d.nice' (P := P)) q hq hqb σ h0 h3
    refine ⟨?_, fun i hi => (hprod i hi).1, hn, ?_⟩
    · have := (IntegrableOn.congr_fun j0 hind measurableSet_Ioi).mono_set
        (t := Set.Ioi 0) (s := Set.Ioc 0 P) fun x hx => hx.1
      refine IntegrableOn.congr_fun this (fun x hx => ?_) measurableSet_Ioc
      rw [Set.indicator_of_mem hx]
    · rw [e0, (hprod 1 (by decide)).2, (hprod 2 (by decide)).2, (hprod 3 (by decide)).2, hW]
      rw [sub_eq_add_neg, sub_eq_add_neg, sub_eq_add_neg] at ht
      exact ht

/-- **C102.** For `X → a + b + c` and its inverse with arbitrary spectra: the arrays `A` and `B` computed by the four
species on any momentum grids are samples of functions, and whatever is additive in the decay (functions of the
energies with `q₀(E + E' + E'') = q₁(E) + q₂(E') + q₃(E'')`) is lost by `X` exactly as it is gained by the
products, the collision integrals being `A + f B`. -/
theorem C102_additive (d : Decay4 r Ms f) (hP : 0 ≤ P) (σ : Fin 4 → Equiv.Perm (Fin 4)) (h0 : ∀ i, σ i 0 = i)
    (h3 : ∀ i, i ≠ 0 → σ i 3 = 0) (max1 min2 max2 : Fin 4 → ℝ) (max3 : ℝ) :
    ∃ A B : Fin 4 → ℝ → ℝ,
      (∀ (ps : List ℝ) (sched : List (List ℕ)), ValidSchedule ps.length sched →
        integration4Exact r Ms 1 ps 0 (max1 0) (min2 0) (max2 0) max3 sched = .ok (ps.map (A 0)) ∧
        integration4Exact r Ms 2 ps 0 (max1 0) (min2 0) (max2 0) max3 sched = .ok (ps.map (B 0)) ∧
        ∀ i, i ≠ 0 →
          integration4Exact (viewOf r (σ i) (-1)) (viewMs Ms (σ i)) 1 ps 0 (max1 i) (min2 i) (max2 i) P sched =
            .ok (ps.map (A i)) ∧
          integration4Exact (viewOf r (σ i) (-1)) (viewMs Ms (σ i)) 2 ps 0 (max1 i) (min2 i) (max2 i) P sched =
            .ok (ps.map (B i))) ∧
      (∀ i, i ≠ 0 → ∀ p, 0 < p → A i p + f i p * B i p ≠ 0 →
        energyOf (r i).specie.m p + (r (σ i 1)).specie.m + (r (σ i 2)).specie.m ≤ energyOf (r 0).specie.m P) ∧
      ∀ q : Fin 4 → ℝ → ℝ, (∀ i, Measurable (q i)) → (∀ S, ∃ C, ∀ i E, |E| ≤ S → |q i E| ≤ C) →
        (∀ x y z, q 0 (x + y + z) = q 1 x + q 2 y + q 3 z) →
        IntegrableOn (fun p => p ^ 2 * q 0 (energyOf (r 0).specie.m p) * (A 0 p + f 0 p * B 0 p)) (Set.Ioc 0 P) ∧
        (∀ i, i ≠ 0 →
          IntegrableOn (fun p => p ^ 2 * q i (energyOf (r i).specie.m p) * (A i p + f i p * B i p)) (Set.Ioi 0)) ∧
        (∫ p in Set.Ioc 0 P, p ^ 2 * q 0 (energyOf (r 0).specie.m p) * (A 0 p + f 0 p * B 0 p)) +
        (∫ p in Set.Ioi 0, p ^ 2 * q 1 (energyOf (r 1).specie.m p) * (A 1 p + f 1 p * B 1 p)) +
        (∫ p in Set.Ioi 0, p ^ 2 * q 2 (energyOf (r 2).specie.m p) * (A 2 p + f 2 p * B 2 p)) +
        (∫ p in Set.Ioi 0, p ^ 2 * q 3 (energyOf (r 3).specie.m p) * (A 3 p + f 3 p * B 3 p)) = 0 := by
  obtain ⟨A, B, hs, hsup, hq⟩ := C102_totals d hP σ h0 h3 max1 min2 max2 max3
  refine ⟨A, B, hs, hsup, fun q hqm hqb hadd => ?_⟩
  obtain ⟨i0, i1, -, hsum⟩ := hq q hqm hqb
  refine ⟨i0, i1, hsum.trans ?_⟩
  have : ∀ x y z : ℝ, (q 0 (x + y + z) - q 1 x - q 2 y - q 3 z) * events4 r Ms f P ![x + y + z, x, y, z] = 0 := by
    intro x y z
    rw [hadd]; ring
  simp only [this, integral_zero]

/-- The arrays of the four species are samples of `A` and `B`; the inverse decay is followed from momenta of `X` up to
`P`. -/
def Samples4 (r : Fin 4 → Reactant) (Ms : List CM) (σ : Fin 4 → Equiv.Perm (Fin 4)) (P : ℝ)
    (max1 min2 max2 : Fin 4 → ℝ) (max3 : ℝ) (A B : Fin 4 → ℝ → ℝ) : Prop :=
  ∀ (ps : List ℝ) (sched : List (List ℕ)), ValidSchedule ps.length sched →
    integration4Exact r Ms 1 ps 0 (max1 0) (min2 0) (max2 0) max3 sched = .ok (ps.map (A 0)) ∧
    integration4Exact r Ms 2 ps 0 (max1 0) (min2 0) (max2 0) max3 sched = .ok (ps.map (B 0)) ∧
    ∀ i, i ≠ 0 →
      integration4Exact (viewOf r (σ i) (-1)) (viewMs Ms (σ i)) 1 ps 0 (max1 i) (min2 i) (max2 i) P sched =
        .ok (ps.map (A i)) ∧
      integration4Exact (viewOf r (σ i) (-1)) (viewMs Ms (σ i)) 2 ps 0 (max1 i) (min2 i) (max2 i) P sched =
        .ok (ps.map (B i))

/-- **C102, numbers and energy.** Every particle `X` lost is one `a`, one `b` and one `c` gained, and the energy lost
by `X` is the energy gained by the products. -/
theorem C102_conservation (d : Decay4 r Ms f) (hP : 0 ≤ P) (σ : Fin 4 → Equiv.Perm (Fin 4)) (h0 : ∀ i, σ i 0 = i)
    (h3 : ∀ i, i ≠ 0 → σ i 3 = 0) (max1 min2 max2 : Fin 4 → ℝ) (max3 : ℝ) :
    ∃ A B : Fin 4 → ℝ → ℝ, Samples4 r Ms σ P max1 min2 max2 max3 A B ∧
      (∀ i, i ≠ 0 → ∀ p, 0 < p → A i p + f i p * B i p ≠ 0 →
        energyOf (r i).specie.m p + (r (σ i 1)).specie.m + (r (σ i 2)).specie.m ≤ energyOf (r 0).specie.m P) ∧
      (∀ i, i ≠ 0 → ∫ p in Set.Ioi 0, p ^ 2 * (A i p + f i p * B i p) =
        -∫ p in Set.Ioc 0 P, p ^ 2 * (A 0 p + f 0 p * B 0 p)) ∧
      (∫ p in Set.Ioi 0, p ^ 2 * energyOf (r 1).specie.m p * (A 1 p + f 1 p * B 1 p)) +
        (∫ p in Set.Ioi 0, p ^ 2 * energyOf (r 2).specie.m p * (A 2 p + f 2 p * B 2 p)) +
        (∫ p in Set.Ioi 0, p ^ 2 * energyOf (r 3).specie.m p * (A 3 p + f 3 p * B 3 p)) =
        -∫ p in Set.Ioc 0 P, p ^ 2 * energyOf (r 0).specie.m p * (A 0 p + f 0 p * B 0 p) := by
  obtain ⟨A, B, hs, hsup, hq⟩ := C102_additive d hP σ h0 h3 max1 min2 max2 max3
  have hc : ∀ i : Fin 4, i ≠ 0 → i = 1 ∨ i = 2 ∨ i = 3 := by decide
  refine ⟨A, B, hs, hsup, ?_, ?_⟩
  · intro i hi
    have h := (hq (fun j _ => if j = 0 ∨ j = i then 1 else 0) (fun _ => measurable_const)
      (fun S => ⟨1, fun j E _ => by split_ifs <;> simp⟩) ?_).2.2
    · rcases hc i hi with rfl | rfl | rfl
      all_goals
        simp only [true_or, or_true, if_true, one_ne_zero, false_or, reduceCtorEq, Fin.isValue,
          Fin.reduceEq, if_false, mul_one, mul_zero, zero_mul, integral_zero, add_zero] at h
        linarith
    · intro x y z
      rcases hc i hi with rfl | rfl | rfl <;> simp
  · have h := (hq (fun _ E => E) (fun _ => measurable_id) (fun S => ⟨S, fun _ _ h => h⟩)
      (fun _ _ _ => rfl)).2.2
    linarith

end

/-- **C102 for regular spectra.** -/
theorem C102_spectra (r : Fin 4 → Reactant) (Ms : List CM) (P : ℝ) (s0 : (r 0).side = -1)
    (hs : ∀ i, i ≠ 0 → (r i).side = 1) (hm0 : 0 < (r 0).specie.m) (hm : ∀ i, 0 ≤ (r i).specie.m)
    (hopen : (r 1).specie.m + (r 2).specie.m + (r 3).specie.m ≤ (r 0).specie.m) (hP : 0 ≤ P)
    (heta : ∀ i, (r i).specie.eta = 1 ∨ (r i).specie.eta = -1) (hreg : ∀ i, Regular (r i).specie)
    (hMs : Ms ≠ []) (hK : ∀ M ∈ Ms, M.K = 0) (ho : ∀ M ∈ Ms, M.order.Bijective)
    (σ : Fin 4 → Equiv.Perm (Fin 4)) (h0 : ∀ i, σ i 0 = i) (h3 : ∀ i, i ≠ 0 → σ i 3 = 0)
    (max1 min2 max2 : Fin 4 → ℝ) (max3 : ℝ) :
    ∃ f A B : Fin 4 → ℝ → ℝ, (∀ i p, 0 ≤ p → occAt (r i).specie p = .ok (f i p)) ∧
      Samples4 r Ms σ P max1 min2 max2 max3 A B ∧
      (∀ i, i ≠ 0 → ∀ p, 0 < p → A i p + f i p * B i p ≠ 0 →
        energyOf (r i).specie.m p + (r (σ i 1)).specie.m + (r (σ i 2)).specie.m ≤ energyOf (r 0).specie.m P) ∧
      (∀ i, i ≠ 0 → ∫ p in Set.Ioi 0, p ^ 2 * (A i p + f i p * B i p) =
        -∫ p in Set.Ioc 0 P, p ^ 2 * (A 0 p + f 0 p * B 0 p)) ∧
      (∫ p in Set.Ioi 0, p ^ 2 * energyOf (r 1).specie.m p * (A 1 p + f 1 p * B 1 p)) +
        (∫ p in Set.Ioi 0, p ^ 2 * energyOf (r 2).specie.m p * (A 2 p + f 2 p * B 2 p)) +
        (∫ p in Set.Ioi 0, p ^ 2 * energyOf (r 3).specie.m p * (A 3 p + f 3 p * B 3 p)) =
        -∫ p in Set.Ioc 0 P, p ^ 2 * energyOf (r 0).specie.m p * (A 0 p + f 0 p * B 0 p) := by
  choose f B hf h using hreg
  have hB : ∀ i, 0 ≤ B i := fun i => (h i 0 le_rfl).2.1.trans (h i 0 le_rfl).2.2
  have d : Decay4 r Ms f :=
    { parent := s0, products := hs, massive := hm0, masses := hm, isOpen := hopen, eta := heta
      occ := fun i p hp => (h i p hp).1
      nonneg := fun i p hp => (h i p hp).2.1
      meas := hf
      bdd := ⟨∑ i, B i, fun i p hp => (h i p hp).2.2.trans
        (Finset.single_le_sum (fun j _ => hB j) (Finset.mem_univ i))⟩
      some := hMs, plain := hK, order := ho }
  obtain ⟨A, B, k⟩ := C102_conservation d hP σ h0 h3 max1 min2 max2 max3
  exact ⟨f, A, B, d.occ, k⟩

section Example
/-- `X → a + b + c`: a particle of mass 3 with a stored spectrum, a massless fermion with a stored spectrum and two
thermal fermions of mass 1. -/
private noncomputable def decay4Demo : Fin 4 → Reactant := ![
  ⟨⟨1, 3, [0, 1, 3], [1/2, 1/4, 1/8], false, 1⟩, -1⟩,
  ⟨⟨1, 0, [0, 2], [1/3, 0], false, 1⟩, 1⟩,
  ⟨⟨1, 1, [], [], true, 1⟩, 1⟩,
  ⟨⟨1, 1, [], [], true, 1⟩, 1⟩]

private theorem decay4Demo_regular (i : Fin 4) : Regular (decay4Demo i).specie := by
  fin_cases i
  · exact regular_stored _ [1, 3] rfl rfl (by norm_num [decay4Demo]) rfl (by norm_num [decay4Demo])
      (Or.inl rfl) (by norm_num [decay4Demo])
  · exact regular_stored _ [2] rfl rfl (by norm_num [decay4Demo]) rfl (by norm_num [decay4Demo])
      (Or.inl rfl) (by norm_num [decay4Demo])
  · exact regular_thermal _ rfl (by norm_num [decay4Demo]) (by norm_num [decay4Demo]) (Or.inl rfl)
  · exact regular_thermal _ rfl (by norm_num [decay4Demo]) (by norm_num [decay4Demo]) (Or.inl rfl)

/-- The four collision integrals of the demonstration decay; the products exchange places with `X`. -/
example : ∃ f A B : Fin 4 → ℝ → ℝ,
    integration4Exact decay4Demo [⟨id, 1, 2, 0⟩] 1 [0, 1, 3] 0 3 0 3 3 [[2, 0], [1]] = .ok [A 0 0, A 0 1, A 0 3] ∧
    (∫ p in Set.Ioi 0, p ^ 2 * (A 1 p + f 1 p * B 1 p)) = ∫ p in Set.Ioi 0, p ^ 2 * (A 3 p + f 3 p * B 3 p) := by
  obtain ⟨f, A, B, -, hI, -, h, -⟩ := C102_spectra decay4Demo [⟨id, 1, 2, 0⟩] 3 rfl
    (by intro i hi; fin_cases i <;> first | exact absurd rfl hi | rfl) (by norm_num [decay4Demo])
    (fun i => by fin_cases i <;> norm_num [decay4Demo]) (by change (0 : ℝ) + 1 + 1 ≤ 3; norm_num) (by norm_num)
    (fun i => by fin_cases i <;> exact Or.inl rfl) decay4Demo_regular (by simp) (by simp)
    (fun M hM => by rw [List.mem_singleton.mp hM]; exact Function.bijective_id)
    ![1, Equiv.swap 0 1 * Equiv.swap 1 3, Equiv.swap 0 2 * Equiv.swap 2 3, Equiv.swap 0 3] (by decide) (by decide)
    (fun _ => 3) (fun _ => 0) (fun _ => 3) 3
  exact ⟨f, A, B, (hI [0, 1, 3] [[2, 0], [1]] (by change [2, 0, 1].Perm [0, 1, 2]; decide)).1,
    (h 1 (by decide)).trans (h 3 (by decide)).symm⟩
end Example

end PyBBN
