import Verif.Props.DecayRate
/-!
# C87: what one species loses the others gain

The collision integrals of the species of one reaction are computed separately, each from its own view
of the reaction (the species first, the sides exchanged if it is on the right).  The number of particles
of the first species changing their state in a cell of momentum space is
`p₀² I dp₀ dp₁ dp₂`; in terms of the energies the cell is `dp₀ dp₁ dp₂ · dE₃/dp₃` up to a factor common to
all views.  Specification: this number is the same for all views up to the sign, so numbers of
particles and the energy are balanced configuration by configuration.
-/
namespace PyBBN

/-- The reaction as seen by the particle `σ 0`; `s = -1` exchanges the sides. -/
def viewOf {n : ℕ} (r : Fin n → Reactant) (σ : Equiv.Perm (Fin n)) (s : ℤ) : Fin n → Reactant :=
  fun i => ⟨(r (σ i)).specie, s * (r (σ i)).side⟩

/-- The matrix elements with the particles renumbered accordingly. -/
def viewMs (Ms : List CM) (σ : Equiv.Perm (Fin 4)) : List CM :=
  Ms.map fun M => { M with order := fun i => σ.symm (M.order i) }

theorem neg_one_ne : ((-1 : ℤ) = 1) = False := by norm_num
theorem one_ne_neg : ((1 : ℤ) = -1) = False := by norm_num

theorem cell_scalar (a b x y S N w : ℝ) (ha : a ≠ 0) (hb : b ≠ 0) :
    a ^ 2 * (x * y * (S / (a * b)) * N) * w = a / b * x * y * w * S * N := by
  field_simp

/-- Gain as a product over the particles. -/
theorem gain_four (r : Fin 4 → Reactant) (f : Fin 4 → ℝ) (hs : ∀ i, (r i).side = 1 ∨ (r i).side = -1) :
    gain [(r 0, f 0), (r 1, f 1), (r 2, f 2), (r 3, f 3)] =
      ∏ i, if (r i).side = 1 then f i else 1 - (r i).specie.eta * f i := by
  unfold gain
  simp only [occupied_cons, blocked_cons, Fin.prod_univ_four]
  unfold occupied blocked
  rcases hs 0 with h0 | h0 <;> rcases hs 1 with h1 | h1 <;> rcases hs 2 with h2 | h2 <;>
    rcases hs 3 with h3 | h3 <;>
    simp only [h0, h1, h2, h3, if_true, neg_one_ne, one_ne_neg, if_false, List.filter_nil, List.map_nil,
      List.prod_nil] <;> ring1

theorem loss_four (r : Fin 4 → Reactant) (f : Fin 4 → ℝ) (hs : ∀ i, (r i).side = 1 ∨ (r i).side = -1) :
    loss [(r 0, f 0), (r 1, f 1), (r 2, f 2), (r 3, f 3)] =
      ∏ i, if (r i).side = -1 then f i else 1 - (r i).specie.eta * f i := by
  unfold loss
  simp only [occupied_cons, blocked_cons, Fin.prod_univ_four]
  unfold occupied blocked
  rcases hs 0 with h0 | h0 <;> rcases hs 1 with h1 | h1 <;> rcases hs 2 with h2 | h2 <;>
    rcases hs 3 with h3 | h3 <;>
    simp only [h0, h1, h2, h3, if_true, neg_one_ne, one_ne_neg, if_false, List.filter_nil, List.map_nil,
      List.prod_nil] <;> ring1

theorem gain_three (r : Fin 3 → Reactant) (f : Fin 3 → ℝ) (hs : ∀ i, (r i).side = 1 ∨ (r i).side = -1) :
    gain [(r 0, f 0), (r 1, f 1), (r 2, f 2)] =
      ∏ i, if (r i).side = 1 then f i else 1 - (r i).specie.eta * f i := by
  unfold gain
  simp only [occupied_cons, blocked_cons, Fin.prod_univ_three]
  unfold occupied blocked
  rcases hs 0 with h0 | h0 <;> rcases hs 1 with h1 | h1 <;> rcases hs 2 with h2 | h2 <;>
    simp [h0, h1, h2] <;> ring

theorem loss_three (r : Fin 3 → Reactant) (f : Fin 3 → ℝ) (hs : ∀ i, (r i).side = 1 ∨ (r i).side = -1) :
    loss [(r 0, f 0), (r 1, f 1), (r 2, f 2)] =
      ∏ i, if (r i).side = -1 then f i else 1 - (r i).specie.eta * f i := by
  unfold loss
  simp only [occupied_cons, blocked_cons, Fin.prod_univ_three]
  unfold occupied blocked
  rcases hs 0 with h0 | h0 <;> rcases hs 1 with h1 | h1 <;> rcases hs 2 with h2 | h2 <;>
    simp [h0, h1, h2] <;> ring

section
variable {n : ℕ} (r : Fin n → Reactant) (f : Fin n → ℝ) (σ : Equiv.Perm (Fin n))

/-- Gain and loss as products over the particles, in one expression: `s = 1` gain, `s = -1` loss. -/
noncomputable def flux (s : ℤ) : ℝ :=
  ∏ i, if (r i).side = s then f i else 1 - (r i).specie.eta * f i

theorem flux_view (s t : ℤ) (hs : s = 1 ∨ s = -1) :
    flux (viewOf r σ s) (f ∘ σ) t = flux r f (s * t) := by
  unfold flux viewOf
  rw [← Equiv.prod_comp σ (fun i => if (r i).side = s * t then f i else 1 - (r i).specie.eta * f i)]
  apply Finset.prod_congr rfl
  intro i _
  have : (s * (r (σ i)).side = t) ↔ ((r (σ i)).side = s * t) := by
    rcases hs with rfl | rfl <;> constructor <;> intro h <;> omega
  simp only [this, Function.comp_apply]

theorem flux_net (s : ℤ) (hs : s = 1 ∨ s = -1) :
    flux (viewOf r σ s) (f ∘ σ) 1 - flux (viewOf r σ s) (f ∘ σ) (-1) =
      s * (flux r f 1 - flux r f (-1)) := by
  rw [flux_view r f σ s 1 hs, flux_view r f σ s (-1) hs]
  rcases hs with rfl | rfl
  · simp
  · norm_num

end

theorem view_sides {n : ℕ} (r : Fin n → Reactant) (σ : Equiv.Perm (Fin n)) (s : ℤ) (hs : s = 1 ∨ s = -1)
    (h : ∀ i, (r i).side = 1 ∨ (r i).side = -1) (i : Fin n) :
    (viewOf r σ s i).side = 1 ∨ (viewOf r σ s i).side = -1 := by
  change s * (r (σ i)).side = 1 ∨ s * (r (σ i)).side = -1
  rcases hs with rfl | rfl <;> rcases h (σ i) with e | e <;> rw [e] <;> simp

theorem onShell_view {r : Fin 4 → Reactant} {p E : Fin 4 → ℝ} (h : OnShell r p E)
    (σ : Equiv.Perm (Fin 4)) (s : ℤ) (hs : s = 1 ∨ s = -1) :
    OnShell (viewOf r σ s) (p ∘ σ) (E ∘ σ) where
  sides := view_sides r σ s hs h.sides
  mass i := h.mass (σ i)
  mom i := h.mom (σ i)
  energy i := h.energy (σ i)
  conserved := by
    have e : ∀ i, ((viewOf r σ s i).side : ℝ) * (E ∘ σ) i = s * (((r (σ i)).side : ℝ) * E (σ i)) := by
      intro i; simp only [viewOf, Function.comp_apply]; push_cast; ring
    simp only [e, ← Finset.mul_sum]
    rw [Equiv.sum_comp σ (fun i => ((r i).side : ℝ) * E i), h.conserved, mul_zero]

/-- Full kind: the factor is gain minus loss over all particles. -/
theorem kind_full_four (r : Fin 4 → Reactant) (f : Fin 4 → ℝ) (hs : ∀ i, (r i).side = 1 ∨ (r i).side = -1)
    (h0 : (r 0).side = -1) (hf : ∀ i, 0 ≤ f i) :
    kindFactor (Kind.ofInt 0) [r 0, r 1, r 2, r 3] [f 0, f 1, f 2, f 3] = .ok (flux r f 1 - flux r f (-1)) := by
  have h2 : TwoSided ([r 1, r 2, r 3].zip [f 1, f 2, f 3]) := by
    intro x hx
    simp only [List.zip_cons_cons, List.zip_nil_right, List.mem_cons, List.not_mem_nil, or_false] at hx
    rcases hx with rfl | rfl | rfl <;> exact hs _
  have hf' : ∀ x ∈ [r 1, r 2, r 3].zip [f 1, f 2, f 3], 0 ≤ x.2 := by
    intro x hx
    simp only [List.zip_cons_cons, List.zip_nil_right, List.mem_cons, List.not_mem_nil, or_false] at hx
    rcases hx with rfl | rfl | rfl <;> exact hf _
  rw [(C84_kinds (r 0) [r 1, r 2, r 3] (f 0) [f 1, f 2, f 3] h0 h2 (hf 0) hf' 0).2.2.2.2 (Or.inl (by norm_num))]
  unfold netRate
  simp only [List.zip_cons_cons, List.zip_nil_right]
  rw [gain_four r f hs, loss_four r f hs]
  rfl

theorem kind_full_three (r : Fin 3 → Reactant) (f : Fin 3 → ℝ) (hs : ∀ i, (r i).side = 1 ∨ (r i).side = -1)
    (h0 : (r 0).side = -1) (hf : ∀ i, 0 ≤ f i) :
    kindFactor (Kind.ofInt 0) [r 0, r 1, r 2] [f 0, f 1, f 2] = .ok (flux r f 1 - flux r f (-1)) := by
  have h2 : TwoSided ([r 1, r 2].zip [f 1, f 2]) := by
    intro x hx
    simp only [List.zip_cons_cons, List.zip_nil_right, List.mem_cons, List.not_mem_nil, or_false] at hx
    rcases hx with rfl | rfl <;> exact hs _
  have hf' : ∀ x ∈ [r 1, r 2].zip [f 1, f 2], 0 ≤ x.2 := by
    intro x hx
    simp only [List.zip_cons_cons, List.zip_nil_right, List.mem_cons, List.not_mem_nil, or_false] at hx
    rcases hx with rfl | rfl <;> exact hf _
  rw [(C84_kinds (r 0) [r 1, r 2] (f 0) [f 1, f 2] h0 h2 (hf 0) hf' 0).2.2.2.2 (Or.inl (by norm_num))]
  unfold netRate
  simp only [List.zip_cons_cons, List.zip_nil_right]
  rw [gain_three r f hs, loss_three r f hs]
  rfl

/-- Number of changes of state of the first particle per cell: `p₀² I dE₃/dp₃`. -/
noncomputable def perCell {n : ℕ} (m p : Fin (n + 2) → ℝ) (I : ℝ) : ℝ :=
  p 0 ^ 2 * I * deriv (energyOf (m (Fin.last _))) (p (Fin.last _))

/-- The amplitude does not depend on the view. -/
theorem amplitude_view (r : Fin 4 → Reactant) (p E : Fin 4 → ℝ) (σ : Equiv.Perm (Fin 4)) (s : ℤ)
    (hs : s = 1 ∨ s = -1) (K1 K2 : ℝ) (o : Fin 4 → Fin 4) :
    amplitude (E ∘ σ) (p ∘ σ) (fun i => (viewOf r σ s i).specie.m) (fun i => (viewOf r σ s i).side) K1 K2
      (σ.symm (o 0)) (σ.symm (o 1)) (σ.symm (o 2)) (σ.symm (o 3)) =
    amplitude E p (fun i => (r i).specie.m) (fun i => (r i).side) K1 K2 (o 0) (o 1) (o 2) (o 3) := by
  funext d
  unfold amplitude fourProduct viewOf
  have hss : (s : ℝ) * s = 1 := by rcases hs with rfl | rfl <;> norm_num
  simp only [Function.comp_apply, Equiv.apply_symm_apply, Int.cast_mul]
  have e : ∀ x y : ℝ, (s : ℝ) * x * (s * y) = x * y := by
    intro x y; calc (s : ℝ) * x * (s * y) = (s * s) * (x * y) := by ring
      _ = _ := by rw [hss, one_mul]
  simp only [e]

/-- **C87, four particles.** The same configuration seen by any two particles of a reaction: the numbers
of changes per cell agree, with opposite sign if the particles are on opposite sides. -/
theorem C87_four (r : Fin 4 → Reactant) (p E : Fin 4 → ℝ) (h : OnShell r p E)
    (Ms : List CM) (hMs : Ms ≠ []) (hK : ∀ M ∈ Ms, M.K = 0) (ho : ∀ M ∈ Ms, M.order.Bijective)
    (f : Fin 4 → ℝ) (hocc : ∀ i, occAt (r i).specie (p i) = .ok (f i)) (hf : ∀ i, 0 ≤ f i)
    (hp : ∀ i, 0 < p i) (σ : Equiv.Perm (Fin 4)) (s : ℤ) (hs : s = 1 ∨ s = -1)
    (h0 : (r 0).side = -1) (hσ : s * (r (σ 0)).side = -1) :
    ∃ I I', integrandFull4 (p 0) (p 1) (p 2) r Ms 0 = .ok I ∧
      integrandFull4 (p (σ 0)) (p (σ 1)) (p (σ 2)) (viewOf r σ s) (viewMs Ms σ) 0 = .ok I' ∧
      perCell (fun i => (viewOf r σ s i).specie.m) (p ∘ σ) I' =
        s * perCell (fun i => (r i).specie.m) p I := by
  have i1 := C85_integrand_partial r p E h Ms hMs hK ho 0 f _ hocc (kind_full_four r f h.sides h0 hf)
    (hp 0) (hp 1) (hp 2)
  have h' := onShell_view h σ s hs
  have hMs' : viewMs Ms σ ≠ [] := by unfold viewMs; simpa using hMs
  have hK' : ∀ M ∈ viewMs Ms σ, M.K = 0 := by
    intro M hM
    obtain ⟨M', hM', rfl⟩ := List.mem_map.mp hM
    exact hK M' hM'
  have ho' : ∀ M ∈ viewMs Ms σ, M.order.Bijective := by
    intro M hM
    obtain ⟨M', hM', rfl⟩ := List.mem_map.mp hM
    exact σ.symm.bijective.comp (ho M' hM')
  have i2 := C85_integrand_partial (viewOf r σ s) (p ∘ σ) (E ∘ σ) h' (viewMs Ms σ) hMs' hK' ho' 0 (f ∘ σ) _
    (fun i => hocc (σ i)) (kind_full_four (viewOf r σ s) (f ∘ σ) h'.sides hσ fun i => hf _)
    (hp _) (hp _) (hp _)
  refine ⟨_, _, i1, i2, ?_⟩
  rw [flux_net r f σ s hs]
  have hE : ∀ i, 0 < E i := fun i => by rw [h.energy]; unfold energyOf; have := hp i; positivity
  have hd : ∀ i, deriv (energyOf (r i).specie.m) (p i) = p i / E i := fun i => by
    rw [energyOf_deriv _ _ (hp i), h.energy]
  have hS : ((viewMs Ms σ).map fun M => pairAverage ((p ∘ σ) (M.order 0)) ((p ∘ σ) (M.order 1))
        ((p ∘ σ) (M.order 2)) ((p ∘ σ) (M.order 3)) (amplitude (E ∘ σ) (p ∘ σ)
          (fun i => (viewOf r σ s i).specie.m) (fun i => (viewOf r σ s i).side) M.K1 M.K2
            (M.order 0) (M.order 1) (M.order 2) (M.order 3))) =
      Ms.map fun M => pairAverage (p (M.order 0)) (p (M.order 1)) (p (M.order 2)) (p (M.order 3))
          (amplitude E p (fun i => (r i).specie.m) (fun i => (r i).side) M.K1 M.K2
            (M.order 0) (M.order 1) (M.order 2) (M.order 3)) := by
    unfold viewMs
    rw [List.map_map]
    apply List.map_congr_left
    intro M _
    simp only [Function.comp_apply]
    have := amplitude_view r p E σ s hs M.K1 M.K2 M.order
    rw [this]
    simp
  rw [hS]
  set S := (Ms.map fun M => pairAverage (p (M.order 0)) (p (M.order 1)) (p (M.order 2)) (p (M.order 3))
          (amplitude E p (fun i => (r i).specie.m) (fun i => (r i).side) M.K1 M.K2
            (M.order 0) (M.order 1) (M.order 2) (M.order 3))).sum
  set N := flux r f 1 - flux r f (-1)
  have hprod : ∏ i, (p (σ i) / E (σ i)) = ∏ i, (p i / E i) := Equiv.prod_comp σ (fun i => p i / E i)
  rw [Fin.prod_univ_four, Fin.prod_univ_four] at hprod
  have e1 : perCell (fun i => (r i).specie.m) p (deriv (energyOf (r 1).specie.m) (p 1) *
      deriv (energyOf (r 2).specie.m) (p 2) * (S / (p 0 * E 0)) * N) =
      (p 0 / E 0 * (p 1 / E 1) * (p 2 / E 2) * (p 3 / E 3)) * S * N := by
    unfold perCell
    change p 0 ^ 2 * _ * deriv (energyOf (r 3).specie.m) (p 3) = _
    rw [hd, hd, hd]
    exact cell_scalar _ _ _ _ _ _ _ (hp 0).ne' (hE 0).ne'
  have e2 : perCell (fun i => (viewOf r σ s i).specie.m) (p ∘ σ)
      (deriv (energyOf (viewOf r σ s 1).specie.m) ((p ∘ σ) 1) *
      deriv (energyOf (viewOf r σ s 2).specie.m) ((p ∘ σ) 2) * (S / ((p ∘ σ) 0 * (E ∘ σ) 0)) * (s * N)) =
      (p (σ 0) / E (σ 0) * (p (σ 1) / E (σ 1)) * (p (σ 2) / E (σ 2)) * (p (σ 3) / E (σ 3))) * S * (s * N) := by
    unfold perCell
    change p (σ 0) ^ 2 * (deriv (energyOf (r (σ 1)).specie.m) (p (σ 1)) *
      deriv (energyOf (r (σ 2)).specie.m) (p (σ 2)) * (S / (p (σ 0) * E (σ 0))) * (s * N)) *
      deriv (energyOf (r (σ 3)).specie.m) (p (σ 3)) = _
    rw [hd, hd, hd]
    exact cell_scalar _ _ _ _ _ _ _ (hp (σ 0)).ne' (hE (σ 0)).ne'
  rw [e1, e2, hprod]
  ring

/-- **C87, three particles.** The same for decays and inverse decays, in the interior of the allowed region. -/
theorem C87_three (r : Fin 3 → Reactant) (p E : Fin 3 → ℝ)
    (hsides : ∀ i, (r i).side = 1 ∨ (r i).side = -1) (hm : ∀ i, 0 ≤ (r i).specie.m)
    (hE : ∀ i, E i = energyOf (r i).specie.m (p i)) (hcons : ∑ i, ((r i).side : ℝ) * E i = 0)
    (htri : p 0 < p 1 + p 2 ∧ p 1 < p 0 + p 2 ∧ p 2 < p 0 + p 1)
    (f : Fin 3 → ℝ) (hocc : ∀ i, occAt (r i).specie (p i) = .ok (f i)) (hf : ∀ i, 0 ≤ f i)
    (hp : ∀ i, 0 < p i) (σ : Equiv.Perm (Fin 3)) (s : ℤ) (hs : s = 1 ∨ s = -1)
    (h0 : (r 0).side = -1) (hσ : s * (r (σ 0)).side = -1) :
    ∃ I I', integrandFull3 (p 0) (p 1) 0 r = .ok I ∧
      integrandFull3 (p (σ 0)) (p (σ 1)) 0 (viewOf r σ s) = .ok I' ∧
      perCell (fun i => (viewOf r σ s i).specie.m) (p ∘ σ) I' =
        s * perCell (fun i => (r i).specie.m) p I := by
  -- one view
  have view : ∀ (r : Fin 3 → Reactant) (p E f : Fin 3 → ℝ), (∀ i, (r i).side = 1 ∨ (r i).side = -1) →
      (∀ i, 0 ≤ (r i).specie.m) → (∀ i, E i = energyOf (r i).specie.m (p i)) →
      (∑ i, ((r i).side : ℝ) * E i = 0) → inBounds3 p = 2 →
      (∀ i, occAt (r i).specie (p i) = .ok (f i)) → (∀ i, 0 ≤ f i) → (∀ i, 0 < p i) → (r 0).side = -1 →
      ∃ I, integrandFull3 (p 0) (p 1) 0 r = .ok I ∧ perCell (fun i => (r i).specie.m) p I =
        2 * (∏ i, p i / E i) * (flux r f 1 - flux r f (-1)) := by
    intro r p E f hsides hm hE hcons hb hocc hf hp h0
    have hlast : lastEnergy3 r (p 0) (p 1) = E 2 := by
      rw [Fin.sum_univ_three] at hcons
      unfold lastEnergy3
      rw [← energyOf_eq, ← energyOf_eq, ← hE, ← hE]
      have h2 : ((r 2).side : ℝ) * (r 2).side = 1 := by
        rcases hsides 2 with e | e <;> rw [e] <;> norm_num
      linear_combination (-((r 2).side : ℝ)) * hcons + E 2 * h2
    have hmom : momenta3 r (p 0) (p 1) = p := by
      funext i
      fin_cases i
      · rfl
      · rfl
      · change √(lastEnergy3 r (p 0) (p 1) ^ 2 - (r 2).specie.m ^ 2) = p 2
        rw [hlast, hE, energyOf, Real.sq_sqrt (by positivity), add_sub_cancel_right, Real.sqrt_sq (hp 2).le]
    have hme : (r 2).specie.m ≤ lastEnergy3 r (p 0) (p 1) := by
      rw [hlast, hE]; unfold energyOf
      exact Real.le_sqrt_of_sq_le (by have := hp 2; nlinarith)
    refine ⟨_, integrand3_inside r (p 0) (p 1) 0 f _ (hp 0) (hp 1) hme (by rw [hmom]; exact hb)
      (by rw [hmom]; exact hocc) (kind_full_three r f hsides h0 hf), ?_⟩
    unfold perCell
    change p 0 ^ 2 * _ * deriv (energyOf (r 2).specie.m) (p 2) = _
    rw [energyOf_deriv _ _ (hp 1), energyOf_deriv _ _ (hp 2), ← hE, ← hE, ← hE, Fin.prod_univ_three]
    have a := (hp 0).ne'
    have b : E 0 ≠ 0 := by rw [hE]; unfold energyOf; have := hp 0; positivity
    field_simp
  have hb : inBounds3 p = 2 := ((C35_three p hp).2.1).mpr htri
  have hb' : inBounds3 (p ∘ σ) = 2 := by
    apply ((C35_three (p ∘ σ) fun i => hp _).2.1).mpr
    have tri : ∀ i, 2 * p i < ∑ j, p j := by
      intro i
      rw [Fin.sum_univ_three]
      fin_cases i
      · change 2 * p 0 < _; linarith [htri.1]
      · change 2 * p 1 < _; linarith [htri.2.1]
      · change 2 * p 2 < _; linarith [htri.2.2]
    have hsum : p (σ 0) + p (σ 1) + p (σ 2) = ∑ j, p j := by
      rw [← Equiv.sum_comp σ p, Fin.sum_univ_three]
    have t0 := tri (σ 0)
    have t1 := tri (σ 1)
    have t2 := tri (σ 2)
    refine ⟨?_, ?_, ?_⟩ <;> simp only [Function.comp_apply] <;> linarith
  obtain ⟨I, e1, c1⟩ := view r p E f hsides hm hE hcons hb hocc hf hp h0
  obtain ⟨I', e2, c2⟩ := view (viewOf r σ s) (p ∘ σ) (E ∘ σ) (f ∘ σ) (view_sides r σ s hs hsides)
    (fun i => hm _) (fun i => hE _) (by
      have e : ∀ i, ((viewOf r σ s i).side : ℝ) * (E ∘ σ) i = s * (((r (σ i)).side : ℝ) * E (σ i)) := by
        intro i; simp only [viewOf, Function.comp_apply]; push_cast; ring
      simp only [e, ← Finset.mul_sum]
      rw [Equiv.sum_comp σ (fun i => ((r i).side : ℝ) * E i), hcons, mul_zero]) hb'
    (fun i => hocc _) (fun i => hf _) (fun i => hp _) hσ
  refine ⟨I, I', e1, e2, ?_⟩
  rw [c1, c2, flux_net r f σ s hs]
  simp only [Function.comp_apply]
  rw [Equiv.prod_comp σ (fun i => p i / E i)]
  ring

/-- **C87, conservation.** Add up over the four particles, each computed from a view in which it comes
first (`σ i 0 = i`, on the left): every quantity `q` conserved by the reaction (energy, charges, lepton
number) is conserved by the collision integrals, configuration by configuration. -/
theorem C87_conservation (r : Fin 4 → Reactant) (p E : Fin 4 → ℝ) (h : OnShell r p E)
    (Ms : List CM) (hMs : Ms ≠ []) (hK : ∀ M ∈ Ms, M.K = 0) (ho : ∀ M ∈ Ms, M.order.Bijective)
    (f : Fin 4 → ℝ) (hocc : ∀ i, occAt (r i).specie (p i) = .ok (f i)) (hf : ∀ i, 0 ≤ f i)
    (hp : ∀ i, 0 < p i) (h0 : (r 0).side = -1) (σ : Fin 4 → Equiv.Perm (Fin 4)) (hσ : ∀ i, σ i 0 = i) :
    ∃ I : Fin 4 → ℝ,
      (∀ i, integrandFull4 (p (σ i 0)) (p (σ i 1)) (p (σ i 2)) (viewOf r (σ i) (-(r i).side))
        (viewMs Ms (σ i)) 0 = .ok (I i)) ∧
      ∀ q : Fin 4 → ℝ, ∑ i, ((r i).side : ℝ) * q i = 0 →
        ∑ i, q i * perCell (fun j => (viewOf r (σ i) (-(r i).side) j).specie.m) (p ∘ σ i) (I i) = 0 := by
  have key : ∀ i, ∃ J J', integrandFull4 (p 0) (p 1) (p 2) r Ms 0 = .ok J ∧
      integrandFull4 (p (σ i 0)) (p (σ i 1)) (p (σ i 2)) (viewOf r (σ i) (-(r i).side)) (viewMs Ms (σ i)) 0
        = .ok J' ∧ perCell (fun j => (viewOf r (σ i) (-(r i).side) j).specie.m) (p ∘ σ i) J' =
        (-(r i).side : ℤ) * perCell (fun j => (r j).specie.m) p J := by
    intro i
    refine C87_four r p E h Ms hMs hK ho f hocc hf hp (σ i) (-(r i).side) ?_ h0 ?_
    · rcases h.sides i with e | e <;> rw [e] <;> simp
    · rw [hσ i]; rcases h.sides i with e | e <;> rw [e] <;> simp
  choose J J' hJ hJ' hc using key
  refine ⟨J', hJ', fun q hq => ?_⟩
  have hJJ : ∀ i, J i = J 0 := fun i => by
    have := (hJ i).symm.trans (hJ 0)
    exact Except.ok.inj this
  have e : ∀ i, q i * perCell (fun j => (viewOf r (σ i) (-(r i).side) j).specie.m) (p ∘ σ i) (J' i) =
      -perCell (fun j => (r j).specie.m) p (J 0) * (((r i).side : ℝ) * q i) := by
    intro i; rw [hc i, hJJ i]; push_cast; ring
  simp only [e, ← Finset.mul_sum, hq, mul_zero]

section Example
/-- Massless fermions with different temperatures, `0 + 1 → 2 + 3`. -/
private noncomputable def exR (i : Fin 4) : Reactant :=
  ⟨⟨1, 0, [], [], true, (i : ℝ) + 1⟩, ![-1, -1, 1, 1] i⟩
private noncomputable def exMom : Fin 4 → ℝ := ![1, 2, 3/2, 3/2]

private theorem exOnShell : OnShell exR exMom exMom where
  sides i := by fin_cases i <;> simp [exR]
  mass i := le_refl 0
  mom i := by fin_cases i <;> norm_num [exMom]
  energy i := by
    have : 0 ≤ exMom i := by fin_cases i <;> norm_num [exMom]
    change exMom i = √(exMom i ^ 2 + 0 ^ 2)
    rw [zero_pow two_ne_zero, add_zero, Real.sqrt_sq this]
  conserved := by rw [Fin.sum_univ_four]; simp [exR, exMom]; norm_num

/-- The third particle sees the collision with the opposite sign. -/
example (K1 : ℝ) : ∃ I I', integrandFull4 1 2 (3/2) exR [⟨id, K1, 0, 0⟩] 0 = .ok I ∧
    integrandFull4 (3/2) 2 1 (viewOf exR (Equiv.swap 0 2) (-1)) (viewMs [⟨id, K1, 0, 0⟩] (Equiv.swap 0 2)) 0
      = .ok I' ∧
    perCell (fun i => (viewOf exR (Equiv.swap 0 2) (-1) i).specie.m) (exMom ∘ Equiv.swap 0 2) I' =
      ((-1 : ℤ) : ℝ) * perCell (fun i => (exR i).specie.m) exMom I :=
  C87_four exR exMom exMom exOnShell [⟨id, K1, 0, 0⟩] (by simp) (by simp)
    (fun M hM => by rw [List.mem_singleton.mp hM]; exact Function.bijective_id)
    (fun i => 1 / (Real.exp (energy (exMom i) 0 / ((i : ℝ) + 1)) + (1 : ℤ))) (fun i => rfl)
    (fun i => by positivity) (fun i => by fin_cases i <;> norm_num [exMom]) (Equiv.swap 0 2) (-1)
    (Or.inr rfl) rfl rfl

/-- Energy balance of the same collision. -/
example (K1 : ℝ) : ∃ I : Fin 4 → ℝ, ∑ i, exMom i * perCell
    (fun j => (viewOf exR (Equiv.swap 0 i) (-(exR i).side) j).specie.m) (exMom ∘ Equiv.swap 0 i) (I i) = 0 := by
  obtain ⟨I, -, hI⟩ := C87_conservation exR exMom exMom exOnShell [⟨id, K1, 0, 0⟩] (by simp) (by simp)
    (fun M hM => by rw [List.mem_singleton.mp hM]; exact Function.bijective_id)
    (fun i => 1 / (Real.exp (energy (exMom i) 0 / ((i : ℝ) + 1)) + (1 : ℤ))) (fun i => rfl)
    (fun i => by positivity) (fun i => by fin_cases i <;> norm_num [exMom]) rfl (fun i => Equiv.swap 0 i)
    (fun i => Equiv.swap_apply_left 0 i)
  exact ⟨I, hI exMom exOnShell.conserved⟩

/-- A particle of mass 2 and momentum 3/2 (energy 5/2) decaying into massless ones of momenta 1 and 3/2. -/
private noncomputable def exR3 (i : Fin 3) : Reactant :=
  ⟨⟨1, ![2, 0, 0] i, [], [], true, (i : ℝ) + 1⟩, ![-1, 1, 1] i⟩

example : ∃ I I', integrandFull3 (3/2) 1 0 exR3 = .ok I ∧
    integrandFull3 1 (3/2) 0 (viewOf exR3 (Equiv.swap 0 1) (-1)) = .ok I' ∧
    perCell (fun i => (viewOf exR3 (Equiv.swap 0 1) (-1) i).specie.m) (![3/2, 1, 3/2] ∘ Equiv.swap 0 1) I' =
      ((-1 : ℤ) : ℝ) * perCell (fun i => (exR3 i).specie.m) ![3/2, 1, 3/2] I := by
  have sq : ∀ (a b : ℝ), 0 ≤ b → a = b ^ 2 → b = √a := fun a b hb h => by rw [h, Real.sqrt_sq hb]
  refine C87_three exR3 ![3/2, 1, 3/2] ![5/2, 1, 3/2] (fun i => by fin_cases i <;> simp [exR3])
    (fun i => by fin_cases i <;> simp [exR3]) (fun i => ?_) ?_ ?_
    (fun i => 1 / (Real.exp (energy ((![3/2, 1, 3/2] : Fin 3 → ℝ) i) ((![2, 0, 0] : Fin 3 → ℝ) i) /
      ((i : ℝ) + 1)) + (1 : ℤ))) (fun i => rfl)
    (fun i => by positivity) (fun i => by fin_cases i <;> norm_num) (Equiv.swap 0 1) (-1) (Or.inr rfl) rfl rfl
  · apply sq
    · fin_cases i <;> norm_num
    · fin_cases i <;> norm_num [exR3]
  · rw [Fin.sum_univ_three]; simp [exR3]; norm_num
  · simp
end Example

end PyBBN
