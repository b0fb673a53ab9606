import Verif.Props.FermiDeclared
/-!
# C108: totals of the generated integrals in every event
-/
namespace PyBBN

open Complex

set_option linter.unusedSectionVars false

section
variable {S : Type*} [DecidableEq S] {A : LibAttr S} {c : LibConst}

/-- Leg `v` of a declaration in an event: it takes position `γ⁻¹ v`, with the momentum and the mass found there, and it is conjugated
if that position is on the other side of the reaction. -/
def evLeg (anti : Fin 4 → Bool) (Q : Fin 4 → Fin 4 → ℝ) (m : Fin 4 → ℝ) (γ : Equiv.Perm (Fin 4)) (v : Fin 4) : Leg :=
  ⟨xor (anti v) (decide (v < 2) != decide (γ.symm v < 2)), Q (γ.symm v), m (γ.symm v)⟩

/-- Products of momenta in an event. -/
def evDots (Q : Fin 4 → Fin 4 → ℝ) (i j k l : Fin 4) : ℝ := mink (Q i) (Q j) * mink (Q k) (Q l)

/-- Products of masses and momenta in an event. -/
def evMass (Q : Fin 4 → Fin 4 → ℝ) (m : Fin 4 → ℝ) (i j k l : Fin 4) : ℝ := m i * m j * mink (Q k) (Q l)

theorem mink_symm (x y : Fin 4 → ℝ) : mink x y = mink y x := by unfold mink; ring

theorem evDots_pair (Q : Fin 4 → Fin 4 → ℝ) : PairFn (evDots Q) :=
  ⟨fun i j k l => by unfold evDots; rw [mink_symm (Q j)], fun i j k l => by unfold evDots; rw [mink_symm (Q l)]⟩

theorem evMass_pair (Q : Fin 4 → Fin 4 → ℝ) (m : Fin 4 → ℝ) : PairFn (evMass Q m) :=
  ⟨fun i j k l => by unfold evMass; ring, fun i j k l => by unfold evMass; rw [mink_symm (Q l)]⟩

theorem evDots_swap (Q : Fin 4 → Fin 4 → ℝ) (i j k l : Fin 4) : evDots Q k l i j = evDots Q i j k l := by
  unfold evDots; ring

theorem scattering_fermi (Q : Fin 4 → Fin 4 → ℝ) (m : Fin 4 → ℝ) (γ : Equiv.Perm (Fin 4)) :
    ((eventAmp (evDots Q) (evMass Q m) [weakM c 1 0 ⟨0, 1, 2, 3⟩] γ : ℝ) : ℂ) = fermiSq c.GF 1 0 (1 / 2) 0
      (evLeg (fun _ => false) Q m γ 2) (evLeg (fun _ => false) Q m γ 0) (evLeg (fun _ => false) Q m γ 3) (evLeg (fun _ => false) Q m γ 1) := by
  obtain ⟨f0, f1, f2, f3⟩ := fin4_lits
  rw [fermiSq_eq]
  congr 1
  unfold eventAmp weakM
  simp only [List.map_cons, List.map_nil, List.sum_cons, List.sum_nil, normOrder_lits.1, f0, f1, f2, f3, evLeg, evDots,
    zero_mul, ite_self, add_zero]
  ring

theorem charged_fermi (Q : Fin 4 → Fin 4 → ℝ) (m : Fin 4 → ℝ) (γ : Equiv.Perm (Fin 4)) :
    ((eventAmp (evDots Q) (evMass Q m) [weakM c 4 0 ⟨0, 3, 1, 2⟩] γ : ℝ) : ℂ) = fermiSq c.GF 1 0 1 0
      (evLeg ![false, true, false, true] Q m γ 2) (evLeg ![false, true, false, true] Q m γ 0)
      (evLeg ![false, true, false, true] Q m γ 1) (evLeg ![false, true, false, true] Q m γ 3) := by
  obtain ⟨f0, f1, f2, f3⟩ := fin4_lits
  rw [fermiSq_eq]
  congr 1
  unfold eventAmp weakM
  simp only [List.map_cons, List.map_nil, List.sum_cons, List.sum_nil, normOrder_lits.2.1, f0, f1, f2, f3, evLeg, evDots,
    zero_mul, ite_self, add_zero]
  rw [mink_symm (Q (γ.symm 2))]
  ring

theorem annihilation_fermi (gL : ℝ) (Q : Fin 4 → Fin 4 → ℝ) (m : Fin 4 → ℝ) (γ : Equiv.Perm (Fin 4)) :
    ((eventAmp (evDots Q) (evMass Q m) [weakM c (4 * gL ^ 2) 0 ⟨0, 3, 1, 2⟩, weakM c (4 * c.gR ^ 2) 0 ⟨0, 2, 1, 3⟩,
      weakM c 0 (4 * gL * c.gR) ⟨2, 3, 0, 1⟩] γ : ℝ) : ℂ) = fermiSq c.GF 1 0 gL c.gR
      (evLeg ![false, true, false, true] Q m γ 1) (evLeg ![false, true, false, true] Q m γ 0)
      (evLeg ![false, true, false, true] Q m γ 2) (evLeg ![false, true, false, true] Q m γ 3) := by
  obtain ⟨f0, f1, f2, f3⟩ := fin4_lits
  have side : ∀ j : Fin 4, evSide j = if j < 2 then -1 else 1 := by decide
  have hf : flips (weakM c 0 (4 * gL * c.gR) ⟨2, 3, 0, 1⟩) γ = (decide (γ.symm 2 < 2) != decide (γ.symm 3 < 2)) := by
    unfold flips weakM
    simp only [normOrder_lits.2.2.2, f2, f3, side]
    by_cases h2 : γ.symm 2 < 2 <;> by_cases h3 : γ.symm 3 < 2 <;> simp [h2, h3] <;> decide
  rw [fermiSq_eq]
  congr 1
  unfold eventAmp
  simp only [List.map_cons, List.map_nil, List.sum_cons, List.sum_nil, hf]
  unfold weakM
  simp only [normOrder_lits.2.1, normOrder_lits.2.2.1, normOrder_lits.2.2.2, f0, f1, f2, f3, evLeg, evDots, evMass,
    zero_mul, ite_self, add_zero, zero_add]
  rw [mink_symm (Q (γ.symm 1)) (Q (γ.symm 3)), mink_symm (Q (γ.symm 1)) (Q (γ.symm 2)), mink_symm (Q (γ.symm 1)) (Q (γ.symm 0))]
  have e2 : ¬ ((2 : Fin 4) < 2) := by decide
  have e3 : ¬ ((3 : Fin 4) < 2) := by decide
  by_cases h2 : γ.symm 2 < 2 <;> by_cases h3 : γ.symm 3 < 2 <;> simp [h2, h3, e3] <;> ring

/-- **C108, events.** The total amplitude which the integrals generated from a declaration give to an event `θ` (species of the four
positions, the first two incoming), for each position `i`, is the sum of the squared amplitudes of the theory over all assignments
`γ` of the legs of the declaration to the positions, once for the declaration and its conjugate: neutrino scattering and annihilation
are their own conjugates, hence the half; charged currents are declared in conjugate pairs. -/
theorem C108_events (hinj : Function.Injective A.name) (hmaj : ∀ s, A.majorana s = false) (θ : Fin 4 → S) (i : Fin 4)
    (Q : Fin 4 → Fin 4 → ℝ) (m : Fin 4 → ℝ) :
    (∀ a b, ∃ o, (neutrinoScattering c a b).integrals A = .ok o ∧
      ((totalAmp (evAmp θ i (evDots Q)) (evAmp θ i (evMass Q m)) o : ℝ) : ℂ) = (∑ γ : Equiv.Perm (Fin 4),
        if ![a, b, a, b] ∘ γ = θ then fermiSq c.GF 1 0 (1 / 2) 0 (evLeg (fun _ => false) Q m γ 2) (evLeg (fun _ => false) Q m γ 0)
          (evLeg (fun _ => false) Q m γ 3) (evLeg (fun _ => false) Q m γ 1) else 0) / 2) ∧
    (∀ n l gL, ∃ o, (neutrinosToLeptons c n l gL).integrals A = .ok o ∧
      ((totalAmp (evAmp θ i (evDots Q)) (evAmp θ i (evMass Q m)) o : ℝ) : ℂ) = (∑ γ : Equiv.Perm (Fin 4),
        if ![n, n, l, l] ∘ γ = θ then fermiSq c.GF 1 0 gL c.gR (evLeg ![false, true, false, true] Q m γ 1)
          (evLeg ![false, true, false, true] Q m γ 0) (evLeg ![false, true, false, true] Q m γ 2)
          (evLeg ![false, true, false, true] Q m γ 3) else 0) / 2) ∧
    (∀ n n' l l', ∃ o o', (leptonsCC c n n' l l').integrals A = .ok o ∧ (leptonsCC c n' n l' l).integrals A = .ok o' ∧
      ((totalAmp (evAmp θ i (evDots Q)) (evAmp θ i (evMass Q m)) o + totalAmp (evAmp θ i (evDots Q)) (evAmp θ i (evMass Q m)) o' : ℝ) : ℂ) =
        ∑ γ : Equiv.Perm (Fin 4), if ![l, l', n, n'] ∘ γ = θ then fermiSq c.GF 1 0 1 0 (evLeg ![false, true, false, true] Q m γ 2)
          (evLeg ![false, true, false, true] Q m γ 0) (evLeg ![false, true, false, true] Q m γ 1)
          (evLeg ![false, true, false, true] Q m γ 3) else 0) := by
  have hα := evDots_pair Q
  have hβ := evMass_pair Q m
  have hsw := evDots_swap Q
  refine ⟨fun a b => ?_, fun n l gL => ?_, fun n n' l l' => ?_⟩
  · have hM : ∀ x ∈ [weakM c 1 0 ⟨0, 1, 2, 3⟩], x.K = 0 ∧ [x.order.a, x.order.b, x.order.c, x.order.d].Perm (List.range 4) := by
      intro x hx
      rw [List.mem_singleton.mp hx]
      exact weakM_ok _ _ _ (by rw [normOrder_lits.1]; decide)
    obtain ⟨-, -, out, -, g2, -⟩ := generated_ints A.toAttr [a, b] [a, b] [false, false] [false, false] rfl rfl
      [weakM c 1 0 ⟨0, 1, 2, 3⟩] hM
    refine ⟨out, g2, ?_⟩
    have h1 := generated_amp A hinj hmaj θ i hα hβ hsw ![a, b, a, b] (fun _ => false) _ hM out g2
    have h2 := conj_amp θ i (evDots Q) (evMass Q m) ![a, b, a, b] ![a, b, a, b] (fun _ => false) (fun _ => false) _ _ conjSide
      (by funext j; fin_cases j <;> rfl) (by intro j; fin_cases j <;> rfl) (fun γ => scattering_conj (c := c) hsw γ 1)
    simp only [← scattering_fermi]
    rw [h1, eq_div_iff (by norm_num), mul_two, ← Complex.ofReal_add, h2, Complex.ofReal_sum]
    refine Finset.sum_congr rfl fun γ _ => ?_
    split_ifs <;> simp
  · obtain ⟨o, e, h⟩ := annihilation_total (A := A) (c := c) hinj hmaj n l (4 * c.gR ^ 2) (4 * gL ^ 2) (4 * gL * c.gR)
    refine ⟨o, e, ?_⟩
    simp only [← annihilation_fermi]
    rw [h hα hβ hsw, Complex.ofReal_div, Complex.ofReal_sum]
    refine congrArg₂ (fun x y : ℂ => x / y) ?_ (by norm_num)
    refine (Equiv.sum_comp (Equiv.mulLeft (Equiv.swap (2 : Fin 4) 3)) _).symm.trans ?_
    refine Finset.sum_congr rfl fun γ _ => ?_
    have sp : (![n, n, l, l] : Fin 4 → S) ∘ (Equiv.swap 2 3 * γ : Equiv.Perm (Fin 4)) = ![n, n, l, l] ∘ γ := by
      funext j
      simp only [Function.comp, Equiv.Perm.mul_apply]
      generalize γ j = k
      fin_cases k <;> rfl
    rw [Equiv.coe_mulLeft, sp, annihilation_swap hβ]
    split_ifs <;> simp
  · have hM : ∀ x ∈ [weakM c 4 0 ⟨0, 3, 1, 2⟩], x.K = 0 ∧ [x.order.a, x.order.b, x.order.c, x.order.d].Perm (List.range 4) := by
      intro x hx
      rw [List.mem_singleton.mp hx]
      exact weakM_ok _ _ _ (by rw [normOrder_lits.2.1]; decide)
    obtain ⟨-, -, out, -, g2, -⟩ := generated_ints A.toAttr [l, l'] [n, n'] [false, true] [false, true] rfl rfl
      [weakM c 4 0 ⟨0, 3, 1, 2⟩] hM
    obtain ⟨-, -, out', -, g2', -⟩ := generated_ints A.toAttr [l', l] [n', n] [false, true] [false, true] rfl rfl
      [weakM c 4 0 ⟨0, 3, 1, 2⟩] hM
    refine ⟨out, out', g2, g2', ?_⟩
    have h1 := generated_amp A hinj hmaj θ i hα hβ hsw ![l, l', n, n'] ![false, true, false, true] _ hM out g2
    have h1' := generated_amp A hinj hmaj θ i hα hβ hsw ![l', l, n', n] ![false, true, false, true] _ hM out' g2'
    have h2 := conj_amp θ i (evDots Q) (evMass Q m) ![l, l', n, n'] ![l', l, n', n] ![false, true, false, true]
      ![false, true, false, true] _ _ conjAnti
      (by funext j; fin_cases j <;> rfl) (by intro j; fin_cases j <;> rfl)
      (fun γ => charged_conj (c := c) hα hsw γ 4)
    simp only [← charged_fermi]
    rw [h1, h1', h2, Complex.ofReal_sum]
    refine Finset.sum_congr rfl fun γ _ => ?_
    split_ifs <;> simp

set_option maxRecDepth 100000 in
theorem abab_perms : ∀ γ : Equiv.Perm (Fin 4), (∀ j, (γ j = 0 ∨ γ j = 2) ↔ (j = 0 ∨ j = 2)) ↔
    γ ∈ ({1, Equiv.swap 0 2, Equiv.swap 1 3, Equiv.swap 0 2 * Equiv.swap 1 3} : Finset (Equiv.Perm (Fin 4))) := by
  decide

set_option maxRecDepth 100000 in
theorem aabb_perms : ∀ γ : Equiv.Perm (Fin 4), (∀ j, (γ j = 0 ∨ γ j = 2) ↔ (j = 0 ∨ j = 1)) ↔
    γ ∈ ({Equiv.swap 1 2, Equiv.swap 1 2 * Equiv.swap 0 1, Equiv.swap 1 2 * Equiv.swap 2 3,
      Equiv.swap 1 2 * (Equiv.swap 0 1 * Equiv.swap 2 3)} : Finset (Equiv.Perm (Fin 4))) := by
  decide

theorem pairs_iff {a b : S} (hab : a ≠ b) (γ : Equiv.Perm (Fin 4)) (p : Fin 4 → Prop) [DecidablePred p] (θ : Fin 4 → S)
    (hθ : ∀ j, θ j = if p j then a else b) : (![a, b, a, b] : Fin 4 → S) ∘ γ = θ ↔ ∀ j, (γ j = 0 ∨ γ j = 2) ↔ p j := by
  have e : ∀ k : Fin 4, (![a, b, a, b] : Fin 4 → S) k = if k = 0 ∨ k = 2 then a else b := by
    intro k; fin_cases k <;> simp
  rw [funext_iff]
  refine forall_congr' fun j => ?_
  simp only [Function.comp, e, hθ]
  by_cases h1 : γ j = 0 ∨ γ j = 2 <;> by_cases h2 : p j <;> simp [h1, h2, hab, Ne.symm hab]

/-- **C108, two flavours.** For neutrinos of different flavours the generated integrals have the amplitudes of the table in the
literature: `32 G_F² [(p₁·p₂)(p₃·p₄) + (p₁·p₄)(p₂·p₃)]` for scattering (of a neutrino and of an antineutrino), and for the annihilation
of one flavour into the other `32 G_F² (p₁·p₄)(p₂·p₃)`, here as the sum over the two orders of the final particles. -/
theorem C108_two_flavours (hinj : Function.Injective A.name) (hmaj : ∀ s, A.majorana s = false) (a b : S) (hab : a ≠ b) (i : Fin 4)
    (Q : Fin 4 → Fin 4 → ℝ) (m : Fin 4 → ℝ) : ∃ o, (neutrinoScattering c a b).integrals A = .ok o ∧
      totalAmp (evAmp ![a, b, a, b] i (evDots Q)) (evAmp ![a, b, a, b] i (evMass Q m)) o =
        32 * c.GF ^ 2 * (mink (Q 0) (Q 1) * mink (Q 2) (Q 3) + mink (Q 0) (Q 3) * mink (Q 1) (Q 2)) ∧
      totalAmp (evAmp ![a, a, b, b] i (evDots Q)) (evAmp ![a, a, b, b] i (evMass Q m)) o =
        32 * c.GF ^ 2 * (mink (Q 0) (Q 2) * mink (Q 1) (Q 3) + mink (Q 0) (Q 3) * mink (Q 1) (Q 2)) := by
  obtain ⟨o, e, h⟩ := (C108_events (c := c) hinj hmaj ![a, b, a, b] i Q m).1 a b
  obtain ⟨o', e', h'⟩ := (C108_events (c := c) hinj hmaj ![a, a, b, b] i Q m).1 a b
  obtain rfl : o = o' := Except.ok.inj (e.symm.trans e')
  obtain ⟨f0, f1, f2, f3⟩ := fin4_lits
  refine ⟨o, e, ?_, ?_⟩
  · simp only [← scattering_fermi] at h
    apply Complex.ofReal_injective
    rw [h]
    have : ∀ γ : Equiv.Perm (Fin 4), ((![a, b, a, b] : Fin 4 → S) ∘ γ = ![a, b, a, b]) ↔
        γ ∈ ({1, Equiv.swap 0 2, Equiv.swap 1 3, Equiv.swap 0 2 * Equiv.swap 1 3} : Finset (Equiv.Perm (Fin 4))) := by
      intro γ
      rw [← abab_perms, pairs_iff hab γ (fun j => j = 0 ∨ j = 2)]
      intro j; fin_cases j <;> simp
    simp only [this, Finset.sum_ite_mem, Finset.univ_inter]
    rw [Finset.sum_insert (by decide), Finset.sum_insert (by decide), Finset.sum_insert (by decide), Finset.sum_singleton]
    have v0 : (1 : Equiv.Perm (Fin 4)).symm 0 = 0 ∧ (1 : Equiv.Perm (Fin 4)).symm 1 = 1 ∧ (1 : Equiv.Perm (Fin 4)).symm 2 = 2 ∧ (1 : Equiv.Perm (Fin 4)).symm 3 = 3 := by decide
    have v1 : (Equiv.swap 0 2 : Equiv.Perm (Fin 4)).symm 0 = 2 ∧ (Equiv.swap 0 2 : Equiv.Perm (Fin 4)).symm 1 = 1 ∧ (Equiv.swap 0 2 : Equiv.Perm (Fin 4)).symm 2 = 0 ∧ (Equiv.swap 0 2 : Equiv.Perm (Fin 4)).symm 3 = 3 := by decide
    have v2 : (Equiv.swap 1 3 : Equiv.Perm (Fin 4)).symm 0 = 0 ∧ (Equiv.swap 1 3 : Equiv.Perm (Fin 4)).symm 1 = 3 ∧ (Equiv.swap 1 3 : Equiv.Perm (Fin 4)).symm 2 = 2 ∧ (Equiv.swap 1 3 : Equiv.Perm (Fin 4)).symm 3 = 1 := by decide
    have v3 : (Equiv.swap 0 2 * Equiv.swap 1 3 : Equiv.Perm (Fin 4)).symm 0 = 2 ∧ (Equiv.swap 0 2 * Equiv.swap 1 3 : Equiv.Perm (Fin 4)).symm 1 = 3 ∧ (Equiv.swap 0 2 * Equiv.swap 1 3 : Equiv.Perm (Fin 4)).symm 2 = 0 ∧ (Equiv.swap 0 2 * Equiv.swap 1 3 : Equiv.Perm (Fin 4)).symm 3 = 1 := by decide
    unfold eventAmp weakM
    simp only [List.map_cons, List.map_nil, List.sum_cons, List.sum_nil, normOrder_lits.1, f0, f1, f2, f3, evDots,
      zero_mul, ite_self, add_zero,
      v0.1, v0.2.1, v0.2.2.1, v0.2.2.2, v1.1, v1.2.1, v1.2.2.1, v1.2.2.2,
      v2.1, v2.2.1, v2.2.2.1, v2.2.2.2, v3.1, v3.2.1, v3.2.2.1, v3.2.2.2]
    rw [← Complex.ofReal_add, ← Complex.ofReal_add, ← Complex.ofReal_add, ← Complex.ofReal_ofNat, ← Complex.ofReal_div]
    refine congrArg Complex.ofReal ?_
    rw [mink_symm (Q 2) (Q 1)]
    ring
  · simp only [← scattering_fermi] at h'
    apply Complex.ofReal_injective
    rw [h']
    have : ∀ γ : Equiv.Perm (Fin 4), ((![a, b, a, b] : Fin 4 → S) ∘ γ = ![a, a, b, b]) ↔
        γ ∈ ({Equiv.swap 1 2, Equiv.swap 1 2 * Equiv.swap 0 1, Equiv.swap 1 2 * Equiv.swap 2 3, Equiv.swap 1 2 * (Equiv.swap 0 1 * Equiv.swap 2 3)} : Finset (Equiv.Perm (Fin 4))) := by
      intro γ
      rw [← aabb_perms, pairs_iff hab γ (fun j => j = 0 ∨ j = 1)]
      intro j; fin_cases j <;> simp
    simp only [this, Finset.sum_ite_mem, Finset.univ_inter]
    rw [Finset.sum_insert (by decide), Finset.sum_insert (by decide), Finset.sum_insert (by decide), Finset.sum_singleton]
    have v0 : (Equiv.swap 1 2 : Equiv.Perm (Fin 4)).symm 0 = 0 ∧ (Equiv.swap 1 2 : Equiv.Perm (Fin 4)).symm 1 = 2 ∧ (Equiv.swap 1 2 : Equiv.Perm (Fin 4)).symm 2 = 1 ∧ (Equiv.swap 1 2 : Equiv.Perm (Fin 4)).symm 3 = 3 := by decide
    have v1 : (Equiv.swap 1 2 * Equiv.swap 0 1 : Equiv.Perm (Fin 4)).symm 0 = 1 ∧ (Equiv.swap 1 2 * Equiv.swap 0 1 : Equiv.Perm (Fin 4)).symm 1 = 2 ∧ (Equiv.swap 1 2 * Equiv.swap 0 1 : Equiv.Perm (Fin 4)).symm 2 = 0 ∧ (Equiv.swap 1 2 * Equiv.swap 0 1 : Equiv.Perm (Fin 4)).symm 3 = 3 := by decide
    have v2 : (Equiv.swap 1 2 * Equiv.swap 2 3 : Equiv.Perm (Fin 4)).symm 0 = 0 ∧ (Equiv.swap 1 2 * Equiv.swap 2 3 : Equiv.Perm (Fin 4)).symm 1 = 3 ∧ (Equiv.swap 1 2 * Equiv.swap 2 3 : Equiv.Perm (Fin 4)).symm 2 = 1 ∧ (Equiv.swap 1 2 * Equiv.swap 2 3 : Equiv.Perm (Fin 4)).symm 3 = 2 := by decide
    have v3 : (Equiv.swap 1 2 * (Equiv.swap 0 1 * Equiv.swap 2 3) : Equiv.Perm (Fin 4)).symm 0 = 1 ∧ (Equiv.swap 1 2 * (Equiv.swap 0 1 * Equiv.swap 2 3) : Equiv.Perm (Fin 4)).symm 1 = 3 ∧ (Equiv.swap 1 2 * (Equiv.swap 0 1 * Equiv.swap 2 3) : Equiv.Perm (Fin 4)).symm 2 = 0 ∧ (Equiv.swap 1 2 * (Equiv.swap 0 1 * Equiv.swap 2 3) : Equiv.Perm (Fin 4)).symm 3 = 2 := by decide
    unfold eventAmp weakM
    simp only [List.map_cons, List.map_nil, List.sum_cons, List.sum_nil, normOrder_lits.1, f0, f1, f2, f3, evDots,
      zero_mul, ite_self, add_zero,
      v0.1, v0.2.1, v0.2.2.1, v0.2.2.2, v1.1, v1.2.1, v1.2.2.1, v1.2.2.2,
      v2.1, v2.2.1, v2.2.2.1, v2.2.2.2, v3.1, v3.2.1, v3.2.2.1, v3.2.2.2]
    rw [← Complex.ofReal_add, ← Complex.ofReal_add, ← Complex.ofReal_add, ← Complex.ofReal_ofNat, ← Complex.ofReal_div]
    refine congrArg Complex.ofReal ?_
    ring


theorem perm4_count (i j k l : Fin 4) : ((Finset.univ : Finset (Equiv.Perm (Fin 4))).filter
    fun γ => γ.symm 0 = i ∧ γ.symm 1 = j ∧ γ.symm 2 = k ∧ γ.symm 3 = l).card = if [i, j, k, l].Nodup then 1 else 0 := by
  split_ifs with h
  · rw [Finset.card_eq_one]
    have hinj : Function.Injective ![i, j, k, l] := by
      rw [← List.nodup_ofFn]; simpa [List.ofFn_succ] using h
    refine ⟨(Equiv.ofBijective _ (Finite.injective_iff_bijective.mp hinj)).symm, ?_⟩
    ext γ
    simp only [Finset.mem_filter, Finset.mem_univ, true_and, Finset.mem_singleton]
    constructor
    · rintro ⟨rfl, rfl, rfl, rfl⟩
      apply Equiv.symm_bijective.injective
      ext x
      fin_cases x <;> simp
    · rintro rfl
      simp
  · rw [Finset.card_eq_zero, Finset.filter_eq_empty_iff]
    rintro γ - ⟨rfl, rfl, rfl, rfl⟩
    apply h
    simp

/-- A sum over all arrangements of four positions. -/
theorem sum_perm4 (F : Fin 4 → Fin 4 → Fin 4 → Fin 4 → ℝ) :
    ∑ γ : Equiv.Perm (Fin 4), F (γ.symm 0) (γ.symm 1) (γ.symm 2) (γ.symm 3) =
      ∑ i, ∑ j, ∑ k, ∑ l, if [i, j, k, l].Nodup then F i j k l else 0 := by
  have h : ∀ γ : Equiv.Perm (Fin 4), F (γ.symm 0) (γ.symm 1) (γ.symm 2) (γ.symm 3) =
      ∑ i, ∑ j, ∑ k, ∑ l, if γ.symm 0 = i ∧ γ.symm 1 = j ∧ γ.symm 2 = k ∧ γ.symm 3 = l then F i j k l else 0 := by
    intro γ
    simp [ite_and]
  simp only [h]
  rw [Finset.sum_comm]
  refine Finset.sum_congr rfl fun i _ => ?_
  rw [Finset.sum_comm]
  refine Finset.sum_congr rfl fun j _ => ?_
  rw [Finset.sum_comm]
  refine Finset.sum_congr rfl fun k _ => ?_
  rw [Finset.sum_comm]
  refine Finset.sum_congr rfl fun l _ => ?_
  rw [← Finset.sum_filter, Finset.sum_const, perm4_count]
  split_ifs <;> simp

/-- **C108, one flavour.** For neutrinos of one flavour: the amplitudes `64 G_F² (p₁·p₂)(p₃·p₄)` of the scattering of two neutrinos and
`128 G_F² (p₁·p₄)(p₂·p₃)` of a neutrino and an antineutrino, as the sum over the two orders of the final particles. -/
theorem C108_one_flavour (hinj : Function.Injective A.name) (hmaj : ∀ s, A.majorana s = false) (a : S) (i : Fin 4)
    (Q : Fin 4 → Fin 4 → ℝ) (m : Fin 4 → ℝ) : ∃ o, (neutrinoScattering c a a).integrals A = .ok o ∧
      totalAmp (evAmp (fun _ => a) i (evDots Q)) (evAmp (fun _ => a) i (evMass Q m)) o =
        2 * (64 * c.GF ^ 2 * (mink (Q 0) (Q 1) * mink (Q 2) (Q 3))) +
          (128 * c.GF ^ 2 * (mink (Q 0) (Q 3) * mink (Q 1) (Q 2)) + 128 * c.GF ^ 2 * (mink (Q 0) (Q 2) * mink (Q 1) (Q 3))) := by
  obtain ⟨o, e, h⟩ := (C108_events (c := c) hinj hmaj (fun _ => a) i Q m).1 a a
  obtain ⟨f0, f1, f2, f3⟩ := fin4_lits
  refine ⟨o, e, ?_⟩
  simp only [← scattering_fermi] at h
  apply Complex.ofReal_injective
  have hall : ∀ γ : Equiv.Perm (Fin 4), (![a, a, a, a] : Fin 4 → S) ∘ γ = fun _ => a := by
    intro γ; funext j
    have : ∀ k : Fin 4, (![a, a, a, a] : Fin 4 → S) k = a := by intro k; fin_cases k <;> rfl
    exact this _
  simp only [hall, if_true] at h
  rw [h]
  unfold eventAmp weakM
  simp only [List.map_cons, List.map_nil, List.sum_cons, List.sum_nil, normOrder_lits.1, f0, f1, f2, f3,
    zero_mul, ite_self, add_zero]
  rw [← Complex.ofReal_sum, ← Complex.ofReal_ofNat, ← Complex.ofReal_div]
  refine congrArg Complex.ofReal ?_
  rw [sum_perm4 fun i j k l => 1 * (32 * c.GF ^ 2) * evDots Q i j k l]
  simp only [Fin.sum_univ_four]
  simp [evDots]
  simp only [mink_symm (Q 1) (Q 0), mink_symm (Q 2) (Q 0), mink_symm (Q 3) (Q 0), mink_symm (Q 2) (Q 1), mink_symm (Q 3) (Q 1),
      mink_symm (Q 3) (Q 2)]
  ring

/-- Two flavours of neutrinos that meet head-on and scatter by a right angle: `32 G_F² (4 + 1)`. -/
example (i : Fin 4) : ∃ (A : LibAttr Bool) (o : List (Integral4 Bool)), (neutrinoScattering c false true).integrals A = .ok o ∧
    totalAmp (evAmp ![false, true, false, true] i (evDots ![![1, 0, 0, 1], ![1, 0, 0, -1], ![1, 1, 0, 0], ![1, -1, 0, 0]]))
      (evAmp ![false, true, false, true] i (evMass ![![1, 0, 0, 1], ![1, 0, 0, -1], ![1, 1, 0, 0], ![1, -1, 0, 0]] 0)) o =
      160 * c.GF ^ 2 := by
  let A : LibAttr Bool := ⟨⟨fun s => if s then "nu_mu" else "nu_e", fun _ => 0, fun _ => false⟩, fun _ => 0,
    fun s => if s then "muon" else "electron", fun _ => "", fun _ => 0, fun _ => 1⟩
  have hA : Function.Injective A.name := by
    intro x y h
    cases x <;> cases y <;> simp_all [A]
  obtain ⟨o, e, h, -⟩ := C108_two_flavours (A := A) (c := c) hA (fun _ => rfl) false true (by decide) i
    ![![1, 0, 0, 1], ![1, 0, 0, -1], ![1, 1, 0, 0], ![1, -1, 0, 0]] 0
  refine ⟨A, o, e, h.trans ?_⟩
  simp [mink]
  ring

end
end PyBBN
