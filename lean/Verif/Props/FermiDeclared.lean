import Verif.Props.Fermi
import Verif.Props.Library
import Verif.Model.Templates
/-!
# C108: which reactions are declared, with which couplings, and the exchange of the charged leptons
-/
namespace PyBBN
open Complex

set_option linter.unusedSectionVars false

section
variable {S : Type*} [DecidableEq S] {A : LibAttr S} {c : LibConst}

/-! ## Which reactions are declared -/

theorem combRepl_count {α : Type*} [DecidableEq α] (l : List α) (hl : l.Nodup) (a b : α) (ha : a ∈ l) (hb : b ∈ l) :
    (combRepl l).countP (fun x => decide ([x.1, x.2].Perm [a, b])) = 1 := by
  have pr : ∀ x y : α, [x, y].Perm [a, b] ↔ (x = a ∧ y = b) ∨ (x = b ∧ y = a) := by
    intro x y
    rw [List.perm_comm]
    constructor
    · intro h
      have := h.mem_iff (a := a)
      have h2 := h.mem_iff (a := b)
      by_cases hx : x = a
      · subst hx
        have := (List.perm_cons x).mp h
        left
        refine ⟨rfl, ?_⟩
        simpa using this.symm
      · have hy : y = a := by
          have := this.mp (List.mem_cons_self ..)
          simp only [List.mem_cons, List.not_mem_nil, or_false] at this
          rcases this with h | h
          · exact absurd h.symm hx
          · exact h.symm
        subst hy
        have h' := h.trans (List.Perm.swap y x [])
        have := (List.perm_cons y).mp h'
        right
        refine ⟨?_, rfl⟩
        simpa using this.symm
    · rintro (⟨rfl, rfl⟩ | ⟨rfl, rfl⟩)
      · exact List.Perm.refl _
      · exact List.Perm.swap _ _ _
  have one : ∀ (l : List α) (a : α), l.Nodup → a ∈ l → l.countP (fun x => decide (x = a)) = 1 := by
    intro l a hn hm
    have := List.count_eq_one_of_mem hn hm
    rw [← this, List.count]
    congr 1
  simp only [pr]
  induction l with
  | nil => simp at ha
  | cons x l ih =>
    rw [combRepl, List.countP_append, List.countP_map]
    obtain ⟨hx, hl'⟩ := List.nodup_cons.mp hl
    have rest0 : ∀ u, u = x → (a = u ∨ b = u) → (combRepl l).countP (fun x => decide (x.1 = a ∧ x.2 = b ∨ x.1 = b ∧ x.2 = a)) = 0 := by
      intro u hu hab
      rw [List.countP_eq_zero]
      intro y hy
      obtain ⟨h1, h2⟩ := mem_combRepl _ _ hy
      simp only [decide_eq_true_eq, not_or, not_and]
      rcases hab with rfl | rfl <;> subst hu
      · exact ⟨fun h => absurd (h ▸ h1) hx, fun _ h => absurd (h ▸ h2) hx⟩
      · exact ⟨fun _ h => absurd (h ▸ h2) hx, fun h => absurd (h ▸ h1) hx⟩
    by_cases h1 : a = x
    · rw [rest0 x rfl (Or.inl h1), add_zero]
      rw [← one (x :: l) b hl hb]
      apply List.countP_congr
      intro y _
      simp only [Function.comp, decide_eq_true_eq]
      subst h1
      constructor
      · rintro (⟨-, h⟩ | ⟨h, h'⟩)
        · exact h
        · exact h'.trans h
      · intro h; exact Or.inl ⟨rfl, h⟩
    · by_cases h2 : b = x
      · rw [rest0 x rfl (Or.inr h2), add_zero]
        rw [← one (x :: l) a hl ha]
        apply List.countP_congr
        intro y _
        simp only [Function.comp, decide_eq_true_eq]
        subst h2
        constructor
        · rintro (⟨h, -⟩ | ⟨-, h⟩)
          · exact absurd h.symm h1
          · exact h
        · intro h; exact Or.inr ⟨rfl, h⟩
      · rw [ih hl' (by simpa [h1] using ha) (by simpa [h2] using hb)]
        have : (x :: l).countP ((fun x => decide (x.1 = a ∧ x.2 = b ∨ x.1 = b ∧ x.2 = a)) ∘ fun y => (x, y)) = 0 := by
          rw [List.countP_eq_zero]
          intro y _
          simp [Ne.symm h1, Ne.symm h2]
        rw [this]

/-- **C108, declared reactions.** Among the declared interactions of the neutrinos, every pair of neutrinos scatters in exactly
one, every neutrino annihilates into every lepton in exactly one, and there are no others. -/
theorem C108_declared (leptons neutrinos : List S) (hn : neutrinos.Nodup) (hl : leptons.Nodup) (hd : ∀ s ∈ neutrinos, s ∉ leptons) :
    let ds := neutrinoInteractions A c leptons neutrinos
    (∀ a ∈ neutrinos, ∀ b ∈ neutrinos, ds.countP (fun d => decide (d.left.Perm [a, b] ∧ d.right.Perm [a, b])) = 1) ∧
    (∀ a ∈ neutrinos, ∀ l ∈ leptons, ds.countP (fun d => decide (d.left = [a, a] ∧ d.right = [l, l])) = 1) ∧
    ds.length = neutrinos.length * (neutrinos.length + 1) / 2 + leptons.length * neutrinos.length := by
  have len : ∀ l : List S, (combRepl l).length = l.length * (l.length + 1) / 2 := by
    intro l
    induction l with
    | nil => simp [combRepl]
    | cons x l ih =>
      rw [combRepl, List.length_append, List.length_map, ih, List.length_cons]
      have : (l.length + 1) * (l.length + 1 + 1) = l.length * (l.length + 1) + (l.length + 1) * 2 := by ring
      rw [this, Nat.add_mul_div_right _ _ (by norm_num)]
      omega
  refine ⟨fun a ha b hb => ?_, fun a ha l hll => ?_, ?_⟩
  · unfold neutrinoInteractions
    rw [List.countP_append, List.countP_map, List.countP_flatMap]
    have h0 : (leptons.map (List.countP (fun d : Decl S => decide (d.left.Perm [a, b] ∧ d.right.Perm [a, b])) ∘ fun lepton =>
        neutrinos.map fun neutrino => neutrinosToLeptons c neutrino lepton (couplingL A c lepton neutrino))).sum = 0 := by
      rw [List.sum_eq_zero]
      intro x hx
      obtain ⟨l, hl', rfl⟩ := List.mem_map.mp hx
      simp only [Function.comp, List.countP_eq_zero, List.mem_map]
      rintro d ⟨n, -, rfl⟩
      intro hx'
      have h := (of_decide_eq_true hx').2
      simp only [neutrinosToLeptons] at h
      have : l ∈ [a, b] := h.mem_iff.mp (List.mem_cons_self ..)
      simp only [List.mem_cons, List.not_mem_nil, or_false] at this
      rcases this with rfl | rfl
      · exact hd _ ha hl'
      · exact hd _ hb hl'
    rw [h0, add_zero, ← combRepl_count neutrinos hn a b ha hb]
    apply List.countP_congr
    intro x _
    simp [neutrinoScattering]
  · unfold neutrinoInteractions
    rw [List.countP_append, List.countP_map, List.countP_flatMap]
    have h0 : (combRepl neutrinos).countP ((fun d : Decl S => decide (d.left = [a, a] ∧ d.right = [l, l])) ∘
        fun x => neutrinoScattering c x.1 x.2) = 0 := by
      rw [List.countP_eq_zero]
      intro x hx
      obtain ⟨x1, x2⟩ := mem_combRepl _ _ hx
      simp only [Function.comp, neutrinoScattering, decide_eq_true_eq, not_and, List.cons.injEq, and_true]
      intro _ h
      exact absurd hll (h ▸ hd _ x1)
    rw [h0, zero_add]
    have h1 : ∀ l', (neutrinos.map fun n => neutrinosToLeptons c n l' (couplingL A c l' n)).countP
        (fun d : Decl S => decide (d.left = [a, a] ∧ d.right = [l, l])) = if l' = l then 1 else 0 := by
      intro l'
      rw [List.countP_map]
      split_ifs with e
      · subst e
        rw [← List.count_eq_one_of_mem hn ha, List.count]
        apply List.countP_congr
        intro n _
        simp [neutrinosToLeptons]
      · rw [List.countP_eq_zero]
        intro n _
        simp [neutrinosToLeptons, e]
    have : (List.countP (fun d : Decl S => decide (d.left = [a, a] ∧ d.right = [l, l])) ∘ fun lepton =>
        neutrinos.map fun neutrino => neutrinosToLeptons c neutrino lepton (couplingL A c lepton neutrino)) =
        fun l' => if l' = l then 1 else 0 := by
      funext l'; exact h1 l'
    have sum : ∀ ls : List S, (ls.map fun l' => if l' = l then 1 else 0).sum = ls.count l := by
      intro ls
      induction ls with
      | nil => rfl
      | cons x ls ih => rw [List.map_cons, List.sum_cons, ih, List.count_cons]; simp only [beq_iff_eq]; omega
    rw [this, sum, List.count_eq_one_of_mem hl hll]
  · unfold neutrinoInteractions
    rw [List.length_append, List.length_map, len, List.length_flatMap]
    simp

/-- **C108, couplings.** The declared annihilation of a neutrino into a lepton has the couplings of the electroweak theory:
`g_L = -1/2 + s` for the neutral current, one more for a neutrino and a lepton of the same flavour, and `g_R = s`. -/
theorem C108_couplings (leptons neutrinos : List S) (d : Decl S) (h : d ∈ neutrinoInteractions A c leptons neutrinos) (n l : S)
    (hd : d.left = [n, n] ∧ d.right = [l, l]) (hnl : n ≠ l) (Q : ℕ → Fin 4 → ℝ) (m : ℕ → ℝ) (hm : m 2 = m 3) :
    let Q' := fun j => if j = 2 then Q 3 else if j = 3 then Q 2 else Q j
    ((d.amp.sq Q m : ℝ) : ℂ) = fermiSq c.GF 1 0 ((if A.flavour l = A.flavour n then 1 else 0) - 1 / 2 + c.gR) c.gR
      (d.leg Q' m 1) (d.leg Q' m 0) (d.leg Q' m 2) (d.leg Q' m 3) := by
  unfold neutrinoInteractions at h
  rcases List.mem_append.mp h with h | h
  · obtain ⟨x, -, rfl⟩ := List.mem_map.mp h
    simp only [neutrinoScattering, List.cons.injEq, and_true] at hd
    exact absurd (hd.1.1.symm.trans hd.2.1) hnl
  · obtain ⟨l', -, h⟩ := List.mem_flatMap.mp h
    obtain ⟨n', -, rfl⟩ := List.mem_map.mp h
    simp only [neutrinosToLeptons, List.cons.injEq, and_true] at hd
    obtain ⟨⟨rfl, -⟩, rfl, -⟩ := hd
    have := (C108_annihilation (c := c) n' l' (couplingL A c l' n') Q m hm).1
    dsimp only at this ⊢
    rw [this]
    congr 1
    unfold couplingL
    split_ifs <;> norm_num <;> ring

/-! ## The exchange of `l⁻` and `l⁺` has no effect -/

theorem annihilation_swap {α β : Fin 4 → Fin 4 → Fin 4 → Fin 4 → ℝ} (hβ : PairFn β) (γ : Equiv.Perm (Fin 4)) (K K' K'' : ℝ) :
    eventAmp α β [weakM c K 0 ⟨0, 3, 1, 2⟩, weakM c K' 0 ⟨0, 2, 1, 3⟩, weakM c 0 K'' ⟨2, 3, 0, 1⟩] (Equiv.swap 2 3 * γ) =
      eventAmp α β [weakM c K' 0 ⟨0, 3, 1, 2⟩, weakM c K 0 ⟨0, 2, 1, 3⟩, weakM c 0 K'' ⟨2, 3, 0, 1⟩] γ := by
  obtain ⟨f0, f1, f2, f3⟩ := fin4_lits
  have c0 : (Equiv.swap (2 : Fin 4) 3).symm 0 = 0 := by decide
  have c1 : (Equiv.swap (2 : Fin 4) 3).symm 1 = 1 := by decide
  have c2 : (Equiv.swap (2 : Fin 4) 3).symm 2 = 3 := by decide
  have c3 : (Equiv.swap (2 : Fin 4) 3).symm 3 = 2 := by decide
  have inv : ∀ u, (Equiv.swap 2 3 * γ).symm u = γ.symm ((Equiv.swap (2 : Fin 4) 3).symm u) := fun u => rfl
  have hf : flips (weakM c 0 K'' ⟨2, 3, 0, 1⟩) (Equiv.swap 2 3 * γ) = flips (weakM c 0 K'' ⟨2, 3, 0, 1⟩) γ := by
    unfold flips weakM
    simp only [normOrder_lits.2.2.2, f2, f3, inv, c2, c3, eq_comm (a := evSide (γ.symm 3))]
  unfold eventAmp
  simp only [List.map_cons, List.map_nil, List.sum_cons, List.sum_nil, hf]
  unfold weakM
  simp only [normOrder_lits.2.1, normOrder_lits.2.2.1, normOrder_lits.2.2.2, f0, f1, f2, f3, inv, c0, c1, c2, c3,
    zero_mul, ite_self, add_zero, zero_add]
  rw [hβ.first (γ.symm 2) (γ.symm 3)]
  ring

theorem annihilation_total (hinj : Function.Injective A.name) (hmaj : ∀ s, A.majorana s = false) (a l : S) (K K' K'' : ℝ) :
    ∃ out, (⟨[a, a], [l, l], [false, true], [false, true], .four [weakM c K 0 ⟨0, 3, 1, 2⟩, weakM c K' 0 ⟨0, 2, 1, 3⟩,
        weakM c 0 K'' ⟨2, 3, 0, 1⟩]⟩ : Decl S).integrals A = .ok out ∧
    ∀ {α β : Fin 4 → Fin 4 → Fin 4 → Fin 4 → ℝ}, PairFn α → PairFn β → (∀ i j k l, α k l i j = α i j k l) →
      ∀ θ i, totalAmp (evAmp θ i α) (evAmp θ i β) out = (∑ γ : Equiv.Perm (Fin 4), if (![a, a, l, l] : Fin 4 → S) ∘ γ = θ then
        eventAmp α β [weakM c K 0 ⟨0, 3, 1, 2⟩, weakM c K' 0 ⟨0, 2, 1, 3⟩, weakM c 0 K'' ⟨2, 3, 0, 1⟩] γ else 0) / 2 := by
  set Ms := [weakM c K 0 ⟨0, 3, 1, 2⟩, weakM c K' 0 ⟨0, 2, 1, 3⟩, weakM c 0 K'' ⟨2, 3, 0, 1⟩] with hMs
  have hM : ∀ x ∈ Ms, x.K = 0 ∧ [x.order.a, x.order.b, x.order.c, x.order.d].Perm (List.range 4) := by
    intro x hx
    simp only [hMs, List.mem_cons, List.not_mem_nil, or_false] at hx
    rcases hx with rfl | rfl | rfl
    · exact weakM_ok _ _ _ (by rw [normOrder_lits.2.1]; decide)
    · exact weakM_ok _ _ _ (by rw [normOrder_lits.2.2.1]; decide)
    · exact weakM_ok _ _ _ (by rw [normOrder_lits.2.2.2]; decide)
  obtain ⟨-, -, out, -, g2, -⟩ := generated_ints A.toAttr [a, a] [l, l] [false, true] [false, true] rfl rfl Ms hM
  refine ⟨out, g2, fun {α β} hα hβ hsw θ i => ?_⟩
  have h1 := generated_amp A hinj hmaj θ i hα hβ hsw ![a, a, l, l] ![false, true, false, true] _ hM out g2
  have h2 := conj_amp θ i α β ![a, a, l, l] ![a, a, l, l] ![false, true, false, true] ![false, true, false, true] Ms Ms conjAnti
    (by funext j; fin_cases j <;> rfl) (by intro j; fin_cases j <;> rfl)
    (fun γ => annihilation_conj (c := c) hα hβ hsw γ _ _ _)
  rw [h1, ← h2]
  ring

/-- The declaration with the amplitude of the theory. -/
noncomputable def annihilationFermi (c : LibConst) (n l : S) (gL : ℝ) : Decl S :=
  ⟨[n, n], [l, l], [false, true], [false, true], .four [weakM c (4 * gL ^ 2) 0 ⟨0, 3, 1, 2⟩, weakM c (4 * c.gR ^ 2) 0 ⟨0, 2, 1, 3⟩,
    weakM c 0 (4 * gL * c.gR) ⟨2, 3, 0, 1⟩]⟩

theorem annihilationFermi_sq (n l : S) (gL : ℝ) (Q : ℕ → Fin 4 → ℝ) (m : ℕ → ℝ) :
    (((annihilationFermi c n l gL).amp.sq Q m : ℝ) : ℂ) = fermiSq c.GF 1 0 gL c.gR ((annihilationFermi c n l gL).leg Q m 1)
      ((annihilationFermi c n l gL).leg Q m 0) ((annihilationFermi c n l gL).leg Q m 2) ((annihilationFermi c n l gL).leg Q m 3) := by
  rw [fermiSq_eq]
  congr 1
  unfold annihilationFermi
  fermi_ring

/-- **C108, no effect.** `d'` is the declaration of `ν + ν̄ → l⁻ + l⁺` with the amplitude of the theory.  The integrals generated
from the declaration in the code and from `d'` have the same total amplitude in every event `θ` (species of the four positions,
the first two incoming), for every position `i`, whatever the momenta: particles and antiparticles share a distribution and the
generated integrals contain both. -/
theorem C108_no_effect (hinj : Function.Injective A.name) (hmaj : ∀ s, A.majorana s = false) (n l : S) (gL : ℝ) :
    ∃ (d' : Decl S) (o o' : List (Integral4 S)), d'.left = [n, n] ∧ d'.right = [l, l] ∧ d'.antiL = [false, true] ∧
      d'.antiR = [false, true] ∧
      (∀ (Q : ℕ → Fin 4 → ℝ) (m : ℕ → ℝ), ((d'.amp.sq Q m : ℝ) : ℂ) =
        fermiSq c.GF 1 0 gL c.gR (d'.leg Q m 1) (d'.leg Q m 0) (d'.leg Q m 2) (d'.leg Q m 3)) ∧
      (neutrinosToLeptons c n l gL).integrals A = .ok o ∧ d'.integrals A = .ok o' ∧
      ∀ (Q : Fin 4 → Fin 4 → ℝ) (m : Fin 4 → ℝ) (θ : Fin 4 → S) (i : Fin 4),
        let α := fun i j k l => mink (Q i) (Q j) * mink (Q k) (Q l)
        let β := fun i j k l => m i * m j * mink (Q k) (Q l)
        totalAmp (evAmp θ i α) (evAmp θ i β) o = totalAmp (evAmp θ i α) (evAmp θ i β) o' := by
  obtain ⟨o, e, h⟩ := annihilation_total (A := A) (c := c) hinj hmaj n l (4 * c.gR ^ 2) (4 * gL ^ 2) (4 * gL * c.gR)
  obtain ⟨o', e', h'⟩ := annihilation_total (A := A) (c := c) hinj hmaj n l (4 * gL ^ 2) (4 * c.gR ^ 2) (4 * gL * c.gR)
  refine ⟨annihilationFermi c n l gL, o, o', rfl, rfl, rfl, rfl, annihilationFermi_sq n l gL, e, e', fun Q m θ i => ?_⟩
  · have mc : ∀ x y : Fin 4 → ℝ, mink x y = mink y x := fun x y => by unfold mink; ring
    dsimp only
    have hα : PairFn (fun i j k l => mink (Q i) (Q j) * mink (Q k) (Q l)) :=
      ⟨fun i j k l => by rw [mc (Q j)], fun i j k l => by rw [mc (Q l)]⟩
    have hβ : PairFn (fun i j k l => m i * m j * mink (Q k) (Q l)) :=
      ⟨fun i j k l => by ring, fun i j k l => by rw [mc (Q l)]⟩
    have hsw : ∀ i j k l : Fin 4, mink (Q k) (Q l) * mink (Q i) (Q j) = mink (Q i) (Q j) * mink (Q k) (Q l) := fun i j k l => by ring
    rw [h hα hβ hsw, h' hα hβ hsw]
    refine congrArg (fun x : ℝ => x / 2) ?_
    refine (Equiv.sum_comp (Equiv.mulLeft (Equiv.swap (2 : Fin 4) 3)) _).symm.trans ?_
    refine Finset.sum_congr rfl fun γ _ => ?_
    have sp : (![n, n, l, l] : Fin 4 → S) ∘ (Equiv.swap 2 3 * γ : Equiv.Perm (Fin 4)) = ![n, n, l, l] ∘ γ := by
      funext j
      simp only [Function.comp, Equiv.Perm.mul_apply]
      generalize γ j = k
      fin_cases k <;> rfl
    rw [Equiv.coe_mulLeft, sp, annihilation_swap hβ]

/-- **C108, spins.** The squared amplitude of an interaction is the sum over the spin states of the four particles of the square of
the amplitude `(G_F / √2) [x̄ Γ^μ y] [z̄ Γ'_μ w]`, and particles on the mass shell have such states. -/
theorem C108_spins (GF gL gR hL hR : ℝ) (X Y Z W : Leg) : (∀ {σ τ υ φ : Type} [Fintype σ] [Fintype τ] [Fintype υ] [Fintype φ]
      (x : σ → Fin 4 → ℂ) (y : τ → Fin 4 → ℂ) (z : υ → Fin 4 → ℂ) (w : φ → Fin 4 → ℂ),
      SpinComplete X x → SpinComplete Y y → SpinComplete Z z → SpinComplete W w →
      ((∑ s, ∑ t, ∑ r, ∑ q, Complex.normSq (fermiAmp GF gL gR hL hR (x s) (y t) (z r) (w q)) : ℝ) : ℂ) =
        fermiSq GF gL gR hL hR X Y Z W) ∧
    ∀ l : Leg, 0 < l.p 0 → mink l.p l.p = l.m ^ 2 → ∃ u : Fin 4 → Fin 4 → ℂ, SpinComplete l u :=
  ⟨fun x y z w hx hy hz hw => fermiSq_spins GF gL gR hL hR X Y Z W x y z w hx hy hz hw, complete_exists⟩

/-! ## Concrete cases -/

/-- Two neutrinos that collide head-on: the declared amplitude is `128 G_F²`. -/
example (a b : S) : (neutrinoScattering c a b).amp.sq (fun j => if j = 0 ∨ j = 2 then ![1, 0, 0, 1] else ![1, 0, 0, -1]) (fun _ => 0) =
    128 * c.GF ^ 2 := by
  simp only [neutrinoScattering, Amp.sq, List.map_cons, List.map_nil, List.sum_cons, List.sum_nil, weakM_amp]
  norm_num [mink_lit]
  ring

/-- Two neutrinos and two charged leptons. -/
example (A : LibAttr (Fin 4)) (c : LibConst) :
    (neutrinoInteractions A c [2, 3] [0, 1]).countP (fun d => decide (d.left = [1, 1] ∧ d.right = [2, 2])) = 1 ∧
    (neutrinoInteractions A c [2, 3] [0, 1]).length = 7 := by
  obtain ⟨-, h2, h3⟩ := C108_declared (A := A) (c := c) [2, 3] [0, 1] (by decide) (by decide) (by decide)
  exact ⟨h2 1 (by decide) 2 (by decide), h3⟩

/-- `ν_a + ν_b → ν_a + ν_b` crossed to `ν_a + ν̄_a → ν̄_b + ν_b`. -/
example (a b : S) : ∃ Ms', [weakM c 1 0 ⟨0, 1, 2, 3⟩].mapM
      (relabel [⟨-1, a, false, 0, false⟩, ⟨-1, a, true, 2, true⟩, ⟨1, b, true, 1, true⟩, ⟨1, b, false, 3, false⟩]) = .ok Ms' ∧
    ∀ (Q' : ℕ → Fin 4 → ℝ) (m' : ℕ → ℝ), ((((Ms'.map fun x => x.amp Q' m').sum : ℝ)) : ℂ) =
      fermiSq c.GF 1 0 (1 / 2) 0 ⟨true, Q' 1, m' 1⟩ ⟨false, Q' 0, m' 0⟩ ⟨false, Q' 3, m' 3⟩ ⟨true, Q' 2, m' 2⟩ := by
  obtain ⟨Ms', e, h⟩ := C108_crossings
    [⟨-1, a, false, 0, false⟩, ⟨-1, a, true, 2, true⟩, ⟨1, b, true, 1, true⟩, ⟨1, b, false, 3, false⟩] (by simp; decide)
    [weakM c 1 0 ⟨0, 1, 2, 3⟩]
    (fun x hx => by rw [List.mem_singleton.mp hx]; exact weakM_ok _ _ _ (by rw [normOrder_lits.1]; decide))
    (fun _ => false) (fun k => decide (k = 1 ∨ k = 2))
    (by
      intro it hit
      simp only [List.mem_cons, List.not_mem_nil, or_false] at hit
      rcases hit with rfl | rfl | rfl | rfl <;> rfl)
    c.GF 1 0 (1 / 2) 0 ![2, 0, 3, 1] (by decide) (fun Q m => C108_neutrinos (c := c) a b Q m)
  refine ⟨Ms', e, fun Q' m' => ?_⟩
  have h' := h (fun j => if j = 1 then Q' 2 else if j = 2 then Q' 1 else Q' j) Q'
    (fun j => if j = 1 then m' 2 else if j = 2 then m' 1 else m' j) m' (fun j it hj => by
      match j, hj with
      | 0, hj => obtain rfl := Option.some.inj hj; exact ⟨rfl, rfl⟩
      | 1, hj => obtain rfl := Option.some.inj hj; exact ⟨rfl, rfl⟩
      | 2, hj => obtain rfl := Option.some.inj hj; exact ⟨rfl, rfl⟩
      | 3, hj => obtain rfl := Option.some.inj hj; exact ⟨rfl, rfl⟩
      | n + 4, hj => simp at hj)
  exact h'

end
/-- The up-type and the down-type quarks in the order of the rows and columns of the CKM matrix. -/
def ckmRows : List Tmpl := [.up, .charm, .top]
def ckmCols : List Tmpl := [.down, .strange, .bottom]

/-- **C108, mixing of quarks.** With the particle templates, the charged current of the `i`-th up-type and the `j`-th down-type quark
has the element `V_ij` of the CKM matrix. -/
theorem C108_quark_templates (c : LibConst) (MeV : ℝ) (mN : ℚ) (θ : ℝ) (N l : Tmpl) (i j : ℕ) (u w : Tmpl) (hu : ckmRows[i]? = some u)
    (hw : ckmCols[j]? = some w) (Q : ℕ → Fin 4 → ℝ) (m : ℕ → ℝ) :
    let d := sterileQuarkCC (tmplAttr MeV mN) c θ N l u w
    d.left = [N, l] ∧ d.right = [u, w] ∧
    ((d.amp.sq Q m : ℝ) : ℂ) = fermiSq (c.GF * θ * c.CKM (i + 1) (j + 1)) 1 0 1 0
      (d.leg Q m 1) (d.leg Q m 0) (d.leg Q m 2) (d.leg Q m 3) := by
  have hi : Tmpl.family u = i + 1 := by
    match i, hu with
    | 0, hu | 1, hu | 2, hu => cases hu; rfl
    | k + 3, hu => simp [ckmRows] at hu
  have hj : Tmpl.family w = j + 1 := by
    match j, hw with
    | 0, hw | 1, hw | 2, hw => cases hw; rfl
    | k + 3, hw => simp [ckmCols] at hw
  refine ⟨rfl, rfl, ?_⟩
  have h := C108_quarks_CC (A := tmplAttr MeV mN) (c := c) θ N l u w Q m
  have e : (tmplAttr MeV mN).family = Tmpl.family := rfl
  rw [e, hi, hj] at h
  exact h

/-- Charm and strange quark: the second diagonal element. -/
example (c : LibConst) (MeV θ : ℝ) (Q : ℕ → Fin 4 → ℝ) (m : ℕ → ℝ) :
    let d := sterileQuarkCC (tmplAttr MeV 300) c θ .sterile .muon .charm .strange
    ((d.amp.sq Q m : ℝ) : ℂ) = fermiSq (c.GF * θ * c.CKM 2 2) 1 0 1 0
      (d.leg Q m 1) (d.leg Q m 0) (d.leg Q m 2) (d.leg Q m 3) :=
  (C108_quark_templates c MeV 300 θ .sterile .muon 1 1 .charm .strange rfl rfl Q m).2.2

end PyBBN
