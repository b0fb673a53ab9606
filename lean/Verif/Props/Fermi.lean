import Verif.Lemmas.Dirac
import Verif.Lemmas.CrossAmpSM
/-!
# C108: the declared matrix elements are those of the Fermi theory
-/
namespace PyBBN

open Complex

set_option linter.unusedSectionVars false

/-- Squared amplitude described by the elements of a declaration. -/
noncomputable def Amp.sq : Amp → (ℕ → Fin 4 → ℝ) → (ℕ → ℝ) → ℝ
  | .four Ms, Q, m => (Ms.map fun x => x.amp Q m).sum
  | .three K, _, _ => K

/-- The legs of a declaration with given momenta and masses, numbered as in the matrix elements. -/
def Decl.leg {S : Type*} (d : Decl S) (Q : ℕ → Fin 4 → ℝ) (m : ℕ → ℝ) (j : ℕ) : Leg :=
  ⟨(d.antiL ++ d.antiR).getD j false, Q j, m j⟩

section
variable {S : Type*} [DecidableEq S] {A : LibAttr S} {c : LibConst}

theorem weakM_amp (K1 K2 : ℝ) (o : Ord4) (Q : ℕ → Fin 4 → ℝ) (m : ℕ → ℝ) : (weakM c K1 K2 o).amp Q m =
    32 * c.GF ^ 2 * (K1 * mink (Q o.a) (Q o.b) * mink (Q o.c) (Q o.d) + K2 * (m o.a * m o.b) * mink (Q o.c) (Q o.d)) := by
  unfold M4.amp weakM
  dsimp only
  rw [ampAt_norm]
  unfold ampAt
  ring

theorem sterileM_amp (θ K1 K2 : ℝ) (o : Ord4) (Q : ℕ → Fin 4 → ℝ) (m : ℕ → ℝ) : (sterileM c θ K1 K2 o).amp Q m =
    32 * (c.GF * θ) ^ 2 * (K1 * mink (Q o.a) (Q o.b) * mink (Q o.c) (Q o.d) + K2 * (m o.a * m o.b) * mink (Q o.c) (Q o.d)) := by
  unfold M4.amp sterileM weakM
  dsimp only
  rw [ampAt_norm]
  unfold ampAt
  ring

/-- Compares a declared amplitude with the evaluated sum over spins. -/
macro "fermi_ring" : tactic => `(tactic| (
  simp only [Amp.sq, List.map_cons, List.map_nil, List.sum_cons, List.sum_nil, weakM_amp, sterileM_amp, Decl.leg,
    List.cons_append, List.nil_append, List.getD_cons_zero, List.getD_cons_succ, Bool.false_eq_true, if_true, if_false]
  unfold mink
  ring))

/-- **C108, neutrinos.** `ν_a + ν_b → ν_a + ν_b`: the interaction `(G_F / √2) [ν̄_a γ (1 - γ⁵) ν_a] [ν̄_b γ ½ (1 - γ⁵) ν_b]`. -/
theorem C108_neutrinos (a b : S) (Q : ℕ → Fin 4 → ℝ) (m : ℕ → ℝ) : let d := neutrinoScattering c a b
    ((d.amp.sq Q m : ℝ) : ℂ) = fermiSq c.GF 1 0 (1 / 2) 0 (d.leg Q m 2) (d.leg Q m 0) (d.leg Q m 3) (d.leg Q m 1) := by
  dsimp only
  rw [fermiSq_eq]
  congr 1
  unfold neutrinoScattering
  fermi_ring

/-- **C108, charged current.** `l + l̄' → ν + ν̄'`: the interaction `(G_F / √2) [ν̄ γ (1 - γ⁵) l] [l̄' γ (1 - γ⁵) ν']`. -/
theorem C108_charged (n n' l l' : S) (Q : ℕ → Fin 4 → ℝ) (m : ℕ → ℝ) : let d := leptonsCC c n n' l l'
    ((d.amp.sq Q m : ℝ) : ℂ) = fermiSq c.GF 1 0 1 0 (d.leg Q m 2) (d.leg Q m 0) (d.leg Q m 1) (d.leg Q m 3) := by
  dsimp only
  rw [fermiSq_eq]
  congr 1
  unfold leptonsCC
  fermi_ring

/-- **C108, heavy neutrino and leptons.** `N + ν̄ → l⁺ + l⁻` and the conjugate: the interaction
`θ (G_F / √2) [ν̄ γ (1 - γ⁵) N] [l̄ γ (g_L (1 - γ⁵) + g_R (1 + γ⁵)) l]` and its conjugate. -/
theorem C108_sterile_NC (θ gL : ℝ) (N a l : S) : ∃ d d', sterileNC c θ gL N a l = [d, d'] ∧ ∀ (Q : ℕ → Fin 4 → ℝ) (m : ℕ → ℝ),
    ((d.amp.sq Q m : ℝ) : ℂ) = fermiSq (c.GF * θ) 1 0 gL c.gR (d.leg Q m 1) (d.leg Q m 0) (d.leg Q m 3) (d.leg Q m 2) ∧
    ((d'.amp.sq Q m : ℝ) : ℂ) = fermiSq (c.GF * θ) 1 0 gL c.gR (d'.leg Q m 0) (d'.leg Q m 1) (d'.leg Q m 2) (d'.leg Q m 3) := by
  refine ⟨_, _, rfl, fun Q m => ⟨?_, ?_⟩⟩ <;>
  · rw [fermiSq_eq]
    congr 1
    fermi_ring

/-- **C108, heavy neutrino and two leptons.** `N + ν̄' → l'⁺ + l⁻` and the conjugate: the interaction
`θ (G_F / √2) [l̄ γ (1 - γ⁵) N] [ν̄' γ (1 - γ⁵) l']` and its conjugate. -/
theorem C108_sterile_CC (θ : ℝ) (N a l l' : S) : ∃ d d', sterileCC c θ N a l l' = [d, d'] ∧ ∀ (Q : ℕ → Fin 4 → ℝ) (m : ℕ → ℝ),
    ((d.amp.sq Q m : ℝ) : ℂ) = fermiSq (c.GF * θ) 1 0 1 0 (d.leg Q m 3) (d.leg Q m 0) (d.leg Q m 1) (d.leg Q m 2) ∧
    ((d'.amp.sq Q m : ℝ) : ℂ) = fermiSq (c.GF * θ) 1 0 1 0 (d'.leg Q m 1) (d'.leg Q m 2) (d'.leg Q m 3) (d'.leg Q m 0) := by
  refine ⟨_, _, rfl, fun Q m => ⟨?_, ?_⟩⟩ <;>
  · rw [fermiSq_eq]
    congr 1
    fermi_ring

/-- **C108, heavy neutrino and neutrinos.** `N + ν_b → ν_a + ν_b` with `a ≠ b` and the inverse: the interaction
`θ (G_F / √2) [ν̄_a γ (1 - γ⁵) N] [ν̄_b γ ½ (1 - γ⁵) ν_b]`.  For `a = b` twice that, which is half the square of the difference of
the direct and the exchanged amplitude (`identical`). -/
theorem C108_sterile_neutrinos (θ : ℝ) (N a b : S) : ∃ d d', sterileScattering c θ N a b = [d, d'] ∧
    ∀ (Q : ℕ → Fin 4 → ℝ) (m : ℕ → ℝ),
    ((d.amp.sq Q m : ℝ) : ℂ) = (if a = b then 2 else 1) *
      fermiSq (c.GF * θ) 1 0 (1 / 2) 0 (d.leg Q m 2) (d.leg Q m 0) (d.leg Q m 3) (d.leg Q m 1) ∧
    ((d'.amp.sq Q m : ℝ) : ℂ) = (if a = b then 2 else 1) *
      fermiSq (c.GF * θ) 1 0 (1 / 2) 0 (d'.leg Q m 2) (d'.leg Q m 0) (d'.leg Q m 3) (d'.leg Q m 1) := by
  refine ⟨_, _, rfl, fun Q m => ⟨?_, ?_⟩⟩ <;>
  · have e : (if a = b then 2 else 1 : ℂ) = ((if a = b then 2 else 1 : ℝ) : ℂ) := by split_ifs <;> simp
    rw [fermiSq_eq, e, ← Complex.ofReal_mul]
    congr 1
    generalize (if a = b then 2 else 1 : ℝ) = k
    fermi_ring

/-- **C108, heavy neutrino and quarks, neutral current.** `N + ν̄ → q + q̄`: the couplings are `T₃ - Q s` and `-Q s` with
`s = CONST.g_R`, for one colour. -/
theorem C108_quarks_NC (θ : ℝ) (N a q : S) (d : Decl S) (h : sterileQuarkNC A c θ N a q = some d) (Q : ℕ → Fin 4 → ℝ) (m : ℕ → ℝ) :
    ((d.amp.sq Q m : ℝ) : ℂ) = fermiSq (c.GF * θ) 1 0 ((if A.Q q = 2 / 3 then 1 / 2 else -1 / 2) - A.Q q * c.gR) (-A.Q q * c.gR)
      (d.leg Q m 1) (d.leg Q m 0) (d.leg Q m 2) (d.leg Q m 3) := by
  unfold sterileQuarkNC at h
  rw [fermiSq_eq]
  congr 1
  split_ifs at h with h1 h2
  · obtain rfl := Option.some.inj h
    rw [h1, if_pos rfl]
    push_cast
    fermi_ring
  · obtain rfl := Option.some.inj h
    rw [h2, if_neg (by norm_num)]
    push_cast
    fermi_ring
  · simp at h

/-- **C108, heavy neutrino and quarks, charged current.** `N + l⁺ → u + d̄`: the interaction
`θ V (G_F / √2) [l̄ γ (1 - γ⁵) N] [ū γ (1 - γ⁵) d]` for one colour. -/
theorem C108_quarks_CC (θ : ℝ) (N l u w : S) (Q : ℕ → Fin 4 → ℝ) (m : ℕ → ℝ) : let d := sterileQuarkCC A c θ N l u w
    ((d.amp.sq Q m : ℝ) : ℂ) = fermiSq (c.GF * θ * c.CKM (A.family u) (A.family w)) 1 0 1 0
      (d.leg Q m 1) (d.leg Q m 0) (d.leg Q m 2) (d.leg Q m 3) := by
  dsimp only
  rw [fermiSq_eq]
  congr 1
  unfold sterileQuarkCC
  fermi_ring

/-- **C108, two charged leptons, refuted.** `l + l' → l + l'` (not used by the library): the declared amplitude is that of the
interaction `(G_F / √2) [l̄ γ (g_L (1 - γ⁵) + g_R (1 + γ⁵)) l] [l̄' γ (g_L (1 - γ⁵) + g_R (1 + γ⁵)) l']` without the terms that contain
the mass of the second lepton. -/
theorem C108_charged_leptons (l l' : S) (gL : ℝ) (Q : ℕ → Fin 4 → ℝ) (m : ℕ → ℝ) : let d := leptonsLeptonsNC c l l' gL
    ((d.amp.sq Q m : ℝ) : ℂ) = fermiSq c.GF gL c.gR gL c.gR (d.leg Q m 2) (d.leg Q m 0) (d.leg Q m 3) (d.leg Q m 1) +
      ((128 * c.GF ^ 2 * (gL * c.gR * (gL ^ 2 + c.gR ^ 2) * (m 1 * m 3) * mink (Q 0) (Q 2) -
        4 * (gL * c.gR) ^ 2 * (m 0 * m 1 * m 2 * m 3)) : ℝ) : ℂ) := by
  dsimp only
  rw [fermiSq_eq, ← Complex.ofReal_add]
  congr 1
  unfold leptonsLeptonsNC
  fermi_ring

/-! ## Neutrino pairs and lepton pairs -/

/-- **C108, annihilation.** `ν + ν̄ → l⁻ + l⁺`: the declared amplitude is that of the interaction
`(G_F / √2) [ν̄ γ (1 - γ⁵) ν] [l̄ γ (g_L (1 - γ⁵) + g_R (1 + γ⁵)) l]` with the momenta of `l⁻` and `l⁺` exchanged. -/
theorem C108_annihilation (n l : S) (gL : ℝ) (Q : ℕ → Fin 4 → ℝ) (m : ℕ → ℝ) : let d := neutrinosToLeptons c n l gL
    let Q' := fun j => if j = 2 then Q 3 else if j = 3 then Q 2 else Q j
    m 2 = m 3 →
    ((d.amp.sq Q m : ℝ) : ℂ) = fermiSq c.GF 1 0 gL c.gR (d.leg Q' m 1) (d.leg Q' m 0) (d.leg Q' m 2) (d.leg Q' m 3) ∧
    ((d.amp.sq Q m + d.amp.sq Q' m : ℝ) : ℂ) = fermiSq c.GF 1 0 gL c.gR (d.leg Q m 1) (d.leg Q m 0) (d.leg Q m 2) (d.leg Q m 3) +
      fermiSq c.GF 1 0 gL c.gR (d.leg Q' m 1) (d.leg Q' m 0) (d.leg Q' m 2) (d.leg Q' m 3) := by
  intro d Q' hm
  have q0 : Q' 0 = Q 0 := rfl
  have q1 : Q' 1 = Q 1 := rfl
  have q2 : Q' 2 = Q 3 := rfl
  have q3 : Q' 3 = Q 2 := rfl
  constructor
  · rw [fermiSq_eq]
    congr 1
    simp only [d, neutrinosToLeptons, Decl.leg, q0, q1, q2, q3]
    fermi_ring
  · rw [fermiSq_eq, fermiSq_eq, ← Complex.ofReal_add]
    congr 1
    simp only [d, neutrinosToLeptons, Decl.leg, Amp.sq, List.map_cons, List.map_nil, List.sum_cons, List.sum_nil, weakM_amp, q0, q1, q2, q3]
    fermi_ring

/-- **C108, refuted.** If the couplings differ, the declared amplitude of `ν + ν̄ → l⁻ + l⁺` is not that of the theory: there are
momenta of massless particles which conserve energy and momentum and for which it has `g_R²` instead of `g_L²`. -/
theorem C108_annihilation_refuted (n l : S) (gL : ℝ) (h : gL ^ 2 ≠ c.gR ^ 2) (hG : c.GF ≠ 0) : let d := neutrinosToLeptons c n l gL
    ∃ Q : ℕ → Fin 4 → ℝ, (∀ j, mink (Q j) (Q j) = 0 ∧ 0 < Q j 0) ∧ Q 0 + Q 1 = Q 2 + Q 3 ∧
      ((d.amp.sq Q (fun _ => 0) : ℝ) : ℂ) ≠ fermiSq c.GF 1 0 gL c.gR (d.leg Q (fun _ => 0) 1) (d.leg Q (fun _ => 0) 0)
        (d.leg Q (fun _ => 0) 2) (d.leg Q (fun _ => 0) 3) := by
  dsimp only
  refine ⟨fun j => if j = 0 ∨ j = 2 then ![1, 0, 0, 1] else ![1, 0, 0, -1], fun j => ?_, ?_, ?_⟩
  · by_cases hj : j = 0 ∨ j = 2
    · simp [hj, mink]
    · simp [hj, mink]
  · funext i; simp
  · rw [fermiSq_eq]
    intro e
    have e' := Complex.ofReal_injective e
    unfold neutrinosToLeptons at e'
    simp only [Amp.sq, List.map_cons, List.map_nil, List.sum_cons, List.sum_nil, weakM_amp, Decl.leg,
      List.cons_append, List.nil_append, List.getD_cons_zero, List.getD_cons_succ, Bool.false_eq_true, if_true, if_false] at e'
    simp [mink] at e'
    apply h
    have hG2 : c.GF ^ 2 ≠ 0 := pow_ne_zero 2 hG
    have : c.GF ^ 2 * (gL ^ 2 - c.gR ^ 2) = 0 := by linarith
    rcases mul_eq_zero.mp this with h0 | h0
    · exact absurd h0 hG2
    · linarith

theorem mink_lit (a b c d a' b' c' d' : ℝ) : mink ![a, b, c, d] ![a', b', c', d'] = a * a' - b * b' - c * c' - d * d' := rfl

/-- **C108, neutron decay, refuted.** The declared amplitude of `n → p e ν̄` is not that of any interaction
`[p̄ γ (c (1 - γ⁵) + d (1 + γ⁵)) n] [ē γ (1 - γ⁵) ν]`. -/
theorem C108_baryons_refuted (n p nu e : S) (hG : c.GF ≠ 0) (hV : c.CKM 1 1 ≠ 0) (g u w : ℝ) : let d := baryonsInteraction c n p nu e
    ∃ (Q : ℕ → Fin 4 → ℝ) (m : ℕ → ℝ), (∀ j, mink (Q j) (Q j) = m j ^ 2 ∧ 0 < Q j 0 ∧ 0 ≤ m j) ∧ Q 0 = Q 1 + Q 2 + Q 3 ∧
      ((d.amp.sq Q m : ℝ) : ℂ) ≠ fermiSq g 1 0 u w (d.leg Q m 2) (d.leg Q m 3) (d.leg Q m 1) (d.leg Q m 0) := by
  dsimp only
  by_cases hz : g ^ 2 * u ^ 2 = 0 ∧ g ^ 2 * w ^ 2 = 0
  · refine ⟨fun j => if j = 0 then ![3, 0, 0, 0] else if j = 1 then ![1, 0, 0, 0] else if j = 2 then ![1, 0, 0, 1] else ![1, 0, 0, -1],
      fun j => if j = 0 then 3 else if j = 1 then 1 else 0, fun j => ?_, ?_, ?_⟩
    · by_cases h0 : j = 0
      · subst h0; norm_num [mink_lit]
      by_cases h1 : j = 1
      · subst h1; norm_num [mink_lit]
      by_cases h2 : j = 2
      · subst h2; norm_num [mink_lit]
      · simp [h0, h1, h2, mink_lit]
    · funext i; fin_cases i <;> norm_num
    · rw [fermiSq_eq]
      intro e
      have e' := Complex.ofReal_injective e
      unfold baryonsInteraction at e'
      simp only [Amp.sq, List.map_cons, List.map_nil, List.sum_cons, List.sum_nil, weakM_amp, Decl.leg,
        List.cons_append, List.nil_append, List.getD_cons_zero, List.getD_cons_succ, Bool.false_eq_true, if_true, if_false] at e'
      norm_num [mink_lit] at e'
      have huw : g ^ 2 * (u * w) = 0 := by
        rcases mul_eq_zero.mp hz.1 with h | h
        · rw [h, zero_mul]
        · rw [pow_eq_zero_iff (by norm_num)] at h; rw [h]; ring
      have : c.GF ^ 2 * c.CKM 1 1 ^ 2 = 0 := by linear_combination (1 / 384) * e' + hz.1 + hz.2 - 2 * huw
      rcases mul_eq_zero.mp this with h | h
      · exact hG (pow_eq_zero_iff (by norm_num) |>.mp h)
      · exact hV (pow_eq_zero_iff (by norm_num) |>.mp h)
  · refine ⟨fun j => if j = 0 then ![9 / 2, 0, 0, 0] else if j = 1 then ![5 / 2, 0, 0, -2] else ![1, 0, 0, 1],
      fun j => if j = 0 then 9 / 2 else if j = 1 then 3 / 2 else 0, fun j => ?_, ?_, ?_⟩
    · by_cases h0 : j = 0
      · subst h0; norm_num [mink_lit]
      by_cases h1 : j = 1
      · subst h1; norm_num [mink_lit]
      · simp [h0, h1, mink_lit]
    · funext i; fin_cases i <;> norm_num
    · rw [fermiSq_eq]
      intro e
      have e' := Complex.ofReal_injective e
      unfold baryonsInteraction at e'
      simp only [Amp.sq, List.map_cons, List.map_nil, List.sum_cons, List.sum_nil, weakM_amp, Decl.leg,
        List.cons_append, List.nil_append, List.getD_cons_zero, List.getD_cons_succ, Bool.false_eq_true, if_true, if_false] at e'
      norm_num [mink_lit] at e'
      apply hz
      have hs : g ^ 2 * u ^ 2 + g ^ 2 * w ^ 2 = 0 := by
        rcases e' with h | h
        · rw [h]; ring
        · linear_combination (4 / 81) * g ^ 2 * h
      constructor <;> nlinarith [mul_nonneg (sq_nonneg g) (sq_nonneg u), mul_nonneg (sq_nonneg g) (sq_nonneg w)]

/-! ## Crossing -/

/-- **C108, crossing.** If the elements of a declaration are those of an interaction, so are the relabelled elements of every
reaction made from its legs, for the legs of that reaction: a leg that was moved to the other side is an antiparticle instead
of a particle.  `v` numbers the legs in the four currents, `cr` tells which legs are moved. -/
theorem C108_crossings (r : List (Item S)) (hr : (r.map (·.index)).Perm (List.range 4)) (Ms : List M4)
    (hM : ∀ x ∈ Ms, x.K = 0 ∧ [x.order.a, x.order.b, x.order.c, x.order.d].Perm (List.range 4)) (anti cr : ℕ → Bool)
    (hcr : ∀ it ∈ r, it.crossed = cr it.index) (GF gL gR hL hR : ℝ) (v : Fin 4 → ℕ) (hv : (List.ofFn v).Perm (List.range 4))
    (hd : ∀ (Q : ℕ → Fin 4 → ℝ) (m : ℕ → ℝ), ((((Ms.map fun x => x.amp Q m).sum : ℝ)) : ℂ) =
      fermiSq GF gL gR hL hR ⟨anti (v 0), Q (v 0), m (v 0)⟩ ⟨anti (v 1), Q (v 1), m (v 1)⟩ ⟨anti (v 2), Q (v 2), m (v 2)⟩
        ⟨anti (v 3), Q (v 3), m (v 3)⟩) :
    ∃ Ms', Ms.mapM (relabel r) = .ok Ms' ∧ ∀ (Q Q' : ℕ → Fin 4 → ℝ) (m m' : ℕ → ℝ),
      (∀ j it, r[j]? = some it → Q' j = Q it.index ∧ m' j = m it.index) →
      ((((Ms'.map fun x => x.amp Q' m').sum : ℝ)) : ℂ) =
        fermiSq GF gL gR hL hR ⟨xor (anti (v 0)) (cr (v 0)), Q (v 0), m (v 0)⟩ ⟨xor (anti (v 1)) (cr (v 1)), Q (v 1), m (v 1)⟩
          ⟨xor (anti (v 2)) (cr (v 2)), Q (v 2), m (v 2)⟩ ⟨xor (anti (v 3)) (cr (v 3)), Q (v 3), m (v 3)⟩ := by
  set s : ℕ → ℝ := fun k => if cr k then -1 else 1 with hs
  have hsr : ∀ it ∈ r, s it.index = if it.crossed then -1 else 1 := by
    intro it hit; rw [hs, hcr it hit]
  -- all elements are relabelled
  have all : ∀ Ms : List M4, (∀ x ∈ Ms, x.K = 0 ∧ [x.order.a, x.order.b, x.order.c, x.order.d].Perm (List.range 4)) →
      ∃ Ms', Ms.mapM (relabel r) = .ok Ms' ∧ ∀ (Q Q' : ℕ → Fin 4 → ℝ) (m m' : ℕ → ℝ),
        (∀ j it, r[j]? = some it → Q' j = Q it.index ∧ m' j = m it.index) →
        (Ms'.map fun x => x.amp Q' m').sum = (-1) ^ (r.countP (·.crossed)) * (Ms.map fun x => x.amp (fun v => s v • Q v) m).sum := by
    intro Ms
    induction Ms with
    | nil => intro _; exact ⟨[], rfl, fun _ _ _ _ _ => by simp⟩
    | cons x Ms ih =>
      intro h
      obtain ⟨Ms', e, f⟩ := ih fun y hy => h y (List.mem_cons_of_mem _ hy)
      obtain ⟨hK, hperm⟩ := h x (List.mem_cons_self ..)
      obtain ⟨x', ex, -⟩ := C43_relabel r x (hr.trans hperm.symm) s hsr (fun _ _ => 0) (fun _ => 0) (fun _ _ => 0) (fun _ => 0)
        (fun _ _ _ => ⟨rfl, rfl⟩)
      refine ⟨x' :: Ms', ?_, fun Q Q' m m' hQ => ?_⟩
      · rw [List.mapM_cons, ex, e]; rfl
      · obtain ⟨x'', ex', k1, -, k3⟩ := C43_relabel r x (hr.trans hperm.symm) s hsr Q m Q' m' hQ
        obtain rfl : x' = x'' := Except.ok.inj (ex.symm.trans ex')
        rw [List.map_cons, List.sum_cons, List.map_cons, List.sum_cons, f Q Q' m m' hQ]
        rw [k1, hK, sub_zero, sub_zero] at k3
        rw [k3]; ring
  obtain ⟨Ms', e, f⟩ := all Ms hM
  refine ⟨Ms', e, fun Q Q' m m' hQ => ?_⟩
  rw [f Q Q' m m' hQ, Complex.ofReal_mul, hd]
  have hprod : (((-1 : ℝ) ^ (r.countP (·.crossed)) : ℝ) : ℂ) = s (v 0) * s (v 1) * s (v 2) * s (v 3) := by
    have h1 : ((r.map (·.index)).map s).prod = ((List.ofFn v).map s).prod := ((hr.trans hv.symm).map s).prod_eq
    have h2 : ((r.map (·.index)).map s).prod = (-1 : ℝ) ^ (r.countP (·.crossed)) := by
      clear hQ h1 hr f e all hcr hd
      induction r with
      | nil => simp
      | cons it r ih =>
        rw [List.map_cons, List.map_cons, List.prod_cons, ih fun x hx => hsr x (List.mem_cons_of_mem _ hx),
          hsr it (List.mem_cons_self ..), List.countP_cons]
        by_cases hc : it.crossed = true
        · simp [hc, pow_succ]
        · simp [hc]
    rw [← h2, h1]
    simp [List.ofFn_succ, mul_assoc]
  have leg : ∀ k, spinSum ⟨anti k, s k • Q k, m k⟩ = (s k : ℂ) • spinSum ⟨xor (anti k) (cr k), Q k, m k⟩ := by
    intro k
    by_cases hk : cr k = true
    · have : (⟨anti k, s k • Q k, m k⟩ : Leg) = Leg.cross ⟨!anti k, Q k, m k⟩ := by
        simp [Leg.cross, hs, hk]
      rw [this, spinSum_cross]
      simp [hs, hk]
    · simp [hs, hk]
  have hss : ∀ k, (s k : ℂ) * s k = 1 := by intro k; rw [hs]; dsimp only; split_ifs <;> simp
  unfold fermiSq
  simp only [leg, Matrix.smul_mul, Matrix.mul_smul, Matrix.trace_smul, smul_eq_mul]
  rw [hprod, Finset.mul_sum, Finset.mul_sum, Finset.mul_sum]
  refine Finset.sum_congr rfl fun μ _ => ?_
  rw [Finset.mul_sum, Finset.mul_sum, Finset.mul_sum]
  refine Finset.sum_congr rfl fun ν _ => ?_
  have h1 : (s (v 0) : ℂ) * s (v 1) * s (v 2) * s (v 3) * (s (v 1) * s (v 0) * (s (v 3) * s (v 2))) = 1 := by
    calc _ = ((s (v 0) : ℂ) * s (v 0)) * (s (v 1) * s (v 1)) * ((s (v 2) * s (v 2)) * (s (v 3) * s (v 3))) := by ring
      _ = 1 := by rw [hss, hss, hss, hss]; norm_num
  generalize (spinSum _ * vertex gL gR μ * spinSum _ * dbar (vertex gL gR ν)).trace = T
  generalize (spinSum _ * vertex hL hR μ * spinSum _ * dbar (vertex hL hR ν)).trace = T'
  linear_combination (↑GF ^ 2 / 2 * (met μ * met ν * T * T')) * h1

end
end PyBBN
