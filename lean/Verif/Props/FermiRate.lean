import Verif.Lemmas.Fermi
import Verif.Props.Normalisation
import Verif.Props.DecayRate
import Verif.Props.Kinematics
/-!
# C89: three-body decays happen at the Fermi rate

A particle of mass `m` decaying into three massless particles with squared amplitude
`K1 (Q₀·Qⱼ)(Qₖ·Qₗ)` has the width `K1 m⁵ / (12288 π³ g)`; a moving particle decays slower by `m / E`.
-/
namespace PyBBN

open Set

/-! ## Occupations and statistics -/

/-- Empty species. -/
theorem occAt_empty (s : CParticle) {g : List ℝ} (hin : s.inEq = false) (hg : s.grid = 0 :: g)
    (hs : s.grid.Pairwise (· < ·)) (hlen : s.dist.length = s.grid.length) (hz : ∀ d ∈ s.dist, d = 0)
    {p : ℝ} (hp : 0 ≤ p) : occAt s p = .ok 0 := by
  have hne : s.grid ≠ [] := by rw [hg]; simp
  have hd : s.dist ≠ [] := by
    intro h; apply hne; rw [h] at hlen; exact List.length_eq_zero_iff.mp hlen.symm
  unfold occAt
  rw [hin]
  rcases grid_cases s.grid p hne hs with h | h | ⟨i, hi, rfl⟩ | ⟨i, hi, h1, h2⟩
  · rw [C09_above _ _ _ _ _ _ hne hlen h hd, hz _ (List.getLast_mem hd), zero_mul]
  · exact absurd (h 0 (by rw [hg]; simp)) (not_lt.mpr hp)
  · rw [C09_exact_on_grid _ _ _ _ _ hs hlen i hi, hz _ (List.getElem_mem _)]
  · rw [lookup_between _ _ _ _ _ _ hs hlen i hi h1 h2, interpCell]
    simp [hz _ (List.getElem_mem (_ : i < s.dist.length))]

theorem empty_factors (r : Fin 4 → Reactant) (h1 : (r 1).side = 1) (h2 : (r 2).side = 1)
    (h3 : (r 3).side = 1) (f0 : ℝ) :
    kindFactor (Kind.ofInt 1) [r 0, r 1, r 2, r 3] [f0, 0, 0, 0] = .ok 0 ∧
    kindFactor (Kind.ofInt 2) [r 0, r 1, r 2, r 3] [f0, 0, 0, 0] = .ok (-1) := by
  have ht : TwoSided ([r 1, r 2, r 3].zip [(0:ℝ), 0, 0]) := by
    intro x hx
    simp only [List.zip_cons_cons, List.zip_nil_right, List.mem_cons, List.not_mem_nil, or_false] at hx
    rcases hx with rfl | rfl | rfl <;> simp [h1, h2, h3]
  have hf : ∀ x ∈ [r 1, r 2, r 3].zip [(0:ℝ), 0, 0], 0 ≤ x.2 := by
    intro x hx
    simp only [List.zip_cons_cons, List.zip_nil_right, List.mem_cons, List.not_mem_nil, or_false] at hx
    rcases hx with rfl | rfl | rfl <;> simp
  have hg : gain ([r 1, r 2, r 3].zip [(0:ℝ), 0, 0]) = 0 := by
    simp [gain, occupied, h1, h2, h3]
  have hl : loss ([r 1, r 2, r 3].zip [(0:ℝ), 0, 0]) = 1 := by
    simp [loss, occupied, blocked, h1, h2, h3]
  constructor
  · change kindFactor .f1 _ _ = _
    unfold kindFactor F_1
    simp only [List.getElem?_cons_zero, getLast_cons]
    rw [FB_skip_ok _ _ _ _ ht hf, hg]
  · change kindFactor .ff _ _ = _
    unfold kindFactor F_f
    simp only [List.getElem?_cons_zero, getLast_cons]
    rw [FA_skip_ok _ _ _ _ ht hf, FB_skip_ok _ _ _ _ ht hf, hg, hl]
    simp [bind, Except.bind]

/-! ## The kernel -/

/-- The momentum of product `j`. -/
def prodMom (E a b : ℝ) (j : Fin 4) : ℝ := if j = 1 then a else if j = 2 then b else E - a - b

/-- Another product. -/
def otherMom (a b : ℝ) (j : Fin 4) : ℝ := if j = 2 then a else b

/-- The squared amplitude of partner `j` integrated over directions, over `p₀ E₀`. -/
noncomputable def fermiW (E q : ℝ) (j : Fin 4) (a b : ℝ) : ℝ :=
  open Classical in
  if q = 0 then Db1 a b (E - a - b) * (prodMom E a b j * (E ^ 2 - 2 * E * prodMom E a b j) / 2)
  else fPhi E q (prodMom E a b j) (otherMom a b j) / (q * E)

/-- **The integral is the same for every partner.** -/
theorem fermiW_tri {m q : ℝ} (hm : 0 < m) (hq : 0 ≤ q) (j : Fin 4) (hj : j ≠ 0) :
    HasTri (energyOf m q) (fermiW (energyOf m q) q j) (m ^ 5 / 192 * (m / energyOf m q)) := by
  set E := energyOf m q with hE
  have hE2 : E ^ 2 = q ^ 2 + m ^ 2 := by rw [hE]; unfold energyOf; exact Real.sq_sqrt (by positivity)
  have hE0 : 0 < E := by rw [hE]; unfold energyOf; positivity
  have hqE : q < E := by nlinarith
  by_cases h0 : q = 0
  · have hEm : E = m := by
      have : (E - m) * (E + m) = 0 := by rw [h0] at hE2; linarith
      rcases mul_eq_zero.mp this with h | h <;> linarith
    have hw : ∀ a b, fermiW E q j a b
        = Db1 a b (m - a - b) * (prodMom m a b j * (m ^ 2 - 2 * m * prodMom m a b j) / 2) := by
      intro a b
      unfold fermiW
      rw [if_pos h0, hEm]
    have e : m ^ 5 / 192 * (m / E) = m ^ 5 / 192 := by rw [hEm, div_self hm.ne', mul_one]
    rw [e, hEm]
    rw [hEm] at hw
    have : ∀ w, (∀ a b, fermiW m q j a b = w a b) → fermiW m q j = w := fun w h => by
      funext a b; exact h a b
    rw [this _ hw]
    fin_cases j
    · exact absurd rfl hj
    · exact rest_tri_fst hm
    · exact rest_tri_snd hm
    · exact rest_tri_thd hm
  · have hq0 : 0 < q := lt_of_le_of_ne hq (Ne.symm h0)
    have e : m ^ 5 / 192 * (m / E) = 1 / (q * E) * (q * (E ^ 2 - q ^ 2) ^ 3 / 192) := by
      rw [hE2, show q ^ 2 + m ^ 2 - q ^ 2 = m ^ 2 by ring]
      field_simp
    have hw : fermiW E q j = fun a b => 1 / (q * E) * fPhi E q (prodMom E a b j) (otherMom a b j) := by
      funext a b
      unfold fermiW
      rw [if_neg h0]; ring
    rw [e, hw]
    apply HasTri.mul
    fin_cases j
    · exact absurd rfl hj
    · exact fPhi_tri_fst hq hqE
    · exact fPhi_tri_snd hq hqE
    · exact fPhi_tri_thd hq hqE

/-- The partner of the first particle in an order. -/
def partner (o : Fin 4 → Fin 4) : Fin 4 :=
  if o 0 = 0 then o 1 else if o 1 = 0 then o 0 else if o 2 = 0 then o 3 else o 2

theorem pairAverage_swap (q1 q2 q3 q4 : ℝ) (f : ℝ → ℝ) :
    pairAverage q1 q2 q3 q4 f = pairAverage q2 q1 q3 q4 f := by
  unfold pairAverage
  rw [abs_sub_comm, add_comm q1]

theorem pairAverage_swap' (q1 q2 q3 q4 : ℝ) (f : ℝ → ℝ) :
    pairAverage q1 q2 q3 q4 f = pairAverage q1 q2 q4 q3 f := by
  unfold pairAverage
  rw [abs_sub_comm q3, add_comm q3]

/-- The average of the amplitude for partner momentum `x`. -/
theorem pairAverage_fermi {E q x y z : ℝ} (h : x + y + z = E) :
    pairAverage q x y z (fun d => (E * x + dot q x d) * (y * z - dot y z d)) = fPhi E q x y := by
  have hz : z = E - x - y := by linarith
  subst hz
  rw [pairAverage_eq _ _ _ _ _ (fG E x q)]
  · rfl
  · intro u v
    refine intervalIntegral.integral_eq_sub_of_hasDerivAt (fun d _ => ?_)
      (by apply Continuous.intervalIntegrable; unfold dot; fun_prop)
    unfold fG dot
    have h1 := (hasDerivAt_id d)
    have h3 := (hasDerivAt_pow 3 d)
    have h5 := (hasDerivAt_pow 5 d)
    have := (((h1.const_mul ((E * x - (q ^ 2 + x ^ 2) / 2) * (E - x) ^ 2)).add
      ((h3.const_mul ((E - x) ^ 2 / 2 - (E * x - (q ^ 2 + x ^ 2) / 2))).div_const 3)).sub
      (h5.div_const 10)).const_mul (1 / 2)
    refine this.congr_deriv ?_
    push_cast
    ring

theorem fPhi_other (E q a b : ℝ) : fPhi E q a b = fPhi E q a (E - a - b) := (fPhi_symm E q a b).symm

theorem three_labels : ∀ j k l : Fin 4, j ≠ 0 → k ≠ 0 → l ≠ 0 → j ≠ k → k ≠ l → j ≠ l →
    (j = 1 ∧ k = 2 ∧ l = 3) ∨ (j = 1 ∧ k = 3 ∧ l = 2) ∨ (j = 2 ∧ k = 1 ∧ l = 3) ∨
    (j = 2 ∧ k = 3 ∧ l = 1) ∨ (j = 3 ∧ k = 1 ∧ l = 2) ∨ (j = 3 ∧ k = 2 ∧ l = 1) := by
  intro j k l
  fin_cases j <;> fin_cases k <;> fin_cases l <;> simp

/-- The value of the directional average, by labels. -/
theorem average_labels {E q a b : ℝ} {p e : Fin 4 → ℝ} (hp : p = ![q, a, b, E - a - b])
    (he : e = ![E, a, b, E - a - b]) {j k l : Fin 4} (hj : j ≠ 0) (hk : k ≠ 0) (hl : l ≠ 0)
    (hjk : j ≠ k) (hkl : k ≠ l) (hjl : j ≠ l) :
    pairAverage (p 0) (p j) (p k) (p l)
      (fun d => (e 0 * e j + dot (p 0) (p j) d) * (e k * e l - dot (p k) (p l) d))
      = fPhi E q (prodMom E a b j) (otherMom a b j) := by
  subst hp he
  rcases three_labels j k l hj hk hl hjk hkl hjl with ⟨rfl, rfl, rfl⟩ | ⟨rfl, rfl, rfl⟩ | ⟨rfl, rfl, rfl⟩ |
      ⟨rfl, rfl, rfl⟩ | ⟨rfl, rfl, rfl⟩ | ⟨rfl, rfl, rfl⟩
  · exact pairAverage_fermi (by simp)
  · refine (pairAverage_fermi (by simp <;> ring)).trans ?_
    change fPhi E q a (E - a - b) = fPhi E q a b
    exact fPhi_symm _ _ _ _
  · exact pairAverage_fermi (by simp <;> ring)
  · refine (pairAverage_fermi (by simp <;> ring)).trans ?_
    change fPhi E q b (E - a - b) = fPhi E q b a
    rw [← fPhi_symm E q b a]; congr 1; ring
  · refine (pairAverage_fermi (by simp <;> ring)).trans ?_
    change fPhi E q (E - a - b) a = fPhi E q (E - a - b) b
    rw [← fPhi_symm E q _ b]; congr 1; ring
  · exact pairAverage_fermi (by simp <;> ring)

/-- Moving: the kernel of one matrix element. -/
theorem D_fermi {E q a b : ℝ} {p e : Fin 4 → ℝ} (hp : p = ![q, a, b, E - a - b])
    (he : e = ![E, a, b, E - a - b]) (hpn : ∀ i, 0 ≤ p i) (m : Fin 4 → ℝ) (hm : ∀ i, i ≠ 0 → m i = 0)
    (s : Fin 4 → ℤ) (hs0 : s 0 = -1) (hs : ∀ i, i ≠ 0 → s i = 1) (K1 K2 : ℝ) (σ : Equiv.Perm (Fin 4)) :
    D p e m K1 K2 σ s = K1 * fPhi E q (prodMom E a b (partner σ)) (otherMom a b (partner σ)) := by
  rw [C63_average p e m K1 K2 σ s hpn]
  have hne : ∀ i j : Fin 4, i ≠ j → σ i ≠ σ j := fun i j h h' => h (σ.injective h')
  have h01 := hne 0 1 (by decide); have h02 := hne 0 2 (by decide); have h03 := hne 0 3 (by decide)
  have h12 := hne 1 2 (by decide); have h13 := hne 1 3 (by decide); have h23 := hne 2 3 (by decide)
  have hsi : ∀ i, i ≠ 0 → ((s i : ℤ) : ℝ) = 1 := fun i h => by rw [hs i h]; norm_num
  have hs0' : ((s 0 : ℤ) : ℝ) = -1 := by rw [hs0]; norm_num
  rcases order_cases σ with ⟨h0, n1, n2, n3⟩ | ⟨h0, n1, n2, n3⟩ | ⟨h0, n1, n2, n3⟩ | ⟨h0, n1, n2, n3⟩
  · have hpart : partner σ = σ 1 := by unfold partner; rw [if_pos h0]
    rw [hpart, ← average_labels hp he n1 n2 n3 h12 h23 h13, h0, ← pairAverage_mul]
    congr 1
    funext d
    unfold amplitude fourProduct
    rw [hs0', hsi _ n1, hsi _ n2, hsi _ n3, hm _ n1]
    ring
  · have hpart : partner σ = σ 0 := by unfold partner; rw [if_neg n1, if_pos h0]
    rw [hpart, ← average_labels hp he n1 n2 n3 h02 h23 h03, h0, ← pairAverage_mul, pairAverage_swap]
    congr 1
    funext d
    unfold amplitude fourProduct
    rw [hs0', hsi _ n1, hsi _ n2, hsi _ n3, hm _ n1]
    unfold dot
    ring
  · have hpart : partner σ = σ 3 := by unfold partner; rw [if_neg n1, if_neg n2, if_pos h0]
    rw [hpart, ← average_labels hp he n3 n1 n2 h03.symm h01 h13.symm, h0, ← pairAverage_mul, pairAverage_pairs]
    congr 1
    funext d
    unfold amplitude fourProduct
    rw [hs0', hsi _ n1, hsi _ n2, hsi _ n3, hm _ n1]
    ring
  · have hpart : partner σ = σ 2 := by unfold partner; rw [if_neg n1, if_neg n2, if_neg n3]
    rw [hpart, ← average_labels hp he n3 n1 n2 h02.symm h01 h12.symm, h0, ← pairAverage_mul, pairAverage_pairs,
      pairAverage_swap]
    congr 1
    funext d
    unfold amplitude fourProduct
    rw [hs0', hsi _ n1, hsi _ n2, hsi _ n3, hm _ n1]
    unfold dot
    ring

/-- The value of the rest-frame kernel, by labels. -/
theorem rest_labels {E a b : ℝ} {p e : Fin 4 → ℝ} (hp : p = ![0, a, b, E - a - b])
    (he : e = ![E, a, b, E - a - b]) (hpn : ∀ i, 0 ≤ p i) {j k l : Fin 4} (hj : j ≠ 0) (hk : k ≠ 0) (hl : l ≠ 0)
    (hjk : j ≠ k) (hkl : k ≠ l) (hjl : j ≠ l) :
    e 1 * e 2 * e 3 * Db1 (p 1) (p 2) (p 3) + e j * Db2 (p j) (p k) (p l)
      = Db1 a b (E - a - b) * (prodMom E a b j * (E ^ 2 - 2 * E * prodMom E a b j) / 2) := by
  rw [Db2_eq (hpn _) (hpn _) (hpn _)]
  subst hp he
  have s1 : ∀ x y z : ℝ, Db1 x y z = Db1 x z y := by
    intro x y z; rw [Db1_eq, Db1_eq]; ring_nf
  have s2 : ∀ x y z : ℝ, Db1 x y z = Db1 y x z := by
    intro x y z; rw [Db1_eq, Db1_eq]; ring_nf
  rcases three_labels j k l hj hk hl hjk hkl hjl with ⟨rfl, rfl, rfl⟩ | ⟨rfl, rfl, rfl⟩ | ⟨rfl, rfl, rfl⟩ |
      ⟨rfl, rfl, rfl⟩ | ⟨rfl, rfl, rfl⟩ | ⟨rfl, rfl, rfl⟩
  · change a * b * (E - a - b) * Db1 a b (E - a - b) + a * (_ * Db1 a b (E - a - b)) = _ * (a * (E ^ 2 - 2 * E * a) / 2)
    simp; ring
  · change a * b * (E - a - b) * Db1 a b (E - a - b) + a * (_ * Db1 a (E - a - b) b) = _ * (a * (E ^ 2 - 2 * E * a) / 2)
    rw [s1 a (E - a - b) b]
    simp; ring
  · change a * b * (E - a - b) * Db1 a b (E - a - b) + b * (_ * Db1 b a (E - a - b)) = _ * (b * (E ^ 2 - 2 * E * b) / 2)
    rw [s2 b a]
    simp; ring
  · change a * b * (E - a - b) * Db1 a b (E - a - b) + b * (_ * Db1 b (E - a - b) a) = _ * (b * (E ^ 2 - 2 * E * b) / 2)
    rw [s1 b, s2 b a]
    simp; ring
  · change a * b * (E - a - b) * Db1 a b (E - a - b) + (E - a - b) * (_ * Db1 (E - a - b) a b)
      = _ * ((E - a - b) * (E ^ 2 - 2 * E * (E - a - b)) / 2)
    rw [s2 (E - a - b) a, s1 a (E - a - b)]
    simp; ring
  · change a * b * (E - a - b) * Db1 a b (E - a - b) + (E - a - b) * (_ * Db1 (E - a - b) b a)
      = _ * ((E - a - b) * (E ^ 2 - 2 * E * (E - a - b)) / 2)
    rw [s1 (E - a - b) b a, s2 (E - a - b) a, s1 a (E - a - b)]
    simp; ring

/-- At rest: the kernel of one matrix element. -/
theorem Db_fermi {E a b : ℝ} {p e : Fin 4 → ℝ} (hp : p = ![0, a, b, E - a - b])
    (he : e = ![E, a, b, E - a - b]) (hpn : ∀ i, 0 ≤ p i) (m : Fin 4 → ℝ) (hm : ∀ i, i ≠ 0 → m i = 0)
    (s : Fin 4 → ℤ) (hs : ∀ i, i ≠ 0 → s i = 1) (K1 K2 : ℝ) (σ : Equiv.Perm (Fin 4)) :
    Db p e m K1 K2 σ s = K1 * (Db1 a b (E - a - b)
      * (prodMom E a b (partner σ) * (E ^ 2 - 2 * E * prodMom E a b (partner σ)) / 2)) := by
  have hne : ∀ i j : Fin 4, i ≠ j → σ i ≠ σ j := fun i j h h' => h (σ.injective h')
  have h01 := hne 0 1 (by decide); have h02 := hne 0 2 (by decide); have h03 := hne 0 3 (by decide)
  have h12 := hne 1 2 (by decide); have h13 := hne 1 3 (by decide); have h23 := hne 2 3 (by decide)
  have hsi : ∀ i, i ≠ 0 → ((s i : ℤ) : ℝ) = 1 := fun i h => by rw [hs i h]; norm_num
  have v : ∀ i : Fin 4, i ≠ 0 → i.val ≠ 0 := fun i h h' => h (Fin.ext h')
  rcases order_cases σ with ⟨h0, n1, n2, n3⟩ | ⟨h0, n1, n2, n3⟩ | ⟨h0, n1, n2, n3⟩ | ⟨h0, n1, n2, n3⟩
  · have hpart : partner σ = σ 1 := by unfold partner; rw [if_pos h0]
    rw [hpart, ← rest_labels hp he hpn n1 n2 n3 h12 h23 h13, Db_eq_fst _ _ _ _ _ _ _ (by rw [h0]; simp), h0, zero_add,
      hsi _ n2, hsi _ n3, hm _ n1]
    ring
  · have hpart : partner σ = σ 0 := by unfold partner; rw [if_neg n1, if_pos h0]
    rw [hpart, ← rest_labels hp he hpn n1 n2 n3 h02 h23 h03, Db_eq_fst _ _ _ _ _ _ _ (by rw [h0]; simp), h0, add_zero,
      hsi _ n2, hsi _ n3, hm _ n1]
    ring
  · have hpart : partner σ = σ 3 := by unfold partner; rw [if_neg n1, if_neg n2, if_pos h0]
    rw [hpart, ← rest_labels hp he hpn n3 n1 n2 h03.symm h01 h13.symm,
      Db_eq_snd _ _ _ _ _ _ _ (mul_ne_zero (v _ n1) (v _ n2)) (by rw [h0]; simp), h0, zero_add,
      hsi _ n1, hsi _ n2, hm _ n1]
    ring
  · have hpart : partner σ = σ 2 := by unfold partner; rw [if_neg n1, if_neg n2, if_neg n3]
    rw [hpart, ← rest_labels hp he hpn n3 n1 n2 h02.symm h01 h12.symm,
      Db_eq_snd _ _ _ _ _ _ _ (mul_ne_zero (v _ n1) (v _ n2)) (by rw [h0]; simp), h0, add_zero,
      hsi _ n1, hsi _ n2, hm _ n1]
    ring

/-! ## The integrand and its integral -/

/-- A particle with products that are massless and empty. -/
structure FermiDecay (r : Fin 4 → Reactant) : Prop where
  side0 : (r 0).side = -1
  side : ∀ i, i ≠ 0 → (r i).side = 1
  mass0 : 0 < (r 0).specie.m
  mass : ∀ i, i ≠ 0 → (r i).specie.m = 0
  readable : Readable (r 0).specie
  empty : ∀ i, i ≠ 0 → ∀ p, 0 ≤ p → occAt (r i).specie p = .ok 0

section
variable {r : Fin 4 → Reactant} (h : FermiDecay r) {Ms : List CM} (hMs : Ms ≠ [])
  (hK : ∀ M ∈ Ms, M.K = 0) (ho : ∀ M ∈ Ms, M.order.Bijective)
include h

theorem fermi_onShell {q a b : ℝ} (hq : 0 ≤ q) (ha : 0 < a) (hb : 0 < b)
    (hab : a + b < energyOf (r 0).specie.m q) :
    OnShell r ![q, a, b, energyOf (r 0).specie.m q - a - b]
      ![energyOf (r 0).specie.m q, a, b, energyOf (r 0).specie.m q - a - b] where
  sides i := by
    by_cases hi : i = 0
    · right; rw [hi]; exact h.side0
    · left; exact h.side i hi
  mass i := by
    by_cases hi : i = 0
    · rw [hi]; exact h.mass0.le
    · rw [h.mass i hi]
  mom i := by
    fin_cases i
    · exact hq
    · exact ha.le
    · exact hb.le
    · change 0 ≤ energyOf (r 0).specie.m q - a - b; linarith
  energy i := by
    have e : ∀ x, 0 ≤ x → x = energyOf 0 x := fun x hx => by rw [energyOf_eq, energy_massless x hx]
    fin_cases i
    · rfl
    · change a = energyOf (r 1).specie.m a
      rw [h.mass 1 (by decide)]; exact e a ha.le
    · change b = energyOf (r 2).specie.m b
      rw [h.mass 2 (by decide)]; exact e b hb.le
    · change energyOf (r 0).specie.m q - a - b = energyOf (r 3).specie.m (energyOf (r 0).specie.m q - a - b)
      rw [h.mass 3 (by decide)]; exact e _ (by linarith)
  conserved := by
    rw [Fin.sum_univ_four, h.side0, h.side 1 (by decide), h.side 2 (by decide), h.side 3 (by decide)]
    simp

include hMs hK ho

theorem fermi_kernel {q a b : ℝ} (hq : 0 ≤ q) (ha : 0 < a) (hb : 0 < b)
    (hab : a + b < energyOf (r 0).specie.m q) :
    kernel4 r Ms ![q, a, b, energyOf (r 0).specie.m q - a - b]
        ![energyOf (r 0).specie.m q, a, b, energyOf (r 0).specie.m q - a - b]
      = .ok ((Ms.map fun M => M.K1 * fermiW (energyOf (r 0).specie.m q) q (partner M.order) a b).sum) := by
  set E := energyOf (r 0).specie.m q
  have hpn : ∀ i, 0 ≤ (![q, a, b, E - a - b] : Fin 4 → ℝ) i := (fermi_onShell h hq ha hb hab).mom
  obtain ⟨M0, Ms', rfl⟩ := List.exists_cons_of_ne_nil hMs
  unfold kernel4
  simp only [hK M0 (by simp), ne_eq, not_true_eq_false, if_false]
  by_cases h0 : q = 0
  · have : ¬ ¬ (![q, a, b, E - a - b] : Fin 4 → ℝ) 0 = 0 := not_not.mpr h0
    rw [if_neg this]
    congr 2
    refine List.map_congr_left fun M hM => ?_
    have := Db_fermi (E := E) (a := a) (b := b) (p := ![q, a, b, E - a - b]) (by rw [h0]) rfl hpn
      (fun i => (r i).specie.m) h.mass (fun i => (r i).side) h.side M.K1 M.K2 (Equiv.ofBijective M.order (ho M hM))
    rw [Equiv.ofBijective] at this
    refine this.trans ?_
    unfold fermiW
    rw [if_pos h0]
    rfl
  · have : ¬ (![q, a, b, E - a - b] : Fin 4 → ℝ) 0 = 0 := h0
    rw [if_pos this]
    have hdiv : ∀ (l : List CM) (g : CM → ℝ) (c : ℝ), (l.map g).sum / c = (l.map fun M => g M / c).sum := by
      intro l g c
      induction l with
      | nil => simp
      | cons M l ih => simp [← ih, add_div]
    rw [hdiv]
    congr 2
    refine List.map_congr_left fun M hM => ?_
    have := D_fermi (E := E) (q := q) (a := a) (b := b) (p := ![q, a, b, E - a - b]) rfl rfl hpn
      (fun i => (r i).specie.m) h.mass (fun i => (r i).side) h.side0 h.side M.K1 M.K2 (Equiv.ofBijective M.order (ho M hM))
    rw [Equiv.ofBijective] at this
    change D _ _ _ _ _ M.order _ / (q * E) = _
    refine (congrArg (· / (q * E)) this).trans ?_
    unfold fermiW
    rw [if_neg h0]
    rw [mul_div_assoc]
    rfl

omit h hMs hK ho in
/-- The kernel vanishes where momentum cannot be conserved. -/
theorem fermiW_closed {E q a b : ℝ} (hq : 0 ≤ q) (ha : 0 < a) (hb : 0 < b) (hc : 0 < E - a - b)
    (hcl : ¬ CanClose ![q, a, b, E - a - b]) (j : Fin 4) : fermiW E q j a b = 0 := by
  rw [canClose4_iff _ (by intro i; fin_cases i; exacts [hq, ha.le, hb.le, hc.le])] at hcl
  change ¬ (q ≤ a + b + (E - a - b) ∧ a ≤ q + b + (E - a - b) ∧ b ≤ q + a + (E - a - b) ∧ E - a - b ≤ q + a + b) at hcl
  have hcl' : E < q ∨ q + E < 2 * a ∨ q + E < 2 * b ∨ q + a + b < E - a - b := by
    by_contra hn
    push Not at hn
    exact hcl ⟨by linarith, by linarith, by linarith, by linarith⟩
  unfold fermiW
  split_ifs with h0
  · rw [Db1_out ha hb hc, zero_mul]
    rcases hcl' with h | h | h | h
    · linarith
    · right; right; linarith
    · right; left; linarith
    · left; linarith
  · have key : ∀ x y z : ℝ, x + y + z = E → (E < q ∨ q + E < 2 * x ∨ q + E < 2 * y ∨ q + E < 2 * z) → fPhi E q x y = 0 := by
      intro x y z hs hx
      unfold fPhi exHi
      rw [max_eq_left]
      · ring
      · unfold exLo
        rcases hx with h | h | h | h
        · exact (min_le_right _ _).trans ((le_trans (by linarith) (le_abs_self _)).trans (le_max_left _ _))
        · exact (min_le_right _ _).trans ((le_trans (by linarith) (neg_le_abs _)).trans (le_max_left _ _))
        · exact (min_le_left _ _).trans ((le_trans (by linarith) (le_abs_self _)).trans (le_max_right _ _))
        · exact (min_le_left _ _).trans ((le_trans (by linarith) (neg_le_abs _)).trans (le_max_right _ _))
    have : fPhi E q (prodMom E a b j) (otherMom a b j) = 0 := by
      fin_cases j
      · refine key (E - a - b) b a (by ring) ?_
        rcases hcl' with h | h | h | h
        exacts [Or.inl h, Or.inr (Or.inr (Or.inr h)), Or.inr (Or.inr (Or.inl h)), Or.inr (Or.inl (by linarith))]
      · refine key a b (E - a - b) (by ring) ?_
        rcases hcl' with h | h | h | h
        exacts [Or.inl h, Or.inr (Or.inl h), Or.inr (Or.inr (Or.inl h)), Or.inr (Or.inr (Or.inr (by linarith)))]
      · refine key b a (E - a - b) (by ring) ?_
        rcases hcl' with h | h | h | h
        exacts [Or.inl h, Or.inr (Or.inr (Or.inl h)), Or.inr (Or.inl h), Or.inr (Or.inr (Or.inr (by linarith)))]
      · refine key (E - a - b) b a (by ring) ?_
        rcases hcl' with h | h | h | h
        exacts [Or.inl h, Or.inr (Or.inr (Or.inr h)), Or.inr (Or.inr (Or.inl h)), Or.inr (Or.inl (by linarith))]
    rw [this, zero_div]

theorem fermi_integrand {q a b : ℝ} (hq : 0 ≤ q) (ha : 0 < a) (hb : 0 < b)
    (hab : a + b < energyOf (r 0).specie.m q) {kind : ℤ} {F : ℝ}
    (hF : ∀ f0, kindFactor (Kind.ofInt kind) [r 0, r 1, r 2, r 3] [f0, 0, 0, 0] = .ok F) :
    integrandFull4 q a b r Ms kind
      = .ok (F * (Ms.map fun M => M.K1 * fermiW (energyOf (r 0).specie.m q) q (partner M.order) a b).sum) := by
  set E := energyOf (r 0).specie.m q with hE
  have hsh := fermi_onShell h hq ha hb hab
  obtain ⟨f0, hf0⟩ := h.readable q hq
  have hocc : ∀ i, occAt (r i).specie ((![q, a, b, E - a - b] : Fin 4 → ℝ) i) = .ok ((![f0, 0, 0, 0] : Fin 4 → ℝ) i) := by
    intro i
    fin_cases i
    · exact hf0
    · exact h.empty 1 (by decide) a ha.le
    · exact h.empty 2 (by decide) b hb.le
    · exact h.empty 3 (by decide) (E - a - b) (by linarith)
  have hi := integrand4_value hsh hocc (hF f0) (fermi_kernel h hMs hK ho hq ha hb hab)
  have hj : jacobian4 r ![q, a, b, E - a - b] ![E, a, b, E - a - b] = 1 := by
    unfold jacobian4
    simp [h.mass 1 (by decide), h.mass 2 (by decide)]
  refine hi.trans ?_
  rw [hj]
  split_ifs with hc
  · congr 1; ring
  · congr 1
    have : (Ms.map fun M => M.K1 * fermiW E q (partner M.order) a b) = Ms.map fun _ => 0 := by
      refine List.map_congr_left fun M _ => ?_
      rw [fermiW_closed hq ha hb (by linarith) hc, mul_zero]
    rw [this]
    simp

omit h hMs hK ho in
theorem partner_ne (o : Fin 4 → Fin 4) (ho : o.Bijective) : partner o ≠ 0 := by
  have hne : ∀ i j : Fin 4, i ≠ j → o i ≠ o j := fun i j h h' => h (ho.1 h')
  rcases order_cases (Equiv.ofBijective o ho) with ⟨h0, n1, n2, n3⟩ | ⟨h0, n1, n2, n3⟩ | ⟨h0, n1, n2, n3⟩ |
      ⟨h0, n1, n2, n3⟩ <;> simp only [Equiv.ofBijective_apply] at h0 n1 n2 n3 <;> unfold partner
  · rwa [if_pos h0]
  · rwa [if_neg n1, if_pos h0]
  · rwa [if_neg n1, if_neg n2, if_pos h0]
  · rwa [if_neg n1, if_neg n2, if_neg n3]

/-- **The double integral of `integration`.** -/
theorem fermi_quad {q : ℝ} (hq : 0 ≤ q) (max3 : ℝ) (dflt : ℝ × ℝ) {kind : ℤ} {F : ℝ}
    (hF : ∀ f0, kindFactor (Kind.ofInt kind) [r 0, r 1, r 2, r 3] [f0, 0, 0, 0] = .ok F) :
    exactQuad4 r Ms kind max3 dflt q 0 (energyOf (r 0).specie.m q)
      = .ok (F * ((Ms.map (·.K1)).sum * ((r 0).specie.m ^ 5 / 192 * ((r 0).specie.m / energyOf (r 0).specie.m q)))) := by
  set m := (r 0).specie.m with hm
  set E := energyOf m q with hE
  have hE0 : 0 < E := by rw [hE]; unfold energyOf; have := h.mass0; positivity
  have ht := ((HasTri.sum hE0.le (fun M : CM => M.K1) (fun M => fermiW E q (partner M.order)) _ Ms
    fun M hM => fermiW_tri h.mass0 hq _ (partner_ne _ (ho M hM))).mul F)
  unfold exactQuad4
  congr 1
  rw [← ht.value]
  refine intervalIntegral.integral_congr_Ioo_of_le hE0.le fun a ha => ?_
  have htype : reactionTypeSum [r 0, r 1, r 2, r 3] = 2 := by
    simp [reactionTypeSum, h.side0, h.side 1 (by decide), h.side 2 (by decide), h.side 3 (by decide)]
  have hlim : innerLimits (reactionTypeSum [r 0, r 1, r 2, r 3]) (r 0).specie.m (r 1).specie.m (r 2).specie.m
      (r 3).specie.m max3 q a dflt = some (0, E - a) := by
    unfold innerLimits
    rw [htype, if_pos rfl]
    congr 2
    unfold p2MaxDec
    rw [h.mass 1 (by decide), h.mass 2 (by decide), h.mass 3 (by decide), energy_massless a ha.1.le, ← energyOf_eq]
    rw [show (energyOf (r 0).specie.m q - a - 0) ^ 2 - 0 ^ 2 = (E - a) ^ 2 by rw [hE]; ring]
    exact Real.sqrt_sq (by linarith [ha.2])
  simp only [hlim]
  refine intervalIntegral.integral_congr_Ioo_of_le (by linarith [ha.2]) fun b hb => ?_
  simp only [fermi_integrand h hMs hK ho hq ha.1 hb.1 (by rw [← hm, ← hE]; linarith [hb.2]) hF]
  rfl

/-- The loop of `integration` for such a decay. -/
theorem fermi_loop {kind : ℤ} {F : ℝ}
    (hF : ∀ f0, kindFactor (Kind.ofInt kind) [r 0, r 1, r 2, r 3] [f0, 0, 0, 0] = .ok F)
    (ps : List ℝ) (hps : ∀ q ∈ ps, 0 ≤ q) (max1 min2 max2 max3 : ℝ) (sched : List (List ℕ))
    (hsch : ValidSchedule ps.length sched) :
    integration4Exact r Ms kind ps 0 max1 min2 max2 max3 sched = .ok (ps.map fun q =>
      F * ((Ms.map (·.K1)).sum * ((r 0).specie.m ^ 5 / 192 * ((r 0).specie.m / energyOf (r 0).specie.m q)))) := by
  have htype : reactionTypeSum [r 0, r 1, r 2, r 3] = 2 := by
    simp [reactionTypeSum, h.side0, h.side 1 (by decide), h.side 2 (by decide), h.side 3 (by decide)]
  unfold integration4Exact
  rw [C40_four_not_scattering _ (by change reactionTypeSum [r 0, r 1, r 2, r 3] ≠ 0; rw [htype]; decide) _ _ _ _ _ hsch]
  refine mapM_ok_map _ _ _ fun q hq => ?_
  unfold alone outerLimits
  have hE0 : 0 ≤ energyOf (r 0).specie.m q := Real.sqrt_nonneg _
  have e : √((energy q (loopCtx4 r max3).m0 - (loopCtx4 r max3).m2 - (loopCtx4 r max3).m3) ^ 2
      - (loopCtx4 r max3).m1 ^ 2) = energyOf (r 0).specie.m q := by
    change √((energy q (r 0).specie.m - (r 2).specie.m - (r 3).specie.m) ^ 2 - (r 1).specie.m ^ 2) = _
    rw [h.mass 1 (by decide), h.mass 2 (by decide), h.mass 3 (by decide), ← energyOf_eq]
    rw [show (energyOf (r 0).specie.m q - 0 - 0) ^ 2 - 0 ^ 2 = energyOf (r 0).specie.m q ^ 2 by ring]
    exact Real.sqrt_sq hE0
  have ht : (loopCtx4 r max3).type = 2 := htype
  simp only [ht, if_true, e]
  exact fermi_quad h hMs hK ho (hps q hq) max3 _ hF

end

variable {ι : Type*}

theorem mapM_getElem {α β : Type*} (g : α → Except Err β) : ∀ (l : List α) (l' : List β) (_ : l'.length = l.length)
    (_ : ∀ i (hi : i < l.length) (hi' : i < l'.length), g l[i] = .ok l'[i]), l.mapM g = .ok l'
  | [], [], _, _ => rfl
  | [], _ :: _, h, _ => by simp at h
  | _ :: _, [], h, _ => by simp at h
  | x :: l, y :: l', h, hg => by
    have h0 := hg 0 (by simp) (by simp)
    simp only [List.getElem_cons_zero] at h0
    rw [List.mapM_cons, h0, mapM_getElem g l l' (by simpa using h) fun i hi hi' => by
      have := hg (i + 1) (by simpa using hi) (by simpa using hi')
      simpa using this]
    rfl

theorem zip_rate (A B : ℝ → ℝ) (R : ℝ → ℝ) (k : ℝ) (hA : ∀ y, A y = 0) (hB : ∀ y, k * B y = -R y) : ∀ pts d : List ℝ,
    (List.zipWith (· + ·) (pts.map A) (List.zipWith (· * ·) (d.take pts.length) (pts.map B))).map (k * ·)
      = List.zipWith (fun y f => -(R y * f)) pts d
  | [], d => by simp
  | x :: pts, [] => by simp
  | x :: pts, f :: d => by
    have := zip_rate A B R k hA hB pts d
    simp only [List.map_cons, List.length_cons, List.take_succ_cons, List.zipWith_cons_cons, this, hA]
    congr 1
    have := hB x
    linear_combination f * this

/-- A product of the decay: massless, out of equilibrium and empty, on a grid that starts at 0. -/
structure EmptyProduct (sp : Species) (s : PState ι) : Prop where
  massless : sp.mass = 0
  noneq : inEq sp s = false
  grid : ∃ g, sp.grid = 0 :: g
  inc : sp.grid.Pairwise (· < ·)
  len : s.dist.length = sp.grid.length
  empty : ∀ d ∈ s.dist, d = 0

/-- **C89.** `integrate` of a decay into three massless empty states, converged quadrature: the two arrays
are `-Γ (m/E) f / H` and `-Γ (m/E) / H` per unit of `ln a` (divided by `x` in linear mode) at every momentum
kept by the grid cut, with the width `Γ = (Σ K1) m⁵ / (12288 π³ g)`, for any list of matrix elements,
index orders and `K2`, for a particle at rest or moving. -/
theorem C89_rate (c : Int4 ι) (p : Params) (sched : List (List ℕ))
    (hsch : ValidSchedule (gridCut4 (c.sp 0).grid c.ub).1.length sched)
    (hside0 : c.side 0 = -1) (hside : ∀ i, i ≠ 0 → c.side i = 1) (hkind : c.kind = .full)
    (hfast : (c.sp 0).fastDecay = false) (hn : c.neglect = false) (hGF : c.GF ≠ 0) (ha : 0 < p.a)
    (haT : 0 < p.aT) (hmin : c.min1 = 0) (hMs : c.Ms ≠ []) (hK : ∀ M ∈ c.Ms, M.K = 0)
    (ho : ∀ M ∈ c.Ms, M.order.Bijective) (hm : 0 < (c.sp 0).mass) (hin : inEq (c.sp 0) (c.st 0) = false)
    (ys : List ℝ) (hgrid : (c.sp 0).grid = 0 :: ys) (hinc : (c.sp 0).grid.Pairwise (· < ·))
    (hlen : (c.st 0).dist.length = (c.sp 0).grid.length)
    (hprod : ∀ i, i ≠ 0 → EmptyProduct (c.sp i) (c.st i)) :
    let m := (c.sp 0).mass
    let width := (c.Ms.map (·.K1)).sum * m ^ 5 / (12288 * Real.pi ^ 3 * dofFactor c.majorana (c.sp 0).dof)
    let rate := fun y => width * (m / energyOf m (y / p.a)) * c.mult / p.H / (if p.log then 1 else p.x)
    integrate4 c p sched = .ok (.two
      (List.zipWith (fun y f => -(rate y * f)) (gridCut4 (c.sp 0).grid c.ub).1 (c.st 0).dist
        ++ (gridCut4 (c.sp 0).grid c.ub).2)
      ((gridCut4 (c.sp 0).grid c.ub).1.map (fun y => -rate y) ++ (gridCut4 (c.sp 0).grid c.ub).2)) := by
  intro m width rate
  set pts := (gridCut4 (c.sp 0).grid c.ub).1 with hpts
  have hne : (c.sp 0).grid ≠ [] := by rw [hgrid]; simp
  obtain ⟨k, hk0, hk, -⟩ := C47_four (c.sp 0).grid hne hinc c.ub
  have hfd : FermiDecay (physicalReaction c p.a) := by
    refine ⟨hside0, hside, hm, fun i hi => (hprod i hi).massless, ?_, ?_⟩
    · have := readable_toC (c.sp 0) (c.st 0) { p with aT := p.a } ha ys hgrid hinc hlen
      intro q hq
      obtain ⟨f, hf⟩ := this q hq
      refine ⟨f, ?_⟩
      rw [← hf]
      have e : toC (c.sp 0) (c.st 0) { p with aT := p.a } = (physicalReaction c p.a 0).specie := by
        simp only [toC, physicalReaction]
        rw [mul_div_cancel_right₀ _ ha.ne']
      rw [e]
    · intro i hi q hq
      obtain ⟨-, hq1, ⟨g, hq2⟩, hq3, hq4, hq5⟩ := hprod i hi
      refine occAt_empty (physicalReaction c p.a i).specie (g := g.map (· / p.a)) hq1 ?_ ?_ ?_ hq5 hq
      · change (c.sp i).grid.map (· / p.a) = _
        rw [hq2]; simp
      · change ((c.sp i).grid.map (· / p.a)).Pairwise (· < ·)
        rw [List.pairwise_map]
        exact hq3.imp fun h => div_lt_div_of_pos_right h ha
      · change (c.st i).dist.length = ((c.sp i).grid.map (· / p.a)).length
        rw [hq4, List.length_map]
  have hnn : ∀ q ∈ pts.map (· / p.a), 0 ≤ q := by
    intro q hq
    obtain ⟨y, hy, rfl⟩ := List.mem_map.1 hq
    have hy' : y ∈ (c.sp 0).grid := by rw [hpts, hk] at hy; exact List.mem_of_mem_take hy
    have : 0 ≤ y := by
      rw [hgrid] at hy' hinc
      rcases List.mem_cons.1 hy' with rfl | h
      · exact le_rfl
      · exact (List.rel_of_pairwise_cons hinc h).le
    positivity
  have hs1 : ∀ i, i ≠ 0 → (physicalReaction c p.a i).side = 1 := hside
  have hF := empty_factors (physicalReaction c p.a) (hs1 1 (by decide)) (hs1 2 (by decide)) (hs1 3 (by decide))
  have hsch' : ValidSchedule (pts.map (· / p.a)).length sched := by rwa [List.length_map]
  have hA := fermi_loop hfd hMs hK ho (kind := 1) (F := 0) (fun f0 => (hF f0).1) _ hnn (c.max1 / p.a) (c.min2 / p.a)
    (c.max2 / p.a) (c.max3 / p.a) sched hsch'
  have hB := fermi_loop hfd hMs hK ho (kind := 2) (F := -1) (fun f0 => (hF f0).2) _ hnn (c.max1 / p.a) (c.min2 / p.a)
    (c.max2 / p.a) (c.max3 / p.a) sched hsch'
  have hf : pts.mapM (particleDistribution (c.sp 0) p (c.st 0)) = .ok ((c.st 0).dist.take pts.length) := by
    rw [hpts, hk]
    refine mapM_getElem _ _ _ ?_ fun i hi hi' => ?_
    · simp only [List.length_take, hlen]; omega
    · have hi2 : i < (c.sp 0).grid.length := by
        rw [List.length_take] at hi; omega
      rw [List.getElem_take, List.getElem_take]
      unfold particleDistribution
      rw [if_neg (by rw [hin]; simp), C09_exact_on_grid _ _ _ _ _ hinc hlen i hi2]
  rw [← zero_div p.a, ← hmin] at hA hB
  rw [C88_physical c p sched hGF ha haT hK hn hkind hfast hA hB hf]
  have hz : ∀ k : ℝ, (gridCut4 (c.sp 0).grid c.ub).2.map (k * ·) = (gridCut4 (c.sp 0).grid c.ub).2 := fun k =>
    (cutZeros_map _ _ k).symm
  simp only [List.map_append, hz, List.map_map, Function.comp_def]
  have hm0 : (physicalReaction c p.a 0).specie.m = m := rfl
  have hr : ∀ y : ℝ, c.mult / (64 * Real.pi ^ 3 * p.H * (if c.majorana then (c.sp 0).dof else (c.sp 0).dof / 2))
      / (if p.log then 1 else p.x) * (-1 * ((c.Ms.map (·.K1)).sum * (m ^ 5 / 192 * (m / energyOf m (y / p.a)))))
      = -rate y := by
    intro y
    simp only [rate, width, dofFactor]
    generalize (if c.majorana then (c.sp 0).dof else (c.sp 0).dof / 2) = g
    generalize (if p.log then 1 else p.x) = x
    rw [div_mul_eq_mul_div, ← neg_div]
    congr 1
    have e64 : (12288 : ℝ)⁻¹ = 64⁻¹ * 192⁻¹ := by norm_num
    simp only [div_eq_mul_inv, mul_inv, e64]
    ring
  congr 2
  · congr 1
    refine zip_rate _ _ rate _ (fun y => by simp [hmin]) (fun y => ?_) pts (c.st 0).dist
    rw [hm0]; exact hr y
  · congr 1
    refine List.map_congr_left fun y _ => ?_
    rw [hm0]; exact hr y

section Example
/-- A neutrino of mass 2 and three massless ones, the first partly occupied, the others empty. -/
private def exSp : Fin 4 → Species := fun i =>
  { name := "X", mass := if i = 0 then 2 else 0, dof := 2, fermion := true, thermalDyn := false, Q := 0,
    grid := [0, 1], fastDecay := false, lifetime := 0 }
private noncomputable def exSt : Fin 4 → PState ℕ := fun i =>
  { T := 1, aT := 1, Tdec := 0, dist := if i = 0 then [1/2, 1/4] else [0, 0], coll := [], integrals := [],
    tDec := 0, decayed := false, density := 0, histDist := [], histColl := [], histT := [], histDensity := [] }
private noncomputable def exP : Params :=
  { log := true, m := 1, T := 1, a := 1, aIni := 1, x := 1, y := none, aT := 3, t := 1, H := 1, rho := none,
    S := none, Neff := 3, dy := 1, dx := 1, h := 1 }
private noncomputable def exInt : Int4 ℕ :=
  { sp := exSp, st := exSt, side := ![-1, 1, 1, 1], Ms := [⟨![0, 1, 2, 3], 384 * Real.pi ^ 3, 7, 0⟩],
    GF := 1/3, majorana := true, mult := 1, kind := .full, neglect := false, min1 := 0, max1 := 1, min2 := 0,
    max2 := 1, max3 := 1, ub := 1, creationFast := false, br := none, num := 0, total := fun _ => 0 }

/-- Width `384 π³ · 2⁵ / (12288 π³ · 2) = 1/2`. -/
example : integrate4 exInt exP [[1], [0]]
    = .ok (.two [-(1/4), -(1 / (4 * √5))] [-(1/2), -(1 / √5)]) := by
  have hcut : gridCut4 [(0 : ℝ), 1] 1 = ([0, 1], []) := by
    norm_num [gridCut4, searchsortedLeft, pySliceTo, pySliceFrom, pyZeros]
  have hb : Function.Bijective (![0, 1, 2, 3] : Fin 4 → Fin 4) := by
    rw [Fintype.bijective_iff_injective_and_card]; exact ⟨by decide, rfl⟩
  have h := C89_rate exInt exP [[1], [0]] (by
      change ValidSchedule (gridCut4 [(0 : ℝ), 1] 1).1.length _
      rw [hcut]; change [1, 0].Perm [0, 1]; decide) rfl (by decide +revert) rfl rfl rfl (by norm_num [exInt]) one_pos
    (by norm_num [exP]) rfl (by simp [exInt]) (by simp [exInt]) (by simpa [exInt] using hb) (by norm_num [exInt, exSp])
    (by simp [exInt, exSp, inEq]) [1] rfl (by change [(0 : ℝ), 1].Pairwise (· < ·); simp) (by simp [exInt, exSt, exSp])
    (fun i hi => ⟨by simp [exInt, exSp, hi], by simp [exInt, exSp, inEq], ⟨[1], rfl⟩,
      by change [(0 : ℝ), 1].Pairwise (· < ·); simp, by simp [exInt, exSt, exSp, hi], by simp [exInt, exSt, hi]⟩)
  rw [h]
  have e0 : energyOf 2 0 = 2 := by
    unfold energyOf; rw [show (0 : ℝ) ^ 2 + 2 ^ 2 = 2 ^ 2 by norm_num, Real.sqrt_sq (by norm_num)]
  have e1 : energyOf 2 1 = √5 := by unfold energyOf; norm_num
  have hpi := Real.pi_ne_zero
  have h5 : √(5 : ℝ) ≠ 0 := by positivity
  simp only [exInt, exSp, exSt, exP, dofFactor, if_true, hcut, List.zipWith_cons_cons, List.zipWith_nil_right,
    div_one, e0, e1, List.map_cons, List.map_nil, List.sum_cons, List.sum_nil, List.append_nil, add_zero, zero_div]
  congr 3
  · field_simp; norm_num
  · congr 1; field_simp; norm_num
  · field_simp; norm_num
  · congr 1; field_simp; norm_num
end Example

end PyBBN
