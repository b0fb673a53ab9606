import Verif.Lemmas.CrossAmp
/-!
# Amplitudes of the Standard Model declarations
-/
namespace PyBBN

section
variable {S : Type*} [DecidableEq S] {A : LibAttr S} {c : LibConst}

/-- Two declarations whose legs correspond to each other, a leg leading in exactly one of them: together they feed all
positions of an event equally. -/
theorem conj_amp (θ : Fin 4 → S) (i : Fin 4) (α β : Fin 4 → Fin 4 → Fin 4 → Fin 4 → ℝ) (p p' : Fin 4 → S) (a a' : Fin 4 → Bool)
    (Ms Ms' : List M4) (s : Equiv.Perm (Fin 4)) (hp : p' ∘ s = p)
    (hl : ∀ j, leads (leg4 p' a' (s j)) = !leads (leg4 p a j)) (he : ∀ γ, eventAmp α β Ms' (s * γ) = eventAmp α β Ms γ) :
    (∑ γ : Equiv.Perm (Fin 4), if leads (leg4 p a (γ i)) = true ∧ p ∘ γ = θ then eventAmp α β Ms γ else 0) +
    (∑ γ : Equiv.Perm (Fin 4), if leads (leg4 p' a' (γ i)) = true ∧ p' ∘ γ = θ then eventAmp α β Ms' γ else 0) =
    ∑ γ : Equiv.Perm (Fin 4), if p ∘ γ = θ then eventAmp α β Ms γ else 0 := by
  rw [← Equiv.sum_comp (Equiv.mulLeft s) fun γ => if leads (leg4 p' a' (γ i)) = true ∧ p' ∘ γ = θ then eventAmp α β Ms' γ else 0,
    ← Finset.sum_add_distrib]
  apply Finset.sum_congr rfl
  intro γ _
  have e1 : leads (leg4 p' a' ((Equiv.mulLeft s) γ i)) = !leads (leg4 p a (γ i)) := hl (γ i)
  have e2 : p' ∘ ((Equiv.mulLeft s) γ) = p ∘ γ := by
    rw [← hp]; rfl
  have e3 : eventAmp α β Ms' ((Equiv.mulLeft s) γ) = eventAmp α β Ms γ := he γ
  rw [e1, e2, e3]
  cases leads (leg4 p a (γ i)) <;> simp

/-- The permutations of the legs for conjugation. -/
def conjSide : Equiv.Perm (Fin 4) := Equiv.swap 0 2 * Equiv.swap 1 3
def conjAnti : Equiv.Perm (Fin 4) := Equiv.swap 0 1 * Equiv.swap 2 3

theorem conjSide_symm : conjSide.symm 0 = 2 ∧ conjSide.symm 1 = 3 ∧ conjSide.symm 2 = 0 ∧ conjSide.symm 3 = 1 := by decide
theorem conjAnti_symm : conjAnti.symm 0 = 1 ∧ conjAnti.symm 1 = 0 ∧ conjAnti.symm 2 = 3 ∧ conjAnti.symm 3 = 2 := by decide

theorem fin4_lits : fin4 0 = 0 ∧ fin4 1 = 1 ∧ fin4 2 = 2 ∧ fin4 3 = 3 := by decide

theorem normOrder_lits : normOrder ⟨0, 1, 2, 3⟩ = ⟨0, 1, 2, 3⟩ ∧ normOrder ⟨0, 3, 1, 2⟩ = ⟨0, 3, 1, 2⟩ ∧
    normOrder ⟨0, 2, 1, 3⟩ = ⟨0, 2, 1, 3⟩ ∧ normOrder ⟨2, 3, 0, 1⟩ = ⟨2, 3, 0, 1⟩ := by
  refine ⟨?_, ?_, ?_, ?_⟩ <;> simp [normOrder]

variable {α β : Fin 4 → Fin 4 → Fin 4 → Fin 4 → ℝ}

theorem scattering_conj (hsw : ∀ i j k l, α k l i j = α i j k l) (γ : Equiv.Perm (Fin 4)) (K : ℝ) :
    eventAmp α β [weakM c K 0 ⟨0, 1, 2, 3⟩] (conjSide * γ) = eventAmp α β [weakM c K 0 ⟨0, 1, 2, 3⟩] γ := by
  obtain ⟨f0, f1, f2, f3⟩ := fin4_lits
  obtain ⟨c0, c1, c2, c3⟩ := conjSide_symm
  have inv : ∀ u, (conjSide * γ).symm u = γ.symm (conjSide.symm u) := fun u => rfl
  unfold eventAmp weakM
  simp only [List.map_cons, List.map_nil, List.sum_cons, List.sum_nil, normOrder_lits.1, f0, f1, f2, f3, inv, c0, c1, c2, c3,
    zero_mul, ite_self, add_zero, hsw (γ.symm 0) (γ.symm 1) (γ.symm 2) (γ.symm 3)]

theorem charged_conj (hα : PairFn α) (hsw : ∀ i j k l, α k l i j = α i j k l) (γ : Equiv.Perm (Fin 4)) (K : ℝ) :
    eventAmp α β [weakM c K 0 ⟨0, 3, 1, 2⟩] (conjAnti * γ) = eventAmp α β [weakM c K 0 ⟨0, 3, 1, 2⟩] γ := by
  obtain ⟨f0, f1, f2, f3⟩ := fin4_lits
  obtain ⟨c0, c1, c2, c3⟩ := conjAnti_symm
  have inv : ∀ u, (conjAnti * γ).symm u = γ.symm (conjAnti.symm u) := fun u => rfl
  unfold eventAmp weakM
  simp only [List.map_cons, List.map_nil, List.sum_cons, List.sum_nil, normOrder_lits.2.1, f0, f1, f2, f3, inv, c0, c1, c2, c3,
    zero_mul, ite_self, add_zero, hsw (γ.symm 0) (γ.symm 3) (γ.symm 1) (γ.symm 2)]

theorem annihilation_conj (hα : PairFn α) (hβ : PairFn β) (hsw : ∀ i j k l, α k l i j = α i j k l) (γ : Equiv.Perm (Fin 4))
    (K K' K'' : ℝ) :
    eventAmp α β [weakM c K 0 ⟨0, 3, 1, 2⟩, weakM c K' 0 ⟨0, 2, 1, 3⟩, weakM c 0 K'' ⟨2, 3, 0, 1⟩] (conjAnti * γ) =
      eventAmp α β [weakM c K 0 ⟨0, 3, 1, 2⟩, weakM c K' 0 ⟨0, 2, 1, 3⟩, weakM c 0 K'' ⟨2, 3, 0, 1⟩] γ := by
  obtain ⟨f0, f1, f2, f3⟩ := fin4_lits
  obtain ⟨c0, c1, c2, c3⟩ := conjAnti_symm
  have inv : ∀ u, (conjAnti * γ).symm u = γ.symm (conjAnti.symm u) := fun u => rfl
  have hf : flips (weakM c 0 K'' ⟨2, 3, 0, 1⟩) (conjAnti * γ) = flips (weakM c 0 K'' ⟨2, 3, 0, 1⟩) γ := by
    unfold flips weakM
    simp only [normOrder_lits.2.2.2, f2, f3, inv, c2, c3, eq_comm (a := evSide (γ.symm 3))]
  unfold eventAmp
  simp only [List.map_cons, List.map_nil, List.sum_cons, List.sum_nil, hf]
  unfold weakM
  simp only [normOrder_lits.2.1, normOrder_lits.2.2.1, normOrder_lits.2.2.2, f0, f1, f2, f3, inv, c0, c1, c2, c3,
    zero_mul, ite_self, add_zero, hsw (γ.symm 0) (γ.symm 3) (γ.symm 1) (γ.symm 2),
    hsw (γ.symm 0) (γ.symm 2) (γ.symm 1) (γ.symm 3), zero_add]
  rw [hβ.first (γ.symm 2) (γ.symm 3), hβ.second (γ.symm 2) (γ.symm 3)]

/-- The contribution of the integrals of a declaration, zero if they cannot be generated. -/
noncomputable def ampOf (a b : List S × List S → Ord4 → ℝ) : Except Err (List (Integral4 S)) → ℝ
  | .ok l => totalAmp a b l
  | .error _ => 0

theorem totalAmp_mapM (G : Decl S → Except Err (List (Integral4 S))) (ds : List (Decl S)) (h : ∀ d ∈ ds, ∃ out, G d = .ok out) :
    ∃ out, ds.mapM G = .ok out ∧ ∀ a b, totalAmp a b out.flatten = (ds.map fun d => ampOf a b (G d)).sum := by
  induction ds with
  | nil => exact ⟨[], rfl, fun a b => rfl⟩
  | cons d ds ih =>
    obtain ⟨o, e⟩ := h d (List.mem_cons_self ..)
    obtain ⟨out, e', h'⟩ := ih fun x hx => h x (List.mem_cons_of_mem _ hx)
    refine ⟨o :: out, by rw [List.mapM_cons, e, e']; rfl, fun a b => ?_⟩
    rw [List.flatten_cons, totalAmp_append, h', List.map_cons, List.sum_cons, e]
    rfl

/-- The amplitudes of the declarations of the Standard Model are not negative in the events given by two functionals. -/
def WeakNonneg (c : LibConst) (α β : Fin 4 → Fin 4 → Fin 4 → Fin 4 → ℝ) : Prop := ∀ γ : Equiv.Perm (Fin 4),
  0 ≤ eventAmp α β [weakM c 1 0 ⟨0, 1, 2, 3⟩] γ ∧ 0 ≤ eventAmp α β [weakM c 4 0 ⟨0, 3, 1, 2⟩] γ ∧
  ∀ gL, 0 ≤ eventAmp α β [weakM c (4 * c.gR ^ 2) 0 ⟨0, 3, 1, 2⟩, weakM c (4 * gL ^ 2) 0 ⟨0, 2, 1, 3⟩,
    weakM c 0 (4 * gL * c.gR) ⟨2, 3, 0, 1⟩] γ

variable (hinj : Function.Injective A.name) (hmaj : ∀ s, A.majorana s = false)
include hinj hmaj

theorem scattering_amp (a b : S) : ∃ out, (neutrinoScattering c a b).integrals A = .ok out ∧
    ∀ {α β : Fin 4 → Fin 4 → Fin 4 → Fin 4 → ℝ}, PairFn α → PairFn β → (∀ i j k l, α k l i j = α i j k l) →
      ∀ θ, ∃ B, (∀ i, totalAmp (evAmp θ i α) (evAmp θ i β) out = B) ∧ (WeakNonneg c α β → 0 ≤ B) := by
  have hM : ∀ x ∈ [weakM c 1 0 ⟨0, 1, 2, 3⟩], x.K = 0 ∧ [x.order.a, x.order.b, x.order.c, x.order.d].Perm (List.range 4) := by
    intro x hx
    rw [List.mem_singleton.mp hx]
    exact weakM_ok _ _ _ (by rw [normOrder_lits.1]; decide)
  obtain ⟨-, -, out, -, g2, -⟩ := generated_ints A.toAttr [a, b] [a, b] [false, false] [false, false] rfl rfl
    [weakM c 1 0 ⟨0, 1, 2, 3⟩] hM
  refine ⟨out, g2, fun {α β} hα hβ hsw θ => ?_⟩
  refine ⟨(∑ γ : Equiv.Perm (Fin 4), if (![a, b, a, b] : Fin 4 → S) ∘ γ = θ then
    eventAmp α β [weakM c 1 0 ⟨0, 1, 2, 3⟩] γ else 0) / 2, fun i => ?_, fun hw =>
    div_nonneg (Finset.sum_nonneg fun γ _ => ite_nonneg (hw γ).1 le_rfl) (by norm_num)⟩
  have h1 := generated_amp A hinj hmaj θ i hα hβ hsw ![a, b, a, b] (fun _ => false) _ hM out g2
  have h2 := conj_amp θ i α β ![a, b, a, b] ![a, b, a, b] (fun _ => false) (fun _ => false) _ _ conjSide
    (by funext j; fin_cases j <;> rfl) (by intro j; fin_cases j <;> rfl) (fun γ => scattering_conj (c := c) hsw γ 1)
  rw [h1, ← h2]
  ring

theorem annihilation_amp (a l : S) (gL : ℝ) : ∃ out, (neutrinosToLeptons c a l gL).integrals A = .ok out ∧
    ∀ {α β : Fin 4 → Fin 4 → Fin 4 → Fin 4 → ℝ}, PairFn α → PairFn β → (∀ i j k l, α k l i j = α i j k l) →
      ∀ θ, ∃ B, (∀ i, totalAmp (evAmp θ i α) (evAmp θ i β) out = B) ∧ (WeakNonneg c α β → 0 ≤ B) := by
  set Ms := [weakM c (4 * c.gR ^ 2) 0 ⟨0, 3, 1, 2⟩, weakM c (4 * gL ^ 2) 0 ⟨0, 2, 1, 3⟩,
      weakM c 0 (4 * gL * c.gR) ⟨2, 3, 0, 1⟩] with hMs
  have hM : ∀ x ∈ Ms, x.K = 0 ∧ [x.order.a, x.order.b, x.order.c, x.order.d].Perm (List.range 4) := by
    intro x hx
    simp only [hMs, List.mem_cons, List.not_mem_nil, or_false] at hx
    rcases hx with rfl | rfl | rfl
    · exact weakM_ok _ _ _ (by rw [normOrder_lits.2.1]; decide)
    · exact weakM_ok _ _ _ (by rw [normOrder_lits.2.2.1]; decide)
    · exact weakM_ok _ _ _ (by rw [normOrder_lits.2.2.2]; decide)
  obtain ⟨-, -, out, -, g2, -⟩ := generated_ints A.toAttr [a, a] [l, l] [false, true] [false, true] rfl rfl Ms hM
  refine ⟨out, g2, fun {α β} hα hβ hsw θ => ?_⟩
  refine ⟨(∑ γ : Equiv.Perm (Fin 4), if (![a, a, l, l] : Fin 4 → S) ∘ γ = θ then eventAmp α β Ms γ else 0) / 2, fun i => ?_, fun hw =>
    div_nonneg (Finset.sum_nonneg fun γ _ => ite_nonneg ((hw γ).2.2 gL) le_rfl) (by norm_num)⟩
  have h1 := generated_amp A hinj hmaj θ i hα hβ hsw ![a, a, l, l] ![false, true, false, true] _ hM out g2
  have h2 := conj_amp θ i α β ![a, a, l, l] ![a, a, l, l] ![false, true, false, true] ![false, true, false, true] Ms Ms conjAnti
    (by funext j; fin_cases j <;> rfl) (by intro j; fin_cases j <;> rfl)
    (fun γ => annihilation_conj (c := c) hα hβ hsw γ _ _ _)
  rw [h1, ← h2]
  ring

theorem charged_amp (a a' l l' : S) : ∃ out, (leptonsCC c a a' l l').integrals A = .ok out ∧
    ∀ {α β : Fin 4 → Fin 4 → Fin 4 → Fin 4 → ℝ}, PairFn α → PairFn β → (∀ i j k l, α k l i j = α i j k l) →
      ∀ θ, ∃ B, (∀ i, ampOf (evAmp θ i α) (evAmp θ i β) ((leptonsCC c a a' l l').integrals A) +
        ampOf (evAmp θ i α) (evAmp θ i β) ((leptonsCC c a' a l' l).integrals A) = B) ∧ (WeakNonneg c α β → 0 ≤ B) := by
  have hM : ∀ x ∈ [weakM c 4 0 ⟨0, 3, 1, 2⟩], x.K = 0 ∧ [x.order.a, x.order.b, x.order.c, x.order.d].Perm (List.range 4) := by
    intro x hx
    rw [List.mem_singleton.mp hx]
    exact weakM_ok _ _ _ (by rw [normOrder_lits.2.1]; decide)
  obtain ⟨-, -, out, -, g2, -⟩ := generated_ints A.toAttr [l, l'] [a, a'] [false, true] [false, true] rfl rfl
    [weakM c 4 0 ⟨0, 3, 1, 2⟩] hM
  obtain ⟨-, -, out', -, g2', -⟩ := generated_ints A.toAttr [l', l] [a', a] [false, true] [false, true] rfl rfl
    [weakM c 4 0 ⟨0, 3, 1, 2⟩] hM
  refine ⟨out, g2, fun {α β} hα hβ hsw θ => ?_⟩
  have e1 : (leptonsCC c a a' l l').integrals A = .ok out := g2
  have e2 : (leptonsCC c a' a l' l).integrals A = .ok out' := g2'
  rw [e1, e2]
  refine ⟨∑ γ : Equiv.Perm (Fin 4), if (![l, l', a, a'] : Fin 4 → S) ∘ γ = θ then
    eventAmp α β [weakM c 4 0 ⟨0, 3, 1, 2⟩] γ else 0, fun i => ?_, fun hw =>
    Finset.sum_nonneg fun γ _ => ite_nonneg (hw γ).2.1 le_rfl⟩
  have h1 := generated_amp A hinj hmaj θ i hα hβ hsw ![l, l', a, a'] ![false, true, false, true] _ hM out g2
  have h1' := generated_amp A hinj hmaj θ i hα hβ hsw ![l', l, a', a] ![false, true, false, true] _ hM out' g2'
  have h2 := conj_amp θ i α β ![l, l', a, a'] ![l', l, a', a] ![false, true, false, true] ![false, true, false, true] _ _ conjAnti
    (by funext j; fin_cases j <;> rfl) (by intro j; fin_cases j <;> rfl)
    (fun γ => charged_conj (c := c) hα hsw γ 4)
  change totalAmp _ _ out + totalAmp _ _ out' = _
  rw [h1, h1', ← h2]

/-- All the integrals of the Standard Model feed the four positions of an event equally. -/
theorem library_amp (leptons neutrinos : List S) : ∃ o1 o2, (neutrinoInteractions A c leptons neutrinos).mapM
      (Decl.integrals A) = .ok o1 ∧ (leptonInteractions A c leptons neutrinos).mapM (Decl.integrals A) = .ok o2 ∧
    ∀ {α β : Fin 4 → Fin 4 → Fin 4 → Fin 4 → ℝ}, PairFn α → PairFn β → (∀ i j k l, α k l i j = α i j k l) → ∀ θ,
      (∃ B, (∀ i, totalAmp (evAmp θ i α) (evAmp θ i β) o1.flatten = B) ∧ (WeakNonneg c α β → 0 ≤ B)) ∧
      (∃ B, (∀ i, totalAmp (evAmp θ i α) (evAmp θ i β) o2.flatten = B) ∧ (WeakNonneg c α β → 0 ≤ B)) := by
  classical
  have each : ∀ d ∈ neutrinoInteractions A c leptons neutrinos, ∃ out, d.integrals A = .ok out ∧
      ∀ {α β : Fin 4 → Fin 4 → Fin 4 → Fin 4 → ℝ}, PairFn α → PairFn β → (∀ i j k l, α k l i j = α i j k l) →
      ∀ θ, ∃ B, (∀ i, totalAmp (evAmp θ i α) (evAmp θ i β) out = B) ∧ (WeakNonneg c α β → 0 ≤ B) := by
    intro d hd
    unfold neutrinoInteractions at hd
    rcases List.mem_append.mp hd with hd | hd
    · obtain ⟨x, hx, rfl⟩ := List.mem_map.mp hd
      exact scattering_amp hinj hmaj _ _
    · obtain ⟨l, hll, hd⟩ := List.mem_flatMap.mp hd
      obtain ⟨a, haa, rfl⟩ := List.mem_map.mp hd
      exact annihilation_amp hinj hmaj _ _ _
  have mem : ∀ d ∈ leptonInteractions A c leptons neutrinos, ∃ a a' l l', d = leptonsCC c a a' l l' := by
    intro d hd
    unfold leptonInteractions at hd
    obtain ⟨l, hl, hd⟩ := List.mem_flatMap.mp hd
    obtain ⟨a, ha, hd⟩ := List.mem_flatMap.mp hd
    split_ifs at hd
    · obtain ⟨l', hl', hd⟩ := List.mem_flatMap.mp hd
      obtain ⟨a', ha', hd⟩ := List.mem_flatMap.mp hd
      split_ifs at hd
      · exact ⟨_, _, _, _, List.mem_singleton.mp hd⟩
      · simp at hd
    · simp at hd
  obtain ⟨o1, e1, h1⟩ := totalAmp_mapM (Decl.integrals A) (neutrinoInteractions A c leptons neutrinos)
    fun d hd => by obtain ⟨o, h, -⟩ := each d hd; exact ⟨o, h⟩
  obtain ⟨o2, e2, h2⟩ := totalAmp_mapM (Decl.integrals A) (leptonInteractions A c leptons neutrinos)
    fun d hd => by
      obtain ⟨a, a', l, l', rfl⟩ := mem d hd
      obtain ⟨o, h, -⟩ := charged_amp (c := c) hinj hmaj a a' l l'
      exact ⟨o, h⟩
  refine ⟨o1, o2, e1, e2, fun {α β} hα hβ hsw θ => ⟨?_, ?_⟩⟩
  · have : ∀ ds : List (Decl S), (∀ d ∈ ds, d ∈ neutrinoInteractions A c leptons neutrinos) →
        ∃ B, (∀ i, (ds.map fun d => ampOf (evAmp θ i α) (evAmp θ i β) (d.integrals A)).sum = B) ∧ (WeakNonneg c α β → 0 ≤ B) := by
      intro ds hds
      induction ds with
      | nil => exact ⟨0, fun i => rfl, fun _ => le_rfl⟩
      | cons d ds ih =>
        obtain ⟨B, hB, hn⟩ := ih fun x hx => hds x (List.mem_cons_of_mem _ hx)
        obtain ⟨o, e, h⟩ := each d (hds d (List.mem_cons_self ..))
        obtain ⟨B', hB', hn'⟩ := h hα hβ hsw θ
        refine ⟨B' + B, fun i => ?_, fun hw => add_nonneg (hn' hw) (hn hw)⟩
        rw [List.map_cons, List.sum_cons, hB, e]
        change totalAmp _ _ o + B = _
        rw [hB']
    obtain ⟨B, hB, hn⟩ := this _ fun d hd => hd
    exact ⟨B, fun i => (h1 _ _).trans (hB i), hn⟩
  · have half : ∀ F : Decl S → ℝ,
        ((leptons.product neutrinos).map fun x => ((leptons.product neutrinos).map fun y =>
          if CCPair A leptons neutrinos x y then F (leptonsCC c x.2 y.2 x.1 y.1) else 0).sum).sum * 2 =
        ((leptons.product neutrinos).map fun x => ((leptons.product neutrinos).map fun y =>
          if CCPair A leptons neutrinos x y then
            F (leptonsCC c x.2 y.2 x.1 y.1) + F (leptonsCC c y.2 x.2 y.1 x.1) else 0).sum).sum := by
      intro F
      rw [mul_two]
      nth_rw 2 [sum_pairs_exchange]
      rw [← List.sum_map_add]
      refine congrArg List.sum (List.map_congr_left fun x _ => ?_)
      rw [← List.sum_map_add]
      refine congrArg List.sum (List.map_congr_left fun y _ => ?_)
      have hsym : CCPair A leptons neutrinos x y ↔ CCPair A leptons neutrinos y x :=
        ⟨fun ⟨a, b, c, d, e⟩ => ⟨a, b.symm, c.symm, e, d⟩, fun ⟨a, b, c, d, e⟩ => ⟨a, b.symm, c.symm, e, d⟩⟩
      by_cases hp : CCPair A leptons neutrinos x y
      · rw [if_pos hp, if_pos (hsym.mp hp), if_pos hp]
      · rw [if_neg hp, if_neg fun h => hp (hsym.mpr h), if_neg hp, add_zero]
    have pair : ∀ x y : S × S, ∃ B, (∀ i, ampOf (evAmp θ i α) (evAmp θ i β) ((leptonsCC c x.2 y.2 x.1 y.1).integrals A) +
        ampOf (evAmp θ i α) (evAmp θ i β) ((leptonsCC c y.2 x.2 y.1 x.1).integrals A) = B) ∧ (WeakNonneg c α β → 0 ≤ B) := by
      intro x y
      obtain ⟨o, -, h⟩ := charged_amp (c := c) hinj hmaj x.2 y.2 x.1 y.1
      exact h hα hβ hsw θ
    choose B hB hn using pair
    refine ⟨((leptons.product neutrinos).map fun x => ((leptons.product neutrinos).map fun y =>
          if CCPair A leptons neutrinos x y then B x y else 0).sum).sum / 2, fun i => ?_, fun hw =>
      div_nonneg (List.sum_nonneg fun v hv => ?_) (by norm_num)⟩
    swap
    · obtain ⟨x, -, rfl⟩ := List.mem_map.mp hv
      refine List.sum_nonneg fun v hv => ?_
      obtain ⟨y, -, rfl⟩ := List.mem_map.mp hv
      exact ite_nonneg (hn x y hw) le_rfl
    rw [h2, lepton_sum, eq_div_iff (two_ne_zero), half fun d => ampOf (evAmp θ i α) (evAmp θ i β) (d.integrals A)]
    refine congrArg List.sum (List.map_congr_left fun x _ => ?_)
    refine congrArg List.sum (List.map_congr_left fun y _ => ?_)
    rw [hB]

end

end PyBBN
