import Verif.Props.MovingWidth
import Verif.Lemmas.OneMass
import Verif.Props.Widths
/-!
# C114: one product with mass, and the muon of the library
-/
namespace PyBBN
open MeasureTheory Set

theorem dalitz_const (M a b c k : ℝ) (w : ℝ → ℝ) : dalitz M a b c (fun E => k * w E) = k * dalitz M a b c w := by
  unfold dalitz
  rw [← intervalIntegral.integral_const_mul]
  congr 1
  funext E
  ring

theorem massFactor_zero : massFactor 0 = 1 := by simp [massFactor]

/-- Any one product with mass. -/
theorem dalitz_single {M : ℝ} (hM : 0 < M) (a b c μ : ℝ) (h0 : 0 ≤ μ) (h : μ ≤ M)
    (hs : (a = μ ∧ b = 0 ∧ c = 0) ∨ (a = 0 ∧ b = μ ∧ c = 0) ∨ (a = 0 ∧ b = 0 ∧ c = μ)) :
    dalitz M a b c (fun E => M * E * ((M ^ 2 + a ^ 2 - 2 * M * E - b ^ 2 - c ^ 2) / 2)) = M ^ 6 / 192 * massFactor (μ / M) := by
  rcases h0.eq_or_lt with rfl | hμ
  · have : a = 0 ∧ b = 0 ∧ c = 0 := by tauto
    obtain ⟨rfl, rfl, rfl⟩ := this
    rw [dalitz_massless hM, zero_div, massFactor_zero, mul_one]
  · rcases hs with ⟨rfl, rfl, rfl⟩ | ⟨rfl, rfl, rfl⟩ | ⟨rfl, rfl, rfl⟩
    · exact dalitz_partner_mass hM hμ h
    · exact dalitz_other_mass hM hμ h
    · rw [dalitz_comm, ← dalitz_other_mass hM hμ h]
      congr 1
      funext E
      ring

theorem last_two (j l n x y : Fin 4) (hj : j ≠ 0) (hl : l ≠ 0) (hn : n ≠ 0) (h1 : l ≠ j) (h2 : n ≠ j) (h3 : l ≠ n)
    (hx : x ≠ 0) (hy : y ≠ 0) (h4 : x ≠ j) (h5 : y ≠ j) (h6 : x ≠ y) : (x = l ∧ y = n) ∨ (x = n ∧ y = l) := by
  revert j l n x y
  set_option maxRecDepth 100000 in decide

theorem fourth (j l n k : Fin 4) (hj : j ≠ 0) (hl : l ≠ 0) (hn : n ≠ 0) (h1 : l ≠ j) (h2 : n ≠ j) (h3 : l ≠ n)
    (hk : k ≠ 0) (h4 : ¬ j = k) (h5 : ¬ l = k) : n = k := by
  revert j l n k
  decide

theorem restAmplitude_of (m : Fin 4 → ℝ) (M : CM) (hb : M.order.Bijective) (hK2 : M.K2 = 0) (j l n : Fin 4)
    (hp : partner M.order = j) (hj : j ≠ 0) (hl : l ≠ 0) (hn : n ≠ 0) (h1 : l ≠ j) (h2 : n ≠ j) (h3 : l ≠ n) :
    restAmplitude m M = fun E => M.K1 * (m 0 * E * ((m 0 ^ 2 + m j ^ 2 - 2 * m 0 * E - m l ^ 2 - m n ^ 2) / 2)) := by
  obtain ⟨σ, hσ⟩ : ∃ σ : Equiv.Perm (Fin 4), M.order = σ := ⟨Equiv.ofBijective M.order hb, rfl⟩
  funext E
  unfold restAmplitude
  rw [hp, hK2]
  rw [hσ] at hp ⊢
  dsimp only
  have hne : ∀ i j : Fin 4, i ≠ j → σ i ≠ σ j := fun i j h h' => h (σ.injective h')
  have h01 := hne 0 1 (by decide); have h02 := hne 0 2 (by decide); have h03 := hne 0 3 (by decide)
  have h12 := hne 1 2 (by decide); have h13 := hne 1 3 (by decide); have h23 := hne 2 3 (by decide)
  have d0 : ∀ b : Fin 4, restDot m j E 0 b = m 0 * E := fun b => by unfold restDot; rw [if_pos (Or.inl rfl)]
  have d1 : ∀ b : Fin 4, restDot m j E b 0 = m 0 * E := fun b => by unfold restDot; rw [if_pos (Or.inr rfl)]
  have d2 : ∀ x y : Fin 4, x ≠ 0 → y ≠ 0 → x ≠ j → y ≠ j → x ≠ y →
      restDot m j E x y = (m 0 ^ 2 + m j ^ 2 - 2 * m 0 * E - m l ^ 2 - m n ^ 2) / 2 := by
    intro x y hx hy h4 h5 h6
    unfold restDot
    rw [if_neg (by tauto)]
    rcases last_two j l n x y hj hl hn h1 h2 h3 hx hy h4 h5 h6 with ⟨rfl, rfl⟩ | ⟨rfl, rfl⟩ <;> ring
  rcases order_cases σ with ⟨z, n1, n2, n3⟩ | ⟨z, n1, n2, n3⟩ | ⟨z, n1, n2, n3⟩ | ⟨z, n1, n2, n3⟩
  · have hpart : partner σ = σ 1 := by unfold partner; rw [if_pos z]
    rw [z, d0, d2 _ _ n2 n3 (by rw [← hp, hpart]; exact h12.symm) (by rw [← hp, hpart]; exact h13.symm) h23]
    ring
  · have hpart : partner σ = σ 0 := by unfold partner; rw [if_neg n1, if_pos z]
    rw [z, d1, d2 _ _ n2 n3 (by rw [← hp, hpart]; exact h02.symm) (by rw [← hp, hpart]; exact h03.symm) h23]
    ring
  · have hpart : partner σ = σ 3 := by unfold partner; rw [if_neg n1, if_neg n2, if_pos z]
    rw [z, d0, d2 _ _ n1 n2 (by rw [← hp, hpart]; exact h03) (by rw [← hp, hpart]; exact h13) h01]
    ring
  · have hpart : partner σ = σ 2 := by unfold partner; rw [if_neg n1, if_neg n2, if_neg n3]
    rw [z, d1, d2 _ _ n1 n2 (by rw [← hp, hpart]; exact h02) (by rw [← hp, hpart]; exact h12) h01]
    ring

/-- **C114 (one product with mass).** Width of an element with `K2 = 0` when at most the product `k` has mass. -/
theorem C114_one_mass (m : Fin 4 → ℝ) (M : CM) (hb : M.order.Bijective) (hK2 : M.K2 = 0) (k : Fin 4) (hk : k ≠ 0)
    (hm : 0 < m 0) (h0 : 0 ≤ m k) (h : m k ≤ m 0) (hz : ∀ i, i ≠ 0 → i ≠ k → m i = 0) :
    restWidth m M = M.K1 * m 0 ^ 5 / (12288 * Real.pi ^ 3) * massFactor (m k / m 0) := by
  have hpi := Real.pi_ne_zero
  have hm' := hm.ne'
  have fin : ∀ X, X = M.K1 * (m 0 ^ 6 / 192 * massFactor (m k / m 0)) → X / (64 * Real.pi ^ 3 * m 0) =
      M.K1 * m 0 ^ 5 / (12288 * Real.pi ^ 3) * massFactor (m k / m 0) := by
    intro X hX
    rw [hX]
    field_simp
    ring
  have hne : partner M.order ≠ 0 := by
    exact partner_ne _ hb
  have pos : ∀ j l n : Fin 4, j ≠ 0 → l ≠ 0 → n ≠ 0 → l ≠ j → n ≠ j → l ≠ n →
      (m j = m k ∧ m l = 0 ∧ m n = 0) ∨ (m j = 0 ∧ m l = m k ∧ m n = 0) ∨ (m j = 0 ∧ m l = 0 ∧ m n = m k) := by
    intro j l n hj hl hn h1 h2 h3
    by_cases kj : j = k
    · subst kj; exact Or.inl ⟨rfl, hz _ hl h1, hz _ hn h2⟩
    · by_cases kl : l = k
      · subst kl; exact Or.inr (Or.inl ⟨hz _ hj kj, rfl, hz _ hn h3.symm⟩)
      · have kn : n = k := by
          exact fourth j l n k hj hl hn h1 h2 h3 hk kj kl
        subst kn; exact Or.inr (Or.inr ⟨hz _ hj kj, hz _ hl kl, rfl⟩)
  have all : ∀ j l n : Fin 4, partner M.order = j → j ≠ 0 → l ≠ 0 → n ≠ 0 → l ≠ j → n ≠ j → l ≠ n →
      dalitz (m 0) (m j) (m l) (m n) (restAmplitude m M) = M.K1 * (m 0 ^ 6 / 192 * massFactor (m k / m 0)) := by
    intro j l n hp hj hl hn h1 h2 h3
    rw [restAmplitude_of m M hb hK2 j l n hp hj hl hn h1 h2 h3, dalitz_const,
      dalitz_single hm _ _ _ _ h0 h (pos j l n hj hl hn h1 h2 h3)]
  unfold restWidth
  by_cases j1 : partner M.order = 1
  · rw [if_pos j1]
    exact fin _ (all 1 2 3 j1 (by decide) (by decide) (by decide) (by decide) (by decide) (by decide))
  · rw [if_neg j1]
    by_cases j2 : partner M.order = 2
    · rw [if_pos j2]
      exact fin _ (all 2 1 3 j2 (by decide) (by decide) (by decide) (by decide) (by decide) (by decide))
    · rw [if_neg j2]
      have j3 : partner M.order = 3 := by omega
      exact fin _ (all 3 1 2 j3 (by decide) (by decide) (by decide) (by decide) (by decide) (by decide))

section Program
variable {ι : Type*}

/-- **C114 (one product with mass).** `integrate` of a decay with elements of type `K1` into three empty states, of which only
`k` may have mass: the rate at every momentum is that of massless products times `1 - 8x² + 8x⁶ - x⁸ - 24x⁴ ln x`. -/
theorem C114_one_mass_rate (c : Int4 ι) (p : Params) (sched : List (List ℕ))
    (hsch : ValidSchedule (gridCut4 (c.sp 0).grid c.ub).1.length sched)
    (hside0 : c.side 0 = -1) (hside : ∀ i, i ≠ 0 → c.side i = 1) (hkind : c.kind = .full)
    (hfast : (c.sp 0).fastDecay = false) (hn : c.neglect = false) (hGF : c.GF ≠ 0) (ha : 0 < p.a)
    (haT : 0 < p.aT) (hmin : c.min1 = 0) (hMs : c.Ms ≠ []) (hK : ∀ M ∈ c.Ms, M.K = 0)
    (ho : ∀ M ∈ c.Ms, M.order.Bijective) (hm : 0 < (c.sp 0).mass) (hin : inEq (c.sp 0) (c.st 0) = false)
    (ys : List ℝ) (hgrid : (c.sp 0).grid = 0 :: ys) (hinc : (c.sp 0).grid.Pairwise (· < ·))
    (hlen : (c.st 0).dist.length = (c.sp 0).grid.length)
    (hprod : ∀ i, i ≠ 0 → EmptyMassive (c.sp i) (c.st i))
    (hK2 : ∀ M ∈ c.Ms, M.K2 = 0) (k : Fin 4) (hk : k ≠ 0) (hopen : (c.sp k).mass ≤ (c.sp 0).mass)
    (hz : ∀ i, i ≠ 0 → i ≠ k → (c.sp i).mass = 0) :
    let width := fermiWidth (c.Ms.map (·.K1)).sum (c.sp 0).mass (dofFactor c.majorana (c.sp 0).dof) *
      massFactor ((c.sp k).mass / (c.sp 0).mass)
    let rate := fun y => width * ((c.sp 0).mass / energyOf (c.sp 0).mass (y / p.a)) * c.mult / p.H / (if p.log then 1 else p.x)
    integrate4 c p sched = .ok (.two
      (List.zipWith (fun y f => -(rate y * f)) (gridCut4 (c.sp 0).grid c.ub).1 (c.st 0).dist
        ++ (gridCut4 (c.sp 0).grid c.ub).2)
      ((gridCut4 (c.sp 0).grid c.ub).1.map (fun y => -rate y) ++ (gridCut4 (c.sp 0).grid c.ub).2)) := by
  have hsum : (c.sp 1).mass + (c.sp 2).mass + (c.sp 3).mass ≤ (c.sp 0).mass := by
    refine le_trans (le_of_eq ?_) hopen
    rcases (show k = 1 ∨ k = 2 ∨ k = 3 by omega) with rfl | rfl | rfl
    · rw [hz 2 (by decide) (by decide), hz 3 (by decide) (by decide)]; ring
    · rw [hz 1 (by decide) (by decide), hz 3 (by decide) (by decide)]; ring
    · rw [hz 1 (by decide) (by decide), hz 2 (by decide) (by decide)]; ring
  have key := C114_moving c p sched hsch hside0 hside hkind hfast hn hGF ha haT hmin hMs hK ho hm hin ys hgrid hinc
    hlen hprod hsum
  have e : (c.Ms.map (restWidth fun i => (c.sp i).mass)).sum / dofFactor c.majorana (c.sp 0).dof =
      fermiWidth (c.Ms.map (·.K1)).sum (c.sp 0).mass (dofFactor c.majorana (c.sp 0).dof) *
        massFactor ((c.sp k).mass / (c.sp 0).mass) := by
    have e1 : c.Ms.map (restWidth fun i => (c.sp i).mass) = c.Ms.map fun M => M.K1 * ((c.sp 0).mass ^ 5 / (12288 * Real.pi ^ 3) *
        massFactor ((c.sp k).mass / (c.sp 0).mass)) :=
      List.map_congr_left fun M hM => by
        rw [C114_one_mass (fun i => (c.sp i).mass) M (ho M hM) (hK2 M hM) k hk hm (hprod k hk).mass hopen hz]
        ring
    rw [e1, List.sum_map_mul_right]
    unfold fermiWidth
    generalize dofFactor c.majorana (c.sp 0).dof = g
    simp only [div_eq_mul_inv, mul_inv]
    ring
  rw [e] at key
  exact key

end Program

/-! ## Elements without the mass term -/

section Lib
set_option linter.unusedSectionVars false
variable {S : Type*} [DecidableEq S]

theorem relabel_K2 (r : List (Item S)) (x y : M4) (h : relabel r x = .ok y) (hx : x.K2 = 0) : y.K2 = 0 := by
  unfold relabel at h
  cases h1 : posOf r x.order.a with
  | error e => simp [h1, bind, Except.bind] at h
  | ok a =>
    cases h2 : posOf r x.order.b with
    | error e => simp [h1, h2, bind, Except.bind] at h
    | ok b =>
      cases h3 : posOf r x.order.c with
      | error e => simp [h1, h2, h3, bind, Except.bind] at h
      | ok c =>
        cases h4 : posOf r x.order.d with
        | error e => simp [h1, h2, h3, h4, bind, Except.bind] at h
        | ok d =>
          simp only [h1, h2, h3, h4, bind, Except.bind] at h
          unfold M4.applyOrder at h
          split at h
          · obtain rfl := Except.ok.inj h
            simp [hx]
          · cases h

theorem absorb_K2 (os : List M4) (n : M4) (os' : List M4) (h : absorb os n = some os') (ho : ∀ x ∈ os, x.K2 = 0)
    (hn : n.K2 = 0) : ∀ x ∈ os', x.K2 = 0 := by
  induction os generalizing os' with
  | nil => simp [absorb] at h
  | cons o os ih =>
    have hh : (o.iadd n).K2 = 0 := by simp [M4.iadd, ho o (by simp), hn]
    unfold absorb at h
    split_ifs at h with h1 h2
    · obtain rfl := Option.some.inj h
      exact List.forall_mem_cons.mpr ⟨hh, fun x hx => ho x (by simp [hx])⟩
    · obtain rfl := Option.some.inj h
      exact List.forall_mem_cons.mpr ⟨hh, fun x hx => ho x (by simp [hx])⟩
    · obtain ⟨t, ht, rfl⟩ := Option.map_eq_some_iff.mp h
      exact List.forall_mem_cons.mpr ⟨ho o (by simp), ih t ht fun x hx => ho x (by simp [hx])⟩

theorem mergeMs_K2 (old new : List M4) (ho : ∀ x ∈ old, x.K2 = 0) (hn : ∀ x ∈ new, x.K2 = 0) :
    ∀ x ∈ mergeMs old new, x.K2 = 0 := by
  have gen : ∀ (new : List M4) (st : List M4 × List M4), (∀ x ∈ new, x.K2 = 0) → (∀ x ∈ st.1, x.K2 = 0) →
      (∀ x ∈ st.2, x.K2 = 0) → (∀ x ∈ (new.foldl mergeStep st).1, x.K2 = 0) ∧ ∀ x ∈ (new.foldl mergeStep st).2, x.K2 = 0 := by
    intro new
    induction new with
    | nil => intro st _ h1 h2; exact ⟨h1, h2⟩
    | cons n new ih =>
      intro st hn h1 h2
      rw [List.foldl_cons]
      refine ih _ (fun x hx => hn x (by simp [hx])) ?_ ?_
      · unfold mergeStep
        cases h : absorb st.1 n with
        | none => exact h1
        | some o => exact absorb_K2 _ _ _ h h1 (hn n (by simp))
      · unfold mergeStep
        cases h : absorb st.1 n with
        | none =>
          intro x hx
          rcases List.mem_append.mp hx with hx | hx
          · exact h2 x hx
          · rw [List.mem_singleton.mp hx]; exact hn n (by simp)
        | some o => exact h2
  have := gen new (old, []) hn ho (by simp)
  intro x hx
  rcases List.mem_append.mp hx with hx | hx
  · exact this.1 x hx
  · exact this.2 x hx

theorem dedup_K2 (l : List (Integral4 S)) (h : ∀ i ∈ l, ∀ x ∈ i.Ms, x.K2 = 0) : ∀ i ∈ dedup l, ∀ x ∈ i.Ms, x.K2 = 0 := by
  have one : ∀ (l : List (Integral4 S)) (n : Integral4 S), (∀ i ∈ l, ∀ x ∈ i.Ms, x.K2 = 0) → (∀ x ∈ n.Ms, x.K2 = 0) →
      ∀ i ∈ dedupAppend l n, ∀ x ∈ i.Ms, x.K2 = 0 := by
    intro l n hl hn
    induction l with
    | nil => exact List.forall_mem_cons.mpr ⟨hn, by simp⟩
    | cons o l ih =>
      unfold dedupAppend
      split_ifs
      · exact List.forall_mem_cons.mpr ⟨mergeMs_K2 _ _ (hl o (by simp)) hn, fun i hi => hl i (by simp [hi])⟩
      · exact List.forall_mem_cons.mpr ⟨hl o (by simp), ih fun i hi => hl i (by simp [hi])⟩
  have gen : ∀ (l acc : List (Integral4 S)), (∀ i ∈ l, ∀ x ∈ i.Ms, x.K2 = 0) → (∀ i ∈ acc, ∀ x ∈ i.Ms, x.K2 = 0) →
      ∀ i ∈ l.foldl dedupAppend acc, ∀ x ∈ i.Ms, x.K2 = 0 := by
    intro l
    induction l with
    | nil => intro acc _ ha; exact ha
    | cons n l ih =>
      intro acc hl ha
      rw [List.foldl_cons]
      exact ih _ (fun i hi => hl i (by simp [hi])) (one _ _ ha (hl n (by simp)))
  exact gen l [] h (by simp)

theorem forall2_K2 (r : List (Item S)) {l l' : List M4} (h : List.Forall₂ (fun x y => relabel r x = .ok y) l l')
    (hl : ∀ x ∈ l, x.K2 = 0) : ∀ x ∈ l', x.K2 = 0 := by
  induction h with
  | nil => simp
  | cons h _ ih =>
    exact List.forall_mem_cons.mpr ⟨relabel_K2 r _ _ h (hl _ (by simp)), ih fun x hx => hl x (by simp [hx])⟩

/-- Declarations whose elements have no mass term generate integrals without mass terms. -/
theorem generated_K2 (A : Attr S) (p0 p1 : List S) (a0 a1 : List Bool)
    (h0 : p0.length = a0.length) (h1 : p1.length = a1.length) (Ms : List M4)
    (hM : ∀ x ∈ Ms, x.K = 0 ∧ [x.order.a, x.order.b, x.order.c, x.order.d].Perm (List.range (p0.length + p1.length)))
    (hK2 : ∀ x ∈ Ms, x.K2 = 0) (out : List (Integral4 S)) (h : crossGenerating A p0 p1 a0 a1 Ms = .ok out) :
    ∀ i ∈ out, ∀ x ∈ i.Ms, x.K2 = 0 := by
  obtain ⟨rs, ints, out', -, e, -, f, rfl, -⟩ := generated_ints A p0 p1 a0 a1 h0 h1 Ms hM
  obtain rfl := Except.ok.inj (h.symm.trans e)
  apply dedup_K2
  clear e h
  induction f with
  | nil => simp
  | cons hh _ ih => exact List.forall_mem_cons.mpr ⟨forall2_K2 _ hh.2.2 hK2, ih⟩

/-- The same for a declaration of the library. -/
theorem declared_K2 (A : LibAttr S) (d : Decl S) (Ms : List M4) (hd : d.amp = .four Ms)
    (h0 : d.left.length = d.antiL.length) (h1 : d.right.length = d.antiR.length)
    (hM : ∀ x ∈ Ms, x.K = 0 ∧ [x.order.a, x.order.b, x.order.c, x.order.d].Perm (List.range (d.left.length + d.right.length)))
    (hK2 : ∀ x ∈ Ms, x.K2 = 0) (out : List (Integral4 S)) (h : d.integrals A = .ok out) :
    ∀ i ∈ out, ∀ x ∈ i.Ms, x.K2 = 0 := by
  unfold Decl.integrals at h
  rw [hd] at h
  exact generated_K2 A.toAttr _ _ _ _ h0 h1 Ms hM hK2 out h

/-- **C114 (muon).** `Γ(μ → e ν ν) = G_F² m_μ⁵/(192 π³) (1 - 8r + 8r³ - r⁴ - 12r² ln r)` with `r = m_e²/m_μ²`: the declared
charged-current reaction generates integrals without mass terms, and the widths that `C114_one_mass_rate` gives to those in
which the heavier lepton decays have this sum. -/
theorem C114_muon (A : LibAttr S) (c : LibConst) (hinj : Function.Injective A.name) (l l' n n' : S) (h1 : l' ≠ l) (h2 : n ≠ l)
    (h3 : n' ≠ l) (ho : A.mass l' + A.mass n + A.mass n' < A.mass l) :
    let r := A.mass l' ^ 2 / A.mass l ^ 2
    ∃ out, (leptonsCC c n n' l l').integrals A = .ok out ∧ (∀ i ∈ out, ∀ x ∈ i.Ms, x.K2 = 0) ∧
      ((out.filter fun i => @decide (IsDecayOf l i) (Classical.dec _)).map fun i =>
        fermiWidth (sumK1 i.Ms) (A.mass l) (dofFactor false 4) * massFactor (A.mass l' / A.mass l)).sum =
      c.GF ^ 2 * A.mass l ^ 5 / (192 * Real.pi ^ 3) * (1 - 8 * r + 8 * r ^ 3 - r ^ 4 - 12 * r ^ 2 * Real.log r) := by
  intro r
  obtain ⟨out, e, s⟩ := C101_muon A c hinj l l' n n' h1 h2 h3 ho
  refine ⟨out, e, ?_, ?_⟩
  · refine declared_K2 A _ [weakM c 4 0 ⟨0, 3, 1, 2⟩] rfl rfl rfl ?_ ?_ out e
    · intro x hx
      rw [List.mem_singleton.mp hx]
      exact ⟨rfl, show [0, 3, 1, 2].Perm (List.range 4) by decide⟩
    · intro x hx
      rw [List.mem_singleton.mp hx]
      simp [weakM]
  · have hlog : Real.log r = 2 * Real.log (A.mass l' / A.mass l) := by
      rw [show r = (A.mass l' / A.mass l) ^ 2 by rw [div_pow], Real.log_pow]; norm_num
    have hr : r = (A.mass l' / A.mass l) ^ 2 := by rw [div_pow]
    have mf : massFactor (A.mass l' / A.mass l) = 1 - 8 * r + 8 * r ^ 3 - r ^ 4 - 12 * r ^ 2 * Real.log r := by
      rw [hlog, hr]
      unfold massFactor
      ring
    rw [List.sum_map_mul_right, C101_widths_add, s, mf]

end Lib

section Example

private noncomputable def exSpW (m : Fin 4 → ℝ) : Fin 4 → Species := fun i =>
  { name := "X", mass := m i, dof := 4, fermion := true, thermalDyn := false, Q := 0,
    grid := [0, 1], fastDecay := false, lifetime := 0 }
private noncomputable def exStW : Fin 4 → PState ℕ := fun i =>
  { T := 1, aT := 1, Tdec := 0, dist := if i = 0 then [1/2, 1/4] else [0, 0], coll := [], integrals := [],
    tDec := 0, decayed := false, density := 0, histDist := [], histColl := [], histT := [], histDensity := [] }
private noncomputable def exIntW (m : Fin 4 → ℝ) (K2 : ℝ) : Int4 ℕ :=
  { sp := exSpW m, st := exStW, side := ![-1, 1, 1, 1], Ms := [⟨![0, 1, 2, 3], 3, K2, 0⟩, ⟨![2, 3, 0, 1], 5, 0, 0⟩],
    GF := 1/3, majorana := false, mult := 1, kind := .full, neglect := false, min1 := 0, max1 := 1, min2 := 0,
    max2 := 1, max3 := 1, ub := 1, creationFast := false, br := none, num := 0, total := fun _ => 0 }
private noncomputable def exPW : Params :=
  { log := true, m := 1, T := 1, a := 1, aIni := 1, x := 1, y := none, aT := 1, t := 1, H := 2, rho := none,
    S := none, Neff := 3, dy := 1, dx := 1, h := 1 }

private theorem exW_empty (m : Fin 4 → ℝ) (hm : ∀ i, 0 ≤ m i) (K2 : ℝ) :
    ∀ i, i ≠ 0 → EmptyMassive ((exIntW m K2).sp i) ((exIntW m K2).st i) := fun i hi =>
  ⟨hm i, by simp [exIntW, exSpW, inEq], ⟨[1], rfl⟩, by change [(0 : ℝ), 1].Pairwise (· < ·); simp,
    by simp [exIntW, exStW, exSpW, hi], by simp [exIntW, exStW, hi]⟩

private theorem exW_sched (m : Fin 4 → ℝ) (K2 : ℝ) :
    ValidSchedule (gridCut4 ((exIntW m K2).sp 0).grid (exIntW m K2).ub).1.length [[1], [0]] := by
  have hcut : gridCut4 [(0 : ℝ), 1] 1 = ([0, 1], []) := by
    norm_num [gridCut4, searchsortedLeft, pySliceTo, pySliceFrom, pyZeros]
  change ValidSchedule (gridCut4 [(0 : ℝ), 1] 1).1.length _
  rw [hcut]; change [1, 0].Perm [0, 1]; decide

private theorem exW_order (m : Fin 4 → ℝ) (K2 : ℝ) : ∀ M ∈ (exIntW m K2).Ms, M.order.Bijective := by
  intro M hM
  rw [Fintype.bijective_iff_injective_and_card]
  simp only [exIntW, List.mem_cons, List.not_mem_nil, or_false] at hM
  rcases hM with rfl | rfl
  · exact ⟨show Function.Injective (![0, 1, 2, 3] : Fin 4 → Fin 4) by decide, rfl⟩
  · exact ⟨show Function.Injective (![2, 3, 0, 1] : Fin 4 → Fin 4) by decide, rfl⟩

/-- Three products of masses 1, 2, 3 of a particle of mass 10, elements with and without a mass term. -/
example : ∃ rate : ℝ, ∃ G L, integrate4 (exIntW ![10, 1, 2, 3] 7) exPW [[1], [0]] = .ok (.two (-(rate * (1/2)) :: G) (-rate :: L)) := by
  have hm : ∀ i, (0 : ℝ) ≤ ![10, 1, 2, 3] i := by intro i; fin_cases i <;> simp
  exact ⟨_, C114_rest (exIntW ![10, 1, 2, 3] 7) exPW [[1], [0]] (exW_sched _ _) rfl
    (fun k hk => by change (![-1, 1, 1, 1] : Fin 4 → ℤ) k = 1; revert hk; revert k; decide) rfl rfl rfl (by norm_num [exIntW])
    one_pos one_pos rfl (by simp [exIntW]) (by simp [exIntW]) (exW_order _ _) (by norm_num [exIntW, exSpW])
    (by simp [exIntW, exSpW, inEq]) [1] rfl (by change [(0 : ℝ), 1].Pairwise (· < ·); simp) (1/2) [1/4] (by simp [exIntW, exStW])
    (by simp [exIntW, exStW, exSpW]) (exW_empty _ hm _)
    (by change (1 : ℝ) + 2 + 3 ≤ 10; norm_num)⟩

/-- The same particle at the momenta 0 and 1: the second rate is smaller by `m / E = 10 / √101`. -/
example : ∃ width : ℝ, integrate4 (exIntW ![10, 1, 2, 3] 7) exPW [[1], [0]] = .ok (.two
    [-(width / 2 * (1/2)), -(width * (10 / √101) / 2 * (1/4))] [-(width / 2), -(width * (10 / √101) / 2)]) := by
  have hm : ∀ i, (0 : ℝ) ≤ ![10, 1, 2, 3] i := by intro i; fin_cases i <;> simp
  have h := C114_moving (exIntW ![10, 1, 2, 3] 7) exPW [[1], [0]] (exW_sched _ _) rfl
    (fun k hk => by change (![-1, 1, 1, 1] : Fin 4 → ℤ) k = 1; revert hk; revert k; decide) rfl rfl rfl (by norm_num [exIntW])
    one_pos one_pos rfl (by simp [exIntW]) (by simp [exIntW]) (exW_order _ _) (by norm_num [exIntW, exSpW])
    (by simp [exIntW, exSpW, inEq]) [1] rfl (by change [(0 : ℝ), 1].Pairwise (· < ·); simp)
    (by simp [exIntW, exStW, exSpW]) (exW_empty _ hm _)
    (by change (1 : ℝ) + 2 + 3 ≤ 10; norm_num)
  dsimp only at h
  generalize ((exIntW ![10, 1, 2, 3] 7).Ms.map (restWidth fun i => ((exIntW ![10, 1, 2, 3] 7).sp i).mass)).sum /
    dofFactor (exIntW ![10, 1, 2, 3] 7).majorana ((exIntW ![10, 1, 2, 3] 7).sp 0).dof = w at h
  refine ⟨w, h.trans ?_⟩
  have hcut : gridCut4 [(0 : ℝ), 1] 1 = ([0, 1], []) := by
    norm_num [gridCut4, searchsortedLeft, pySliceTo, pySliceFrom, pyZeros]
  have e0 : energyOf 10 0 = 10 := by
    unfold energyOf; rw [show (0 : ℝ) ^ 2 + 10 ^ 2 = 10 ^ 2 by norm_num, Real.sqrt_sq (by norm_num)]
  have e1 : energyOf 10 1 = √101 := by unfold energyOf; norm_num
  simp [exIntW, exSpW, exStW, exPW, hcut, e0, e1]

/-- One product of mass 3. -/
example : integrate4 (exIntW ![10, 0, 3, 0] 0) exPW [[1], [0]] = .ok (.two
      [-(fermiWidth 8 10 2 * massFactor (3 / 10) / 2 * (1/2)), -(fermiWidth 8 10 2 * massFactor (3 / 10) * (10 / √101) / 2 * (1/4))]
      [-(fermiWidth 8 10 2 * massFactor (3 / 10) / 2), -(fermiWidth 8 10 2 * massFactor (3 / 10) * (10 / √101) / 2)]) := by
  have hm : ∀ i, (0 : ℝ) ≤ ![10, 0, 3, 0] i := by intro i; fin_cases i <;> simp
  have h := C114_one_mass_rate (exIntW ![10, 0, 3, 0] 0) exPW [[1], [0]] (exW_sched _ _) rfl
    (fun k hk => by change (![-1, 1, 1, 1] : Fin 4 → ℤ) k = 1; revert hk; revert k; decide) rfl rfl rfl (by norm_num [exIntW])
    one_pos one_pos rfl (by simp [exIntW]) (by simp [exIntW]) (exW_order _ _) (by norm_num [exIntW, exSpW])
    (by simp [exIntW, exSpW, inEq]) [1] rfl (by change [(0 : ℝ), 1].Pairwise (· < ·); simp)
    (by simp [exIntW, exStW, exSpW]) (exW_empty _ hm _) (by simp [exIntW]) 2 (by decide) (by change (3 : ℝ) ≤ 10; norm_num)
    (by intro i h0 h2; fin_cases i <;> first | rfl | exact absurd rfl h0 | exact absurd rfl h2)
  have e : ((exIntW ![10, 0, 3, 0] 0).Ms.map (·.K1)).sum = 8 := by norm_num [exIntW]
  have ed : dofFactor (exIntW ![10, 0, 3, 0] 0).majorana ((exIntW ![10, 0, 3, 0] 0).sp 0).dof = 2 := by
    norm_num [exIntW, exSpW, dofFactor]
  have em : massFactor (((exIntW ![10, 0, 3, 0] 0).sp 2).mass / ((exIntW ![10, 0, 3, 0] 0).sp 0).mass) = massFactor (3 / 10) := rfl
  have e5 : ((exIntW ![10, 0, 3, 0] 0).sp 0).mass = 10 := rfl
  dsimp only at h
  rw [e, ed, em, e5] at h
  refine h.trans ?_
  generalize fermiWidth 8 10 2 * massFactor (3 / 10) = w
  have hcut : gridCut4 [(0 : ℝ), 1] 1 = ([0, 1], []) := by
    norm_num [gridCut4, searchsortedLeft, pySliceTo, pySliceFrom, pyZeros]
  have e0 : energyOf 10 0 = 10 := by
    unfold energyOf; rw [show (0 : ℝ) ^ 2 + 10 ^ 2 = 10 ^ 2 by norm_num, Real.sqrt_sq (by norm_num)]
  have e1 : energyOf 10 1 = √101 := by unfold energyOf; norm_num
  simp [exIntW, exSpW, exStW, exPW, hcut, e0, e1]

/-- The muon and the electron of the library. -/
example (c : LibConst) : ∃ out, (leptonsCC c Tmpl.nuMu .nuE .muon .electron).integrals (tmplAttr 1 10) = .ok out ∧
    ∀ i ∈ out, ∀ x ∈ i.Ms, x.K2 = 0 :=
  let ⟨out, h, k, _⟩ := C114_muon (tmplAttr 1 10) c tmpl_names .muon .electron .nuMu .nuE (by decide) (by decide) (by decide)
    (by norm_num [tmplAttr, Tmpl.mass])
  ⟨out, h, k⟩

end Example

end PyBBN
