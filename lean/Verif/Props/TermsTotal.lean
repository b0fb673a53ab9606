import Verif.Props.TermsLib
import Mathlib.Algebra.BigOperators.Group.List.Basic
/-!
# C103 (continued): all integrals of the heavy neutrino and the leptons together
-/
namespace PyBBN

set_option linter.unusedSectionVars false

section
variable {S : Type*} [DecidableEq S] (A : LibAttr S) (c : LibConst)

/-- All integrals involve the species `m`. -/
def AllOf (l : List (Integral4 S)) (m : Multiset S) : Prop :=
  ∀ i ∈ l, ((speciesOn (-1) i.reaction : List S) : Multiset S) + (speciesOn 1 i.reaction : List S) = m

theorem rateIn_append (l l' : List (Integral4 S)) (s : S) (L R : Multiset S) :
    rateIn A (l ++ l') s L R = rateIn A l s L R + rateIn A l' s L R := by
  simp [rateIn]

theorem rateIn_flatten (l : List (List (Integral4 S))) (s : S) (L R : Multiset S) :
    rateIn A l.flatten s L R = (l.map fun x => rateIn A x s L R).sum := by
  induction l with
  | nil => simp [rateIn]
  | cons x l ih => rw [List.flatten_cons, rateIn_append, ih, List.map_cons, List.sum_cons]

theorem rateIn_other (l : List (Integral4 S)) (m : Multiset S) (h : AllOf l m) (s : S) (L R : Multiset S) (hm : L + R ≠ m) :
    rateIn A l s L R = 0 := by
  classical
  unfold rateIn
  rw [List.filter_eq_nil_iff.mpr]
  · rfl
  · intro i hi hc
    simp only [decide_eq_true_eq] at hc
    apply hm
    rw [← hc.2.1, ← hc.2.2]
    exact h i hi

/-- Every integral of a declaration involves its species. -/
theorem integrals_allOf (hinj : Function.Injective A.name) (p0 p1 p2 p3 : S) (a0 a1 a2 a3 : Bool) (Ms : List M4)
    (hM : ∀ x ∈ Ms, x.K = 0 ∧ [x.order.a, x.order.b, x.order.c, x.order.d].Perm (List.range 4)) :
    ∃ out, (⟨[p0, p1], [p2, p3], [a0, a1], [a2, a3], .four Ms⟩ : Decl S).integrals A = .ok out ∧
      AllOf out {p0, p1, p2, p3} := by
  let d : Decl S := ⟨[p0, p1], [p2, p3], [a0, a1], [a2, a3], .four Ms⟩
  obtain ⟨-, -, out, -, g2, -⟩ := generated_ints A.toAttr [p0, p1] [p2, p3] [a0, a1] [a2, a3] rfl rfl Ms hM
  obtain ⟨rs, r1, r2, -⟩ := generated_owner A d rfl rfl Ms hM out g2
  refine ⟨out, g2, ?_⟩
  intro i hi
  obtain ⟨x, hx, -, e⟩ := (crossings_mem A hinj d rfl rfl rs r1 i.reaction).mp (r2 i hi).1
  have hs := legs_side d.left d.right d.antiL d.antiR
  obtain ⟨q1, q2⟩ := crossWith_species A _ hs x hx
  rw [← e, Multiset.coe_eq_coe.mpr q1, Multiset.coe_eq_coe.mpr q2, Multiset.coe_add, ← List.map_append]
  have := (choice_perm _ (legs_nodup_index d rfl rfl).of_map x hx).map (·.specie)
  rw [List.cons_append, Multiset.coe_eq_coe.mpr this]
  rfl

theorem AllOf.append {l l' : List (Integral4 S)} {m : Multiset S} (h : AllOf l m) (h' : AllOf l' m) : AllOf (l ++ l') m := by
  intro i hi
  rcases List.mem_append.mp hi with hi | hi
  · exact h i hi
  · exact h' i hi

theorem AllOf.filter {l : List (Integral4 S)} {m : Multiset S} (h : AllOf l m) (p : Integral4 S → Bool) : AllOf (l.filter p) m :=
  fun i hi => h i (List.mem_of_mem_filter hi)

theorem sterile_ok (θ : ℝ) (l : List (ℝ × ℝ × Ord4)) (hl : ∀ x ∈ l, [(normOrder x.2.2).a, (normOrder x.2.2).b,
    (normOrder x.2.2).c, (normOrder x.2.2).d].Perm (List.range 4)) :
    ∀ x ∈ l.map (fun y => sterileM c θ y.1 y.2.1 y.2.2), x.K = 0 ∧
      [x.order.a, x.order.b, x.order.c, x.order.d].Perm (List.range 4) := by
  intro x hx
  obtain ⟨y, hy, rfl⟩ := List.mem_map.mp hx
  exact sterileM_ok c _ _ _ _ (hl y hy)

variable {A}

theorem keepScattering_allOf (hinj : Function.Injective A.name) (θ : ℝ) (N a b : S) :
    ∃ out, keepScattering A c θ N a b = .ok out ∧ AllOf out {N, a, b, b} := by
  set K1 : ℝ := if a = b then 2 else 1 with hK
  obtain ⟨i0, e0, t0⟩ := integrals_allOf A hinj N b a b false false false false [sterileM c θ K1 0 ⟨0, 1, 2, 3⟩]
    (sterile_ok c θ [(K1, 0, ⟨0, 1, 2, 3⟩)] (by simp; decide))
  obtain ⟨i1, e1, t1⟩ := integrals_allOf A hinj a b N b false false false false [sterileM c θ K1 0 ⟨2, 3, 0, 1⟩]
    (sterile_ok c θ [(K1, 0, ⟨2, 3, 0, 1⟩)] (by simp; decide))
  have m0 : ({N, b, a, b} : Multiset S) = {N, a, b, b} := by
    simp only [Multiset.insert_eq_cons]; rw [Multiset.cons_swap b a]
  have m1 : ({a, b, N, b} : Multiset S) = {N, a, b, b} := by
    simp only [Multiset.insert_eq_cons]; rw [Multiset.cons_swap b N, Multiset.cons_swap a N]
  rw [m0] at t0
  rw [m1] at t1
  refine ⟨i0 ++ i1.filter fun i => headName A i ∉ i0.map (headName A), ?_, t0.append (t1.filter _)⟩
  unfold keepScattering sterileScattering pairOf
  simp only [bind, Except.bind, ← hK, e0, e1]
  rfl

theorem keepNC_allOf (hinj : Function.Injective A.name) (θ gL : ℝ) (N a l : S) :
    ∃ out, keepNC A c θ gL N a l = .ok out ∧ AllOf out {N, a, l, l} := by
  set Ms := [sterileM c θ (4 * gL ^ 2) 0 ⟨0, 2, 1, 3⟩, sterileM c θ (4 * c.gR ^ 2) 0 ⟨0, 3, 1, 2⟩,
        sterileM c θ 0 (4 * c.gR * gL) ⟨2, 3, 0, 1⟩] with hMs
  have m0 : ∀ x ∈ Ms, x.K = 0 ∧ [x.order.a, x.order.b, x.order.c, x.order.d].Perm (List.range 4) := by
    intro x hx
    simp only [hMs, List.mem_cons, List.not_mem_nil, or_false] at hx
    rcases hx with rfl | rfl | rfl <;> exact sterileM_ok c _ _ _ _ (by decide)
  obtain ⟨i0, e0, t0⟩ := integrals_allOf A hinj N a l l false true true false Ms m0
  obtain ⟨i1, e1, t1⟩ := integrals_allOf A hinj N a l l true false false true Ms m0
  have red : keepNC A c θ gL N a l = (if A.name l = "Muon" ∨ A.name l = "Tau" then
      .ok (i0.filter (fun i => ¬ (headName A i ≠ some (A.name N) ∧ countLeft A i (A.name l) = 1)) ++
        (i1.filter (fun i => ¬ (headName A i ≠ some (A.name N) ∧ countLeft A i (A.name l) = 1))).filter
          fun i => headName A i ≠ some (A.name l)) else .ok (i0 ++ i1)) := by
    unfold keepNC sterileNC pairOf
    simp only [List.map_cons, List.map_nil, bind, Except.bind, ← hMs, e0, e1]
    split_ifs <;> rfl
  rw [red]
  split_ifs
  · exact ⟨_, rfl, (t0.filter _).append ((t1.filter _).filter _)⟩
  · exact ⟨_, rfl, t0.append t1⟩

theorem keepCC_allOf (hinj : Function.Injective A.name) (θ : ℝ) (N a l l' : S) :
    ∃ out, keepCC A c θ N a l l' = .ok out ∧ AllOf out {N, a, l, l'} := by
  set Ms := [sterileM c θ 4 0 ⟨0, 2, 1, 3⟩] with hMs
  have m0 : ∀ x ∈ Ms, x.K = 0 ∧ [x.order.a, x.order.b, x.order.c, x.order.d].Perm (List.range 4) := by
    intro x hx
    rw [List.mem_singleton.mp hx]
    exact sterileM_ok c _ _ _ _ (by decide)
  obtain ⟨i0, e0, t0⟩ := integrals_allOf A hinj N a l' l false true true false Ms m0
  obtain ⟨i1, e1, t1⟩ := integrals_allOf A hinj a N l l' false true true false Ms m0
  rw [show ({N, a, l', l} : Multiset S) = {N, a, l, l'} from by
    simp only [Multiset.insert_eq_cons, ← Multiset.cons_zero]; rw [Multiset.cons_swap l' l]] at t0
  rw [show ({a, N, l, l'} : Multiset S) = {N, a, l, l'} from by
    simp only [Multiset.insert_eq_cons]; rw [Multiset.cons_swap a N]] at t1
  refine ⟨i0.filter (fun i => namedSideSum A i (A.name l') (A.name N) = 0) ++
    i1.filter (fun i => namedSideSum A i (A.name l') (A.name N) = 0), ?_, (t0.filter _).append (t1.filter _)⟩
  unfold keepCC sterileCC pairOf
  simp only [List.map_cons, List.map_nil, bind, Except.bind, ← hMs, e0, e1]
  rfl

/-! ## Which declarations share a process -/

theorem twice_eq (a b x y : S) (h : ({a, b, b} : Multiset S) = {x, y, y}) : a = x ∧ b = y := by
  have hb : b = y := by
    by_contra hne
    have := congrArg (Multiset.count b) h
    simp only [Multiset.insert_eq_cons, Multiset.count_cons, Multiset.count_singleton, if_true, if_neg hne] at this
    split_ifs at this <;> omega
  subst hb
  refine ⟨?_, rfl⟩
  have : a ::ₘ ({b, b} : Multiset S) = x ::ₘ {b, b} := h
  exact (Multiset.cons_inj_left _).mp this

theorem twice_ne (a b x y z : S) (h : ({a, b, b} : Multiset S) = {x, y, z}) (h1 : x ≠ y) (h2 : x ≠ z) (h3 : y ≠ z) : False := by
  have hn : ({x, y, z} : Multiset S).Nodup := by simp [h1, h2, h3]
  rw [← h] at hn
  simp at hn

theorem cancelN (N : S) (s t : Multiset S) (h : N ::ₘ s = N ::ₘ t) : s = t := (Multiset.cons_inj_right N).mp h

/-! ## Sums -/

theorem sum_single {J : Type*} (l : List J) (hl : l.Nodup) (j : J) (hj : j ∈ l) (f : J → ℝ) (h : ∀ k ∈ l, k ≠ j → f k = 0) :
    (l.map f).sum = f j := by
  induction l with
  | nil => simp at hj
  | cons k l ih =>
    obtain ⟨n1, n2⟩ := List.nodup_cons.mp hl
    rw [List.map_cons, List.sum_cons]
    rcases List.mem_cons.mp hj with rfl | hj'
    · rw [List.sum_eq_zero, add_zero]
      intro x hx
      obtain ⟨y, hy, rfl⟩ := List.mem_map.mp hx
      exact h y (List.mem_cons_of_mem _ hy) fun e => n1 (e ▸ hy)
    · rw [ih n2 hj' fun k hk => h k (List.mem_cons_of_mem _ hk), h k (List.mem_cons_self ..) fun e => n1 (e ▸ hj'), zero_add]

theorem sum_none {J : Type*} (l : List J) (f : J → ℝ) (h : ∀ k ∈ l, f k = 0) : (l.map f).sum = 0 := by
  refine List.sum_eq_zero fun x hx => ?_
  obtain ⟨y, hy, rfl⟩ := List.mem_map.mp hx
  exact h y hy

/-- The weight in the result of a construction. -/
noncomputable def rateOf (A : LibAttr S) (e : Except Err (List (Integral4 S))) (s : S) (L R : Multiset S) : ℝ :=
  match e with
  | .ok o => rateIn A o s L R
  | .error _ => 0

theorem rateIn_mapM {J : Type*} (g : J → Except Err (List (Integral4 S))) (l : List J) (h : ∀ j ∈ l, ∃ o, g j = .ok o) :
    ∃ xs, l.mapM g = .ok xs ∧ ∀ s L R, rateIn A xs.flatten s L R = (l.map fun j => rateOf A (g j) s L R).sum := by
  induction l with
  | nil => exact ⟨[], rfl, fun s L R => by simp [rateIn]⟩
  | cons j l ih =>
    obtain ⟨o, h1⟩ := h j (List.mem_cons_self ..)
    obtain ⟨xs, h3, h4⟩ := ih fun k hk => h k (List.mem_cons_of_mem _ hk)
    refine ⟨o :: xs, ?_, fun s L R => ?_⟩
    · rw [List.mapM_cons, h1, h3]; rfl
    · rw [List.flatten_cons, rateIn_append, h4, List.map_cons, List.sum_cons, h1]
      rfl

theorem rateOf_other {e : Except Err (List (Integral4 S))} {m : Multiset S} (h : ∃ o, e = .ok o ∧ AllOf o m) (s : S)
    (L R : Multiset S) (hm : L + R ≠ m) : rateOf A e s L R = 0 := by
  obtain ⟨o, rfl, ho⟩ := h
  exact rateIn_other A o m ho s L R hm

open Classical in
/-- The weight of a process in all integrals together is the sum over the declarations. -/
theorem total_rate (hinj : Function.Injective A.name) (thetas : String → ℝ) (N : S) (neutrinos leptons : List S) :
    ∃ out, sterileLeptonIntegrals A c thetas N neutrinos leptons = .ok out ∧ ∀ s L R, rateIn A out s L R =
      ((neutrinos.product neutrinos).map fun x => if thetas (A.flavour x.1) ≠ 0 then
        rateOf A (keepScattering A c (thetas (A.flavour x.1)) N x.1 x.2) s L R else 0).sum +
      ((leptons.product neutrinos).map fun x =>
        (if thetas (A.flavour x.2) ≠ 0 then
          rateOf A (keepNC A c (thetas (A.flavour x.2)) (couplingL A c x.1 x.2) N x.2 x.1) s L R else 0) +
        ((if 1 < leptons.length then leptons.filter (· ≠ x.1) else []).map fun o =>
          if thetas (A.flavour x.1) ≠ 0 ∧ A.flavour x.2 = A.flavour o then
            rateOf A (keepCC A c (thetas (A.flavour x.1)) N x.2 x.1 o) s L R else 0).sum).sum := by
  have ok_ite : ∀ (p : Prop) [Decidable p] (e : Except Err (List (Integral4 S))) (h : ∃ o, e = .ok o),
      (∃ o, (if p then e else .ok []) = .ok o) ∧ ∀ s L R, rateOf A (if p then e else .ok []) s L R = if p then rateOf A e s L R else 0 := by
    intro p _ e h
    by_cases hp : p
    · rw [if_pos hp]; exact ⟨h, fun _ _ _ => by rw [if_pos hp]⟩
    · rw [if_neg hp]; exact ⟨⟨[], rfl⟩, fun _ _ _ => by rw [if_neg hp]; simp [rateOf, rateIn]⟩
  have S1 : ∀ x : S × S, ∃ o, keepScattering A c (thetas (A.flavour x.1)) N x.1 x.2 = .ok o := fun x => by
    obtain ⟨o, h, -⟩ := keepScattering_allOf (A := A) c hinj (thetas (A.flavour x.1)) N x.1 x.2; exact ⟨o, h⟩
  have S2 : ∀ x : S × S, ∃ o, keepNC A c (thetas (A.flavour x.2)) (couplingL A c x.1 x.2) N x.2 x.1 = .ok o := fun x => by
    obtain ⟨o, h, -⟩ := keepNC_allOf (A := A) c hinj (thetas (A.flavour x.2)) (couplingL A c x.1 x.2) N x.2 x.1; exact ⟨o, h⟩
  have S3 : ∀ (x : S × S) (o : S), ∃ o', keepCC A c (thetas (A.flavour x.1)) N x.2 x.1 o = .ok o' := fun x o => by
    obtain ⟨o', h, -⟩ := keepCC_allOf (A := A) c hinj (thetas (A.flavour x.1)) N x.2 x.1 o; exact ⟨o', h⟩
  obtain ⟨xs, x1, x2⟩ := rateIn_mapM (A := A) (fun x : S × S => (if thetas (A.flavour x.1) ≠ 0 then
    keepScattering A c (thetas (A.flavour x.1)) N x.1 x.2 else .ok [])) (neutrinos.product neutrinos)
    fun x _ => (ok_ite _ _ (S1 x)).1
  have lep : ∀ x : S × S, ∃ o, keepLepton A c thetas N leptons x.1 x.2 = .ok o ∧ ∀ s L R, rateIn A o s L R =
      (if thetas (A.flavour x.2) ≠ 0 then
          rateOf A (keepNC A c (thetas (A.flavour x.2)) (couplingL A c x.1 x.2) N x.2 x.1) s L R else 0) +
        ((if 1 < leptons.length then leptons.filter (· ≠ x.1) else []).map fun o =>
          if thetas (A.flavour x.1) ≠ 0 ∧ A.flavour x.2 = A.flavour o then
            rateOf A (keepCC A c (thetas (A.flavour x.1)) N x.2 x.1 o) s L R else 0).sum := by
    intro x
    obtain ⟨⟨n, n1⟩, n2⟩ := ok_ite (thetas (A.flavour x.2) ≠ 0) _ (S2 x)
    obtain ⟨ys, y1, y2⟩ := rateIn_mapM (A := A) (fun o => (if thetas (A.flavour x.1) ≠ 0 ∧ A.flavour x.2 = A.flavour o then
      keepCC A c (thetas (A.flavour x.1)) N x.2 x.1 o else .ok [])) (if 1 < leptons.length then leptons.filter (· ≠ x.1) else [])
      fun o _ => (ok_ite _ _ (S3 x o)).1
    refine ⟨n ++ ys.flatten, ?_, ?_⟩
    · unfold keepLepton
      dsimp only
      rw [n1]
      simp only [bind, Except.bind]
      rw [y1]
      rfl
    · intro s L R
      rw [rateIn_append, y2, ← n2, n1]
      refine congrArg₂ _ rfl (congrArg List.sum (List.map_congr_left fun o _ => ?_))
      exact (ok_ite _ _ (S3 x o)).2 s L R
  obtain ⟨ys, y1, y2⟩ := rateIn_mapM (A := A) (fun x : S × S => keepLepton A c thetas N leptons x.1 x.2)
    (leptons.product neutrinos) fun x _ => by obtain ⟨o, h, -⟩ := lep x; exact ⟨o, h⟩
  refine ⟨xs.flatten ++ ys.flatten, ?_, ?_⟩
  · unfold sterileLeptonIntegrals
    simp only [bind, Except.bind]
    rw [x1]
    dsimp only
    rw [y1]
    rfl
  · intro s L R
    rw [rateIn_append, x2, y2]
    refine congrArg₂ _ (congrArg List.sum (List.map_congr_left fun x _ => ?_)) (congrArg List.sum (List.map_congr_left fun x _ => ?_))
    · exact (ok_ite _ _ (S1 x)).2 s L R
    · obtain ⟨o, h1, h2⟩ := lep x
      rw [← h2 s L R, h1]
      rfl

/-- Species of a run: distinct names; neutrinos, charged leptons and the heavy neutrino all different; one lepton per
flavour. -/
structure Apart (A : LibAttr S) (N : S) (neutrinos leptons : List S) : Prop where
  inj : Function.Injective A.name
  nodupNu : neutrinos.Nodup
  nodupLep : leptons.Nodup
  apart : ∀ a ∈ neutrinos, a ∉ leptons
  flavours : ∀ l ∈ leptons, ∀ l' ∈ leptons, A.flavour l = A.flavour l' → l = l'

/-- **C103 (all integrals).** No two declarations of `sterile_leptons_interactions` concern the same process: the weight of a
process in all integrals together is its weight in the declaration it belongs to. -/
theorem C103_one_declaration (thetas : String → ℝ) (N : S) (neutrinos leptons : List S) (ok : Apart A N neutrinos leptons) :
    ∃ out, sterileLeptonIntegrals A c thetas N neutrinos leptons = .ok out ∧
      (∀ a ∈ neutrinos, ∀ b ∈ neutrinos, thetas (A.flavour a) ≠ 0 → ∀ s L R, L + R = {N, a, b, b} →
        rateIn A out s L R = rateOf A (keepScattering A c (thetas (A.flavour a)) N a b) s L R) ∧
      (∀ a ∈ neutrinos, ∀ l ∈ leptons, thetas (A.flavour a) ≠ 0 → ∀ s L R, L + R = {N, a, l, l} →
        rateIn A out s L R = rateOf A (keepNC A c (thetas (A.flavour a)) (couplingL A c l a) N a l) s L R) ∧
      (∀ a ∈ neutrinos, ∀ l ∈ leptons, ∀ l' ∈ leptons, l ≠ l' → thetas (A.flavour l) ≠ 0 → A.flavour a = A.flavour l' →
        ∀ s L R, L + R = {N, a, l, l'} →
        rateIn A out s L R = rateOf A (keepCC A c (thetas (A.flavour l)) N a l l') s L R) := by
  classical
  obtain ⟨out, e, H⟩ := total_rate (A := A) c ok.inj thetas N neutrinos leptons
  have npn : (neutrinos.product neutrinos).Nodup := ok.nodupNu.product ok.nodupNu
  have npl : (leptons.product neutrinos).Nodup := ok.nodupLep.product ok.nodupNu
  have Z1 : ∀ (x : S × S) s (L R : Multiset S), L + R ≠ {N, x.1, x.2, x.2} →
      (if thetas (A.flavour x.1) ≠ 0 then rateOf A (keepScattering A c (thetas (A.flavour x.1)) N x.1 x.2) s L R else 0) = 0 := by
    intro x s L R h
    rw [rateOf_other (keepScattering_allOf (A := A) c ok.inj _ N x.1 x.2) s L R h, ite_self]
  have Z2 : ∀ (x : S × S) s (L R : Multiset S), L + R ≠ {N, x.2, x.1, x.1} →
      (if thetas (A.flavour x.2) ≠ 0 then
          rateOf A (keepNC A c (thetas (A.flavour x.2)) (couplingL A c x.1 x.2) N x.2 x.1) s L R else 0) = 0 := by
    intro x s L R h
    rw [rateOf_other (keepNC_allOf (A := A) c ok.inj _ _ N x.2 x.1) s L R h, ite_self]
  have Z3 : ∀ (x : S × S) (o : S) s (L R : Multiset S), (A.flavour x.2 = A.flavour o → L + R ≠ {N, x.2, x.1, o}) →
      (if thetas (A.flavour x.1) ≠ 0 ∧ A.flavour x.2 = A.flavour o then
            rateOf A (keepCC A c (thetas (A.flavour x.1)) N x.2 x.1 o) s L R else 0) = 0 := by
    intro x o s L R h
    split_ifs with hc
    · exact rateOf_other (keepCC_allOf (A := A) c ok.inj _ N x.2 x.1 o) s L R (h hc.2)
    · rfl
  have oth : ∀ (l o : S), o ∈ (if 1 < leptons.length then leptons.filter (· ≠ l) else []) → o ∈ leptons ∧ o ≠ l := by
    intro l o ho
    split_ifs at ho
    · simpa using ho
    · simp at ho
  refine ⟨out, e, ?_, ?_, ?_⟩
  · intro a ha b hb hθ s L R hLR
    rw [H, sum_single _ npn (a, b) (List.pair_mem_product.mpr ⟨ha, hb⟩), sum_none, add_zero, if_pos hθ]
    · rintro ⟨l, x⟩ hx
      obtain ⟨hl, hx⟩ := List.pair_mem_product.mp hx
      rw [Z2, sum_none, add_zero]
      · intro o ho
        obtain ⟨o1, o2⟩ := oth l o ho
        refine Z3 _ _ _ _ _ fun _ h => ?_
        rw [hLR] at h
        exact twice_ne a b x l o (cancelN N _ _ h) (fun e => ok.apart x hx (e ▸ hl)) (fun e => ok.apart x hx (e ▸ o1)) o2.symm
      · rw [hLR]
        intro h
        exact ok.apart b hb ((twice_eq _ _ _ _ (cancelN N _ _ h)).2 ▸ hl)
    · rintro ⟨x, y⟩ hx hne
      refine Z1 _ _ _ _ ?_
      rw [hLR]
      intro h
      obtain ⟨h1, h2⟩ := twice_eq _ _ _ _ (cancelN N _ _ h)
      exact hne (by rw [h1, h2])
  · intro a ha l hl hθ s L R hLR
    rw [H, sum_none, zero_add, sum_single _ npl (l, a) (List.pair_mem_product.mpr ⟨hl, ha⟩), sum_none, add_zero, if_pos hθ]
    · intro o ho
      obtain ⟨o1, o2⟩ := oth l o ho
      refine Z3 _ _ _ _ _ fun _ h => ?_
      rw [hLR] at h
      exact twice_ne a l a l o (cancelN N _ _ h) (fun e => ok.apart a ha (e ▸ hl)) (fun e => ok.apart a ha (e ▸ o1)) o2.symm
    · rintro ⟨k, x⟩ hx hne
      obtain ⟨hk, hx⟩ := List.pair_mem_product.mp hx
      rw [Z2, sum_none, add_zero]
      · intro o ho
        obtain ⟨o1, o2⟩ := oth k o ho
        refine Z3 _ _ _ _ _ fun _ h => ?_
        rw [hLR] at h
        exact twice_ne a l x k o (cancelN N _ _ h) (fun e => ok.apart x hx (e ▸ hk)) (fun e => ok.apart x hx (e ▸ o1)) o2.symm
      · rw [hLR]
        intro h
        obtain ⟨h1, h2⟩ := twice_eq _ _ _ _ (cancelN N _ _ h)
        exact hne (by rw [h1, h2])
    · rintro ⟨x, y⟩ hx
      obtain ⟨hx, hy⟩ := List.pair_mem_product.mp hx
      refine Z1 _ _ _ _ ?_
      rw [hLR]
      intro h
      have e2 : l = y := (twice_eq _ _ _ _ (cancelN N _ _ h)).2
      exact ok.apart y hy (e2 ▸ hl)
  · intro a ha l hl l' hl' hne hθ hfl s L R hLR
    have d1 : a ≠ l := fun e => ok.apart a ha (e ▸ hl)
    have d2 : a ≠ l' := fun e => ok.apart a ha (e ▸ hl')
    have hlen : 1 < leptons.length := by
      by_contra hc
      obtain ⟨y, hy⟩ : ∃ y, leptons = [y] := by
        apply List.length_eq_one_iff.mp
        have := List.length_pos_of_mem hl
        omega
      rw [hy] at hl hl'
      exact hne ((List.mem_singleton.mp hl).trans (List.mem_singleton.mp hl').symm)
    have nod : (if 1 < leptons.length then leptons.filter (· ≠ l) else []).Nodup := by
      rw [if_pos hlen]; exact ok.nodupLep.filter _
    have same : ∀ x ∈ neutrinos, ∀ k ∈ leptons, ∀ o ∈ leptons, o ≠ k → A.flavour x = A.flavour o →
        ({N, a, l, l'} : Multiset S) = {N, x, k, o} → x = a ∧ k = l ∧ o = l' := by
      intro x hx k hk o ho hok hxo h
      have h := cancelN N _ _ h
      have hxa : x = a := by
        have : x ∈ ({a, l, l'} : Multiset S) := by rw [h]; simp
        simp only [Multiset.insert_eq_cons, Multiset.mem_cons, Multiset.mem_singleton] at this
        rcases this with h | h | h
        · exact h
        · exact absurd hl (h ▸ ok.apart x hx)
        · exact absurd hl' (h ▸ ok.apart x hx)
      subst hxa
      have h := cancelN x _ _ h
      have hol : o = l' := ok.flavours o ho l' hl' (by rw [← hxo, hfl])
      subst hol
      refine ⟨rfl, ?_, rfl⟩
      have : l ::ₘ ({o} : Multiset S) = k ::ₘ {o} := h
      exact ((Multiset.cons_inj_left _).mp this).symm
    rw [H, sum_none, zero_add, sum_single _ npl (l, a) (List.pair_mem_product.mpr ⟨hl, ha⟩), Z2, zero_add,
      sum_single _ nod l' (by rw [if_pos hlen]; simp [hl', hne.symm]), if_pos ⟨hθ, hfl⟩]
    · intro o ho hne'
      obtain ⟨o1, o2⟩ := oth l o ho
      refine Z3 _ _ _ _ _ fun hf h => ?_
      rw [hLR] at h
      exact hne' (same a ha l hl o o1 o2 hf h).2.2
    · rw [hLR]
      intro h
      exact twice_ne a l a l l' (cancelN N _ _ h.symm) d1 d2 hne
    · rintro ⟨k, x⟩ hx hne'
      obtain ⟨hk, hx⟩ := List.pair_mem_product.mp hx
      rw [Z2, sum_none, add_zero]
      · intro o ho
        obtain ⟨o1, o2⟩ := oth k o ho
        refine Z3 _ _ _ _ _ fun hf h => ?_
        rw [hLR] at h
        obtain ⟨q1, q2, -⟩ := same x hx k hk o o1 o2 hf h
        exact hne' (by rw [q1, q2])
      · rw [hLR]
        intro h
        exact twice_ne x k a l l' (cancelN N _ _ h.symm) d1 d2 hne
    · rintro ⟨x, y⟩ -
      refine Z1 _ _ _ _ ?_
      rw [hLR]
      intro h
      exact twice_ne x y a l l' (cancelN N _ _ h.symm) d1 d2 hne

/-! ## A concrete case -/

/-- A heavy neutrino, two neutrinos, a muon and an electron. -/
noncomputable def termsAttr : LibAttr (Fin 5) :=
  { name := ![hnlName, "Electron neutrino", "Muon neutrino", "Muon", "Electron"]
    mass := ![500, 0, 0, 105, 1 / 2]
    majorana := fun _ => false
    Q := ![0, 0, 0, -1, -1]
    flavour := ![ "sterile", "electron", "muon", "muon", "electron"]
    mesonType := fun _ => ""
    decayConstant := fun _ => 0
    family := fun _ => 0 }

theorem termsAttr_inj : Function.Injective termsAttr.name := by
  have : ∀ x y : Fin 5, (![hnlName, "Electron neutrino", "Muon neutrino", "Muon", "Electron"] : Fin 5 → String) x =
      (![hnlName, "Electron neutrino", "Muon neutrino", "Muon", "Electron"] : Fin 5 → String) y → x = y := by
    unfold hnlName
    decide
  exact fun x y h => this x y h

example : Apart termsAttr 0 [1, 2] [4, 3] where
  inj := termsAttr_inj
  nodupNu := by decide
  nodupLep := by decide
  apart := by decide
  flavours := by
    intro l hl l' hl'
    simp only [List.mem_cons, List.not_mem_nil, or_false] at hl hl'
    rcases hl with rfl | rfl <;> rcases hl' with rfl | rfl <;> simp [termsAttr]

/-- In this case the scattering of the heavy neutrino on a muon neutrino is not balanced, its decay is. -/
example (hG : c.GF ≠ 0) : ∃ out, keepScattering termsAttr c 1 (0 : Fin 5) 1 2 = .ok out ∧
    BalancedWith termsAttr out {0} {1, 2, 2} (32 * c.GF ^ 2) ∧ ¬ BalancedIn termsAttr out {0, 2} {1, 2} := by
  obtain ⟨out, h1, -, h2, -, -, -, -, h3⟩ := C103_scattering_partial c termsAttr_inj (fun _ => rfl) 1 (0 : Fin 5) 1 2 rfl (by decide)
    (by decide) (by decide) (32 * c.GF ^ 2) (by ring)
  refine ⟨out, h1, h2 (by simp [termsAttr]), h3 ?_⟩
  positivity

example : ∃ out, keepNC termsAttr c 1 1 (0 : Fin 5) 1 3 = .ok out ∧
    BalancedWith termsAttr out {0, 1} {3, 3} (128 * c.GF ^ 2 * (1 + c.gR ^ 2)) ∧ rateIn termsAttr out 1 {1, 3} {0, 3} = 0 := by
  obtain ⟨out, h1, h2, -, -, -, h3, -⟩ := C103_NC_heavy_partial c termsAttr_inj (fun _ => rfl) 1 1 (0 : Fin 5) 1 3 rfl (by decide)
    (by decide) (by decide) (Or.inl rfl) (128 * c.GF ^ 2 * (1 + c.gR ^ 2)) (by ring)
  exact ⟨out, h1, h2, h3⟩

end
end PyBBN
