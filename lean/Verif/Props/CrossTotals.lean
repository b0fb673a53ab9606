import Verif.Props.Cross3
import Verif.Props.BalanceStep
import Verif.Props.Selection
import Verif.Lemmas.CrossAmp
import Verif.Model.Templates
/-!
# C127: what the parent of a declared two-body decay loses and its products gain
-/
namespace PyBBN
open MeasureTheory

set_option linter.unusedSectionVars false

variable {ι : Type*}

/-- The spectra of the three species of a decay, without the factors that depend on the integral. -/
theorem decay3_rates (p : Params) (P : ℝ) (sp : Fin 3 → Species) (st : Fin 3 → PState ι) (haT : 0 < p.aT) (ha : 0 < p.a)
    (hm0 : 0 < (sp 0).mass) (hm1 : 0 ≤ (sp 1).mass) (hm2 : 0 ≤ (sp 2).mass)
    (hopen : (sp 1).mass + (sp 2).mass < (sp 0).mass) (hP : 0 ≤ P) (hreg : ∀ i, Regular (toC (sp i) (st i) p)) :
    ∃ I : Fin 3 → ℝ → ℝ,
      (∀ (c : Int3 ι) (sched : List (List ℕ)), c.sp = sp → c.st = st → c.side = ![-1, 1, 1] → Plain c → Covers c p sched →
        Returns c p sched fun y => c.K * I 0 y / c.weight) ∧
      (∀ (c : Int3 ι) (sched : List (List ℕ)), c.sp = ![sp 1, sp 2, sp 0] → c.st = ![st 1, st 2, st 0] →
        c.side = ![-1, -1, 1] → Plain c → CutBounds c p → c.max2 = P → Covers c p sched →
        Returns c p sched fun y => c.K * I 1 y / c.weight) ∧
      (∀ (c : Int3 ι) (sched : List (List ℕ)), c.sp = ![sp 2, sp 1, sp 0] → c.st = ![st 2, st 1, st 0] →
        c.side = ![-1, -1, 1] → Plain c → CutBounds c p → c.max2 = P → Covers c p sched →
        Returns c p sched fun y => c.K * I 2 y / c.weight) ∧
      (∫ y in Set.Ioi 0, y ^ 2 * I 1 y) = -(∫ y in Set.Ioc 0 P, y ^ 2 * I 0 y) ∧
      (∫ y in Set.Ioi 0, y ^ 2 * I 2 y) = -(∫ y in Set.Ioc 0 P, y ^ 2 * I 0 y) ∧
      (∫ y in Set.Ioi 0, y ^ 2 * energyOf ((sp 1).mass * p.a) y * I 1 y) +
        (∫ y in Set.Ioi 0, y ^ 2 * energyOf ((sp 2).mass * p.a) y * I 2 y) =
        -(∫ y in Set.Ioc 0 P, y ^ 2 * energyOf ((sp 0).mass * p.a) y * I 0 y) ∧
      (sp 1 = sp 2 → st 1 = st 2 → ∀ y, 0 ≤ y → I 1 y = I 2 y) := by
  set r : Fin 3 → Reactant := fun i => ⟨toC (sp i) (st i) p, (![-1, 1, 1] : Fin 3 → ℤ) i⟩ with hr
  have hmass : ∀ i, (r i).specie.m = (sp i).mass * p.a / p.aT := fun i => rfl
  have hop : (r 1).specie.m + (r 2).specie.m < (r 0).specie.m := by
    rw [hmass, hmass, hmass, ← add_div, ← add_mul]
    exact div_lt_div_of_pos_right (mul_lt_mul_of_pos_right hopen ha) haT
  have n0 : 0 < (r 0).specie.m := by rw [hmass]; positivity
  have n1 : 0 ≤ (r 1).specie.m := by rw [hmass]; positivity
  have n2 : 0 ≤ (r 2).specie.m := by rw [hmass]; positivity
  obtain ⟨I, hI, hI1, hI2, hN1, hN2, hE⟩ := C93_spectra r (P / p.aT) rfl rfl rfl
    n0 n1 n2 hop (by positivity) (fun i => by
      change (sp i).eta = 1 ∨ (sp i).eta = -1
      unfold Species.eta; split_ifs <;> simp) hreg
  choose f B hf hreg' using hreg
  have hocc : ∀ i q, 0 ≤ q → occAt (r i).specie q = .ok (f i q) := fun i q hq => (hreg' i q hq).1
  have hf0 : ∀ i q, 0 ≤ q → 0 ≤ f i q := fun i q hq => (hreg' i q hq).2.1
  have hK : ∀ K, common3 K p = K * common3 1 p := by
    intro K; unfold common3; ring
  have conv : ∀ (c : Int3 ι) (k : Fin 3), Plain c → (fun y => I k (y / p.aT) * (common3 c.K p / dofFactor c.majorana (c.sp 0).dof * c.mult)) =
      fun y => c.K * (I k (y / p.aT) * common3 1 p) / c.weight := by
    intro c k hpl
    funext y
    have h1 := hpl.dof
    have h2 := hpl.mult
    rw [hK c.K]
    unfold Int3.weight
    field_simp
  have vA : ∀ c : Int3 ι, c.sp = ![sp 1, sp 2, sp 0] → c.st = ![st 1, st 2, st 0] → c.side = ![-1, -1, 1] →
      c.reaction p = viewA r := by
    intro c h1 h2 h3
    funext i
    unfold Int3.reaction
    rw [h1, h2, h3]
    fin_cases i <;> rfl
  have vB : ∀ c : Int3 ι, c.sp = ![sp 2, sp 1, sp 0] → c.st = ![st 2, st 1, st 0] → c.side = ![-1, -1, 1] →
      c.reaction p = viewB r := by
    intro c h1 h2 h3
    funext i
    unfold Int3.reaction
    rw [h1, h2, h3]
    fin_cases i <;> rfl
  refine ⟨fun k y => I k (y / p.aT) * common3 1 p, ?_, ?_, ?_, ?_, ?_, ?_, ?_⟩
  · intro c sched h1 h2 h3 hpl hcov
    have hrc : c.reaction p = r := by
      funext i
      unfold Int3.reaction
      rw [h1, h2, h3]
    rw [← conv c 0 hpl]
    obtain ⟨y, ys, hgrid⟩ := hpl.grid
    have hncr : pyCreation (c.side 0 + c.side 1 + c.side 2) ≠ true := by
      rw [h3]; decide
    refine returns_of c p sched (I 0) (y :: ys) haT hpl.kind hpl.slow hpl.active hgrid hpl.inc
      (fun h => absurd h hncr) ?_ fun q hq => by
        rw [hrc]; exact (hI [q] (by simpa using hq.le) _ _ _ _ (by simp [ValidSchedule])).1
    intro s hs
    have hv := hcov s hs
    unfold cutoff3 at hs
    rw [if_neg hncr] at hs
    have := (Option.some.inj hs).symm
    subst this
    have hpos : ∀ q ∈ (c.sp 0).grid.map (· / p.aT), 0 ≤ q := by
      intro q hq
      obtain ⟨g, hg, rfl⟩ := List.mem_map.mp hq
      have hinc := hpl.inc
      rw [hgrid] at hg hinc
      rcases List.mem_cons.mp hg with rfl | hg
      · simp
      · have := ((List.pairwise_cons.mp hinc).1 g hg).le
        positivity
    rw [hrc]
    refine ⟨(hI _ hpos _ _ _ _ hv).1, ?_⟩
    obtain ⟨B, hB, -⟩ := loop_ff r f (by
      intro i; fin_cases i
      · exact Or.inr rfl
      · exact Or.inl rfl
      · exact Or.inl rfl) rfl n0.le hocc hf0 _ (c.min1 / p.aT) (c.max1 / p.aT)
      (c.max2 / p.aT) sched hv
    exact ⟨B, hB⟩
  · intro c sched h1 h2 h3 hpl hb hmax hcov
    rw [← conv c 1 hpl]
    have hrc := vA c h1 h2 h3
    refine product_returns c p sched (fun i => f (finRotate 3 i)) (I 1) haT ha hpl ?_ ?_ ?_ ?_ ?_ ?_ hb hcov ?_
      (fun i q hq => hf0 _ q hq) ?_ ?_
    · rw [h3]; exact ⟨rfl, rfl, rfl⟩
    · rw [h1]; exact hm0
    · rw [h1]; exact hm1
    · rw [h1]; exact hm2
    · rw [h1]; exact hopen
    · rw [hmax]; exact hP
    · rw [hrc]; intro i q hq; exact hocc _ q hq
    · rw [hrc, hmax]; exact fun qs hqs min1 max1 sched hv => (hI qs hqs min1 max1 0 sched hv).2.1
    · rw [hrc, hmax]; exact hI1
  · intro c sched h1 h2 h3 hpl hb hmax hcov
    rw [← conv c 2 hpl]
    have hrc := vB c h1 h2 h3
    refine product_returns c p sched (fun i => f (Equiv.swap 0 2 i)) (I 2) haT ha hpl ?_ ?_ ?_ ?_ ?_ ?_ hb hcov ?_
      (fun i q hq => hf0 _ q hq) ?_ ?_
    · rw [h3]; exact ⟨rfl, rfl, rfl⟩
    · rw [h1]; exact hm0
    · rw [h1]; exact hm2
    · rw [h1]; exact hm1
    · rw [h1]; change (sp 2).mass + (sp 1).mass < _; rw [add_comm]; exact hopen
    · rw [hmax]; exact hP
    · rw [hrc]; intro i q hq; exact hocc _ q hq
    · rw [hrc, hmax]; exact fun qs hqs min1 max1 sched hv => (hI qs hqs min1 max1 0 sched hv).2.2
    · rw [hrc, hmax]; exact hI2
  · dsimp only
    rw [number_scale _ _ haT, number_scale_Ioc _ _ _ haT hP, hN1]; ring
  · dsimp only
    rw [number_scale _ _ haT, number_scale_Ioc _ _ _ haT hP, hN2]; ring
  · dsimp only
    rw [energy_scale3 _ _ _ haT, energy_scale3 _ _ _ haT, energy_scale3_Ioc _ _ _ _ haT hP]
    rw [hmass, hmass, hmass] at hE
    linear_combination p.aT ^ 4 * common3 1 p * hE
  · intro e1 e2 y hy
    dsimp only
    have hv : viewA r = viewB r := by
      have h12 : r 1 = r 2 := by rw [hr]; dsimp only; rw [e1, e2]; rfl
      funext i
      fin_cases i
      · change (⟨(r 1).specie, -1 * (r 1).side⟩ : Reactant) = ⟨(r 2).specie, -1 * (r 2).side⟩
        rw [h12]
      · change (⟨(r 2).specie, -1 * (r 2).side⟩ : Reactant) = ⟨(r 1).specie, -1 * (r 1).side⟩
        rw [h12]
      · rfl
    have h := hI [y / p.aT] (by simp; positivity) 0 0 0 [[0]] (by simp [ValidSchedule])
    have e := h.2.1
    rw [hv, h.2.2] at e
    have e' := Except.ok.inj e
    simp only [List.map_cons, List.map_nil, List.cons.injEq, and_true] at e'
    rw [e']


/-! ## The generated integrals -/

section
variable {S : Type*} [DecidableEq S] (A : LibAttr S) (sp : S → Species) (st : S → PState ι)

/-- The integral `c` is the generated integral `i`, with the present states of its species: its legs, the sum of its
constants and the factors `CollisionMultiplier3p` and `majorana` are those of `i`. -/
structure Runs3 (i : Integral3 S) (c : Int3 ι) : Prop where
  reads : ∀ j : Fin 3, ∃ x, i.reaction[(j : ℕ)]? = some x ∧ c.sp j = sp x.specie ∧ c.st j = st x.specie ∧ c.side j = x.side
  K : c.K = i.Ks.sum
  mult : ∃ n : ℕ, multiplier3 A.toAttr (decide (A.Q i.particle ≠ 0)) i.reaction = .ok n ∧ c.mult = n
  majorana : c.majorana = A.majorana i.particle

/-- The integral takes the usual path through `integrate`; when its particle is a product, the momenta of the parent are
limited by `Pm`. -/
def Usual (c : Int3 ι) (p : Params) (sched : List (List ℕ)) (Pm : ℝ) : Prop :=
  Plain c ∧ Covers c p sched ∧ (c.side 1 = -1 → CutBounds c p ∧ c.max2 = Pm)

theorem Runs3.reads3 {x0 x1 x2 : Item S} {s : S} {Ks : List ℝ} {c : Int3 ι} (h : Runs3 A sp st ⟨s, [x0, x1, x2], Ks⟩ c) :
    c.sp = ![sp x0.specie, sp x1.specie, sp x2.specie] ∧ c.st = ![st x0.specie, st x1.specie, st x2.specie] ∧
      c.side = ![x0.side, x1.side, x2.side] := by
  obtain ⟨y0, e0, a0, b0, c0⟩ := h.reads 0
  obtain ⟨y1, e1, a1, b1, c1⟩ := h.reads 1
  obtain ⟨y2, e2, a2, b2, c2⟩ := h.reads 2
  have f0 : x0 = y0 := Option.some.inj e0
  have f1 : x1 = y1 := Option.some.inj e1
  have f2 : x2 = y2 := Option.some.inj e2
  subst f0 f1 f2
  refine ⟨?_, ?_, ?_⟩ <;> funext j <;> fin_cases j <;> assumption

/-- Legs of different species are sorted by their species. -/
theorem sort_two (u v : Item S) (hs : u.side = v.side) (hne : u.specie ≠ v.specie)
    (hlt : ltSpecie A.toAttr v.specie u.specie = false) : sortItems A.toAttr [u, v] = [u, v] := by
  have h : ltItem A.toAttr v u = false := by
    unfold ltItem
    rw [if_neg (by simp [hs]), if_pos (Ne.symm hne), hlt]
  unfold sortItems
  simp [List.insertionSort, List.orderedInsert, h]

/-- With three different species the multiplier is one. -/
theorem mult_one (b : Bool) (x0 x1 x2 : Item S) (h1 : x1.specie ≠ x0.specie) (n : ℕ)
    (h2 : x2.side = -1 → x2.specie ≠ x0.specie) (h : multiplier3 A.toAttr b [x0, x1, x2] = .ok n) : n = 1 := by
  classical
  rw [C62_three] at h
  have : ¬ sameAsFirst [x0, x1, x2] (-1) = 2 := by
    unfold sameAsFirst
    have k1 : ¬ x0.specie = x1.specie := fun e => h1 e.symm
    by_cases k : x2.side = -1
    · have k2 : ¬ x0.specie = x2.specie := fun e => h2 k e.symm
      simp [List.countP_cons, k1, k2]
      split_ifs <;> simp
    · simp [List.countP_cons, k1, k]
      split_ifs <;> simp
  rw [if_neg (fun k => this k.2.1)] at h
  exact (Except.ok.inj h).symm

/-- The spectrum of each species, without the factors that depend on the declaration. -/
theorem species3_rates (p : Params) (Pm : ℝ) (haT : 0 < p.aT) (ha : 0 < p.a) (P X Y : S) (hPX : P ≠ X) (hPY : P ≠ Y)
    (hXY : X ≠ Y) (hlt : ltSpecie A.toAttr Y X = false)
    (hm0 : 0 < (sp P).mass) (hm1 : 0 ≤ (sp X).mass) (hm2 : 0 ≤ (sp Y).mass)
    (hopen : (sp X).mass + (sp Y).mass < (sp P).mass) (hP : 0 ≤ Pm)
    (hreg : ∀ s ∈ [P, X, Y], Regular (toC (sp s) (st s) p)) :
    ∃ I : S → ℝ → ℝ,
      (∀ u v w o : Item S, (∀ x ∈ [u, v, w], x.side = -1 ∨ x.side = 1) → u.specie = P → v.specie = X → w.specie = Y →
        o ∈ [u, v, w] → ∀ (Ks : List ℝ) (c : Int3 ι) (sched : List (List ℕ)),
        Runs3 A sp st ⟨o.specie, channelOf A u v w o, Ks⟩ c → Usual c p sched Pm →
        Returns c p sched fun y => Ks.sum * I o.specie y / dofFactor (A.majorana o.specie) (sp o.specie).dof) ∧
      (∫ y in Set.Ioi 0, y ^ 2 * I X y) = -(∫ y in Set.Ioc 0 Pm, y ^ 2 * I P y) ∧
      (∫ y in Set.Ioi 0, y ^ 2 * I Y y) = -(∫ y in Set.Ioc 0 Pm, y ^ 2 * I P y) ∧
      (∫ y in Set.Ioi 0, y ^ 2 * energyOf ((sp X).mass * p.a) y * I X y) +
        (∫ y in Set.Ioi 0, y ^ 2 * energyOf ((sp Y).mass * p.a) y * I Y y) =
        -(∫ y in Set.Ioc 0 Pm, y ^ 2 * energyOf ((sp P).mass * p.a) y * I P y) := by
  obtain ⟨I, h0, h1, h2, hN1, hN2, hE, -⟩ := decay3_rates p Pm ![sp P, sp X, sp Y] ![st P, st X, st Y] haT ha hm0 hm1 hm2
    hopen hP (by intro i; fin_cases i; exacts [hreg P (by simp), hreg X (by simp), hreg Y (by simp)])
  have eP : (if P = P then I 0 else if P = X then I 1 else I 2) = I 0 := if_pos rfl
  have eX : (if X = P then I 0 else if X = X then I 1 else I 2) = I 1 := by rw [if_neg (Ne.symm hPX), if_pos rfl]
  have eY : (if Y = P then I 0 else if Y = X then I 1 else I 2) = I 2 := by
    rw [if_neg (Ne.symm hPY), if_neg (Ne.symm hXY)]
  refine ⟨fun s => if s = P then I 0 else if s = X then I 1 else I 2, ?_, ?_, ?_, ?_⟩
  · intro u v w o hs hu hv hw ho Ks c sched hr hus
    obtain ⟨hpl, hcov, hcut⟩ := hus
    have tu : ∀ k : ℤ, k = -1 ∨ k = 1 → (toSide A.toAttr k u).side = k := fun k hk => toSide_side _ _ _ (hs u (by simp)) hk
    have tv : ∀ k : ℤ, k = -1 ∨ k = 1 → (toSide A.toAttr k v).side = k := fun k hk => toSide_side _ _ _ (hs v (by simp)) hk
    have tw : ∀ k : ℤ, k = -1 ∨ k = 1 → (toSide A.toAttr k w).side = k := fun k hk => toSide_side _ _ _ (hs w (by simp)) hk
    have fin : ∀ (s : S) (k : Fin 3), c.sp 0 = sp s → c.mult = 1 → c.majorana = A.majorana s →
        (fun y => Ks.sum * I k y / dofFactor (A.majorana s) (sp s).dof) = fun y => c.K * I k y / c.weight := by
      intro s k e1 e2 e3
      have := hr.K
      dsimp only at this
      rw [this]
      unfold Int3.weight
      rw [e1, e2, e3, div_one]
    have nu : u ≠ v := fun e => hPX (by rw [← hu, ← hv, e])
    have nw : u ≠ w := fun e => hPY (by rw [← hu, ← hw, e])
    have nv : v ≠ w := fun e => hXY (by rw [← hv, ← hw, e])
    simp only [List.mem_cons, List.not_mem_nil, or_false] at ho
    rcases ho with rfl | rfl | rfl
    · have hch : channelOf A o v w o = [toSide A.toAttr (-1) o, toSide A.toAttr 1 v, toSide A.toAttr 1 w] := by
        unfold channelOf
        rw [if_pos rfl, sort_two A _ _ (by rw [tv 1 (Or.inr rfl), tw 1 (Or.inr rfl)])
          (by rw [toSide_specie, toSide_specie, hv, hw]; exact hXY) (by rw [toSide_specie, toSide_specie, hv, hw]; exact hlt)]
      rw [hch] at hr
      obtain ⟨r1, r2, r3⟩ := hr.reads3
      obtain ⟨n, n1, n2⟩ := hr.mult
      have hn := mult_one A _ _ _ _ (by rw [toSide_specie, toSide_specie, hv, hu]; exact Ne.symm hPX) n
        (by rw [toSide_specie, toSide_specie, hw, hu]; exact fun _ => Ne.symm hPY) n1
      rw [hn] at n2
      have hsp : c.sp 0 = sp o.specie := by rw [r1, toSide_specie]; rfl
      simp only [toSide_specie, hu, hv, hw, tu _ (Or.inl rfl), tv _ (Or.inr rfl), tw _ (Or.inr rfl)] at r1 r2 r3
      have hI : (if o.specie = P then I 0 else if o.specie = X then I 1 else I 2) = I 0 := by rw [hu, eP]
      dsimp only
      rw [hI, fin _ _ hsp (by rw [n2]; simp) hr.majorana]
      exact h0 c sched r1 r2 r3 hpl hcov
    · have hch : channelOf A u o w o = [toSide A.toAttr (-1) o, toSide A.toAttr (-1) w, toSide A.toAttr 1 u] := by
        unfold channelOf
        rw [if_neg (Ne.symm nu), if_pos rfl]
      rw [hch] at hr
      obtain ⟨r1, r2, r3⟩ := hr.reads3
      obtain ⟨n, n1, n2⟩ := hr.mult
      have hn := mult_one A _ _ _ _ (by rw [toSide_specie, toSide_specie, hv, hw]; exact Ne.symm hXY) n
        (by rw [toSide_specie, toSide_specie, hv, hu]; exact fun _ => hPX) n1
      rw [hn] at n2
      have hsp : c.sp 0 = sp o.specie := by rw [r1, toSide_specie]; rfl
      simp only [toSide_specie, hu, hv, hw, tu _ (Or.inr rfl), tv _ (Or.inl rfl), tw _ (Or.inl rfl)] at r1 r2 r3
      have hI : (if o.specie = P then I 0 else if o.specie = X then I 1 else I 2) = I 1 := by rw [hv, eX]
      dsimp only
      rw [hI, fin _ _ hsp (by rw [n2]; simp) hr.majorana]
      obtain ⟨c1, c2⟩ := hcut (by rw [r3]; rfl)
      exact h1 c sched r1 r2 r3 hpl c1 c2 hcov
    · have hch : channelOf A u v o o = [toSide A.toAttr (-1) o, toSide A.toAttr (-1) v, toSide A.toAttr 1 u] := by
        unfold channelOf
        rw [if_neg (Ne.symm nw), if_neg (Ne.symm nv)]
      rw [hch] at hr
      obtain ⟨r1, r2, r3⟩ := hr.reads3
      obtain ⟨n, n1, n2⟩ := hr.mult
      have hn := mult_one A _ _ _ _ (by rw [toSide_specie, toSide_specie, hv, hw]; exact hXY) n
        (by rw [toSide_specie, toSide_specie, hw, hu]; exact fun _ => hPY) n1
      rw [hn] at n2
      have hsp : c.sp 0 = sp o.specie := by rw [r1, toSide_specie]; rfl
      simp only [toSide_specie, hu, hv, hw, tu _ (Or.inr rfl), tv _ (Or.inl rfl), tw _ (Or.inl rfl)] at r1 r2 r3
      have hI : (if o.specie = P then I 0 else if o.specie = X then I 1 else I 2) = I 2 := by rw [hw, eY]
      dsimp only
      rw [hI, fin _ _ hsp (by rw [n2]; simp) hr.majorana]
      obtain ⟨c1, c2⟩ := hcut (by rw [r3]; rfl)
      exact h2 c sched r1 r2 r3 hpl c1 c2 hcov
  · beta_reduce; rw [eP, eX]; exact hN1
  · beta_reduce; rw [eP, eY]; exact hN2
  · beta_reduce; rw [eP, eX, eY]; exact hE

/-! ## Totals -/

/-- A declared two-body decay of `P` into `X` and `Y` (in either direction, with any flags), with the constant `K`. -/
structure Declares3 (P X Y : S) (K : ℝ) (d : Decl S) : Prop where
  lenL : d.left.length = d.antiL.length
  lenR : d.right.length = d.antiR.length
  species : (d.left ++ d.right).Perm [P, X, Y]
  amp : d.amp = .three K

/-- The declarations of `ds` give the integrals `l`, in any order. -/
def Generates3 (K : ℝ) (ds : List (Decl S)) (l : List (Integral3 S)) : Prop :=
  ∃ ls : List (List (Integral3 S)), List.Forall₂ (fun d l => crossGenerating3 A.toAttr d.left d.right d.antiL d.antiR [K] = .ok l) ds ls ∧
    l.Perm ls.flatten

/-- The collision integral of a species: the sum of what its integrals return. -/
def totalOf (l : List (Integral3 S)) (J : Integral3 S → ℝ → ℝ) (s : S) (y : ℝ) : ℝ :=
  ((l.filter fun i => i.particle = s).map fun i => J i y).sum

/-- A leg of the species can lead a reaction generated from the declaration. -/
def Leads (d : Decl S) (s : S) : Prop := ∃ x ∈ legs d.left d.right d.antiL d.antiR, x.specie = s ∧ CanLead A x

open Classical in
/-- How often a species is counted: once for every declaration of which a leg of that species can lead; twice that if it
has an antiparticle (its degrees of freedom are those of particle and antiparticle together). -/
noncomputable def share (ds : List (Decl S)) (s : S) : ℝ :=
  (ds.countP fun d => Leads A d s) *
    if A.majorana s then 1 else 2

theorem legs_species (d : Decl S) (h0 : d.left.length = d.antiL.length) (h1 : d.right.length = d.antiR.length) :
    (legs d.left d.right d.antiL d.antiR).map (·.specie) = d.left ++ d.right := by
  have hleg := fun k hk => C42_legs d.left d.right d.antiL d.antiR h0 h1 k hk
  have hlen := legs_length d.left d.right d.antiL d.antiR h0 h1
  apply List.ext_getElem?
  intro k
  rw [List.getElem?_map]
  by_cases hk : k < d.left.length + d.right.length
  · rw [hleg k hk, List.getElem?_eq_getElem (by simpa using hk)]
    rfl
  · rw [List.getElem?_eq_none (by omega), List.getElem?_eq_none (by simpa using hk)]
    rfl

theorem legs_three {P X Y : S} {K : ℝ} {d : Decl S} (h : Declares3 P X Y K d) :
    ∃ u v w : Item S, (legs d.left d.right d.antiL d.antiR).Perm [u, v, w] ∧ u.specie = P ∧ v.specie = X ∧ w.specie = Y := by
  have hp : [P, X, Y].Perm ((legs d.left d.right d.antiL d.antiR).map (·.specie)) := by
    rw [legs_species d h.lenL h.lenR]; exact h.species.symm
  obtain ⟨L, hL, hL2⟩ := perm_map_of _ _ _ hp
  match L, hL2 with
  | [u, v, w], hL2 =>
    simp only [List.map_cons, List.map_nil, List.cons.injEq, and_true] at hL2
    exact ⟨u, v, w, hL.symm, hL2.1.symm, hL2.2.1.symm, hL2.2.2.symm⟩

theorem returns_unique {c : Int3 ι} {p : Params} {sched : List (List ℕ)} {J J' : ℝ → ℝ} (h : Returns c p sched J)
    (h' : Returns c p sched J') (y : ℝ) (hy : 0 < y) : J y = J' y :=
  Except.ok.inj ((h.2 y hy).symm.trans (h'.2 y hy))

/-- One declaration. -/
theorem one_declaration (hinj : Function.Injective A.name) (p : Params) (Pm : ℝ) (P X Y : S) (hPX : P ≠ X) (hPY : P ≠ Y)
    (hXY : X ≠ Y) (hX : 0 ≤ A.mass X) (hY : 0 ≤ A.mass Y) (hopen : A.mass X + A.mass Y < A.mass P) (K : ℝ)
    (I : S → ℝ → ℝ)
    (hI : ∀ u v w o : Item S, (∀ x ∈ [u, v, w], x.side = -1 ∨ x.side = 1) → u.specie = P → v.specie = X → w.specie = Y →
        o ∈ [u, v, w] → ∀ (Ks : List ℝ) (c : Int3 ι) (sched : List (List ℕ)),
        Runs3 A sp st ⟨o.specie, channelOf A u v w o, Ks⟩ c → Usual c p sched Pm →
        Returns c p sched fun y => Ks.sum * I o.specie y / dofFactor (A.majorana o.specie) (sp o.specie).dof)
    (d : Decl S) (hd : Declares3 P X Y K d) (l : List (Integral3 S))
    (hl : crossGenerating3 A.toAttr d.left d.right d.antiL d.antiR [K] = .ok l) (J : Integral3 S → ℝ → ℝ)
    (hJ : ∀ i ∈ l, ∃ (c : Int3 ι) (sched : List (List ℕ)), Runs3 A sp st i c ∧ Usual c p sched Pm ∧ Returns c p sched (J i))
    (s : S) (y : ℝ) (hy : 0 < y) :
    open Classical in
    totalOf l J s y = (if Leads A d s then 1 else 0) *
      (K * I s y / dofFactor (A.majorana s) (sp s).dof) := by
  classical
  obtain ⟨u, v, w, hp, hu, hv, hw⟩ := legs_three hd
  have hs : ∀ x ∈ [u, v, w], x.side = -1 ∨ x.side = 1 := fun x hx => legs_side _ _ _ _ x (hp.mem_iff.mpr hx)
  have hnd : (([u, v, w].filter fun o => CanLead A o).map (·.specie)).Nodup := by
    refine (List.Nodup.sublist ((List.filter_sublist).map _) ?_ : _)
    simp [hu, hv, hw, hPX, hPY, hXY]
  obtain ⟨l', hl', hperm⟩ := C127_generated A hinj d hd.lenL hd.lenR u v w hp (by rw [hv]; exact hX) (by rw [hw]; exact hY)
    (by rw [hu, hv, hw]; exact hopen) [K] hnd
  have e : l = l' := Except.ok.inj (hl.symm.trans hl')
  subst e
  have val : ∀ i ∈ l, J i y = K * I i.particle y / dofFactor (A.majorana i.particle) (sp i.particle).dof := by
    intro i hi
    obtain ⟨c, sched, h1, h2, h3⟩ := hJ i hi
    obtain ⟨o, ho, rfl⟩ := List.mem_map.mp (hperm.mem_iff.mp hi)
    have ho' := List.mem_of_mem_filter ho
    have := returns_unique h3 (hI u v w o hs hu hv hw ho' [K] c sched h1 h2) y hy
    simpa using this
  have tot : totalOf l J s y = ((l.filter fun i => i.particle = s).length : ℝ) *
      (K * I s y / dofFactor (A.majorana s) (sp s).dof) := by
    unfold totalOf
    rw [List.map_congr_left (g := fun _ => K * I s y / dofFactor (A.majorana s) (sp s).dof), List.map_const', List.sum_replicate,
      nsmul_eq_mul]
    intro i hi
    obtain ⟨h1, h2⟩ := List.mem_filter.mp hi
    rw [val i h1, of_decide_eq_true h2]
  rw [tot]
  congr 1
  have hlen : (l.filter fun i => i.particle = s).length =
      (([u, v, w].filter fun o => CanLead A o).map (·.specie)).count s := by
    rw [← List.countP_eq_length_filter, hperm.countP_eq, List.countP_map, List.count_eq_countP, List.countP_map]
    refine List.countP_congr fun x _ => ?_
    simp
  rw [hlen, List.Nodup.count hnd]
  have hiff : s ∈ (([u, v, w].filter fun o => CanLead A o).map (·.specie)) ↔
      Leads A d s := by
    rw [List.mem_map]
    constructor
    · rintro ⟨x, hx, rfl⟩
      obtain ⟨h1, h2⟩ := List.mem_filter.mp hx
      exact ⟨x, hp.mem_iff.mpr h1, rfl, of_decide_eq_true h2⟩
    · rintro ⟨x, hx, rfl, h2⟩
      exact ⟨x, List.mem_filter.mpr ⟨hp.mem_iff.mp hx, decide_eq_true h2⟩, rfl⟩
  simp only [hiff]
  split_ifs <;> simp

theorem total_perm {l l' : List (Integral3 S)} (h : l.Perm l') (J : Integral3 S → ℝ → ℝ) (s : S) (y : ℝ) :
    totalOf l J s y = totalOf l' J s y := ((h.filter _).map _).sum_eq

theorem total_append (l l' : List (Integral3 S)) (J : Integral3 S → ℝ → ℝ) (s : S) (y : ℝ) :
    totalOf (l ++ l') J s y = totalOf l J s y + totalOf l' J s y := by
  unfold totalOf; rw [List.filter_append, List.map_append, List.sum_append]

/-- What one species receives altogether. -/
theorem total_share (K : ℝ) (I : S → ℝ → ℝ) (J : Integral3 S → ℝ → ℝ) (s : S) (hdof : (sp s).dof ≠ 0)
    (ds : List (Decl S)) (ls : List (List (Integral3 S)))
    (h2 : open Classical in List.Forall₂ (fun d l => ∀ y, 0 < y → totalOf l J s y =
      (if Leads A d s then 1 else 0) *
      (K * I s y / dofFactor (A.majorana s) (sp s).dof)) ds ls) (y : ℝ) (hy : 0 < y) :
    (sp s).dof * totalOf ls.flatten J s y = share A ds s * (K * I s y) := by
  classical
  have key : totalOf ls.flatten J s y =
      ((ds.countP fun d => Leads A d s : ℕ) : ℝ) *
        (K * I s y / dofFactor (A.majorana s) (sp s).dof) := by
    induction h2 with
    | nil => simp [totalOf]
    | cons h _ ih =>
      rw [List.flatten_cons, total_append, ih, h y hy, List.countP_cons]
      push_cast
      split_ifs with c1 c2 c2
      · ring
      · simp [c1] at c2
      · simp [c1] at c2
      · ring
  rw [key]
  unfold share dofFactor
  split_ifs <;> field_simp

/-- **C127 (shares).** Any list of declarations of one two-body decay `P → X Y`, with any flags and in either direction, and
what its integrals return: the numbers and energies which the species gain (per comoving volume, all degrees of freedom) are
in proportion to their shares.  The integral of `P` is taken over the momenta on its grid, which are those that the integrals of
the products take into account. -/
theorem C127_shares (hinj : Function.Injective A.name) (p : Params) (Pm : ℝ) (haT : 0 < p.aT) (ha : 0 < p.a) (hPm : 0 ≤ Pm)
    (P X Y : S) (hPX : P ≠ X) (hPY : P ≠ Y) (hXY : X ≠ Y) (hmass : ∀ s ∈ [P, X, Y], (sp s).mass = A.mass s)
    (hX : 0 ≤ A.mass X) (hY : 0 ≤ A.mass Y) (hopen : A.mass X + A.mass Y < A.mass P)
    (hreg : ∀ s ∈ [P, X, Y], Regular (toC (sp s) (st s) p)) (hdof : ∀ s ∈ [P, X, Y], (sp s).dof ≠ 0) (K : ℝ)
    (ds : List (Decl S)) (hds : ∀ d ∈ ds, Declares3 P X Y K d) (l : List (Integral3 S)) (hl : Generates3 A K ds l)
    (J : Integral3 S → ℝ → ℝ)
    (hJ : ∀ i ∈ l, ∃ (c : Int3 ι) (sched : List (List ℕ)), Runs3 A sp st i c ∧ Usual c p sched Pm ∧ Returns c p sched (J i)) :
    ∃ n eX eY : ℝ,
      (sp P).dof * (∫ y in Set.Ioc 0 Pm, y ^ 2 * totalOf l J P y) = -(share A ds P * n) ∧
      (sp X).dof * (∫ y in Set.Ioi 0, y ^ 2 * totalOf l J X y) = share A ds X * n ∧
      (sp Y).dof * (∫ y in Set.Ioi 0, y ^ 2 * totalOf l J Y y) = share A ds Y * n ∧
      (sp P).dof * (∫ y in Set.Ioc 0 Pm, y ^ 2 * energyOf ((sp P).mass * p.a) y * totalOf l J P y) =
        -(share A ds P * (eX + eY)) ∧
      (sp X).dof * (∫ y in Set.Ioi 0, y ^ 2 * energyOf ((sp X).mass * p.a) y * totalOf l J X y) = share A ds X * eX ∧
      (sp Y).dof * (∫ y in Set.Ioi 0, y ^ 2 * energyOf ((sp Y).mass * p.a) y * totalOf l J Y y) = share A ds Y * eY := by
  classical
  obtain ⟨ls, hls, hperm⟩ := hl
  have mP := hmass P (by simp)
  have mX := hmass X (by simp)
  have mY := hmass Y (by simp)
  have rates : ∃ I : S → ℝ → ℝ,
      (∀ d ∈ ds, ∀ l', crossGenerating3 A.toAttr d.left d.right d.antiL d.antiR [K] = .ok l' → (∀ i ∈ l', i ∈ l) → ∀ s y, 0 < y →
        totalOf l' J s y = (if Leads A d s then 1 else 0) *
          (K * I s y / dofFactor (A.majorana s) (sp s).dof)) ∧
      (∫ y in Set.Ioi 0, y ^ 2 * I X y) = -(∫ y in Set.Ioc 0 Pm, y ^ 2 * I P y) ∧
      (∫ y in Set.Ioi 0, y ^ 2 * I Y y) = -(∫ y in Set.Ioc 0 Pm, y ^ 2 * I P y) ∧
      (∫ y in Set.Ioi 0, y ^ 2 * energyOf ((sp X).mass * p.a) y * I X y) +
        (∫ y in Set.Ioi 0, y ^ 2 * energyOf ((sp Y).mass * p.a) y * I Y y) =
        -(∫ y in Set.Ioc 0 Pm, y ^ 2 * energyOf ((sp P).mass * p.a) y * I P y) := by
    have hor : ltSpecie A.toAttr Y X = false ∨ ltSpecie A.toAttr X Y = false := by
      unfold ltSpecie
      simp only [decide_eq_false_iff_not, not_lt]
      exact le_total _ _
    rcases hor with hlt | hlt
    · obtain ⟨I, hI, n1, n2, e⟩ := species3_rates A sp st p Pm haT ha P X Y hPX hPY hXY hlt (by rw [mP]; linarith)
        (by rw [mX]; exact hX) (by rw [mY]; exact hY) (by rw [mX, mY, mP]; exact hopen) hPm hreg
      exact ⟨I, fun d hd l' h1 h2 s y hy => one_declaration A sp st hinj p Pm P X Y hPX hPY hXY hX hY hopen K I hI d (hds d hd)
        l' h1 J (fun i hi => hJ i (h2 i hi)) s y hy, n1, n2, e⟩
    · obtain ⟨I, hI, n1, n2, e⟩ := species3_rates A sp st p Pm haT ha P Y X hPY hPX (Ne.symm hXY) hlt (by rw [mP]; linarith)
        (by rw [mY]; exact hY) (by rw [mX]; exact hX) (by rw [mX, mY, mP]; linarith) hPm
        (fun s hs => hreg s (by simp only [List.mem_cons, List.not_mem_nil, or_false] at hs ⊢; tauto))
      refine ⟨I, fun d hd l' h1 h2 s y hy => one_declaration A sp st hinj p Pm P Y X hPY hPX (Ne.symm hXY) hY hX (by linarith)
        K I hI d ⟨(hds d hd).lenL, (hds d hd).lenR, (hds d hd).species.trans ((List.Perm.swap _ _ _).cons _), (hds d hd).amp⟩
        l' h1 J (fun i hi => hJ i (h2 i hi)) s y hy, n2, n1, ?_⟩
      rw [add_comm]; exact e
  obtain ⟨I, hI, n1, n2, e⟩ := rates
  have hF : ∀ s, List.Forall₂ (fun d l => ∀ y, 0 < y → totalOf l J s y =
      (if Leads A d s then 1 else 0) *
      (K * I s y / dofFactor (A.majorana s) (sp s).dof)) ds ls := by
    intro s
    rw [List.forall₂_iff_get] at hls ⊢
    refine ⟨hls.1, fun i h1 h2 y hy => ?_⟩
    refine hI _ (List.get_mem ds _) _ (hls.2 i h1 h2) (fun j hj => ?_) s y hy
    exact hperm.mem_iff.mpr (List.mem_flatten.mpr ⟨_, List.get_mem ls _, hj⟩)
  have tot : ∀ s ∈ [P, X, Y], ∀ y, 0 < y → (sp s).dof * totalOf l J s y = share A ds s * (K * I s y) := by
    intro s hs y hy
    rw [total_perm hperm]
    exact total_share A sp K I J s (hdof s hs) ds ls (hF s) y hy
  have int : ∀ s ∈ [P, X, Y], ∀ (D : Set ℝ) (g : ℝ → ℝ), MeasurableSet D → (∀ y ∈ D, 0 < y) →
      (sp s).dof * (∫ y in D, g y * totalOf l J s y) = share A ds s * (K * ∫ y in D, g y * I s y) := by
    intro s hs D g hD hpos
    rw [← integral_const_mul, ← mul_assoc, ← integral_const_mul]
    refine setIntegral_congr_fun hD fun y hy => ?_
    have := tot s hs y (hpos y hy)
    beta_reduce
    linear_combination g y * this
  have pI : ∀ y ∈ Set.Ioi (0 : ℝ), 0 < y := fun y hy => hy
  have pC : ∀ y ∈ Set.Ioc (0 : ℝ) Pm, 0 < y := fun y hy => hy.1
  refine ⟨K * ∫ y in Set.Ioi 0, y ^ 2 * I X y, K * ∫ y in Set.Ioi 0, y ^ 2 * energyOf ((sp X).mass * p.a) y * I X y,
    K * ∫ y in Set.Ioi 0, y ^ 2 * energyOf ((sp Y).mass * p.a) y * I Y y, ?_, ?_, ?_, ?_, ?_, ?_⟩
  · rw [int P (by simp) _ _ measurableSet_Ioc pC, n1]; ring
  · rw [int X (by simp) _ _ measurableSet_Ioi pI]
  · rw [int Y (by simp) _ _ measurableSet_Ioi pI, n2, ← n1]
  · rw [int P (by simp) _ (fun y => y ^ 2 * energyOf ((sp P).mass * p.a) y) measurableSet_Ioc pC, ← mul_add, e]; ring
  · rw [int X (by simp) _ (fun y => y ^ 2 * energyOf ((sp X).mass * p.a) y) measurableSet_Ioi pI]
  · rw [int Y (by simp) _ (fun y => y ^ 2 * energyOf ((sp Y).mass * p.a) y) measurableSet_Ioi pI]

/-- **C127 (the integrals return).** Every generated integral, run with the present states of its species, returns: the same
function for all runs. -/
theorem C127_returns (hinj : Function.Injective A.name) (p : Params) (Pm : ℝ) (haT : 0 < p.aT) (ha : 0 < p.a) (hPm : 0 ≤ Pm)
    (P X Y : S) (hPX : P ≠ X) (hPY : P ≠ Y) (hXY : X ≠ Y) (hmass : ∀ s ∈ [P, X, Y], (sp s).mass = A.mass s)
    (hX : 0 ≤ A.mass X) (hY : 0 ≤ A.mass Y) (hopen : A.mass X + A.mass Y < A.mass P)
    (hreg : ∀ s ∈ [P, X, Y], Regular (toC (sp s) (st s) p)) (K : ℝ)
    (ds : List (Decl S)) (hds : ∀ d ∈ ds, Declares3 P X Y K d) :
    ∃ l, Generates3 A K ds l ∧ ∃ J : Integral3 S → ℝ → ℝ, ∀ i ∈ l, ∀ (c : Int3 ι) (sched : List (List ℕ)),
      Runs3 A sp st i c → Usual c p sched Pm → Returns c p sched (J i) := by
  classical
  wlog hlt : ltSpecie A.toAttr Y X = false generalizing X Y
  · have hlt' : ltSpecie A.toAttr X Y = false := by
      unfold ltSpecie at hlt ⊢
      simp only [decide_eq_false_iff_not, not_lt, not_le] at hlt ⊢
      exact hlt.le
    refine this Y X hPY hPX (Ne.symm hXY) ?_ hY hX (by linarith) ?_ ?_ hlt'
    · exact fun s hs => hmass s (by simp only [List.mem_cons, List.not_mem_nil, or_false] at hs ⊢; tauto)
    · exact fun s hs => hreg s (by simp only [List.mem_cons, List.not_mem_nil, or_false] at hs ⊢; tauto)
    · exact fun d hd => ⟨(hds d hd).lenL, (hds d hd).lenR, (hds d hd).species.trans ((List.Perm.swap _ _ _).cons _), (hds d hd).amp⟩
  have mP := hmass P (by simp)
  have mX := hmass X (by simp)
  have mY := hmass Y (by simp)
  obtain ⟨I, hI, -⟩ := species3_rates A sp st p Pm haT ha P X Y hPX hPY hXY hlt (by rw [mP]; linarith)
    (by rw [mX]; exact hX) (by rw [mY]; exact hY) (by rw [mX, mY, mP]; exact hopen) hPm hreg
  let J : Integral3 S → ℝ → ℝ := fun i y => i.Ks.sum * I i.particle y / dofFactor (A.majorana i.particle) (sp i.particle).dof
  have one : ∀ d ∈ ds, ∃ l, crossGenerating3 A.toAttr d.left d.right d.antiL d.antiR [K] = .ok l ∧
      ∀ i ∈ l, ∀ (c : Int3 ι) (sched : List (List ℕ)), Runs3 A sp st i c → Usual c p sched Pm → Returns c p sched (J i) := by
    intro d hd
    obtain ⟨u, v, w, hp, hu, hv, hw⟩ := legs_three (hds d hd)
    have hs : ∀ x ∈ [u, v, w], x.side = -1 ∨ x.side = 1 := fun x hx => legs_side _ _ _ _ x (hp.mem_iff.mpr hx)
    have hnd : (([u, v, w].filter fun o => CanLead A o).map (·.specie)).Nodup := by
      refine (List.Nodup.sublist ((List.filter_sublist).map _) ?_ : _)
      simp [hu, hv, hw, hPX, hPY, hXY]
    obtain ⟨l, hl, hperm⟩ := C127_generated A hinj d (hds d hd).lenL (hds d hd).lenR u v w hp (by rw [hv]; exact hX)
      (by rw [hw]; exact hY) (by rw [hu, hv, hw]; exact hopen) [K] hnd
    refine ⟨l, hl, fun i hi c sched h1 h2 => ?_⟩
    obtain ⟨o, ho, rfl⟩ := List.mem_map.mp (hperm.mem_iff.mp hi)
    exact hI u v w o hs hu hv hw (List.mem_of_mem_filter ho) [K] c sched h1 h2
  have all : ∀ ds' : List (Decl S), (∀ d ∈ ds', d ∈ ds) → ∃ ls : List (List (Integral3 S)),
      List.Forall₂ (fun d l => crossGenerating3 A.toAttr d.left d.right d.antiL d.antiR [K] = .ok l) ds' ls ∧
      ∀ i ∈ ls.flatten, ∀ (c : Int3 ι) (sched : List (List ℕ)), Runs3 A sp st i c → Usual c p sched Pm → Returns c p sched (J i) := by
    intro ds' h
    induction ds' with
    | nil => exact ⟨[], List.Forall₂.nil, by simp⟩
    | cons d ds' ih =>
      obtain ⟨ls, h1, h2⟩ := ih fun x hx => h x (List.mem_cons_of_mem _ hx)
      obtain ⟨l, h3, h4⟩ := one d (h d (List.mem_cons_self ..))
      refine ⟨l :: ls, List.Forall₂.cons h3 h1, fun i hi => ?_⟩
      rw [List.flatten_cons, List.mem_append] at hi
      rcases hi with hi | hi
      · exact h4 i hi
      · exact h2 i hi
  obtain ⟨ls, h1, h2⟩ := all ds fun _ h => h
  exact ⟨ls.flatten, ⟨ls, h1, List.Perm.refl _⟩, J, h2⟩

/-- The generated integrals have three legs, the first of them being the particle. -/
theorem generated_form (hinj : Function.Injective A.name) (P X Y : S) (hPX : P ≠ X) (hPY : P ≠ Y) (hXY : X ≠ Y)
    (hX : 0 ≤ A.mass X) (hY : 0 ≤ A.mass Y) (hopen : A.mass X + A.mass Y < A.mass P) (K : ℝ)
    (ds : List (Decl S)) (hds : ∀ d ∈ ds, Declares3 P X Y K d) (l : List (Integral3 S)) (hl : Generates3 A K ds l) :
    ∀ i ∈ l, ∃ x0 x1 x2 : Item S, i = ⟨x0.specie, [x0, x1, x2], [K]⟩ ∧ x1.specie ≠ x0.specie ∧ x2.specie ≠ x0.specie := by
  classical
  obtain ⟨ls, h1, h2⟩ := hl
  intro i hi
  obtain ⟨l', hl', hi'⟩ := List.mem_flatten.mp (h2.mem_iff.mp hi)
  obtain ⟨d, hd, hg⟩ : ∃ d ∈ ds, crossGenerating3 A.toAttr d.left d.right d.antiL d.antiR [K] = .ok l' := by
    clear h2 hi hi' hds
    induction h1 with
    | nil => simp at hl'
    | cons h _ ih =>
      rcases List.mem_cons.mp hl' with rfl | h'
      · exact ⟨_, List.mem_cons_self .., h⟩
      · obtain ⟨d, h3, h4⟩ := ih h'
        exact ⟨d, List.mem_cons_of_mem _ h3, h4⟩
  obtain ⟨u, v, w, hp, hu, hv, hw⟩ := legs_three (hds d hd)
  have hnd : (([u, v, w].filter fun o => CanLead A o).map (·.specie)).Nodup := by
    refine (List.Nodup.sublist ((List.filter_sublist).map _) ?_ : _)
    simp [hu, hv, hw, hPX, hPY, hXY]
  obtain ⟨l2, hl2, hperm⟩ := C127_generated A hinj d (hds d hd).lenL (hds d hd).lenR u v w hp (by rw [hv]; exact hX)
    (by rw [hw]; exact hY) (by rw [hu, hv, hw]; exact hopen) [K] hnd
  have e : l' = l2 := Except.ok.inj (hg.symm.trans hl2)
  subst e
  obtain ⟨o, ho, rfl⟩ := List.mem_map.mp (hperm.mem_iff.mp hi')
  have ho' := List.mem_of_mem_filter ho
  simp only [List.mem_cons, List.not_mem_nil, or_false] at ho'
  unfold channelOf
  by_cases c1 : o = u
  · rw [if_pos c1, ← c1]
    have ou : o.specie = P := by rw [c1, hu]
    rcases sort_pair A (toSide A.toAttr 1 v) (toSide A.toAttr 1 w) with e | e <;> rw [e]
    · exact ⟨_, _, _, by rw [toSide_specie], by rw [toSide_specie, toSide_specie, hv, ou]; exact Ne.symm hPX,
        by rw [toSide_specie, toSide_specie, hw, ou]; exact Ne.symm hPY⟩
    · exact ⟨_, _, _, by rw [toSide_specie], by rw [toSide_specie, toSide_specie, hw, ou]; exact Ne.symm hPY,
        by rw [toSide_specie, toSide_specie, hv, ou]; exact Ne.symm hPX⟩
  · rw [if_neg c1]
    by_cases c2 : o = v
    · rw [if_pos c2, c2]
      exact ⟨_, _, _, by rw [toSide_specie], by rw [toSide_specie, toSide_specie, hv, hw]; exact Ne.symm hXY,
        by rw [toSide_specie, toSide_specie, hv, hu]; exact hPX⟩
    · rw [if_neg c2]
      have c3 : o = w := (ho'.resolve_left c1).resolve_left c2
      rw [c3]
      exact ⟨_, _, _, by rw [toSide_specie], by rw [toSide_specie, toSide_specie, hv, hw]; exact hXY,
        by rw [toSide_specie, toSide_specie, hw, hu]; exact hPY⟩

/-- **C127 (conservation).** If the three species have the same share, the products gain what the parent loses: one particle
of each for every parent, and together its energy. -/
theorem C127_conserved_partial (hinj : Function.Injective A.name) (p : Params) (Pm : ℝ) (haT : 0 < p.aT) (ha : 0 < p.a) (hPm : 0 ≤ Pm)
    (P X Y : S) (hPX : P ≠ X) (hPY : P ≠ Y) (hXY : X ≠ Y) (hmass : ∀ s ∈ [P, X, Y], (sp s).mass = A.mass s)
    (hX : 0 ≤ A.mass X) (hY : 0 ≤ A.mass Y) (hopen : A.mass X + A.mass Y < A.mass P)
    (hreg : ∀ s ∈ [P, X, Y], Regular (toC (sp s) (st s) p)) (hdof : ∀ s ∈ [P, X, Y], (sp s).dof ≠ 0) (K : ℝ)
    (ds : List (Decl S)) (hds : ∀ d ∈ ds, Declares3 P X Y K d) (l : List (Integral3 S)) (hl : Generates3 A K ds l)
    (hsX : share A ds X = share A ds P) (hsY : share A ds Y = share A ds P) (J : Integral3 S → ℝ → ℝ)
    (hJ : ∀ i ∈ l, ∃ (c : Int3 ι) (sched : List (List ℕ)), Runs3 A sp st i c ∧ Usual c p sched Pm ∧ Returns c p sched (J i)) :
    (sp X).dof * (∫ y in Set.Ioi 0, y ^ 2 * totalOf l J X y) = -((sp P).dof * ∫ y in Set.Ioc 0 Pm, y ^ 2 * totalOf l J P y) ∧
    (sp Y).dof * (∫ y in Set.Ioi 0, y ^ 2 * totalOf l J Y y) = -((sp P).dof * ∫ y in Set.Ioc 0 Pm, y ^ 2 * totalOf l J P y) ∧
    (sp X).dof * (∫ y in Set.Ioi 0, y ^ 2 * energyOf ((sp X).mass * p.a) y * totalOf l J X y) +
      (sp Y).dof * (∫ y in Set.Ioi 0, y ^ 2 * energyOf ((sp Y).mass * p.a) y * totalOf l J Y y) =
      -((sp P).dof * ∫ y in Set.Ioc 0 Pm, y ^ 2 * energyOf ((sp P).mass * p.a) y * totalOf l J P y) := by
  obtain ⟨n, eX, eY, h1, h2, h3, h4, h5, h6⟩ := C127_shares A sp st hinj p Pm haT ha hPm P X Y hPX hPY hXY hmass hX hY hopen hreg
    hdof K ds hds l hl J hJ
  rw [h1, h2, h3, h4, h5, h6, hsX, hsY]
  refine ⟨by ring, by ring, by ring⟩

/-! ## Shares of the declarations of the library -/

theorem legs_decay (P X Y : S) (a b e : Bool) : legs [P] [X, Y] [a] [b, e] =
    [⟨-1, P, a, 0, false⟩, ⟨1, X, b, 1, false⟩, ⟨1, Y, e, 2, false⟩] := rfl

/-- Which species lead in a declaration `P → X Y`. -/
theorem leads_decay (P X Y : S) (hPX : P ≠ X) (hPY : P ≠ Y) (hXY : X ≠ Y) (a b e : Bool) (m : Amp) :
    (Leads A ⟨[P], [X, Y], [a], [b, e], m⟩ P ↔ a = false) ∧
    (Leads A ⟨[P], [X, Y], [a], [b, e], m⟩ X ↔ A.majorana X = true ∨ b = true) ∧
    (Leads A ⟨[P], [X, Y], [a], [b, e], m⟩ Y ↔ A.majorana Y = true ∨ e = true) := by
  unfold Leads
  rw [legs_decay]
  simp only [List.mem_cons, List.not_mem_nil, or_false, exists_eq_or_imp, exists_eq_left, CanLead]
  have h1 := Ne.symm hPX
  have h2 := Ne.symm hPY
  have h3 := Ne.symm hXY
  simp [hPX, hPY, hXY, h1, h2, h3]

theorem declares_decay (P X Y : S) (a b e : Bool) (K : ℝ) : Declares3 P X Y K ⟨[P], [X, Y], [a], [b, e], .three K⟩ :=
  ⟨rfl, rfl, List.Perm.refl _, rfl⟩

open Classical in
theorem share_two (d d' : Decl S) (s : S) : share A [d, d'] s =
    ((if Leads A d s then 1 else 0) + (if Leads A d' s then 1 else 0)) * (if A.majorana s then 1 else 2) := by
  unfold share
  rw [List.countP_cons, List.countP_cons, List.countP_nil]
  by_cases h : Leads A d s <;> by_cases h' : Leads A d' s <;> simp [h, h'] <;> norm_num

open Classical in
theorem share_one (d : Decl S) (s : S) : share A [d] s = (if Leads A d s then 1 else 0) * (if A.majorana s then 1 else 2) := by
  unfold share
  rw [List.countP_cons, List.countP_nil]
  by_cases h : Leads A d s <;> simp [h]

/-- **C127 (library).** The decays of charged pions, and those of a Dirac sterile neutrino into a meson and a lepton or a neutrino
(or of the meson, when it is the heaviest), are declared in pairs that give the same share to all three species. -/
theorem C127_library (c : LibConst) (θ : ℝ) (s0 s1 s2 : S) (h01 : s0 ≠ s1) (h02 : s0 ≠ s2) (h12 : s1 ≠ s2)
    (m0 : A.majorana s0 = false) (m1 : A.majorana s1 = false) :
    (A.majorana s2 = false → ∀ ds ∈ [decayChargedPion A c s0 s1 s2, chargedScalar A c θ s0 s1 s2, chargedVector A c θ s0 s1 s2],
      (∃ K, ∀ P X Y, [P, X, Y].Perm [s0, s1, s2] → ∀ d ∈ ds, Declares3 P X Y K d) ∧ ∀ s ∈ [s0, s1, s2], share A ds s = 2) ∧
    (A.majorana s2 = true → ∀ ds, (ds = neutralScalar A c θ s0 s1 s2 ∨ neutralVector A c θ s0 s1 s2 = some ds) →
      (∃ K, ∀ P X Y, [P, X, Y].Perm [s0, s1, s2] → ∀ d ∈ ds, Declares3 P X Y K d) ∧ ∀ s ∈ [s0, s1, s2], share A ds s = 2) := by
  have decl : ∀ (K : ℝ) (f f' : List Bool × List Bool), f.1.length = 1 → f.2.length = 2 → f'.1.length = 1 → f'.2.length = 2 →
      ∃ K', ∀ P X Y, [P, X, Y].Perm [s0, s1, s2] → ∀ d ∈ [f, f'].map fun a => (⟨[s0], [s1, s2], a.1, a.2, .three K⟩ : Decl S),
        Declares3 P X Y K' d := by
    intro K f f' e1 e2 e3 e4
    refine ⟨K, fun P X Y hp d hd => ?_⟩
    simp only [List.map_cons, List.map_nil, List.mem_cons, List.not_mem_nil, or_false] at hd
    rcases hd with rfl | rfl
    · exact ⟨e1.symm, e2.symm, hp.symm, rfl⟩
    · exact ⟨e3.symm, e4.symm, hp.symm, rfl⟩
  have sh1 : ∀ K : ℝ, A.majorana s2 = false → ∀ s ∈ [s0, s1, s2],
      share A ([([false], [false, true]), ([true], [true, false])].map fun a => (⟨[s0], [s1, s2], a.1, a.2, .three K⟩ : Decl S)) s = 2 := by
    intro K m2 s hs
    obtain ⟨a1, a2, a3⟩ := leads_decay A s0 s1 s2 h01 h02 h12 false false true (.three K)
    obtain ⟨b1, b2, b3⟩ := leads_decay A s0 s1 s2 h01 h02 h12 true true false (.three K)
    simp only [List.map_cons, List.map_nil, share_two]
    simp only [List.mem_cons, List.not_mem_nil, or_false] at hs
    rcases hs with rfl | rfl | rfl
    · simp [a1, b1, m0]
    · simp [a2, b2, m1]
    · simp [a3, b3, m2]
  have sh2 : ∀ K : ℝ, A.majorana s2 = true → ∀ s ∈ [s0, s1, s2],
      share A ([([false], [false, false]), ([true], [true, false])].map fun a => (⟨[s0], [s1, s2], a.1, a.2, .three K⟩ : Decl S)) s = 2 := by
    intro K m2 s hs
    obtain ⟨a1, a2, a3⟩ := leads_decay A s0 s1 s2 h01 h02 h12 false false false (.three K)
    obtain ⟨b1, b2, b3⟩ := leads_decay A s0 s1 s2 h01 h02 h12 true true false (.three K)
    simp only [List.map_cons, List.map_nil, share_two]
    simp only [List.mem_cons, List.not_mem_nil, or_false] at hs
    rcases hs with rfl | rfl | rfl
    · simp [a1, b1, m0]
    · simp [a2, b2, m1]
    · simp [a3, b3, m2]; norm_num
  refine ⟨fun m2 ds hds => ?_, fun m2 ds hds => ?_⟩
  · simp only [List.mem_cons, List.not_mem_nil, or_false] at hds
    rcases hds with rfl | rfl | rfl
    · exact ⟨decl _ _ _ rfl rfl rfl rfl, sh1 _ m2⟩
    · exact ⟨decl _ _ _ rfl rfl rfl rfl, sh1 _ m2⟩
    · exact ⟨decl _ _ _ rfl rfl rfl rfl, sh1 _ m2⟩
  · rcases hds with rfl | h
    · exact ⟨decl _ _ _ rfl rfl rfl rfl, sh2 _ m2⟩
    · unfold neutralVector at h
      obtain ⟨κ, -, rfl⟩ := Option.map_eq_some_iff.mp h
      exact ⟨decl _ _ _ rfl rfl rfl rfl, sh2 _ m2⟩

/-- **C127 (refuted: a Majorana sterile neutrino).** The same declarations with the Majorana sterile neutrino of the library
count it once and the other two species twice: the products of its decay receive twice what it loses, and when it is itself
a product it receives half of what it should. -/
theorem C127_majorana_refuted (c : LibConst) (θ : ℝ) (N s1 s2 : S) (h01 : N ≠ s1) (h02 : N ≠ s2) (h12 : s1 ≠ s2)
    (m0 : A.majorana N = true) (m1 : A.majorana s1 = false) :
    (A.majorana s2 = false → ∀ ds ∈ [chargedScalar A c θ N s1 s2, chargedVector A c θ N s1 s2],
      share A ds N = 1 ∧ share A ds s1 = 2 ∧ share A ds s2 = 2) ∧
    (A.majorana s2 = true → ∀ ds, (ds = neutralScalar A c θ N s1 s2 ∨ neutralVector A c θ N s1 s2 = some ds) →
      share A ds N = 1 ∧ share A ds s1 = 2 ∧ share A ds s2 = 2) := by
  have sh1 : ∀ K : ℝ, A.majorana s2 = false → ∀ ds, ds =
      ([([false], [false, true]), ([true], [true, false])].map fun a => (⟨[N], [s1, s2], a.1, a.2, .three K⟩ : Decl S)) →
      share A ds N = 1 ∧ share A ds s1 = 2 ∧ share A ds s2 = 2 := by
    rintro K m2 ds rfl
    obtain ⟨a1, a2, a3⟩ := leads_decay A N s1 s2 h01 h02 h12 false false true (.three K)
    obtain ⟨b1, b2, b3⟩ := leads_decay A N s1 s2 h01 h02 h12 true true false (.three K)
    simp only [List.map_cons, List.map_nil, share_two]
    simp [a1, b1, m0, a2, b2, m1, a3, b3, m2]
  have sh2 : ∀ K : ℝ, A.majorana s2 = true → ∀ ds, ds =
      ([([false], [false, false]), ([true], [true, false])].map fun a => (⟨[N], [s1, s2], a.1, a.2, .three K⟩ : Decl S)) →
      share A ds N = 1 ∧ share A ds s1 = 2 ∧ share A ds s2 = 2 := by
    rintro K m2 ds rfl
    obtain ⟨a1, a2, a3⟩ := leads_decay A N s1 s2 h01 h02 h12 false false false (.three K)
    obtain ⟨b1, b2, b3⟩ := leads_decay A N s1 s2 h01 h02 h12 true true false (.three K)
    simp only [List.map_cons, List.map_nil, share_two]
    simp [a1, b1, m0, a2, b2, m1, a3, b3, m2]
    norm_num
  refine ⟨fun m2 ds hds => ?_, fun m2 ds hds => ?_⟩
  · simp only [List.mem_cons, List.not_mem_nil, or_false] at hds
    rcases hds with rfl | rfl
    · exact sh1 _ m2 _ rfl
    · exact sh1 _ m2 _ rfl
  · rcases hds with rfl | h
    · exact sh2 _ m2 _ rfl
    · unfold neutralVector at h
      obtain ⟨κ, -, rfl⟩ := Option.map_eq_some_iff.mp h
      exact sh2 _ m2 _ rfl

/-- **C127 (decays of heavier mesons).** A single declaration is even-handed when all three species are their own
antiparticles (ω → π⁰ γ, η' → ρ⁰ γ, φ → K_L K_S, φ → ρ⁰ π⁰). -/
theorem C127_neutral (s0 s1 s2 : S) (h01 : s0 ≠ s1) (h02 : s0 ≠ s2) (h12 : s1 ≠ s2) (hm : ∀ s ∈ [s0, s1, s2], A.majorana s = true)
    (K : ℝ) : ∀ s ∈ [s0, s1, s2], share A (threeMeson s0 s1 s2 false false false K) s = 1 := by
  intro s hs
  have ms := hm s hs
  obtain ⟨a1, a2, a3⟩ := leads_decay A s0 s1 s2 h01 h02 h12 false false false (.three K)
  unfold threeMeson
  rw [share_one]
  simp only [List.mem_cons, List.not_mem_nil, or_false] at hs
  rcases hs with rfl | rfl | rfl
  · simp [a1, ms]
  · simp [a2, ms]
  · simp [a3, ms]

/-- **C127 (refuted: charged mesons).** K⁺ → π⁺ π⁰ and ρ⁺ → π⁺ π⁰ are declared once, without their conjugates: the neutral
pions get half of what is due to them, the charged ones nothing; of K⁺ → μ⁺ ν the neutrinos get their due, the muons nothing. -/
theorem C127_charged_refuted (M s1 s2 : S) (h01 : M ≠ s1) (h02 : M ≠ s2) (h12 : s1 ≠ s2) (m0 : A.majorana M = false)
    (m1 : A.majorana s1 = false) (K : ℝ) :
    (A.majorana s2 = true → share A (threeMeson M s1 s2 false false false K) M = 2 ∧
      share A (threeMeson M s1 s2 false false false K) s1 = 0 ∧ share A (threeMeson M s1 s2 false false false K) s2 = 1) ∧
    (A.majorana s2 = false → share A (threeMeson M s1 s2 false false true K) M = 2 ∧
      share A (threeMeson M s1 s2 false false true K) s1 = 0 ∧ share A (threeMeson M s1 s2 false false true K) s2 = 2) := by
  obtain ⟨a1, a2, a3⟩ := leads_decay A M s1 s2 h01 h02 h12 false false false (.three K)
  obtain ⟨b1, b2, b3⟩ := leads_decay A M s1 s2 h01 h02 h12 false false true (.three K)
  unfold threeMeson
  simp only [share_one]
  refine ⟨fun m2 => ?_, fun m2 => ?_⟩
  · simp [a1, a2, a3, m0, m1, m2]
  · simp [b1, b2, b3, m0, m1, m2]

/-! ## Two products of one species -/

/-- The spectra when both products are of the species `X`. -/
theorem alike_rates (p : Params) (Pm : ℝ) (haT : 0 < p.aT) (ha : 0 < p.a) (P X : S)
    (hm0 : 0 < (sp P).mass) (hm1 : 0 ≤ (sp X).mass) (hopen : (sp X).mass + (sp X).mass < (sp P).mass) (hP : 0 ≤ Pm)
    (hregP : Regular (toC (sp P) (st P) p)) (hregX : Regular (toC (sp X) (st X) p)) :
    ∃ I0 I1 : ℝ → ℝ,
      (∀ u v w o : Item S, (∀ x ∈ [u, v, w], x.side = -1 ∨ x.side = 1) → u.specie = P → v.specie = X → w.specie = X →
        o ∈ [u, v, w] → ∀ (Ks : List ℝ) (c : Int3 ι) (sched : List (List ℕ)),
        Runs3 A sp st ⟨o.specie, channelOf A u v w o, Ks⟩ c → Usual c p sched Pm →
        Returns c p sched fun y => Ks.sum * (if o = u then I0 y else I1 y) / c.weight) ∧
      (∫ y in Set.Ioi 0, y ^ 2 * I1 y) = -(∫ y in Set.Ioc 0 Pm, y ^ 2 * I0 y) ∧
      2 * (∫ y in Set.Ioi 0, y ^ 2 * energyOf ((sp X).mass * p.a) y * I1 y) =
        -(∫ y in Set.Ioc 0 Pm, y ^ 2 * energyOf ((sp P).mass * p.a) y * I0 y) := by
  obtain ⟨I, h0, h1, h2, hN1, hN2, hE, hI⟩ := decay3_rates p Pm ![sp P, sp X, sp X] ![st P, st X, st X] haT ha hm0 hm1 hm1
    hopen hP (by intro i; fin_cases i; exacts [hregP, hregX, hregX])
  have hI' := hI rfl rfl
  have hPX : P ≠ X := by rintro rfl; linarith
  refine ⟨I 0, I 1, ?_, ?_, ?_⟩
  · intro u v w o hs hu hv hw ho Ks c sched hr hus
    obtain ⟨hpl, hcov, hcut⟩ := hus
    have tu : ∀ k : ℤ, k = -1 ∨ k = 1 → (toSide A.toAttr k u).side = k := fun k hk => toSide_side _ _ _ (hs u (by simp)) hk
    have tv : ∀ k : ℤ, k = -1 ∨ k = 1 → (toSide A.toAttr k v).side = k := fun k hk => toSide_side _ _ _ (hs v (by simp)) hk
    have tw : ∀ k : ℤ, k = -1 ∨ k = 1 → (toSide A.toAttr k w).side = k := fun k hk => toSide_side _ _ _ (hs w (by simp)) hk
    have hK : c.K = Ks.sum := hr.K
    have nu : v ≠ u := fun e => hPX (by rw [← hu, ← hv, e])
    have nw : w ≠ u := fun e => hPX (by rw [← hu, ← hw, e])
    simp only [List.mem_cons, List.not_mem_nil, or_false] at ho
    by_cases hou : o = u
    · subst hou
      have hch : ∃ a b : Item S, channelOf A o v w o = [toSide A.toAttr (-1) o, a, b] ∧ a.specie = X ∧ b.specie = X ∧
          a.side = 1 ∧ b.side = 1 := by
        unfold channelOf
        rw [if_pos rfl]
        rcases sort_pair A (toSide A.toAttr 1 v) (toSide A.toAttr 1 w) with e | e <;> rw [e]
        · exact ⟨_, _, rfl, by rw [toSide_specie, hv], by rw [toSide_specie, hw], tv 1 (Or.inr rfl), tw 1 (Or.inr rfl)⟩
        · exact ⟨_, _, rfl, by rw [toSide_specie, hw], by rw [toSide_specie, hv], tw 1 (Or.inr rfl), tv 1 (Or.inr rfl)⟩
      obtain ⟨a, b, hch, a1, b1, a2, b2⟩ := hch
      rw [hch] at hr
      obtain ⟨r1, r2, r3⟩ := hr.reads3
      simp only [toSide_specie, hu, a1, b1, a2, b2, tu _ (Or.inl rfl)] at r1 r2 r3
      simp only [if_true]
      rw [← hK]
      exact h0 c sched r1 r2 r3 hpl hcov
    · have hch : ∃ a : Item S, channelOf A u v w o = [toSide A.toAttr (-1) o, toSide A.toAttr (-1) a, toSide A.toAttr 1 u] ∧
          a.specie = X ∧ (a.side = -1 ∨ a.side = 1) := by
        unfold channelOf
        rw [if_neg hou]
        by_cases hov : o = v
        · rw [if_pos hov, hov]; exact ⟨w, rfl, hw, hs w (by simp)⟩
        · rw [if_neg hov]
          have how : o = w := by tauto
          rw [how]; exact ⟨v, rfl, hv, hs v (by simp)⟩
      have hoX : o.specie = X := by
        rcases ho with h | h | h
        · exact absurd h hou
        · rw [h, hv]
        · rw [h, hw]
      obtain ⟨a, hch, a1, a2⟩ := hch
      rw [hch] at hr
      obtain ⟨r1, r2, r3⟩ := hr.reads3
      have tO : (toSide A.toAttr (-1) o).side = -1 := toSide_side _ _ _ (hs o (by simpa using ho)) (Or.inl rfl)
      have ta : (toSide A.toAttr (-1) a).side = -1 := toSide_side _ _ _ a2 (Or.inl rfl)
      simp only [toSide_specie, hu, a1, hoX, tu _ (Or.inr rfl), tO, ta] at r1 r2 r3
      simp only [if_neg hou]
      rw [← hK]
      obtain ⟨c1, c2⟩ := hcut (by rw [r3]; rfl)
      exact h1 c sched r1 r2 r3 hpl c1 c2 hcov
  · exact hN1
  · have e : (∫ y in Set.Ioi 0, y ^ 2 * energyOf ((![sp P, sp X, sp X] 2).mass * p.a) y * I 2 y) =
        ∫ y in Set.Ioi 0, y ^ 2 * energyOf ((sp X).mass * p.a) y * I 1 y := by
      refine setIntegral_congr_fun measurableSet_Ioi fun y hy => ?_
      beta_reduce
      rw [hI' y (le_of_lt hy)]; rfl
    rw [e] at hE
    rw [two_mul]
    exact hE

/-- What an integral with a given weight contributes. -/
theorem gain_eq (c w k : ℝ) (I J g : ℝ → ℝ) (D : Set ℝ) (hD : MeasurableSet D) (hpos : ∀ y ∈ D, 0 < y)
    (h : ∀ y, 0 < y → c * J y = k * (w * I y)) : c * (∫ y in D, g y * J y) = k * (w * ∫ y in D, g y * I y) := by
  rw [← integral_const_mul, ← integral_const_mul, ← integral_const_mul]
  refine setIntegral_congr_fun hD fun y hy => ?_
  have := h y (hpos y hy)
  beta_reduce
  linear_combination g y * this

theorem totalOf_pair (a b : Integral3 S) (h : a.particle ≠ b.particle) (J : Integral3 S → ℝ → ℝ) (y : ℝ) :
    totalOf [a, b] J a.particle y = J a y ∧ totalOf [a, b] J b.particle y = J b y := by
  unfold totalOf
  constructor <;> simp [List.filter_cons, h, Ne.symm h]

set_option maxHeartbeats 1000000 in
/-- **C127 (a pair of particle and antiparticle).** A species `P` that is its own antiparticle, which decays into a charged
particle and its antiparticle (ρ⁰ → π⁺ π⁻, φ → K⁺ K⁻, K_S → π⁺ π⁻): one integral for the charged species, which gains two particles
for every parent, and all its energy. -/
theorem C127_pair (hinj : Function.Injective A.name) (p : Params) (Pm : ℝ) (haT : 0 < p.aT) (ha : 0 < p.a) (hPm : 0 ≤ Pm)
    (P X : S) (mP : A.majorana P = true) (mX : A.majorana X = false) (qX : A.Q X ≠ 0)
    (hname : ∀ s ∈ [P, X], A.name s ≠ "Sterile neutrino (Dirac)") (hmass : ∀ s ∈ [P, X], (sp s).mass = A.mass s)
    (hX : 0 ≤ A.mass X) (hopen : A.mass X + A.mass X < A.mass P)
    (hreg : ∀ s ∈ [P, X], Regular (toC (sp s) (st s) p)) (hdof : ∀ s ∈ [P, X], (sp s).dof ≠ 0) (K : ℝ) (b : Bool) :
    ∃ l, crossGenerating3 A.toAttr [P] [X, X] [false] [b, !b] [K] = .ok l ∧ ∀ J : Integral3 S → ℝ → ℝ,
      (∀ i ∈ l, ∃ (c : Int3 ι) (sched : List (List ℕ)), Runs3 A sp st i c ∧ Usual c p sched Pm ∧ Returns c p sched (J i)) →
      (sp X).dof * (∫ y in Set.Ioi 0, y ^ 2 * totalOf l J X y) =
        -(2 * ((sp P).dof * ∫ y in Set.Ioc 0 Pm, y ^ 2 * totalOf l J P y)) ∧
      (sp X).dof * (∫ y in Set.Ioi 0, y ^ 2 * energyOf ((sp X).mass * p.a) y * totalOf l J X y) =
        -((sp P).dof * ∫ y in Set.Ioc 0 Pm, y ^ 2 * energyOf ((sp P).mass * p.a) y * totalOf l J P y) := by
  classical
  have hPX : P ≠ X := by rintro rfl; rw [mP] at mX; exact Bool.noConfusion mX
  have e1 := hmass P (by simp)
  have e2 := hmass X (by simp)
  have d1 := hdof P (by simp)
  have d2 := hdof X (by simp)
  obtain ⟨I0, I1, hI, hN, hE⟩ := alike_rates A sp st p Pm haT ha P X (by rw [e1]; linarith) (by rw [e2]; exact hX)
    (by rw [e1, e2]; exact hopen) hPm (hreg P (by simp)) (hreg X (by simp))
  -- the legs
  obtain ⟨u, hu⟩ : ∃ u : Item S, u = ⟨-1, P, false, 0, false⟩ := ⟨_, rfl⟩
  obtain ⟨v, hv⟩ : ∃ v : Item S, v = ⟨1, X, b, 1, false⟩ := ⟨_, rfl⟩
  obtain ⟨w, hw⟩ : ∃ w : Item S, w = ⟨1, X, !b, 2, false⟩ := ⟨_, rfl⟩
  have hlegs : legs [P] [X, X] [false] [b, !b] = [u, v, w] := by rw [hu, hv, hw]; rfl
  have hs : ∀ x ∈ [u, v, w], x.side = -1 ∨ x.side = 1 := by
    intro x hx
    simp only [List.mem_cons, List.not_mem_nil, or_false] at hx
    rcases hx with rfl | rfl | rfl
    · exact Or.inl (by rw [hu])
    · exact Or.inr (by rw [hv])
    · exact Or.inr (by rw [hw])
  have lu : CanLead A u := Or.inl (by rw [hu]; exact ⟨rfl, rfl⟩)
  obtain ⟨o, ho, hf⟩ : ∃ o, (o = v ∨ o = w) ∧ ([u, v, w].filter fun x => CanLead A x) = [u, o] := by
    have nl : ∀ x : Item S, x.side = 1 → x.specie = X → x.antiparticle = false → ¬ CanLead A x := by
      rintro x h1 h2 h3 (h | h)
      · rw [h1] at h; exact absurd h.1 (by decide)
      · rw [h2, mX, h3] at h; simp at h
    have yl : ∀ x : Item S, x.side = 1 → x.antiparticle = true → CanLead A x := fun x h1 h2 => Or.inr ⟨h1, Or.inr h2⟩
    cases b
    · refine ⟨w, Or.inr rfl, ?_⟩
      rw [List.filter_cons_of_pos (by simpa using lu),
        List.filter_cons_of_neg (by simpa using nl v (by rw [hv]) (by rw [hv]) (by rw [hv])),
        List.filter_cons_of_pos (by simpa using yl w (by rw [hw]) (by rw [hw]; rfl))]
      rfl
    · refine ⟨v, Or.inl rfl, ?_⟩
      rw [List.filter_cons_of_pos (by simpa using lu),
        List.filter_cons_of_pos (by simpa using yl v (by rw [hv]) (by rw [hv])),
        List.filter_cons_of_neg (by simpa using nl w (by rw [hw]) (by rw [hw]) (by rw [hw]; rfl))]
      rfl
  have su : u.specie = P := by rw [hu]
  have sv : v.specie = X := by rw [hv]
  have sw : w.specie = X := by rw [hw]
  have so : o.specie = X := by rcases ho with rfl | rfl <;> assumption
  have hou : o ≠ u := fun h => hPX (by rw [← su, ← so, h])
  obtain ⟨l, hl, hperm⟩ := C127_generated A hinj ⟨[P], [X, X], [false], [b, !b], .three K⟩ rfl rfl u v w
    (by rw [hlegs]) (by rw [sv]; exact hX) (by rw [sw]; exact hX) (by rw [su, sv, sw]; exact hopen) [K]
    (by rw [hf]; simp [su, so, hPX])
  rw [hf] at hperm
  simp only [List.map_cons, List.map_nil] at hperm
  refine ⟨l, hl, fun J hJ => ?_⟩
  set iP : Integral3 S := ⟨u.specie, channelOf A u v w u, [K]⟩ with hiP
  set iX : Integral3 S := ⟨o.specie, channelOf A u v w o, [K]⟩ with hiX
  have tP : ∀ y, totalOf l J P y = J iP y := fun y => by
    rw [total_perm hperm, ← su]
    exact (totalOf_pair iP iX (by rw [hiP, hiX]; dsimp only; rw [su, so]; exact hPX) J y).1
  have tX : ∀ y, totalOf l J X y = J iX y := fun y => by
    rw [total_perm hperm, ← so]
    exact (totalOf_pair iP iX (by rw [hiP, hiX]; dsimp only; rw [su, so]; exact hPX) J y).2
  have gP : ∀ y, 0 < y → (sp P).dof * totalOf l J P y = 1 * (K * I0 y) := by
    intro y hy
    obtain ⟨c, sched, h1, h2, h3⟩ := hJ iP (hperm.mem_iff.mpr (by simp))
    have := returns_unique h3 (hI u v w u hs su sv sw (by simp) [K] c sched h1 h2) y hy
    rw [tP y, this, if_pos rfl]
    have hch : ∃ a b : Item S, channelOf A u v w u = [toSide A.toAttr (-1) u, a, b] ∧ a.specie = X ∧ b.specie = X := by
      unfold channelOf
      rw [if_pos rfl]
      rcases sort_pair A (toSide A.toAttr 1 v) (toSide A.toAttr 1 w) with e | e <;> rw [e]
      · exact ⟨_, _, rfl, by rw [toSide_specie, sv], by rw [toSide_specie, sw]⟩
      · exact ⟨_, _, rfl, by rw [toSide_specie, sw], by rw [toSide_specie, sv]⟩
    obtain ⟨a, b', hch, a1, b1⟩ := hch
    rw [hiP, hch] at h1
    obtain ⟨n, n1, n2⟩ := h1.mult
    have hn := mult_one A _ _ _ _ (by rw [toSide_specie, a1, su]; exact Ne.symm hPX) n
      (by rw [toSide_specie, b1, su]; exact fun _ => Ne.symm hPX) n1
    have hsp := congrFun h1.reads3.1 0
    have hmj := h1.majorana
    dsimp only at hmj
    rw [su, mP] at hmj
    unfold Int3.weight
    rw [hsp, hmj, n2, hn]
    simp only [Matrix.cons_val_zero, toSide_specie, su, dofFactor, if_true, List.sum_cons, List.sum_nil]
    push_cast
    field_simp
    ring
  have gX : ∀ y, 0 < y → (sp X).dof * totalOf l J X y = 2 * (K * I1 y) := by
    intro y hy
    obtain ⟨c, sched, h1, h2, h3⟩ := hJ iX (hperm.mem_iff.mpr (by simp))
    have := returns_unique h3 (hI u v w o hs su sv sw (by rcases ho with rfl | rfl <;> simp) [K] c sched h1 h2) y hy
    rw [tX y, this, if_neg hou]
    have hch : ∃ a : Item S, channelOf A u v w o = [toSide A.toAttr (-1) o, toSide A.toAttr (-1) a, toSide A.toAttr 1 u] ∧
        a.specie = X := by
      unfold channelOf
      rw [if_neg hou]
      by_cases hov : o = v
      · rw [if_pos hov, hov]; exact ⟨w, rfl, sw⟩
      · rw [if_neg hov]
        have how : o = w := ho.resolve_left hov
        rw [how]; exact ⟨v, rfl, sv⟩
    obtain ⟨a, hch, a1⟩ := hch
    rw [hiX, hch] at h1
    obtain ⟨n, n1, n2⟩ := h1.mult
    dsimp only at n1
    rw [C62_three, if_neg] at n1
    · have hn : n = 1 := (Except.ok.inj n1).symm
      have hsp := congrFun h1.reads3.1 0
      have hmj := h1.majorana
      dsimp only at hmj
      rw [so, mX] at hmj
      unfold Int3.weight
      rw [hsp, hmj, n2, hn]
      simp only [Matrix.cons_val_zero, toSide_specie, so, dofFactor, List.sum_cons, List.sum_nil]
      push_cast
      field_simp
      ring
    · rintro ⟨h | h, -⟩
      · obtain ⟨x, hx, hx2⟩ := h
        simp only [List.mem_cons, List.not_mem_nil, or_false] at hx
        rcases hx with rfl | rfl | rfl
        · rw [toSide_specie, so] at hx2; exact hname X (by simp) hx2
        · rw [toSide_specie, a1] at hx2; exact hname X (by simp) hx2
        · rw [toSide_specie, su] at hx2; exact hname P (by simp) hx2
      · refine h.2 ⟨by rw [toSide_specie, su]; exact mP, ?_⟩
        rw [so]; exact decide_eq_true qX
  have pI : ∀ y ∈ Set.Ioi (0 : ℝ), 0 < y := fun y hy => hy
  have pC : ∀ y ∈ Set.Ioc (0 : ℝ) Pm, 0 < y := fun y hy => hy.1
  constructor
  · rw [gain_eq _ K 2 I1 _ (fun y => y ^ 2) _ measurableSet_Ioi pI gX, gain_eq _ K 1 I0 _ (fun y => y ^ 2) _ measurableSet_Ioc pC gP, hN]
    ring
  · rw [gain_eq _ K 2 I1 _ (fun y => y ^ 2 * energyOf ((sp X).mass * p.a) y) _ measurableSet_Ioi pI gX,
      gain_eq _ K 1 I0 _ (fun y => y ^ 2 * energyOf ((sp P).mass * p.a) y) _ measurableSet_Ioc pC gP]
    linear_combination K * hE

set_option maxHeartbeats 1000000 in
/-- **C127 (refuted: two identical products).** A decay into two particles of a neutral species that is its own antiparticle
(π⁰ → γ γ, η → γ γ, K_S → π⁰ π⁰): the two integrals are merged into one with twice the matrix element, which `CollisionMultiplier3p`
doubles once more, so that the products gain twice the energy (and four particles instead of two). -/
theorem C127_identical_refuted (hinj : Function.Injective A.name) (p : Params) (Pm : ℝ) (haT : 0 < p.aT) (ha : 0 < p.a) (hPm : 0 ≤ Pm)
    (P X : S) (mP : A.majorana P = true) (mX : A.majorana X = true) (qX : A.Q X = 0)
    (hmass : ∀ s ∈ [P, X], (sp s).mass = A.mass s)
    (hX : 0 ≤ A.mass X) (hopen : A.mass X + A.mass X < A.mass P)
    (hreg : ∀ s ∈ [P, X], Regular (toC (sp s) (st s) p)) (hdof : ∀ s ∈ [P, X], (sp s).dof ≠ 0) (K : ℝ) (hK : K ≠ 0) (b b2 : Bool) :
    ∃ l, crossGenerating3 A.toAttr [P] [X, X] [false] [b, b2] [K] = .ok l ∧ ∀ J : Integral3 S → ℝ → ℝ,
      (∀ i ∈ l, ∃ (c : Int3 ι) (sched : List (List ℕ)), Runs3 A sp st i c ∧ Usual c p sched Pm ∧ Returns c p sched (J i)) →
      (sp X).dof * (∫ y in Set.Ioi 0, y ^ 2 * totalOf l J X y) =
        -(4 * ((sp P).dof * ∫ y in Set.Ioc 0 Pm, y ^ 2 * totalOf l J P y)) ∧
      (sp X).dof * (∫ y in Set.Ioi 0, y ^ 2 * energyOf ((sp X).mass * p.a) y * totalOf l J X y) =
        -(2 * ((sp P).dof * ∫ y in Set.Ioc 0 Pm, y ^ 2 * energyOf ((sp P).mass * p.a) y * totalOf l J P y)) := by
  classical
  have hPX : P ≠ X := by rintro rfl; linarith
  have e1 := hmass P (by simp)
  have e2 := hmass X (by simp)
  have d1 := hdof P (by simp)
  have d2 := hdof X (by simp)
  obtain ⟨I0, I1, hI, hN, hE⟩ := alike_rates A sp st p Pm haT ha P X (by rw [e1]; linarith) (by rw [e2]; exact hX)
    (by rw [e1, e2]; exact hopen) hPm (hreg P (by simp)) (hreg X (by simp))
  -- the legs
  obtain ⟨u, hu⟩ : ∃ u : Item S, u = ⟨-1, P, false, 0, false⟩ := ⟨_, rfl⟩
  obtain ⟨v, hv⟩ : ∃ v : Item S, v = ⟨1, X, b, 1, false⟩ := ⟨_, rfl⟩
  obtain ⟨w, hw⟩ : ∃ w : Item S, w = ⟨1, X, b2, 2, false⟩ := ⟨_, rfl⟩
  have hlegs : legs [P] [X, X] [false] [b, b2] = [u, v, w] := by rw [hu, hv, hw]; rfl
  have hs : ∀ x ∈ [u, v, w], x.side = -1 ∨ x.side = 1 := by
    intro x hx
    simp only [List.mem_cons, List.not_mem_nil, or_false] at hx
    rcases hx with rfl | rfl | rfl
    · exact Or.inl (by rw [hu])
    · exact Or.inr (by rw [hv])
    · exact Or.inr (by rw [hw])
  have lu : CanLead A u := Or.inl (by rw [hu]; exact ⟨rfl, rfl⟩)
  have su : u.specie = P := by rw [hu]
  have sv : v.specie = X := by rw [hv]
  have sw : w.specie = X := by rw [hw]
  obtain ⟨l, o, hl, ho, hperm⟩ := C127_merged A hinj ⟨[P], [X, X], [false], [b, b2], .three K⟩ rfl rfl u v w
    (by rw [hlegs]) (by rw [sv]; exact hX) (by rw [su, sv, sw]; exact hopen) (by rw [sv, sw]) lu
    (Or.inr (by rw [hv]; exact ⟨rfl, Or.inl mX⟩)) (Or.inr (by rw [hw]; exact ⟨rfl, Or.inl mX⟩)) K hK
  have so : o.specie = X := by rcases ho with rfl | rfl <;> assumption
  have hou : o ≠ u := fun h => hPX (by rw [← su, ← so, h])
  rw [show v.specie = o.specie by rw [sv, so]] at hperm
  refine ⟨l, hl, fun J hJ => ?_⟩
  set iP : Integral3 S := ⟨u.specie, channelOf A u v w u, [K]⟩ with hiP
  set iX : Integral3 S := ⟨o.specie, channelOf A u v w o, [K + K]⟩ with hiX
  have tP : ∀ y, totalOf l J P y = J iP y := fun y => by
    rw [total_perm hperm, ← su]
    exact (totalOf_pair iP iX (by rw [hiP, hiX]; dsimp only; rw [su, so]; exact hPX) J y).1
  have tX : ∀ y, totalOf l J X y = J iX y := fun y => by
    rw [total_perm hperm, ← so]
    exact (totalOf_pair iP iX (by rw [hiP, hiX]; dsimp only; rw [su, so]; exact hPX) J y).2
  have gP : ∀ y, 0 < y → (sp P).dof * totalOf l J P y = 1 * (K * I0 y) := by
    intro y hy
    obtain ⟨c, sched, h1, h2, h3⟩ := hJ iP (hperm.mem_iff.mpr (by simp))
    have := returns_unique h3 (hI u v w u hs su sv sw (by simp) [K] c sched h1 h2) y hy
    rw [tP y, this, if_pos rfl]
    have hch : ∃ a b : Item S, channelOf A u v w u = [toSide A.toAttr (-1) u, a, b] ∧ a.specie = X ∧ b.specie = X := by
      unfold channelOf
      rw [if_pos rfl]
      rcases sort_pair A (toSide A.toAttr 1 v) (toSide A.toAttr 1 w) with e | e <;> rw [e]
      · exact ⟨_, _, rfl, by rw [toSide_specie, sv], by rw [toSide_specie, sw]⟩
      · exact ⟨_, _, rfl, by rw [toSide_specie, sw], by rw [toSide_specie, sv]⟩
    obtain ⟨a, b', hch, a1, b1⟩ := hch
    rw [hiP, hch] at h1
    obtain ⟨n, n1, n2⟩ := h1.mult
    have hn := mult_one A _ _ _ _ (by rw [toSide_specie, a1, su]; exact Ne.symm hPX) n
      (by rw [toSide_specie, b1, su]; exact fun _ => Ne.symm hPX) n1
    have hsp := congrFun h1.reads3.1 0
    have hmj := h1.majorana
    dsimp only at hmj
    rw [su, mP] at hmj
    unfold Int3.weight
    rw [hsp, hmj, n2, hn]
    simp only [Matrix.cons_val_zero, toSide_specie, su, dofFactor, if_true, List.sum_cons, List.sum_nil]
    push_cast
    field_simp
    ring
  have gX : ∀ y, 0 < y → (sp X).dof * totalOf l J X y = 4 * (K * I1 y) := by
    intro y hy
    obtain ⟨c, sched, h1, h2, h3⟩ := hJ iX (hperm.mem_iff.mpr (by simp))
    have := returns_unique h3 (hI u v w o hs su sv sw (by rcases ho with rfl | rfl <;> simp) [K + K] c sched h1 h2) y hy
    rw [tX y, this, if_neg hou]
    have hch : ∃ a : Item S, channelOf A u v w o = [toSide A.toAttr (-1) o, toSide A.toAttr (-1) a, toSide A.toAttr 1 u] ∧
        a.specie = X ∧ (a.side = -1 ∨ a.side = 1) := by
      unfold channelOf
      rw [if_neg hou]
      by_cases hov : o = v
      · rw [if_pos hov, hov]; exact ⟨w, rfl, sw, hs w (by simp)⟩
      · rw [if_neg hov]
        have how : o = w := ho.resolve_left hov
        rw [how]; exact ⟨v, rfl, sv, hs v (by simp)⟩
    obtain ⟨a, hch, a1, a2⟩ := hch
    rw [hiX, hch] at h1
    obtain ⟨n, n1, n2⟩ := h1.mult
    dsimp only at n1
    have hso : (toSide A.toAttr (-1) o).side = -1 :=
      toSide_side _ _ _ (hs o (by rcases ho with rfl | rfl <;> simp)) (Or.inl rfl)
    have hsa : (toSide A.toAttr (-1) a).side = -1 := toSide_side _ _ _ a2 (Or.inl rfl)
    have hsu : (toSide A.toAttr 1 u).side = 1 := toSide_side _ _ _ (hs u (by simp)) (Or.inr rfl)
    rw [C62_three, if_pos] at n1
    · have hn : n = 2 := (Except.ok.inj n1).symm
      have hsp := congrFun h1.reads3.1 0
      have hmj := h1.majorana
      dsimp only at hmj
      rw [so, mX] at hmj
      unfold Int3.weight
      rw [hsp, hmj, n2, hn]
      simp only [Matrix.cons_val_zero, toSide_specie, so, dofFactor, List.sum_cons, List.sum_nil, if_true]
      push_cast
      field_simp
      ring
    · refine ⟨Or.inr ⟨Or.inl ?_, ?_⟩, ?_, ?_⟩
      · simp [sumSides, hso, hsa, hsu]
      · rintro ⟨-, h⟩
        rw [so, qX] at h
        simp at h
      · simp [sameAsFirst, hso, hsa, hsu, toSide_specie, so, a1]
      · simp [sameAsFirst, hso, hsa, hsu, toSide_specie, so, su, Ne.symm hPX]
  have pI : ∀ y ∈ Set.Ioi (0 : ℝ), 0 < y := fun y hy => hy
  have pC : ∀ y ∈ Set.Ioc (0 : ℝ) Pm, 0 < y := fun y hy => hy.1
  constructor
  · rw [gain_eq _ K 4 I1 _ (fun y => y ^ 2) _ measurableSet_Ioi pI gX, gain_eq _ K 1 I0 _ (fun y => y ^ 2) _ measurableSet_Ioc pC gP, hN]
    ring
  · rw [gain_eq _ K 4 I1 _ (fun y => y ^ 2 * energyOf ((sp X).mass * p.a) y) _ measurableSet_Ioi pI gX,
      gain_eq _ K 1 I0 _ (fun y => y ^ 2 * energyOf ((sp P).mass * p.a) y) _ measurableSet_Ioc pC gP]
    linear_combination 2 * K * hE

end
/-- **C127 (shipped templates).** With the particles of the library: the pair of declarations for each decay of the heavy neutrino
(or into it) by a neutral meson and a neutrino or a charged meson and a lepton, the two for the charged pion, and the single
declarations of neutral mesons decaying into two different neutral particles give equal shares. -/
theorem C127_templates (MeV : ℝ) (mN : ℚ) (c : LibConst) (θ K : ℝ) :
    (∀ nu ∈ [Tmpl.nuE, .nuMu, .nuTau], ∀ m ∈ [Tmpl.pi0, .kaonL, .kaonS, .eta, .etaP, .rho0, .omega, .phi],
      ∀ ds, (ds = neutralScalar (tmplAttr MeV mN) c θ .sterile nu m ∨ neutralVector (tmplAttr MeV mN) c θ .sterile nu m = some ds) →
        ∀ s ∈ [.sterile, nu, m], share (tmplAttr MeV mN) ds s = 2) ∧
    (∀ l ∈ [Tmpl.electron, .muon, .tau], ∀ m ∈ [Tmpl.pi, .kaon, .rho],
      ∀ ds ∈ [chargedScalar (tmplAttr MeV mN) c θ .sterile l m, chargedVector (tmplAttr MeV mN) c θ .sterile l m],
        ∀ s ∈ [.sterile, l, m], share (tmplAttr MeV mN) ds s = 2) ∧
    (∀ s ∈ [Tmpl.pi, .muon, .nuMu], share (tmplAttr MeV mN) (decayChargedPion (tmplAttr MeV mN) c .pi .muon .nuMu) s = 2) ∧
    (∀ t ∈ [(Tmpl.omega, Tmpl.pi0, Tmpl.photon), (.etaP, .rho0, .photon), (.phi, .kaonL, .kaonS), (.phi, .rho0, .pi0)],
      ∀ s ∈ [t.1, t.2.1, t.2.2], share (tmplAttr MeV mN) (threeMeson t.1 t.2.1 t.2.2 false false false K) s = 1) := by
  refine ⟨?_, ?_, ?_, ?_⟩
  · intro nu hnu m hm ds hds
    have h : Tmpl.majorana nu = false ∧ Tmpl.majorana m = true ∧ Tmpl.sterile ≠ nu ∧ Tmpl.sterile ≠ m ∧ nu ≠ m := by
      clear hds ds
      revert m nu; decide
    exact ((C127_library (tmplAttr MeV mN) c θ .sterile nu m h.2.2.1 h.2.2.2.1 h.2.2.2.2 rfl h.1).2 h.2.1 ds hds).2
  · intro l hl m hm ds hds
    have h : Tmpl.majorana l = false ∧ Tmpl.majorana m = false ∧ Tmpl.sterile ≠ l ∧ Tmpl.sterile ≠ m ∧ l ≠ m := by
      clear hds ds
      revert m l; decide
    exact ((C127_library (tmplAttr MeV mN) c θ .sterile l m h.2.2.1 h.2.2.2.1 h.2.2.2.2 rfl h.1).1 h.2.1 ds
      (List.mem_cons_of_mem _ hds)).2
  · exact ((C127_library (tmplAttr MeV mN) c θ .pi .muon .nuMu (by decide) (by decide) (by decide) rfl rfl).1 rfl _
      (List.mem_cons_self ..)).2
  · intro t ht
    have h : t.1 ≠ t.2.1 ∧ t.1 ≠ t.2.2 ∧ t.2.1 ≠ t.2.2 ∧ ∀ s ∈ [t.1, t.2.1, t.2.2], Tmpl.majorana s = true := by
      revert t; decide
    exact C127_neutral (tmplAttr MeV mN) t.1 t.2.1 t.2.2 h.1 h.2.1 h.2.2.1 h.2.2.2 K


section Example

private def ctA : LibAttr (Fin 3) where
  name := ![ "P", "X", "Y" ]
  mass := ![2, 0, 1]
  majorana := fun _ => false
  Q := fun _ => 0
  flavour := fun _ => ""
  mesonType := fun _ => ""
  decayConstant := fun _ => 0
  family := fun _ => 0

/-- A particle of mass 2 with the spectrum `1/2, 1/4, 1/8`, a massless fermion and a boson of mass 1. -/
private def ctSp : Fin 3 → Species := fun i =>
  { name := "X", mass := ![2, 0, 1] i, dof := 2, fermion := decide (i ≠ 2), thermalDyn := false, Q := 0,
    grid := [0, 1, 3], fastDecay := false, lifetime := 0 }
private noncomputable def ctSt : Fin 3 → PState ℕ := fun i =>
  { T := 1, aT := 1, Tdec := 2, dist := ![[1/2, 1/4, 1/8], [1/3, 0, 0], [2, 1, 0]] i, coll := [], integrals := [],
    tDec := 0, decayed := false, density := 0, histDist := [], histColl := [], histT := [], histDensity := [] }
private noncomputable def ctP : Params :=
  { log := true, m := 1, T := 1/2, a := 2, aIni := 1, x := 1, y := none, aT := 1, t := 1, H := 1, rho := none,
    S := none, Neff := 3, dy := 1, dx := 1, h := 1 }
private noncomputable def ctInt (σ : Fin 3 → Fin 3) (sides : Fin 3 → ℤ) : Int3 ℕ :=
  { sp := fun i => ctSp (σ i), st := fun i => ctSt (σ i), side := sides, K := 1,
    majorana := false, mult := 1, kind := .full, neglect := false, min1 := 0, max1 := 3, max2 := 3,
    lb := (bounds3Creation ⟨(ctSp (σ 0)).mass * 2, decide (σ 0 = 1), 3, []⟩ ⟨(ctSp (σ 1)).mass * 2, false, 3, []⟩
      ⟨(ctSp (σ 2)).mass * 2, false, 3, []⟩).1,
    ub := (bounds3Creation ⟨(ctSp (σ 0)).mass * 2, decide (σ 0 = 1), 3, []⟩ ⟨(ctSp (σ 1)).mass * 2, false, 3, []⟩
      ⟨(ctSp (σ 2)).mass * 2, false, 3, []⟩).2,
    creationFast := false, br := none, num := 0, total := fun _ => 0 }

private def ctD : List (Decl (Fin 3)) :=
  [⟨[0], [1, 2], [false], [false, true], .three 1⟩, ⟨[0], [1, 2], [true], [true, false], .three 1⟩]

private theorem ctInj : Function.Injective ctA.name := by decide

private theorem ct_usual (σ : Fin 3 → Fin 3) (sides : Fin 3 → ℤ) :
    Usual (ctInt σ sides) ctP (oneThread (ctInt σ sides) ctP) 3 := by
  have inc : StrictInc [(0 : ℝ), 1, 3] := by norm_num [StrictInc]
  refine ⟨⟨rfl, rfl, rfl, ⟨1, [3], rfl⟩, inc, by norm_num [ctInt, ctSp, dofFactor], one_ne_zero⟩, covers_oneThread _ _,
    fun _ => ⟨⟨_, _, _, rfl, rfl, rfl, ?_, rfl, rfl⟩, rfl⟩⟩
  change decide (σ 0 = 1) = true ↔ (ctSp (σ 0)).mass = 0
  generalize σ 0 = i
  fin_cases i <;> norm_num [ctSp]

/-- Every integral generated from the two declarations is run by some integral that takes the usual path. -/
private theorem ct_runs (x0 x1 x2 : Item (Fin 3)) (h1 : x1.specie ≠ x0.specie) (h2 : x2.specie ≠ x0.specie) :
    Runs3 ctA ctSp ctSt ⟨x0.specie, [x0, x1, x2], [1]⟩ (ctInt ![x0.specie, x1.specie, x2.specie] ![x0.side, x1.side, x2.side]) := by
  refine ⟨fun j => ?_, by norm_num [ctInt], ⟨1, ?_, by norm_num [ctInt]⟩, rfl⟩
  · fin_cases j
    · exact ⟨x0, rfl, rfl, rfl, rfl⟩
    · exact ⟨x1, rfl, rfl, rfl, rfl⟩
    · exact ⟨x2, rfl, rfl, rfl, rfl⟩
  · dsimp only
    obtain ⟨n, hn⟩ : ∃ n, multiplier3 ctA.toAttr (decide (ctA.Q x0.specie ≠ 0)) [x0, x1, x2] = .ok n := by
      rw [C62_three]; exact ⟨_, rfl⟩
    rw [hn, mult_one ctA _ _ _ _ h1 n (fun _ => h2) hn]

/-- Two declarations of a decay into a fermion and a boson, all with antiparticles: the three species gain and lose the same
number of particles. -/
example : ∃ (l : List (Integral3 (Fin 3))) (J : Integral3 (Fin 3) → ℝ → ℝ), Generates3 ctA 1 ctD l ∧
    (∀ i ∈ l, ∃ (c : Int3 ℕ) (sched : List (List ℕ)), Runs3 ctA ctSp ctSt i c ∧ Usual c ctP sched 3 ∧ Returns c ctP sched (J i)) ∧
    2 * (∫ y in Set.Ioi 0, y ^ 2 * totalOf l J 1 y) = -(2 * ∫ y in Set.Ioc 0 3, y ^ 2 * totalOf l J 0 y) := by
  have reg : ∀ s ∈ [(0 : Fin 3), 1, 2], Regular (toC (ctSp s) (ctSt s) ctP) := by
    intro i _
    refine regular_toC _ _ _ (by norm_num [ctP]) [1, 3] ?_ rfl (by norm_num [StrictInc, ctSp]) ?_ (by norm_num [ctSt]) ?_
    · simp [inEq, ctSp]
    · fin_cases i <;> rfl
    · fin_cases i <;> norm_num [ctSt, ctSp] <;> rfl
  have hds : ∀ d ∈ ctD, Declares3 (0 : Fin 3) 1 2 1 d := by
    intro d hd
    simp only [ctD, List.mem_cons, List.not_mem_nil, or_false] at hd
    rcases hd with rfl | rfl
    · exact declares_decay _ _ _ _ _ _ _
    · exact declares_decay _ _ _ _ _ _ _
  have ms : ∀ s ∈ [(0 : Fin 3), 1, 2], (ctSp s).mass = ctA.mass s := fun _ _ => rfl
  have m1 : (0 : ℝ) ≤ ctA.mass 1 := by norm_num [ctA]
  have m2 : (0 : ℝ) ≤ ctA.mass 2 := by change (0 : ℝ) ≤ 1; norm_num
  have mo : ctA.mass 1 + ctA.mass 2 < ctA.mass 0 := by change (0 : ℝ) + 1 < 2; norm_num
  obtain ⟨l, hl, J, hJ⟩ := C127_returns ctA ctSp ctSt ctInj ctP 3 (by norm_num [ctP]) (by norm_num [ctP]) (by norm_num)
    0 1 2 (by decide) (by decide) (by decide) ms m1 m2 mo reg 1 ctD hds
  have hruns := generated_form ctA ctInj 0 1 2 (by decide) (by decide) (by decide) m1 m2 mo 1 ctD hds l hl
  have hJ' : ∀ i ∈ l, ∃ (c : Int3 ℕ) (sched : List (List ℕ)), Runs3 ctA ctSp ctSt i c ∧ Usual c ctP sched 3 ∧
      Returns c ctP sched (J i) := by
    intro i hi
    obtain ⟨x0, x1, x2, rfl, h1, h2⟩ := hruns i hi
    have r := ct_runs x0 x1 x2 h1 h2
    exact ⟨_, _, r, ct_usual _ _, hJ _ hi _ _ r (ct_usual _ _)⟩
  have sh : ∀ s : Fin 3, share ctA ctD s = 2 := by
    intro s
    obtain ⟨a1, a2, a3⟩ := leads_decay ctA 0 1 2 (by decide) (by decide) (by decide) false false true (.three 1)
    obtain ⟨b1, b2, b3⟩ := leads_decay ctA 0 1 2 (by decide) (by decide) (by decide) true true false (.three 1)
    unfold ctD
    rw [share_two]
    fin_cases s
    · simp [a1, b1]; simp [ctA]
    · simp [a2, b2]; simp [ctA]
    · simp [a3, b3]; simp [ctA]
  refine ⟨l, J, hl, hJ', ?_⟩
  exact (C127_conserved_partial ctA ctSp ctSt ctInj ctP 3 (by norm_num [ctP]) (by norm_num [ctP]) (by norm_num)
    0 1 2 (by decide) (by decide) (by decide) ms m1 m2 mo reg (fun s _ => by norm_num [ctSp]) 1 ctD hds l hl (by rw [sh, sh])
    (by rw [sh, sh]) J hJ').1

end Example
end PyBBN
