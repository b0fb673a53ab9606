import Verif.Model.Universe
import Verif.Props.Particle
import Verif.Props.Kinematics
import Mathlib.Algebra.BigOperators.Group.List.Basic
/-!
# All particles together: shapes of results, sums over integrals, which state is read (C90, C91, C92)
-/
namespace PyBBN

variable {ι : Type*}

/-! ## C90: what `integrate` returns fits what the caller does with it -/

/-- The slope contributed by a result at grid point `j`. -/
def IntOut.slope : IntOut → ℕ → ℝ
  | .one G, j => (G[j]?).getD 0
  | .two C _, j => (C[j]?).getD 0

/-- The part of the slope proportional to the occupation that goes into the implicit solver: second array of
a pair; for the single arrays of the kinds `F_decay` and `F_f_vacuum_decay`, the array itself; nothing for
the other kinds. -/
def IntOut.implicit (k : CKind) : IntOut → ℕ → ℝ
  | .two _ B, j => (B[j]?).getD 0
  | .one G, j => if k = .fDecay ∨ k = .ffVac then (G[j]?).getD 0 else 0

/-- A pair of arrays over the grid for the two `Full` kinds, a single array over the grid otherwise. -/
def IntOut.Shaped (k : CKind) (n : ℕ) : IntOut → Prop
  | .two C B => (k = .full ∨ k = .fullVac) ∧ C.length = n ∧ B.length = n
  | .one G => ¬ (k = .full ∨ k = .fullVac) ∧ G.length = n

theorem sumArr_acc (n : ℕ) (l : List (List ℝ)) (acc : List ℝ) (ha : acc.length = n)
    (h : ∀ x ∈ l, x.length = n) :
    (l.foldl (fun acc x => List.zipWith (· + ·) acc x) acc).length = n ∧
    ∀ j < n, ((l.foldl (fun acc x => List.zipWith (· + ·) acc x) acc)[j]?).getD 0 =
      (acc[j]?).getD 0 + (l.map fun x => (x[j]?).getD 0).sum := by
  induction l generalizing acc with
  | nil => exact ⟨ha, fun j _ => by simp⟩
  | cons x l ih =>
    have hx := h x (by simp)
    obtain ⟨i1, i2⟩ := ih (List.zipWith (· + ·) acc x) (by simp [ha, hx]) fun y hy => h y (by simp [hy])
    refine ⟨i1, fun j hj => ?_⟩
    rw [List.foldl_cons, i2 j hj, List.map_cons, List.sum_cons]
    have h1 : j < acc.length := by omega
    have h2 : j < x.length := by omega
    simp only [List.getElem?_zipWith, List.getElem?_eq_getElem h1, List.getElem?_eq_getElem h2,
      Option.getD_some]
    ring

theorem sumArr_value (n : ℕ) (l : List (List ℝ)) (h : ∀ x ∈ l, x.length = n) :
    (sumArr n l).length = n ∧
    ∀ j < n, ((sumArr n l)[j]?).getD 0 = (l.map fun x => (x[j]?).getD 0).sum := by
  obtain ⟨h1, h2⟩ := sumArr_acc n l (List.replicate n 0) (by simp) h
  refine ⟨h1, fun j hj => ?_⟩
  have := h2 j hj
  rw [List.getElem?_replicate, if_pos hj] at this
  simpa [sumArr] using this

/-- **C90 (sums).** If every result has the shape of its kind, nothing raises, and the arrays handed to the
solver are, grid point by grid point, the sums over all registered integrals: each counted once, none
dropped, in whatever order. -/
theorem C90_sums (n : ℕ) (outs : List (CKind × IntOut)) (h : ∀ o ∈ outs, o.2.Shaped o.1 n) :
    ∃ ab b, collect outs = .ok (ab, b) ∧ (sumArr n ab).length = n ∧ (sumArr n b).length = n ∧
      ∀ j < n, ((sumArr n ab)[j]?).getD 0 = (outs.map fun o => o.2.slope j).sum ∧
        ((sumArr n b)[j]?).getD 0 = (outs.map fun o => o.2.implicit o.1 j).sum := by
  have key : ∃ ab b, collect outs = .ok (ab, b) ∧ (∀ x ∈ ab, x.length = n) ∧ (∀ x ∈ b, x.length = n) ∧
      ∀ j, (ab.map fun x => (x[j]?).getD 0).sum = (outs.map fun o => o.2.slope j).sum ∧
        (b.map fun x => (x[j]?).getD 0).sum = (outs.map fun o => o.2.implicit o.1 j).sum := by
    induction outs with
    | nil => exact ⟨[], [], rfl, by simp, by simp, by simp⟩
    | cons o outs ih =>
      obtain ⟨ab, b, e, hab, hb, hs⟩ := ih fun o ho => h o (by simp [ho])
      have ho := h o (by simp)
      obtain ⟨k, out⟩ := o
      cases out with
      | two C B =>
        obtain ⟨hk, hC, hB⟩ := ho
        refine ⟨C :: ab, B :: b, ?_, ?_, ?_, fun j => ?_⟩
        · rw [collect, e]; rcases hk with hk | hk <;> simp only at hk <;> subst hk <;> rfl
        · intro x hx; rcases List.mem_cons.mp hx with rfl | hx
          exacts [hC, hab x hx]
        · intro x hx; rcases List.mem_cons.mp hx with rfl | hx
          exacts [hB, hb x hx]
        · simp only [List.map_cons, List.sum_cons, (hs j).1, (hs j).2]
          exact ⟨rfl, rfl⟩
      | one G =>
        obtain ⟨hk, hG⟩ := ho
        simp only at hk
        have hG' : ∀ x ∈ G :: ab, x.length = n := by
          intro x hx; rcases List.mem_cons.mp hx with rfl | hx
          exacts [hG, hab x hx]
        by_cases h2 : k = .fDecay ∨ k = .ffVac
        · refine ⟨G :: ab, G :: b, ?_, hG', ?_, fun j => ?_⟩
          · rw [collect, e]; rcases h2 with h2 | h2 <;> subst h2 <;> rfl
          · intro x hx; rcases List.mem_cons.mp hx with rfl | hx
            exacts [hG, hb x hx]
          · simp only [List.map_cons, List.sum_cons, (hs j).1, (hs j).2, IntOut.implicit, if_pos h2]
            exact ⟨rfl, trivial⟩
        · refine ⟨G :: ab, b, ?_, hG', hb, fun j => ?_⟩
          · rw [collect, e]; cases k <;> simp_all
          · simp only [List.map_cons, List.sum_cons, (hs j).1, (hs j).2, IntOut.implicit, if_neg h2,
              zero_add]
            exact ⟨rfl, trivial⟩
  obtain ⟨ab, b, e, hab, hb, hs⟩ := key
  refine ⟨ab, b, e, (sumArr_value n ab hab).1, (sumArr_value n b hb).1, fun j hj => ?_⟩
  rw [(sumArr_value n ab hab).2 j hj, (sumArr_value n b hb).2 j hj]
  exact hs j

theorem mapM_length {α β : Type*} (g : α → Except Err β) : ∀ (l : List α) (r : List β),
    l.mapM g = .ok r → r.length = l.length
  | [], r, h => by cases h; rfl
  | x :: l, r, h => by
    rw [List.mapM_cons] at h
    cases hx : g x with
    | error e => rw [hx] at h; cases h
    | ok v =>
      rw [hx] at h
      cases hl : l.mapM g with
      | error e => rw [hl] at h; cases h
      | ok vs =>
        rw [hl] at h
        cases h
        simp [mapM_length g l vs hl]

theorem integration3Exact_length {r : Fin 3 → Reactant} {kind : ℤ} {ps : List ℝ} {a b c : ℝ}
    {sched : List (List ℕ)} {out : List ℝ} (h : integration3Exact r kind ps a b c sched = .ok out) :
    out.length = ps.length := by
  unfold integration3Exact at h
  rw [mapM_length _ _ _ h]
  simp [integration3, parallelLoop]

theorem integration4Exact_length {r : Fin 4 → Reactant} {Ms : List CM} {kind : ℤ} {ps : List ℝ}
    {a b c d e : ℝ} {sched : List (List ℕ)} {out : List ℝ}
    (h : integration4Exact r Ms kind ps a b c d e sched = .ok out) : out.length = ps.length := by
  unfold integration4Exact at h
  rw [mapM_length _ _ _ h]
  simp [integration4, parallelLoop]

theorem returnFunction_shaped (k : CKind) (n : ℕ) : (returnFunction k false n).Shaped k n := by
  unfold returnFunction
  by_cases h : k = .full ∨ k = .fullVac
  · rw [if_pos (by tauto)]; exact ⟨h, by simp, by simp⟩
  · rw [if_neg (by simpa using h)]; exact ⟨h, by simp⟩

theorem integrateEnd_shaped {k : CKind} {n : ℕ} {const dist full : List ℝ}
    (hk : ¬ (k = .full ∨ k = .fullVac)) (hf : full.length = n) (hc : const.length = n)
    (hd : dist.length = n) : (integrateEnd k false const dist full).Shaped k n := by
  unfold integrateEnd
  simp only [Bool.false_eq_true, false_and, if_false]
  split_ifs
  · exact ⟨hk, by simp [mulArr, hf, hc, hd]⟩
  · exact ⟨hk, by simp [mulArr, hf, hc]⟩

theorem scaling_length {cf : Bool} {br : Option ℝ} {num : ℝ} {total : List ℝ → ℝ} {full l : List ℝ}
    (h : scaling cf br num total full = .ok (.arr l)) : l.length = full.length := by
  unfold scaling at h
  cases cf with
  | false => cases h; rfl
  | true =>
    cases br with
    | none => cases h
    | some b =>
      dsimp only at h
      by_cases h0 : total full = 0
      · rw [if_pos rfl, if_pos h0] at h; cases h
      · rw [if_pos rfl, if_neg h0] at h; cases h; exact List.length_map _

theorem constants3_length (K mass dof : ℝ) (maj : Bool) (mult : ℝ) (p : Params) {n : ℕ} (hn : 0 < n) :
    (constants3 K mass dof maj mult p n).length = n := by
  unfold constants3
  simp only [List.length_map, List.length_cons, List.length_replicate]
  omega

theorem mulArr_zero_head (x : List ℝ) (cs : List ℝ) : ((mulArr x (0 :: cs))[0]?).getD 0 = 0 := by
  cases x <;> simp [mulArr]

/-- **C90 (massless particle at rest).** A reaction of three particles changes nothing at the first momentum of a massless
particle: its entry in the arrays, of whatever kind, is 0. -/
theorem C90_massless_rest (c : Int3 ι) (p : Params) (sched : List (List ℕ)) (out : IntOut) (hm : (c.sp 0).mass = 0)
    (h : integrate3 c p sched = .ok out) : out.slope 0 = 0 ∧ out.implicit c.kind 0 = 0 := by
  have hret : ∀ (k : CKind) (b : Bool) (n : ℕ), (returnFunction k b n).slope 0 = 0 ∧ (returnFunction k b n).implicit c.kind 0 = 0 := by
    intro k b n
    have hz : ((List.replicate n (0 : ℝ))[0]?).getD 0 = 0 := by cases n <;> simp
    unfold returnFunction
    by_cases hk : k = .full ∨ k = .fullVac ∨ b = true
    · rw [if_pos hk]; exact ⟨hz, hz⟩
    · rw [if_neg hk]
      refine ⟨hz, ?_⟩
      change (if _ then _ else _) = _
      rw [hz]; simp
  obtain ⟨cs, hc⟩ : ∃ cs, constants3 c.K (c.sp 0).mass (c.sp 0).dof c.majorana c.mult p (c.sp 0).grid.length = 0 :: cs := by
    unfold constants3
    simp only [List.map_cons]
    rw [hm, if_pos rfl, zero_div, zero_mul, zero_div]
    exact ⟨_, by rw [ite_self]⟩
  have hend : ∀ (k : CKind) (b : Bool) (d l : List ℝ), (integrateEnd k b (0 :: cs) d l).slope 0 = 0 ∧
      (integrateEnd k b (0 :: cs) d l).implicit c.kind 0 = 0 := by
    intro k b d l
    have hz : ((List.replicate l.length (0 : ℝ))[0]?).getD 0 = 0 := by cases l <;> simp
    have h2 : ((mulArr l (mulArr (0 :: cs) d))[0]?).getD 0 = 0 := by cases l <;> cases d <;> simp [mulArr]
    have h1 := mulArr_zero_head l cs
    unfold integrateEnd
    split_ifs
    · exact ⟨hz, h1⟩
    · exact ⟨h1, hz⟩
    · exact ⟨h2, by change (if _ then _ else _) = _; rw [h2]; simp⟩
    · exact ⟨h1, by change (if _ then _ else _) = _; rw [h1]; simp⟩
  unfold integrate3 at h
  dsimp only at h
  rw [hc] at h
  split at h
  · cases h; exact hret _ _ _
  split at h
  · cases h; exact hret _ _ _
  split at h
  · split at h
    · cases h; exact ⟨mulArr_zero_head _ _, mulArr_zero_head _ _⟩
    · cases h
    · cases h
  · split at h
    · cases h
    · unfold integrateTail3 at h
      split at h
      · cases h
      · split at h
        · cases h; exact hret _ _ _
        · cases h; exact hret _ _ _
        · cases h; exact hend _ _ _ _

/-- **C90 (shape, three particles).** Whatever happens inside (neglected reaction, empty grid cut, nothing
created, or a proper computation), a three-particle integral of a species without `fast_decay` returns
arrays over its own grid: a pair for the two `Full` kinds, a single one for the other kinds. -/
theorem C90_shape_three (c : Int3 ι) (p : Params) (sched : List (List ℕ)) (out : IntOut)
    (hfast : (c.sp 0).fastDecay = false) (hne : (c.sp 0).grid ≠ []) (hs : StrictInc (c.sp 0).grid)
    (hg0 : ∀ g ∈ (c.sp 0).grid, 0 ≤ g) (hb : c.lb ≤ c.ub)
    (hd : (c.st 0).dist.length = (c.sp 0).grid.length) (h : integrate3 c p sched = .ok out) :
    out.Shaped c.kind (c.sp 0).grid.length := by
  have hpos : 0 < (c.sp 0).grid.length := List.length_pos_iff.mpr hne
  unfold integrate3 at h
  dsimp only at h
  rw [hfast] at h
  cases hn : c.neglect with
  | true => rw [hn, if_pos rfl] at h; cases h; exact returnFunction_shaped _ _
  | false =>
    rw [hn, if_neg (by simp)] at h
    set const := constants3 c.K (c.sp 0).mass (c.sp 0).dof c.majorana c.mult p (c.sp 0).grid.length
      with hconst
    have hcl : const.length = (c.sp 0).grid.length := constants3_length _ _ _ _ _ _ hpos
    cases hcut : cutoff3 (c.side 0 + c.side 1 + c.side 2) ((c.sp 0).grid.map (· / p.aT)) (c.sp 0).grid
        c.lb c.ub p.aT with
    | none => rw [hcut] at h; cases h; exact returnFunction_shaped _ _
    | some s =>
      rw [hcut] at h
      have hlen : s.zeros1.length + s.points.length + s.zeros3.length = (c.sp 0).grid.length := by
        unfold cutoff3 at hcut
        split_ifs at hcut with hcr
        · have := C47_three_length (fun l => l) (fun _ => rfl) (c.sp 0).grid hne hs c.lb c.ub p.aT hb hg0
            (c.sp 0).grid rfl
          unfold integrate3Array at this
          rw [hcut] at this
          simpa [Nat.add_assoc] using this
        · cases hcut; simp
      dsimp only at h
      have hwrap : ∀ C : List ℝ, C.length = s.points.length →
          (s.zeros1 ++ C ++ s.zeros3).length = (c.sp 0).grid.length := by
        intro C hC; rw [List.length_append, List.length_append, hC]; exact hlen
      by_cases hk : (c.kind = .full ∨ c.kind = .fullVac) ∧ ¬ false = true
      · rw [if_pos hk] at h
        cases hC : integration3Exact (c.reaction p) CKind.full.toInt s.points (c.min1 / p.aT)
            (c.max1 / p.aT) (c.max2 / p.aT) sched with
        | error e => rw [hC] at h; cases h
        | ok C =>
          rw [hC] at h
          cases hB : integration3Exact (c.reaction p) CKind.ff.toInt s.points (c.min1 / p.aT)
              (c.max1 / p.aT) (c.max2 / p.aT) sched with
          | error e => rw [hB] at h; cases h
          | ok B =>
            rw [hB] at h
            cases h
            refine ⟨hk.1, ?_, ?_⟩
            · rw [mulArr, List.length_zipWith, hwrap C (integration3Exact_length hC), hcl, min_self]
            · rw [mulArr, List.length_zipWith, hwrap B (integration3Exact_length hB), hcl, min_self]
      · rw [if_neg hk] at h
        have hk' : ¬ (c.kind = .full ∨ c.kind = .fullVac) := by
          intro hh; exact hk ⟨hh, by simp⟩
        cases hF : integration3Exact (c.reaction p) c.kind.toInt s.points (c.min1 / p.aT)
            (c.max1 / p.aT) (c.max2 / p.aT) sched with
        | error e => rw [hF] at h; cases h
        | ok full =>
          rw [hF] at h
          dsimp only at h
          have hfl := hwrap full (integration3Exact_length hF)
          unfold integrateTail3 at h
          split at h
          · cases h
          · rename_i sc hsc
            split at h
            · cases h; rw [hfl]; exact returnFunction_shaped _ _
            · cases h; rw [hfl]; exact returnFunction_shaped _ _
            · cases h
              exact integrateEnd_shaped hk' ((scaling_length hsc).trans hfl) hcl hd

/-- **C90 (shape, four particles).** The same for four-particle integrals that return (kinds other than
`Full` raise on real grids, C59). -/
theorem C90_shape_four (c : Int4 ι) (p : Params) (sched : List (List ℕ)) (out : IntOut)
    (hfast : (c.sp 0).fastDecay = false) (hne : (c.sp 0).grid ≠ []) (hs : StrictInc (c.sp 0).grid)
    (hd : (c.st 0).dist.length = (c.sp 0).grid.length) (h : integrate4 c p sched = .ok out) :
    out.Shaped c.kind (c.sp 0).grid.length := by
  unfold integrate4 at h
  dsimp only at h
  rw [hfast] at h
  split_ifs at h with hn hk
  · cases h; exact returnFunction_shaped _ _
  · obtain ⟨-, -, -, hlen, -⟩ := C47_four (c.sp 0).grid hne hs c.ub
    set pts := (gridCut4 (c.sp 0).grid c.ub).1
    set zeros := (gridCut4 (c.sp 0).grid c.ub).2
    cases hA : integration4Exact (c.reaction p) (c.Ms.map (toCM c.GF)) CKind.f1.toInt
        (pts.map (· / p.aT)) (c.min1 / p.aT) (c.max1 / p.aT) (c.min2 / p.aT) (c.max2 / p.aT)
        (c.max3 / p.aT) sched with
    | error e => rw [hA] at h; cases h
    | ok A =>
      cases hB : integration4Exact (c.reaction p) (c.Ms.map (toCM c.GF)) CKind.ff.toInt
          (pts.map (· / p.aT)) (c.min1 / p.aT) (c.max1 / p.aT) (c.min2 / p.aT) (c.max2 / p.aT)
          (c.max3 / p.aT) sched with
      | error e => rw [hA, hB] at h; cases h
      | ok B =>
        rw [hA, hB] at h
        cases hf : (pts.map (· / p.aT)).mapM
            fun x => particleDistribution (c.sp 0) p (c.st 0) (x * p.aT) with
        | error e =>
          simp only [bind, Except.bind] at h
          rw [hf] at h; cases h
        | ok f =>
          simp only [bind, Except.bind] at h
          rw [hf] at h
          cases h
          have lA := integration4Exact_length hA
          have lB := integration4Exact_length hB
          have lf := mapM_length _ _ _ hf
          rw [List.length_map] at lA lB lf
          refine ⟨hk.1, ?_, ?_⟩
          · simp [lA, lB, lf, hlen]
          · simp [lB, hlen]
  · have hk' : ¬ (c.kind = .full ∨ c.kind = .fullVac) := by
      intro hh; exact hk ⟨hh, by simp⟩
    obtain ⟨-, -, -, hlen, -⟩ := C47_four (c.sp 0).grid hne hs c.ub
    set pts := (gridCut4 (c.sp 0).grid c.ub).1
    set zeros := (gridCut4 (c.sp 0).grid c.ub).2
    cases hF : integration4Exact (c.reaction p) (c.Ms.map (toCM c.GF)) c.kind.toInt
        (pts.map (· / p.aT)) (c.min1 / p.aT) (c.max1 / p.aT) (c.min2 / p.aT) (c.max2 / p.aT)
        (c.max3 / p.aT) sched with
    | error e => rw [hF] at h; cases h
    | ok full =>
      rw [hF] at h
      simp only [bind, Except.bind] at h
      have lF := integration4Exact_length hF
      rw [List.length_map] at lF
      have hfl : (full ++ zeros).length = (c.sp 0).grid.length := by
        rw [List.length_append, lF, hlen]
      unfold integrateTail4 at h
      split at h
      · cases h
      · rename_i sc hsc
        split at h
        · cases h
        · cases h; rw [hfl]; exact returnFunction_shaped _ _
        · split at h
          · cases h; rw [hfl]; exact returnFunction_shaped _ _
          · cases h
            exact integrateEnd_shaped hk' ((scaling_length hsc).trans hfl) (by simp [hfl]) hd

/-! ## C91: in which state the integrals of a step are evaluated -/

theorem outputs_congr (w : World ι) (p : Params) (l l' : List (Part ι))
    (h : ∀ i, w.eval i l p = w.eval i l' p) (is : List ι) : outputs w p l is = outputs w p l' is := by
  induction is with
  | nil => rfl
  | cons i is ih => simp only [outputs, h i, ih]

theorem outputs_ok (w : World ι) (p : Params) (l : List (Part ι)) (is : List ι)
    (outs : List (CKind × IntOut)) (h : outputs w p l is = .ok outs) :
    List.Forall₂ (fun i o => o.1 = w.kind i ∧ w.eval i l p = .ok o.2) is outs := by
  induction is generalizing outs with
  | nil => cases h; exact .nil
  | cons i is ih =>
    simp only [outputs] at h
    split at h
    · cases h
    · rename_i out ho
      split at h
      · cases h
      · rename_i outs' ho'
        cases h
        exact .cons ⟨rfl, ho⟩ (ih _ ho')

/-- A particle without the attribute `collision_integral`. -/
def forgetColl (x : Part ι) : Part ι := (x.1, { x.2 with coll := [] })

/-- The integrals read masses, grids, temperatures and distributions of the particles, never the collision
terms stored by the same loop. -/
def IgnoresColl (w : World ι) : Prop :=
  ∀ (i : ι) (p : Params) (l l' : List (Part ι)), l.map forgetColl = l'.map forgetColl →
    w.eval i l p = w.eval i l' p

open Classical in
/-- What the loop does to a species when its turn comes: if it has registered integrals, was not declared
decayed before, and its density has fallen below the threshold, it is declared decayed and emptied. -/
noncomputable def emptied (p : Params) (x : Part ι) : Part ι :=
  if x.2.integrals ≠ [] ∧ x.2.decayed = false ∧ (hasDecayed x.1 p x.2).2 = true then
    (x.1, { x.2 with decayed := true, dist := List.replicate x.1.grid.length 0 })
  else x

/-- The particles as seen by the integrals of particle `k`: those earlier in the list may just have been
emptied, the others are as at the beginning of the step. -/
noncomputable def seenBy (p : Params) (k : ℕ) (l : List (Part ι)) : List (Part ι) :=
  l.mapIdx fun j x => if j < k then emptied p x else x

/-- Outcome of the loop for the particle `x` at position `k` of `l`. -/
def Collided (w : World ι) (p : Params) (l : List (Part ι)) (k : ℕ) (x y : Part ι) : Prop :=
  (x.2.integrals = [] → y = x) ∧
  (x.2.integrals ≠ [] → x.2.decayed = true →
    y = (x.1, { x.2 with coll := List.replicate x.1.grid.length 0 })) ∧
  (x.2.integrals ≠ [] → x.2.decayed = false → (hasDecayed x.1 p x.2).2 = true →
    y = (x.1, { x.2 with decayed := true, dist := List.replicate x.1.grid.length 0,
                         coll := List.replicate x.1.grid.length 0 })) ∧
  (x.2.integrals ≠ [] → x.2.decayed = false → (hasDecayed x.1 p x.2).2 = false →
    x.1.fastDecay = false ∧ ∃ c, collisionTerm w p (seenBy p k l) x.1 x.2 = .ok c ∧
      y = (x.1, { x.2 with coll := c }))

theorem hasDecayed_true_state (sp : Species) (p : Params) (s : PState ι)
    (h : (hasDecayed sp p s).2 = true) : (hasDecayed sp p s).1 = { s with decayed := true, dist := sp.zeros } := by
  unfold hasDecayed at h ⊢
  cases hd : s.histDensity[0]? with
  | none => rw [hd] at h; cases h
  | some d0 =>
    rw [hd] at h
    simp only at h ⊢
    by_cases hc : s.histDist.length > 1 ∧ sp.mass ≠ 0 ∧ d0 ≠ 0 ∧
        s.density / d0 < 1e-10 * (p.aIni / 10) ^ 3 ∧ sp.fastDecay = false
    · rw [if_pos hc]
    · rw [if_neg hc] at h; cases h

theorem collided_forget {w : World ι} {p : Params} {l : List (Part ι)} {k : ℕ} {x y : Part ι}
    (h : Collided w p l k x y) : forgetColl y = forgetColl (emptied p x) := by
  obtain ⟨h1, h2, h3, h4⟩ := h
  unfold emptied
  by_cases hi : x.2.integrals = []
  · rw [h1 hi, if_neg (by simp [hi])]
  · cases hd : x.2.decayed with
    | true => rw [h2 hi hd, if_neg (by simp)]; rfl
    | false =>
      cases hh : (hasDecayed x.1 p x.2).2 with
      | true => rw [h3 hi hd hh, if_pos ⟨hi, rfl, rfl⟩]; rfl
      | false =>
        obtain ⟨-, c, -, e⟩ := h4 hi hd hh
        rw [e, if_neg (by simp)]; rfl

theorem collideAll_append (w : World ι) (p : Params) (ks : List ℕ) (k : ℕ) (l : List (Part ι)) :
    collideAll w p (ks ++ [k]) l =
      match collideAll w p ks l with
      | .error e => .error e
      | .ok l => collideOne w p l k := by
  induction ks generalizing l with
  | nil =>
    simp only [List.nil_append, collideAll]
    cases collideOne w p l k <;> rfl
  | cons j ks ih =>
    simp only [List.cons_append, collideAll]
    cases collideOne w p l j with
    | error e => rfl
    | ok l1 => exact ih l1

/-- **C91.** Exactly which state the collision terms of one step are computed from: the state at the beginning
of the loop, except that species standing earlier in `universe.particles` (heavier ones) which are found to
have decayed in this very step are already empty.  Nothing but the collision term of a particle (and, if it
decayed, its flag and distribution) changes. -/
theorem C91_state (w : World ι) (hw : IgnoresColl w) (p : Params) (l l' : List (Part ι))
    (h : calculateCollisions w p l = .ok l') :
    l'.length = l.length ∧ ∀ k x, l[k]? = some x → ∃ y, l'[k]? = some y ∧ Collided w p l k x y := by
  -- invariant after the first `n` positions
  have inv : ∀ n ≤ l.length, ∀ l1, collideAll w p ((List.range n).filter fun k =>
      match l[k]? with | some x => ! x.2.integrals.isEmpty | none => false) l = .ok l1 →
      l1.length = l.length ∧ (∀ j, n ≤ j → l1[j]? = l[j]?) ∧
      ∀ j < n, ∀ x, l[j]? = some x → ∃ y, l1[j]? = some y ∧ Collided w p l j x y := by
    intro n
    induction n with
    | zero =>
      intro _ l1 h1
      cases h1
      exact ⟨rfl, fun _ _ => rfl, fun j hj => absurd hj (Nat.not_lt_zero _)⟩
    | succ n ih =>
      intro hn l1 h1
      have hnl : n < l.length := by omega
      have hx : l[n]? = some l[n] := List.getElem?_eq_getElem hnl
      set x := l[n] with hxdef
      rw [List.range_succ, List.filter_append] at h1
      by_cases hi : x.2.integrals = []
      · -- nothing registered: position not visited
        have hf : ([n].filter fun k => match l[k]? with
            | some x => ! x.2.integrals.isEmpty | none => false) = [] := by
          rw [List.filter_eq_nil_iff]
          intro k hk
          rw [List.mem_singleton] at hk
          subst hk
          rw [hx]; simp [hi]
        rw [hf, List.append_nil] at h1
        obtain ⟨i1, i2, i3⟩ := ih (by omega) l1 h1
        refine ⟨i1, fun j hj => i2 j (by omega), fun j hj y hy => ?_⟩
        rcases Nat.lt_succ_iff_lt_or_eq.mp hj with hj | rfl
        · exact i3 j hj y hy
        · rw [hx] at hy; obtain rfl := Option.some.inj hy
          exact ⟨x, by rw [i2 j le_rfl, hx], fun _ => rfl, fun h => absurd hi h, fun h => absurd hi h,
            fun h => absurd hi h⟩
      · have hf : ([n].filter fun k => match l[k]? with
            | some x => ! x.2.integrals.isEmpty | none => false) = [n] := by
          rw [List.filter_eq_self]
          intro k hk
          rw [List.mem_singleton] at hk
          subst hk
          rw [hx]; simpa using hi
        rw [hf, collideAll_append] at h1
        split at h1
        · cases h1
        · rename_i l0 h0
          obtain ⟨i1, i2, i3⟩ := ih (by omega) l0 h0
          have hx0 : l0[n]? = some x := by rw [i2 n le_rfl, hx]
          -- the state seen
          have hseen : l0.map forgetColl = (seenBy p n l).map forgetColl := by
            apply List.ext_getElem?
            intro j
            rw [List.getElem?_map, List.getElem?_map, seenBy, List.getElem?_mapIdx]
            rcases Nat.lt_or_ge j n with hj | hj
            · have hjl : j < l.length := by omega
              obtain ⟨y, hy, hc⟩ := i3 j hj l[j] (List.getElem?_eq_getElem hjl)
              rw [hy, List.getElem?_eq_getElem hjl]
              simp only [Option.map_some, if_pos hj, collided_forget hc]
            · rw [i2 j hj]
              cases l[j]? with
              | none => rfl
              | some z => simp only [Option.map_some, if_neg (Nat.not_lt.mpr hj)]
          have hterm : collisionTerm w p l0 x.1 x.2 = collisionTerm w p (seenBy p n l) x.1 x.2 := by
            unfold collisionTerm
            rw [outputs_congr w p l0 (seenBy p n l) fun i => hw i p _ _ hseen]
          -- conclusion once the new entry is known
          have finish : ∀ y, l1 = l0.set n y → Collided w p l n x y →
              l1.length = l.length ∧ (∀ j, n + 1 ≤ j → l1[j]? = l[j]?) ∧
              ∀ j < n + 1, ∀ x, l[j]? = some x → ∃ y, l1[j]? = some y ∧ Collided w p l j x y := by
            intro y hy hc
            subst hy
            refine ⟨by rw [List.length_set, i1], fun j hj => ?_, fun j hj z hz => ?_⟩
            · rw [List.getElem?_set_ne (by omega), i2 j (by omega)]
            · rcases Nat.lt_succ_iff_lt_or_eq.mp hj with hj | rfl
              · rw [List.getElem?_set_ne (by omega)]; exact i3 j hj z hz
              · rw [hx] at hz; obtain rfl := Option.some.inj hz
                exact ⟨y, by rw [List.getElem?_set_self (by rw [i1]; exact hnl)], hc⟩
          unfold collideOne at h1
          rw [hx0] at h1
          simp only [hi, false_or] at h1
          cases hd : x.2.decayed with
          | true =>
            rw [if_pos hd] at h1
            cases h1
            exact finish _ rfl ⟨fun h => absurd h hi, fun _ _ => rfl, fun _ h => by simp [hd] at h,
              fun _ h => by simp [hd] at h⟩
          | false =>
            rw [if_neg (by simp [hd])] at h1
            cases hh : (hasDecayed x.1 p x.2).2 with
            | true =>
              rw [if_pos hh] at h1
              cases h1
              exact finish _ rfl ⟨fun h => absurd h hi, fun _ h => by simp [hd] at h,
                fun _ _ _ => by rw [hasDecayed_true_state _ _ _ hh]; rfl,
                fun _ _ h => by simp [hh] at h⟩
            | false =>
              rw [if_neg (by simp [hh])] at h1
              cases hfd : x.1.fastDecay with
              | true => rw [if_pos hfd] at h1; cases h1
              | false =>
                rw [if_neg (by simp [hfd]), hterm] at h1
                cases hc : collisionTerm w p (seenBy p n l) x.1 x.2 with
                | error e => rw [hc] at h1; cases h1
                | ok c =>
                  rw [hc] at h1
                  cases h1
                  exact finish _ rfl ⟨fun h => absurd h hi, fun _ h => by simp [hd] at h,
                    fun _ _ h => by simp [hh] at h, fun _ _ _ => ⟨hfd, c, hc, rfl⟩⟩
  obtain ⟨h1, -, h3⟩ := inv l.length le_rfl l' h
  exact ⟨h1, fun k x hx => h3 k (List.getElem?_eq_some_iff.mp hx).1 x hx⟩

/-- **C91.** If no species decays in this step, all collision terms are computed from one and the same state,
the one at the beginning of the loop: the order of the particles does not matter. -/
theorem C91_snapshot (w : World ι) (hw : IgnoresColl w) (p : Params) (l l' : List (Part ι))
    (h : calculateCollisions w p l = .ok l')
    (hno : ∀ x ∈ l, x.2.integrals ≠ [] → x.2.decayed = false → (hasDecayed x.1 p x.2).2 = false)
    (k : ℕ) (sp : Species) (s : PState ι) (hk : l[k]? = some (sp, s)) :
    (s.integrals = [] → l'[k]? = some (sp, s)) ∧
    (s.integrals ≠ [] → s.decayed = false → ∃ c, collisionTerm w p l sp s = .ok c ∧
      l'[k]? = some (sp, { s with coll := c })) := by
  obtain ⟨y, hy, h1, h2, h3, h4⟩ := (C91_state w hw p l l' h).2 k (sp, s) hk
  have hs : seenBy p k l = l := by
    apply List.ext_getElem?
    intro j
    rw [seenBy, List.getElem?_mapIdx]
    cases hj : l[j]? with
    | none => rfl
    | some x =>
      have hx : x ∈ l := List.mem_of_getElem? hj
      have he : emptied p x = x := by
        unfold emptied
        rw [if_neg]
        rintro ⟨a, b, c⟩
        rw [hno x hx a b] at c; cases c
      simp [he]
  refine ⟨fun hi => by rw [hy, h1 hi], fun hi hd => ?_⟩
  obtain ⟨-, c, hc, e⟩ := h4 hi hd (hno (sp, s) (List.mem_of_getElem? hk) hi hd)
  rw [hs] at hc
  exact ⟨c, hc, by rw [hy, e]⟩

/-- **C90 (term).** The collision term of a particle: at every grid point the Adams–Moulton solver applied to
the occupation, the stored terms, and the sums of the slopes and of the implicit parts of all registered
integrals evaluated in the state `l`. -/
theorem C90_term (w : World ι) (p : Params) (l : List (Part ι)) (sp : Species) (s : PState ι) (c : List ℝ)
    (h : collisionTerm w p l sp s = .ok c) (out : ι → IntOut)
    (hout : ∀ i ∈ s.integrals, w.eval i l p = .ok (out i))
    (hshape : ∀ i ∈ s.integrals, (out i).Shaped (w.kind i) sp.grid.length) :
    c.length = sp.grid.length ∧
    ∀ (j : ℕ) (y : ℝ), sp.grid[j]? = some y → ∃ f v, particleDistribution sp p s y = .ok f ∧
      adamsMoulton f ((pyLast s.histColl maxAM).map fun row => (row[j]?).getD 0)
        (s.integrals.map fun i => (out i).slope j).sum
        (s.integrals.map fun i => (out i).implicit (w.kind i) j).sum p.h none = .ok v ∧
      c[j]? = some v := by
  have ho : outputs w p l s.integrals = .ok (s.integrals.map fun i => (w.kind i, out i)) := by
    have : ∀ is : List ι, (∀ i ∈ is, w.eval i l p = .ok (out i)) →
        outputs w p l is = .ok (is.map fun i => (w.kind i, out i)) := by
      intro is
      induction is with
      | nil => intro _; rfl
      | cons i is ih =>
        intro hi
        simp only [outputs, hi i (by simp), ih fun j hj => hi j (by simp [hj]), List.map_cons]
    exact this _ hout
  unfold collisionTerm at h
  rw [ho] at h
  obtain ⟨ab, b, e, l1, l2, hs⟩ := C90_sums sp.grid.length (s.integrals.map fun i => (w.kind i, out i))
    (by
      intro o hmem
      obtain ⟨i, hi, rfl⟩ := List.mem_map.mp hmem
      exact hshape i hi)
  dsimp only at h
  rw [e] at h
  dsimp only at h
  have hlen := mapM_length _ _ _ h
  rw [List.length_range] at hlen
  refine ⟨hlen, fun j y hy => ?_⟩
  have hj : j < sp.grid.length := (List.getElem?_eq_some_iff.mp hy).1
  have hval : ∀ (n : ℕ) (g : ℕ → Except Err ℝ) (r : List ℝ), (List.range n).mapM g = .ok r →
      ∀ j < n, ∃ v, g j = .ok v ∧ r[j]? = some v := by
    intro n g r hr j hj
    have : ∀ (l : List ℕ) (r : List ℝ), l.mapM g = .ok r → ∀ (j a : ℕ), l[j]? = some a →
        ∃ v, g a = .ok v ∧ r[j]? = some v := by
      intro l
      induction l with
      | nil => intro r _ j a h; simp at h
      | cons x l ih =>
        intro r hr j a ha
        rw [List.mapM_cons] at hr
        cases hx : g x with
        | error e => rw [hx] at hr; cases hr
        | ok v =>
          rw [hx] at hr
          cases hl : l.mapM g with
          | error e => rw [hl] at hr; cases hr
          | ok vs =>
            rw [hl] at hr
            cases hr
            cases j with
            | zero => simp only [List.getElem?_cons_zero, Option.some.injEq] at ha; subst ha
                      exact ⟨v, hx, rfl⟩
            | succ j => simpa using ih vs hl j a (by simpa using ha)
    exact this _ r hr j j (by simp [hj])
  obtain ⟨v, hv, hc⟩ := hval _ _ c h j hj
  unfold collComponent at hv
  rw [hy] at hv
  dsimp only at hv
  cases hf : particleDistribution sp p s y with
  | error e => rw [hf] at hv; cases hv
  | ok f =>
    rw [hf] at hv
    dsimp only at hv
    rw [(hs j hj).1, (hs j hj).2, List.map_map, List.map_map] at hv
    exact ⟨f, v, rfl, hv, hc⟩

/-! ## C92: what one particle does inside a universe is a run of that particle -/

theorem initInteractions_get (w : World ι) (p : Params) (ints : List ι) (l : List (Part ι)) (k : ℕ) :
    (initInteractions w p ints l)[k]? = (l[k]?).map fun x =>
      (x.1, (ints.filter fun i => w.owner i == k).foldl (fun s i => registerIntegral x.1 p i s) x.2) := by
  unfold initInteractions
  induction ints generalizing l with
  | nil => simp
  | cons i is ih =>
    rw [List.foldl_cons, ih, List.getElem?_modify]
    by_cases hk : w.owner i = k
    · subst hk
      cases l[w.owner i]? <;> simp
    · cases l[k]? <;> simp [hk]

theorem updateDistributions_get (p : Params) (l l' : List (Part ι))
    (h : updateDistributions p l = .ok l') :
    l'.length = l.length ∧ ∀ (k : ℕ) (x : Part ι), l[k]? = some x → ∃ s',
      updateDistribution x.1 p (x.2.coll.map .fin) x.2 = .ok s' ∧ l'[k]? = some (x.1, s') := by
  induction l generalizing l' with
  | nil => cases h; exact ⟨rfl, fun k x h => by simp at h⟩
  | cons y l ih =>
    unfold updateDistributions at h
    split at h
    · cases h
    · rename_i s hs
      split at h
      · cases h
      · rename_i l1 hl
        cases h
        obtain ⟨i1, i2⟩ := ih l1 hl
        refine ⟨by simp [i1], fun k x hx => ?_⟩
        cases k with
        | zero =>
          simp only [List.getElem?_cons_zero, Option.some.injEq] at hx
          subst hx
          exact ⟨s, hs, rfl⟩
        | succ k => simpa using i2 k x (by simpa using hx)

theorem updateDistribution_coll (sp : Species) (p : Params) (cs : List CNum) (s : PState ι) (c : List ℝ)
    (h : inEq sp s = false) :
    updateDistribution sp p cs { s with coll := c } = updateDistribution sp p cs s := by
  have h' : inEq sp { s with coll := c } = false := h
  unfold updateDistribution
  rw [h, h']
  rfl

/-- The sums of the registered integrals of the particle at position `k`, evaluated in the state `l`. -/
def SummedIn (w : World ι) (p : Params) (l : List (Part ι)) (n : ℕ) (is : List ι) (AB B : ℕ → ℝ) : Prop :=
  ∃ outs : List (CKind × IntOut), List.Forall₂ (fun i o => o.1 = w.kind i ∧ w.eval i l p = .ok o.2) is outs ∧
    ((∀ o ∈ outs, o.2.Shaped o.1 n) → ∀ j < n,
      AB j = (outs.map fun o => o.2.slope j).sum ∧ B j = (outs.map fun o => o.2.implicit o.1 j).sum)

theorem collisionTerm_sums (w : World ι) (p : Params) (l : List (Part ι)) (sp : Species) (s : PState ι)
    (c : List ℝ) (h : collisionTerm w p l sp s = .ok c) :
    ∃ AB B, SummedIn w p l sp.grid.length s.integrals AB B ∧
      ((List.range sp.grid.length).mapM fun j => collComponent sp p s j (AB j) (B j)) = .ok c := by
  unfold collisionTerm at h
  split at h
  · cases h
  · rename_i outs ho
    split at h
    · cases h
    · rename_i ab b hab
      refine ⟨_, _, ⟨outs, outputs_ok w p l _ _ ho, fun hsh j hj => ?_⟩, h⟩
      obtain ⟨ab', b', e, -, -, hs⟩ := C90_sums sp.grid.length outs hsh
      rw [hab] at e
      cases e
      exact hs j hj

/-- **C92.** In one step of the universe every particle makes exactly the step of the single-species model,
with collision sums evaluated in the state of all particles described by C91. -/
theorem C92_step (w : World ι) (hw : IgnoresColl w) (dens : Species → PState ι → Params → ℝ) (ints : List ι)
    (p : Params) (l l' : List (Part ι)) (h : universeStep w dens ints p l = .ok l') :
    l'.length = l.length ∧ ∀ k sp s, l[k]? = some (sp, s) → s.integrals = [] →
      ∃ s' AB B, l'[k]? = some (sp, s') ∧
        particleStep sp (dens sp) (ints.filter fun i => w.owner i == k) (fun _ => AB) (fun _ => B) p s = .ok s' ∧
        (s'.decayed = false → inEq sp s' = false → p.T < s.Tdec →
          (ints.filter fun i => w.owner i == k) ≠ [] →
          SummedIn w p (seenBy p k (initInteractions w p ints (updateParticles dens p l))) sp.grid.length
            (ints.filter fun i => w.owner i == k) AB B) := by
  unfold universeStep at h
  split at h
  · cases h
  · rename_i l1 h1
    obtain ⟨c1, c2⟩ := C91_state w hw p _ _ h1
    obtain ⟨d1, d2⟩ := updateDistributions_get p _ _ h
    have hlen : ∀ ints (l : List (Part ι)), (initInteractions w p ints l).length = l.length := by
      intro ints
      unfold initInteractions
      induction ints with
      | nil => intro l; rfl
      | cons i is ih => intro l; rw [List.foldl_cons, ih, List.length_modify]
    refine ⟨by rw [d1, c1, hlen, updateParticles, List.length_map], fun k sp s hk h0 => ?_⟩
    set I := ints.filter fun i => w.owner i == k with hI
    have hm : (initInteractions w p ints (updateParticles dens p l))[k]? =
        some (sp, I.foldl (fun s i => registerIntegral sp p i s) (particleUpdate sp (dens sp) p s)) := by
      rw [initInteractions_get, updateParticles, List.getElem?_map, hk]
      rfl
    obtain ⟨-, -, u3, u4, u5, u6, -⟩ := update_spec sp (dens sp) p s
    have hreg := C60_registered_iff sp p I (particleUpdate sp (dens sp) p s) (by rw [u4, h0])
    have hfold := register_fold_fields sp p I (particleUpdate sp (dens sp) p s)
    obtain ⟨y, hy, k1, k2, k3, k4⟩ := c2 k _ hm
    obtain ⟨s', hs', hl'⟩ := d2 k y hy
    simp only [particleStep]
    set m := I.foldl (fun s i => registerIntegral sp p i s) (particleUpdate sp (dens sp) p s) with hmdef
    have hmT : m.T = (particleUpdate sp (dens sp) p s).T := by rw [hfold]
    have hmTd : m.Tdec = s.Tdec := by rw [hfold]; exact u3
    have hmq : inEq sp m = inEq sp (particleUpdate sp (dens sp) p s) :=
      inEq_congr sp _ _ hmT (by rw [hmTd, u3])
    dsimp only at k1 k2 k3 k4
    by_cases hi : m.integrals = []
    · obtain rfl := k1 hi
      refine ⟨s', fun _ => 0, fun _ => 0, hl', ?_, ?_⟩
      · rw [if_pos hi]; exact hs'
      · intro _ he hT hne
        exfalso
        apply hne
        obtain ⟨a1, -, a3, -⟩ := updateDistribution_fields hs'
        have : inEq sp m = false := by rw [← he]; exact (inEq_congr sp _ _ a1 a3).symm
        rw [hi, if_pos ⟨by rw [u3]; exact hT, by rw [← hmq]; exact this⟩] at hreg
        exact hreg.symm
    · have hq : inEq sp m = false ∧ m.integrals = I := by
        by_cases hc : p.T < (particleUpdate sp (dens sp) p s).Tdec ∧
            inEq sp (particleUpdate sp (dens sp) p s) = false
        · rw [if_pos hc] at hreg
          exact ⟨by rw [hmq]; exact hc.2, hreg⟩
        · rw [if_neg hc] at hreg; exact absurd hreg hi
      obtain ⟨hq, hmI⟩ := hq
      simp only [if_neg hi]
      cases hd : m.decayed with
      | true =>
        obtain rfl := k2 hi hd
        refine ⟨s', fun _ => 0, fun _ => 0, hl', ?_, ?_⟩
        · rw [calculateCollision, if_pos (Or.inr hd)]
          dsimp only at hs' ⊢
          rw [updateDistribution_coll sp p _ m _ hq] at hs'
          exact hs'
        · intro h
          rw [(updateDistribution_fields hs').2.2.2.1] at h
          dsimp only at h
          rw [hd] at h; cases h
      | false =>
        cases hh : (hasDecayed sp p m).2 with
        | true =>
          obtain rfl := k3 hi hd hh
          refine ⟨s', fun _ => 0, fun _ => 0, hl', ?_, ?_⟩
          · rw [calculateCollision, if_neg (by simp [hi, hd])]
            dsimp only
            rw [if_pos hh, hasDecayed_true_state _ _ _ hh]
            dsimp only at hs' ⊢
            rw [← hs']
            exact (updateDistribution_coll sp p _ { m with decayed := true, dist := sp.zeros } _ hq).symm
          · intro h
            rw [(updateDistribution_fields hs').2.2.2.1] at h
            cases h
        | false =>
          obtain ⟨-, c, hc, rfl⟩ := k4 hi hd hh
          obtain ⟨AB, B, hsum, hcomp⟩ := collisionTerm_sums w p _ sp m c hc
          refine ⟨s', AB, B, hl', ?_, fun _ _ _ _ => by rw [hmI] at hsum; exact hsum⟩
          rw [calculateCollision, if_neg (by simp [hi, hd])]
          dsimp only
          rw [if_neg (by simp [hh]), hasDecayed_false _ _ _ hh, hcomp]
          dsimp only at hs' ⊢
          rw [updateDistribution_coll sp p _ m _ hq] at hs'
          exact hs'

theorem particleStep_congr (sp : Species) (dens : PState ι → Params → ℝ) (ints : List ι)
    (AB B AB' B' : PState ι → ℕ → ℝ) (p : Params) (s : PState ι)
    (h : ∀ t : PState ι, t.histDensity.length = s.histDensity.length + 1 → AB t = AB' t ∧ B t = B' t) :
    particleStep sp dens ints AB B p s = particleStep sp dens ints AB' B' p s := by
  have := h (ints.foldl (fun s i => registerIntegral sp p i s) (particleUpdate sp dens p s))
    (by rw [(register_fold_hist sp p ints _).2.1, (update_hist sp dens p s).2]; simp)
  simp only [particleStep, this.1, this.2]

theorem particleRun_congr (sp : Species) (dens : PState ι → Params → ℝ) (ints : List ι)
    (AB B AB' B' : PState ι → ℕ → ℝ) (ps : List Params) (s : PState ι)
    (h : ∀ t : PState ι, s.histDensity.length < t.histDensity.length → AB t = AB' t ∧ B t = B' t) :
    particleRun sp dens ints AB B ps s = particleRun sp dens ints AB' B' ps s := by
  induction ps generalizing s with
  | nil => rfl
  | cons p ps ih =>
    simp only [particleRun]
    rw [particleStep_congr sp dens ints AB B AB' B' p s fun t ht => h t (by omega)]
    split
    · rfl
    · rename_i s1 h1
      apply ih
      intro t ht
      rw [(step_hist h1).2] at ht
      apply h
      simp only [List.length_append, List.length_cons, List.length_nil] at ht
      omega

/-- **C92.** Whatever the interactions and the other particles do, the history of one particle in a universe
is a run of the single-species model, for some collision sums.  All theorems quantified over these sums
(C18, C27, C29, C49, C60) therefore hold for every particle of every universe. -/
theorem C92_run (w : World ι) (hw : IgnoresColl w) (dens : Species → PState ι → Params → ℝ) (ints : List ι)
    (ps : List Params) (l l' : List (Part ι)) (h : universeRun w dens ints ps l = .ok l')
    (k : ℕ) (sp : Species) (s : PState ι) (hk : l[k]? = some (sp, s)) (h0 : s.integrals = []) :
    ∃ s' AB B, l'[k]? = some (sp, s') ∧
      particleRun sp (dens sp) (ints.filter fun i => w.owner i == k) AB B ps s = .ok s' := by
  induction ps generalizing l s with
  | nil => cases h; exact ⟨s, fun _ _ => 0, fun _ _ => 0, hk, rfl⟩
  | cons p ps ih =>
    simp only [universeRun] at h
    split at h
    · cases h
    · rename_i l1 h1
      obtain ⟨s1, A, C, e1, e2, -⟩ := (C92_step w hw dens ints p l l1 h1).2 k sp s hk h0
      obtain ⟨s', AB, B, f1, f2⟩ := ih l1 h s1 e1 ((step_fields e2).2.2.2.2 h0)
      classical
      let n := s.histDensity.length + 1
      refine ⟨s', fun t => if t.histDensity.length = n then A else AB t,
        fun t => if t.histDensity.length = n then C else B t, f1, ?_⟩
      simp only [particleRun]
      rw [particleStep_congr sp (dens sp) _ _ _ (fun _ => A) (fun _ => C) p s fun t ht => by
        simp only [n, ht, if_true, and_self], e2]
      dsimp only
      rw [← f2]
      apply particleRun_congr
      intro t ht
      rw [(step_hist e2).2] at ht
      simp only [List.length_append, List.length_cons, List.length_nil] at ht
      rw [if_neg (by simp only [n]; omega), if_neg (by simp only [n]; omega)]
      exact ⟨rfl, rfl⟩

/-- **C92 (decoupling).** In every completed run of a universe with growing scale factor, a thermally
produced particle that is out of equilibrium stays so and keeps its comoving temperature. -/
theorem C92_irreversible (w : World ι) (hw : IgnoresColl w) (dens : Species → PState ι → Params → ℝ)
    (ints : List ι) (ps : List Params) (l l' : List (Part ι)) (h : universeRun w dens ints ps l = .ok l')
    (k : ℕ) (sp : Species) (s : PState ι) (hk : l[k]? = some (sp, s)) (h0 : s.integrals = []) (a₀ : ℝ)
    (hps : ScaleGrows a₀ ps) (hT : s.T = s.aT / a₀) (haT : 0 ≤ s.aT) (ht : sp.thermalDyn = true)
    (hout : inEq sp s = false) :
    ∃ s', l'[k]? = some (sp, s') ∧ inEq sp s' = false ∧ s'.aT = s.aT ∧ s'.integrals = [] := by
  obtain ⟨s', AB, B, e1, e2⟩ := C92_run w hw dens ints ps l l' h k sp s hk h0
  obtain ⟨i1, i2⟩ := C27_irreversible_run sp (dens sp) _ AB B ps s s' a₀ hps hT haT ht hout e2
  exact ⟨s', e1, i1, i2, C60_no_accumulation sp (dens sp) _ AB B ps s s' h0 e2⟩

/-- **C92 (decay).** In every completed run of a universe, a particle declared decayed stays empty, whatever
the reactions that would create it. -/
theorem C92_decayed_stays_empty (w : World ι) (hw : IgnoresColl w) (dens : Species → PState ι → Params → ℝ)
    (ints : List ι) (ps : List Params) (l l' : List (Part ι)) (h : universeRun w dens ints ps l = .ok l')
    (k : ℕ) (sp : Species) (s : PState ι) (hk : l[k]? = some (sp, s)) (h0 : s.integrals = []) (a₀ : ℝ)
    (hps : ScaleGrows a₀ ps) (hT : s.T = s.aT / a₀) (haT : 0 ≤ s.aT) (hpl : ∀ p ∈ ps, 0 ≤ p.aT)
    (hout : inEq sp s = false) (hd : s.decayed = true) (hz : s.dist = List.replicate sp.grid.length 0) :
    ∃ s', l'[k]? = some (sp, s') ∧ s'.decayed = true ∧ s'.dist = List.replicate sp.grid.length 0 := by
  obtain ⟨s', AB, B, e1, e2⟩ := C92_run w hw dens ints ps l l' h k sp s hk h0
  obtain ⟨t, f1, f2, f3, -⟩ := C49_latch sp (dens sp) (ints.filter fun i => w.owner i == k) AB B ps s a₀ hps
    hT haT hout hpl hd hz
  rw [e2] at f1
  cases f1
  exact ⟨s', e1, f2, f3⟩

/-! ## Concrete universes -/

/-- Two integrals, owned by the first and second particle, that both return the total occupation present. -/
noncomputable def demoWorld : World ℕ where
  kind := fun _ => .f1
  owner := id
  eval := fun _ l _ => .ok (.one [(l.map fun x => x.2.dist.sum).sum])

theorem demoWorld_ignores : IgnoresColl demoWorld := by
  intro i p l l' h
  have e : ∀ l : List (Part ℕ), (l.map fun x => x.2.dist.sum) = (l.map forgetColl).map fun x => x.2.dist.sum := by
    intro l; simp [forgetColl]
  simp only [demoWorld]
  rw [e l, e l', h]

/-- A heavy particle whose density has dropped to zero. -/
noncomputable def demoHeavy : Part ℕ :=
  ({ demoSpecies with mass := 5, grid := [1] },
   { demoState with dist := [1 / 2], integrals := [0], density := 0, histDensity := [1],
                    histDist := [[1], [1]] })

/-- A massless particle. -/
noncomputable def demoLight : Part ℕ :=
  ({ demoSpecies with grid := [1] },
   { demoState with dist := [1 / 4], integrals := [1], histDensity := [1], histDist := [[1], [1]] })

/-- A step of unit length. -/
noncomputable def demoQ : Params := { demoP with h := 1 }

theorem demoHeavy_decays : (hasDecayed demoHeavy.1 demoQ demoHeavy.2).2 = true := by
  norm_num [hasDecayed, demoHeavy, demoQ, demoP, demoSpecies]

theorem demoLight_stays : (hasDecayed demoLight.1 demoQ demoLight.2).2 = false := by
  norm_num [hasDecayed, demoLight, demoQ, demoP, demoSpecies]

theorem demo_term (l : List (Part ℕ)) (sp : Species) (s : PState ℕ) (d : ℝ) (i : ℕ) (hg : sp.grid = [1])
    (hd : s.dist = [d]) (hc : s.histColl = []) (ho : inEq sp s = false) (hi : s.integrals = [i]) :
    collisionTerm demoWorld demoQ l sp s = .ok [d + (l.map fun x => x.2.dist.sum).sum] := by
  have hpd : particleDistribution sp demoQ s 1 = .ok d := by
    unfold particleDistribution
    rw [ho, hg, hd]
    exact C09_exact_on_grid [1] [d] _ _ _ (by simp) rfl 0 (by simp)
  have hcc : ∀ A B : ℝ, collComponent sp demoQ s 0 A B = .ok ((d + A) / (1 - B)) := by
    intro A B
    have hh : demoQ.h = 1 := rfl
    unfold collComponent
    simp only [hg, List.getElem?_cons_zero, hpd, hc, hh]
    simp [adamsMoulton, pyLast, amCoefficients, maxAM, dotZip]
  unfold collisionTerm
  rw [hi, hg]
  simp only [outputs, demoWorld, collect, sumArr]
  simp only [List.length_cons, List.length_nil, zero_add, List.range_one, List.foldl_cons, List.foldl_nil,
    List.mapM_cons, List.mapM_nil, List.replicate_one, List.zipWith_cons_cons, List.zipWith_nil_left,
    List.getElem?_cons_zero, Option.getD_some, hcc, sub_zero, div_one]
  rfl

theorem demoLight_term (l : List (Part ℕ)) :
    collisionTerm demoWorld demoQ l demoLight.1 demoLight.2 =
      .ok [1 / 4 + (l.map fun x => x.2.dist.sum).sum] :=
  demo_term l _ _ _ 1 rfl rfl rfl (by norm_num [inEq, demoLight, demoSpecies, demoState]) rfl

/-- **C91, refutation of order independence.** The order of the particles matters when a species decays: with
the heavy particle first (the order `particle_orderer` produces) the light one sees it already empty in the
step in which it is declared decayed; with the light one first it still sees the occupation used by the other
terms. -/
theorem C91_order_matters : ∃ (w : World ℕ) (p : Params) (x y : Part ℕ) (l1 l2 : List (Part ℕ)),
    IgnoresColl w ∧ calculateCollisions w p [x, y] = .ok l1 ∧ calculateCollisions w p [y, x] = .ok l2 ∧
    (l1[1]?).map (fun z => z.2.coll) = some [1 / 2] ∧ (l2[0]?).map (fun z => z.2.coll) = some [1] := by
  have f1 : ∀ l : List (Part ℕ), l[0]? = some demoHeavy → collideOne demoWorld demoQ l 0 =
      .ok (l.set 0 (demoHeavy.1, { (hasDecayed demoHeavy.1 demoQ demoHeavy.2).1 with coll := [0] })) := by
    intro l h
    unfold collideOne
    rw [h]
    have : ¬ (demoHeavy.2.integrals = [] ∨ demoHeavy.2.decayed = true) := by simp [demoHeavy, demoState]
    simp only [demoHeavy_decays, if_true]
    rw [if_neg this]
    rfl
  have f1' : ∀ l : List (Part ℕ), l[1]? = some demoHeavy → collideOne demoWorld demoQ l 1 =
      .ok (l.set 1 (demoHeavy.1, { (hasDecayed demoHeavy.1 demoQ demoHeavy.2).1 with coll := [0] })) := by
    intro l h
    unfold collideOne
    rw [h]
    have : ¬ (demoHeavy.2.integrals = [] ∨ demoHeavy.2.decayed = true) := by simp [demoHeavy, demoState]
    simp only [demoHeavy_decays, if_true]
    rw [if_neg this]
    rfl
  have f2 : ∀ (l : List (Part ℕ)) k, l[k]? = some demoLight → collideOne demoWorld demoQ l k =
      .ok (l.set k (demoLight.1, { demoLight.2 with
        coll := [1 / 4 + (l.map fun x => x.2.dist.sum).sum] })) := by
    intro l k h
    unfold collideOne
    rw [h]
    have h1 : ¬ (demoLight.2.integrals = [] ∨ demoLight.2.decayed = true) := by simp [demoLight, demoState]
    have h2 : demoLight.1.fastDecay = false := rfl
    simp only [demoLight_stays, demoLight_term, h2]
    rw [if_neg h1]
    rfl
  have hp : ∀ x y : Part ℕ, x.2.integrals ≠ [] → y.2.integrals ≠ [] →
      calculateCollisions demoWorld demoQ [x, y] = collideAll demoWorld demoQ [0, 1] [x, y] := by
    intro x y hx hy
    unfold calculateCollisions
    congr 1
    simp [List.range_succ, hx, hy]
  have hH : demoHeavy.2.integrals ≠ [] := by simp [demoHeavy]
  have hL : demoLight.2.integrals ≠ [] := by simp [demoLight]
  refine ⟨demoWorld, demoQ, demoHeavy, demoLight,
    [(demoHeavy.1, { (hasDecayed demoHeavy.1 demoQ demoHeavy.2).1 with coll := [0] }),
     (demoLight.1, { demoLight.2 with coll := [1 / 2] })],
    [(demoLight.1, { demoLight.2 with coll := [1] }),
     (demoHeavy.1, { (hasDecayed demoHeavy.1 demoQ demoHeavy.2).1 with coll := [0] })],
    demoWorld_ignores, ?_, ?_, rfl, rfl⟩
  · rw [hp _ _ hH hL]
    simp only [collideAll]
    rw [f1 _ rfl]
    dsimp only [List.set]
    rw [f2 _ 1 rfl]
    dsimp only [List.set]
    rw [hasDecayed_true_state _ _ _ demoHeavy_decays]
    norm_num [Species.zeros, demoLight, demoHeavy]
  · rw [hp _ _ hL hH]
    simp only [collideAll]
    rw [f2 _ 0 rfl]
    dsimp only [List.set]
    rw [f1' _ rfl]
    dsimp only [List.set]
    norm_num [demoLight, demoHeavy]

/-- `C91_state` and `C91_snapshot` apply to completed steps: here one with both particles. -/
example : ∃ l', calculateCollisions demoWorld demoQ [demoLight] = .ok l' ∧
    (l'[0]?).map (fun z => z.2.coll) = some [1 / 2] := by
  refine ⟨[(demoLight.1, { demoLight.2 with coll := [1 / 2] })], ?_, rfl⟩
  have h1 : ¬ (demoLight.2.integrals = [] ∨ demoLight.2.decayed = true) := by simp [demoLight, demoState]
  have h2 : demoLight.1.fastDecay = false := rfl
  have hp : calculateCollisions demoWorld demoQ [demoLight] = collideAll demoWorld demoQ [0] [demoLight] := by
    unfold calculateCollisions
    congr 1
  rw [hp]
  simp only [collideAll, collideOne, List.getElem?_cons_zero, demoLight_stays, demoLight_term, h2]
  rw [if_neg h1]
  norm_num [demoLight]

/-- Hypothesis of `C91_snapshot`: the massless particle never counts as decayed. -/
example : ∀ x ∈ [demoLight], x.2.integrals ≠ [] → x.2.decayed = false →
    (hasDecayed x.1 demoQ x.2).2 = false := by
  intro x hx _ _
  rw [List.mem_singleton.mp hx]
  exact demoLight_stays

/-- `C90_sums` on a pair, a single array of a scattering kind and one of a decay kind. -/
example : ∃ ab b, collect [(.full, .two [1, 2] [3, 4]), (.f1, .one [5, 6]), (.fDecay, .one [7, 8])] =
      .ok (ab, b) ∧ ((sumArr 2 ab)[1]?).getD 0 = 16 ∧ ((sumArr 2 b)[1]?).getD 0 = 12 := by
  obtain ⟨ab, b, h, -, -, hs⟩ := C90_sums 2 [(.full, .two [1, 2] [3, 4]), (.f1, .one [5, 6]),
    (.fDecay, .one [7, 8])] (by simp [IntOut.Shaped])
  refine ⟨ab, b, h, ?_, ?_⟩
  · rw [(hs 1 (by norm_num)).1]; norm_num [IntOut.slope]
  · rw [(hs 1 (by norm_num)).2]; rw [List.map_cons, List.map_cons]; simp [IntOut.implicit]; norm_num

/-- `C90_term` on the two-particle universe. -/
example : ∃ c, collisionTerm demoWorld demoQ [demoHeavy, demoLight] demoLight.1 demoLight.2 = .ok c ∧
    c.length = 1 := by
  refine ⟨_, demoLight_term _, ?_⟩
  exact (C90_term demoWorld demoQ _ demoLight.1 demoLight.2 _ (demoLight_term [demoHeavy, demoLight])
    (fun _ => .one [([demoHeavy, demoLight].map fun x => x.2.dist.sum).sum]) (fun _ _ => rfl)
    (fun _ _ => by simp [IntOut.Shaped, demoWorld, demoLight])).1

/-- A completed step with one registered integral: hypotheses of `C92_step` and `C92_run`. -/
example : ∃ l', universeRun demoWorld (fun _ _ _ => 1) [0] [demoQ]
      [(demoLight.1, { demoLight.2 with integrals := [] })] = .ok l' ∧
    (l'[0]?).map (fun x => x.2.dist) = some [3 / 4] := by
  set s0 : PState ℕ := { demoLight.2 with integrals := [] } with hs0
  have hout : inEq demoLight.1 s0 = false := by norm_num [inEq, hs0, demoLight, demoSpecies, demoState]
  have ho : inEq demoLight.1 (particleUpdate demoLight.1 (fun _ _ => 1) demoQ s0) = false :=
    update_stays_out demoLight.1 _ demoQ s0 1 one_pos (by norm_num [demoQ, demoP])
      (by norm_num [hs0, demoLight, demoState]) (by norm_num [hs0, demoLight, demoState]) hout
  obtain ⟨-, -, u3, u4, u5, u6, -⟩ := update_spec demoLight.1 (fun _ _ => 1) demoQ s0
  have ud := (C27_decoupled_frozen demoLight.1 (fun _ _ => 1) demoQ s0 hout (Or.inl rfl)).2.2
  set u := particleUpdate demoLight.1 (fun _ _ => 1) demoQ s0 with hu
  have huc : u.histColl = [] := by
    rw [hu]; simp only [particleUpdate, initDistribution]; split_ifs <;> rfl
  have hi : initInteractions demoWorld demoQ [0] (updateParticles (fun _ _ _ => 1) demoQ [(demoLight.1, s0)]) =
      [(demoLight.1, { u with integrals := [0] })] := by
    have : demoQ.T < u.Tdec ∧ inEq demoLight.1 u = false :=
      ⟨by rw [u3]; norm_num [demoQ, demoP, hs0, demoLight, demoState], ho⟩
    have hr : registerIntegral demoLight.1 demoQ 0 u = { u with integrals := [0] } := by
      rw [registerIntegral, if_pos this, u4]; rfl
    show [(demoLight.1, registerIntegral demoLight.1 demoQ 0 u)] = _
    rw [hr]
  have hd : (hasDecayed demoLight.1 demoQ { u with integrals := [0] }).2 = false := by
    have : demoLight.1.mass = 0 := rfl
    unfold hasDecayed
    simp only [this, ne_eq, not_true_eq_false, false_and, and_false, if_false]
    split <;> rfl
  have ht := demo_term [(demoLight.1, { u with integrals := [0] })] demoLight.1 { u with integrals := [0] }
    (1 / 4) 0 rfl ud huc ho rfl
  have hdec : ¬ (({ u with integrals := [0] } : PState ℕ).integrals = [] ∨ u.decayed = true) := by
    rw [u5]; simp [hs0, demoLight, demoState]
  have hcol : calculateCollisions demoWorld demoQ [(demoLight.1, { u with integrals := [0] })] =
      .ok [(demoLight.1, { u with integrals := [0], coll := [1 / 2] })] := by
    have hp : calculateCollisions demoWorld demoQ [(demoLight.1, { u with integrals := [0] })] =
        collideAll demoWorld demoQ [0] [(demoLight.1, { u with integrals := [0] })] := by
      unfold calculateCollisions
      congr 1
    have hf : demoLight.1.fastDecay = false := rfl
    rw [hp]
    simp only [collideAll, collideOne, List.getElem?_cons_zero, hd, ht, hf]
    rw [if_neg hdec]
    norm_num [ud, hs0, demoLight]
  have hup := updateDistribution_ok demoLight.1 demoQ ([1 / 2].map .fin)
    { u with integrals := [0], coll := [1 / 2] } [1 / 2] ho (sanitize_map_fin _) (by simp [ud, hs0, demoLight])
  have hrun : ∀ t, updateDistribution demoLight.1 demoQ ([1 / 2].map .fin)
      { u with integrals := [0], coll := [1 / 2] } = .ok t →
      universeRun demoWorld (fun _ _ _ => 1) [0] [demoQ] [(demoLight.1, s0)] = .ok [(demoLight.1, t)] := by
    intro t h
    simp only [universeRun, universeStep]
    rw [hi, hcol]
    simp only [updateDistributions, h]
  refine ⟨_, hrun _ hup, ?_⟩
  simp only [List.getElem?_cons_zero, Option.map_some, ud]
  norm_num [hs0, demoLight, demoQ]

end PyBBN
