import Verif.Lemmas.CrossFamily
/-!
# The kernel of a generated family
-/
namespace PyBBN

section
variable {S : Type*} [DecidableEq S] {A : LibAttr S}

/-- The integral of a scattering of two particles into two. -/
def TwoTwo (i : Integral4 S) : Prop := i.reaction.map (·.side) = [-1, -1, 1, 1]

instance : DecidablePred (TwoTwo (S := S)) := fun i => inferInstanceAs (Decidable (_ = _))

/-- Species of the particles of a reaction, the integrated one first. -/
def specieAt (i : Integral4 S) (j : Fin 4) : S := ((i.reaction[(j : ℕ)]?).map (·.specie)).getD i.particle

theorem twoTwo_key (i : Integral4 S) (h : TwoTwo i) :
    sideKey i.reaction = ([specieAt i 0, specieAt i 1], [specieAt i 2, specieAt i 3]) := by
  unfold TwoTwo at h
  unfold specieAt
  obtain ⟨p, r, Ms⟩ := i
  dsimp only at h ⊢
  have hlen : r.length = 4 := by simpa using congrArg List.length h
  obtain ⟨a, b, c, d, rfl⟩ : ∃ a b c d, r = [a, b, c, d] := by
    match r, hlen with
    | [a, b, c, d], _ => exact ⟨a, b, c, d, rfl⟩
  simp only [List.map_cons, List.map_nil, List.cons.injEq, and_true] at h
  obtain ⟨h0, h1, h2, h3⟩ := h
  simp [sideKey, speciesOn, h0, h1, h2, h3]

theorem not_twoTwo_key (sp : S → Prop) (i : Integral4 S) (hs : Sound A sp i) (h : ¬ TwoTwo i) (s0 s1 s2 s3 : S) :
    sideKey i.reaction ≠ ([s0, s1], [s2, s3]) := by
  obtain ⟨hd, t, R, e, hl, hr, -⟩ := hs.shape
  intro hk
  apply h
  have e1 : (i.reaction.filter (·.side = -1)) = hd :: t := by
    rw [e, List.filter_append, List.filter_eq_self.mpr fun x hx => by simp [hl x hx],
      List.filter_eq_nil_iff.mpr fun x hx => by simp [hr x hx], List.append_nil]
  have e2 : (i.reaction.filter (·.side = 1)) = R := by
    rw [e, List.filter_append, List.filter_eq_nil_iff.mpr fun x hx => by simp [hl x hx],
      List.filter_eq_self.mpr fun x hx => by simp [hr x hx], List.nil_append]
  unfold sideKey speciesOn at hk
  rw [e1, e2] at hk
  have h1 := congrArg (fun x => x.1.length) hk
  have h2 := congrArg (fun x => x.2.length) hk
  simp only [List.length_map] at h1 h2
  unfold TwoTwo
  rw [e, List.map_append, List.map_congr_left (g := fun _ => (-1 : ℤ)) hl, List.map_congr_left (g := fun _ => (1 : ℤ)) hr,
    List.map_const', List.map_const', h1, h2]
  rfl

theorem totalAmp_twoTwo (sp : S → Prop) (θ : Fin 4 → S) (k : Fin 4) (α β : Fin 4 → Fin 4 → Fin 4 → Fin 4 → ℝ)
    (l : List (Integral4 S)) (hs : ∀ i ∈ l, Sound A sp i) :
    totalAmp (evAmp θ k α) (evAmp θ k β) (l.filter fun i => TwoTwo i) = totalAmp (evAmp θ k α) (evAmp θ k β) l := by
  have zero : ∀ (γ : Fin 4 → Fin 4 → Fin 4 → Fin 4 → ℝ) (i : Integral4 S), Sound A sp i → ¬ TwoTwo i → ∀ o,
      evAmp θ k γ (sideKey i.reaction) o = 0 := by
    intro γ i hi h o
    unfold evAmp
    split
    · rename_i hk; exact absurd hk (not_twoTwo_key sp i hi h _ _ _ _)
    · rfl
  induction l with
  | nil => rfl
  | cons i l ih =>
    have ih' := ih fun j hj => hs j (List.mem_cons_of_mem _ hj)
    have hi := hs i (List.mem_cons_self ..)
    by_cases h : TwoTwo i
    · rw [List.filter_cons_of_pos (by simpa using h), totalAmp_cons, totalAmp_cons, ih']
    · rw [List.filter_cons_of_neg (by simpa using h), totalAmp_cons, ih']
      have : linAmp (evAmp θ k α (sideKey i.reaction)) (evAmp θ k β (sideKey i.reaction)) i.Ms = 0 := by
        unfold linAmp
        apply List.sum_eq_zero
        intro x hx
        obtain ⟨m, -, rfl⟩ := List.mem_map.mp hx
        rw [zero α i hi h, zero β i hi h]; ring
      rw [this, zero_add]

theorem Ordered.bijective (x : M4) (h : Ordered x) : x.toC.order.Bijective := by
  apply Finite.injective_iff_bijective.mp
  have hnd : [x.order.a, x.order.b, x.order.c, x.order.d].Nodup := h.2.nodup_iff.mpr List.nodup_range
  have hlt : ∀ v ∈ [x.order.a, x.order.b, x.order.c, x.order.d], v < 4 := fun v hv =>
    List.mem_range.mp (h.2.mem_iff.mp hv)
  have e : ∀ j : Fin 4, ((x.toC.order j : Fin 4) : ℕ) = [x.order.a, x.order.b, x.order.c, x.order.d][(j : ℕ)]'(by simp) := by
    intro j
    have hv : ∀ v, v < 4 → ((fin4 v : Fin 4) : ℕ) = v := fun v hv => Nat.mod_eq_of_lt hv
    fin_cases j
    · exact hv _ (hlt _ (by simp))
    · exact hv _ (hlt _ (by simp))
    · exact hv _ (hlt _ (by simp))
    · exact hv _ (hlt _ (by simp))
  intro j k hjk
  have := congrArg Fin.val hjk
  rw [e, e] at this
  exact Fin.ext ((List.Nodup.getElem_inj_iff hnd).mp this)

end

/-! ## Averages -/

theorem avg_swap (q1 q2 q3 q4 : ℝ) (f : ℝ → ℝ) : pairAverage q1 q2 q3 q4 f = pairAverage q2 q1 q3 q4 f := by
  unfold pairAverage
  rw [abs_sub_comm, add_comm q1]

theorem avg_swap' (q1 q2 q3 q4 : ℝ) (f : ℝ → ℝ) : pairAverage q1 q2 q3 q4 f = pairAverage q1 q2 q4 q3 f := by
  unfold pairAverage
  rw [abs_sub_comm q3, add_comm q3]

/-- Average of one of the two terms of the amplitude, over the unit of the matrix elements. -/
noncomputable def avgTerm (GF : ℝ) (E p m : Fin 4 → ℝ) (K1 K2 : ℝ) (i j k l : Fin 4) : ℝ :=
  pairAverage (p i) (p j) (p k) (p l) (amplitude E p m evSide K1 K2 i j k l) / (32 * GF ^ 2)

theorem fourProduct_comm (E p : Fin 4 → ℝ) (s : Fin 4 → ℤ) (i j : Fin 4) (d : ℝ) :
    fourProduct E p s i j d = fourProduct E p s j i d := by
  unfold fourProduct dot; ring

theorem avgTerm_pair (GF : ℝ) (E p m : Fin 4 → ℝ) (K1 K2 : ℝ) : PairFn (avgTerm GF E p m K1 K2) := by
  constructor
  · intro i j k l
    unfold avgTerm
    rw [avg_swap]
    congr 2
    funext d
    unfold amplitude
    rw [fourProduct_comm E p evSide j i]; ring
  · intro i j k l
    unfold avgTerm
    rw [avg_swap']
    congr 2
    funext d
    unfold amplitude
    rw [fourProduct_comm E p evSide l k]

theorem avgTerm_swap (GF : ℝ) (E p m : Fin 4 → ℝ) (K1 : ℝ) (i j k l : Fin 4) :
    avgTerm GF E p m K1 0 k l i j = avgTerm GF E p m K1 0 i j k l := by
  unfold avgTerm
  rw [pairAverage_pairs]
  congr 2
  funext d
  unfold amplitude
  ring

theorem continuous_fourProduct (E p : Fin 4 → ℝ) (s : Fin 4 → ℤ) (i j : Fin 4) : Continuous (fourProduct E p s i j) := by
  unfold fourProduct dot; fun_prop

theorem avg_linear (GF : ℝ) (E p m : Fin 4 → ℝ) (K1 K2 : ℝ) (i j k l : Fin 4) :
    pairAverage (p i) (p j) (p k) (p l) (amplitude E p m evSide (K1 / (32 * GF ^ 2)) (K2 / (32 * GF ^ 2)) i j k l) =
      K1 * avgTerm GF E p m 1 0 i j k l + K2 * avgTerm GF E p m 0 1 i j k l := by
  have c1 := continuous_fourProduct E p evSide i j
  have c2 := continuous_fourProduct E p evSide k l
  have h : amplitude E p m evSide (K1 / (32 * GF ^ 2)) (K2 / (32 * GF ^ 2)) i j k l = fun d =>
      K1 / (32 * GF ^ 2) * amplitude E p m evSide 1 0 i j k l d + K2 / (32 * GF ^ 2) * amplitude E p m evSide 0 1 i j k l d := by
    funext d
    unfold amplitude; ring
  have cont : ∀ a b : ℝ, Continuous (amplitude E p m evSide a b i j k l) := by
    intro a b
    unfold amplitude; fun_prop
  have k1 := cont 1 0
  have k2 := cont 0 1
  rw [h, pairAverage_add (f := fun d => K1 / (32 * GF ^ 2) * amplitude E p m evSide 1 0 i j k l d)
    (g := fun d => K2 / (32 * GF ^ 2) * amplitude E p m evSide 0 1 i j k l d) (by fun_prop) (by fun_prop), pairAverage_mul,
    pairAverage_mul]
  unfold avgTerm
  ring

section
variable {S : Type*} [DecidableEq S]

/-- The kernel of a generated integral, seen through a relabelling, as a functional of its matrix elements. -/
theorem kern_lin (sp : S → CParticle) (θ : Fin 4 → S) (GF : ℝ) (p E : Fin 4 → ℝ) (g : Equiv.Perm (Fin 4)) (Ms : List M4) :
    kern (evR sp θ) (viewMs ((Ms.map M4.toC).map (toCM GF)) g) p E =
      (Ms.map fun x =>
        x.K1 * avgTerm GF E p (fun i => (sp (θ i)).m) 1 0 (g.symm (fin4 x.order.a)) (g.symm (fin4 x.order.b))
          (g.symm (fin4 x.order.c)) (g.symm (fin4 x.order.d)) +
        x.K2 * avgTerm GF E p (fun i => (sp (θ i)).m) 0 1 (g.symm (fin4 x.order.a)) (g.symm (fin4 x.order.b))
          (g.symm (fin4 x.order.c)) (g.symm (fin4 x.order.d))).sum := by
  unfold kern viewMs
  rw [List.map_map, List.map_map, List.map_map]
  congr 1
  apply List.map_congr_left
  intro x _
  exact avg_linear GF E p (fun i => (sp (θ i)).m) x.K1 x.K2 _ _ _ _

open Classical in
theorem kern_sum (sp : S → CParticle) (θ τ : Fin 4 → S) (GF : ℝ) (p E : Fin 4 → ℝ) (i : Fin 4) (Ms : List M4) :
    (∑ g : Equiv.Perm (Fin 4), if g i = 0 ∧ g (mate i) = 1 ∧ τ ∘ g = θ then
      kern (evR sp θ) (viewMs ((Ms.map M4.toC).map (toCM GF)) g) p E else 0) =
    linAmp (evAmp θ i (avgTerm GF E p (fun i => (sp (θ i)).m) 1 0) ([τ 0, τ 1], [τ 2, τ 3]))
      (evAmp θ i (avgTerm GF E p (fun i => (sp (θ i)).m) 0 1) ([τ 0, τ 1], [τ 2, τ 3])) Ms := by
  have hv : ![τ 0, τ 1, τ 2, τ 3] = τ := by funext j; fin_cases j <;> rfl
  have hev : ∀ (α : Fin 4 → Fin 4 → Fin 4 → Fin 4 → ℝ) (o : Ord4), evAmp θ i α ([τ 0, τ 1], [τ 2, τ 3]) o =
      ∑ g : Equiv.Perm (Fin 4), if g i = 0 ∧ g (mate i) = 1 ∧ τ ∘ g = θ then
        α (g.symm (fin4 o.a)) (g.symm (fin4 o.b)) (g.symm (fin4 o.c)) (g.symm (fin4 o.d)) else 0 := by
    intro α o
    unfold evAmp
    dsimp only
    rw [hv]
  simp only [kern_lin]
  induction Ms with
  | nil => simp [linAmp]
  | cons x Ms ih =>
    rw [linAmp_cons, ← ih, hev, hev, Finset.mul_sum, Finset.mul_sum, ← Finset.sum_add_distrib, ← Finset.sum_add_distrib]
    apply Finset.sum_congr rfl
    intro g _
    by_cases h : g i = 0 ∧ g (mate i) = 1 ∧ τ ∘ g = θ
    · simp only [if_pos h]
      rw [List.map_cons, List.sum_cons]
    · simp only [if_neg h]; ring

/-- Kernels of a family of generated scatterings as functionals of their matrix elements. -/
theorem evTotal_eq (sp : S → CParticle) (GF : ℝ) (l : List (Integral4 S)) (hl : ∀ i ∈ l, TwoTwo i) (θ : Fin 4 → S) (i : Fin 4)
    (p E : Fin 4 → ℝ) :
    evTotal sp (fun n : Fin l.length => specieAt l[(n : ℕ)]) (fun n => (l[(n : ℕ)].Ms.map M4.toC).map (toCM GF)) θ i p E =
      totalAmp (evAmp θ i (avgTerm GF E p (fun i => (sp (θ i)).m) 1 0)) (evAmp θ i (avgTerm GF E p (fun i => (sp (θ i)).m) 0 1)) l := by
  unfold totalAmp evTotal
  rw [← Fin.sum_univ_fun_getElem]
  apply Finset.sum_congr rfl
  intro n _
  rw [twoTwo_key _ (hl _ (List.getElem_mem n.2))]
  rw [← kern_sum sp θ (specieAt l[(n : ℕ)]) GF p E i l[(n : ℕ)].Ms]
  apply Finset.sum_congr rfl
  intro g _
  by_cases h : g i = 0 ∧ g (mate i) = 1 ∧ specieAt l[(n : ℕ)] ∘ g = θ
  · rw [if_pos h, if_pos h]
  · rw [if_neg h, if_neg h]

/-- A family of generated scatterings is balanced if its functionals are. -/
theorem ampBalanced_of (sp : S → CParticle) (GF : ℝ) (l : List (Integral4 S)) (hl : ∀ i ∈ l, TwoTwo i)
    (hb : ∀ {α β : Fin 4 → Fin 4 → Fin 4 → Fin 4 → ℝ}, PairFn α → PairFn β → (∀ i j k l, α k l i j = α i j k l) → ∀ θ,
      ∃ B, ∀ i, totalAmp (evAmp θ i α) (evAmp θ i β) l = B) :
    AmpBalanced sp (fun n : Fin l.length => specieAt l[(n : ℕ)]) fun n => (l[(n : ℕ)].Ms.map M4.toC).map (toCM GF) := by
  intro θ p E
  obtain ⟨B, hB⟩ := hb (avgTerm_pair GF E p (fun i => (sp (θ i)).m) 1 0) (avgTerm_pair GF E p (fun i => (sp (θ i)).m) 0 1)
    (avgTerm_swap GF E p (fun i => (sp (θ i)).m) 1) θ
  exact ⟨B, fun i => (evTotal_eq sp GF l hl θ i p E).trans (hB i)⟩

end

end PyBBN
