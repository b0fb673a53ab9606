import Verif.Lemmas.Angles
import Verif.Props.FermiEvents
import Verif.Lemmas.CrossKern
/-!
# The kernel of an event is not negative
-/
namespace PyBBN
open MeasureTheory

theorem pairing_cases {P : Fin 4 → Fin 4 → Fin 4 → Fin 4 → Prop} (s1 : ∀ i j k l, P i j k l → P j i k l)
    (s2 : ∀ i j k l, P i j k l → P i j l k) (a : P 0 1 2 3) (a' : P 2 3 0 1) (b : P 0 2 1 3) (b' : P 1 3 0 2) (c : P 0 3 1 2)
    (c' : P 1 2 0 3) (i j k l : Fin 4) (h : [i, j, k, l].Nodup) : P i j k l := by
  have all : ∀ i j k l, P i j k l → P i j k l ∧ P j i k l ∧ P i j l k ∧ P j i l k := fun i j k l h =>
    ⟨h, s1 _ _ _ _ h, s2 _ _ _ _ h, s1 _ _ _ _ (s2 _ _ _ _ h)⟩
  obtain ⟨a1, a2, a3, a4⟩ := all _ _ _ _ a
  obtain ⟨a5, a6, a7, a8⟩ := all _ _ _ _ a'
  obtain ⟨b1, b2, b3, b4⟩ := all _ _ _ _ b
  obtain ⟨b5, b6, b7, b8⟩ := all _ _ _ _ b'
  obtain ⟨c1, c2, c3, c4⟩ := all _ _ _ _ c
  obtain ⟨c5, c6, c7, c8⟩ := all _ _ _ _ c'
  fin_cases i <;> fin_cases j <;> fin_cases k <;> fin_cases l <;> first | exact absurd h (by decide) | assumption

variable {q : Fin 4 → ℝ}

theorem dot3_symm (x y : Fin 3 → ℝ) : dot3 x y = dot3 y x := by unfold dot3; ring

theorem dot_symm (a b : ℝ) : dot a b = dot b a := by funext d; unfold dot; ring

/-- The averages of the code are averages over all directions, for every pairing. -/
theorem avg_all (hq : ∀ i, 0 ≤ q i) (i j k l : Fin 4) (h : [i, j, k, l].Nodup) :
    HasAvg q (fun _ => 1) (pairAverage (q i) (q j) (q k) (q l) fun _ => 1) ∧
    HasAvg q (fun x => dot3 (x i) (x j)) (pairAverage (q i) (q j) (q k) (q l) (dot (q i) (q j))) ∧
    HasAvg q (fun x => dot3 (x k) (x l)) (pairAverage (q i) (q j) (q k) (q l) (dot (q k) (q l))) ∧
    HasAvg q (fun x => dot3 (x i) (x j) * dot3 (x k) (x l))
      (pairAverage (q i) (q j) (q k) (q l) fun d => dot (q i) (q j) d * dot (q k) (q l) d) := by
  have e1 : ∀ i j k l : Fin 4, [i, j, k, l].Nodup → pairAverage (q i) (q j) (q k) (q l) (fun _ => 1) =
      pairAverage (q 0) (q 1) (q 2) (q 3) (fun _ => 1) ∧
      pairAverage (q i) (q j) (q k) (q l) (fun d => dot (q i) (q j) d * dot (q k) (q l) d) =
      pairAverage (q 0) (q 1) (q 2) (q 3) (fun d => dot (q 0) (q 1) d * dot (q 2) (q 3) d) := by
    intro i j k l h
    have hinj : Function.Injective ![i, j, k, l] := by
      rw [← List.nodup_ofFn]; simpa [List.ofFn_succ] using h
    have a := C36_symmetric (Equiv.ofBijective _ (Finite.injective_iff_bijective.mp hinj)) q
    have b := C38_symmetric (Equiv.ofBijective _ (Finite.injective_iff_bijective.mp hinj)) q hq
    simp only [Equiv.ofBijective_apply, Matrix.cons_val] at a b
    rw [C36_integral (hq _) (hq _) (hq _) (hq _), C36_integral (hq _) (hq _) (hq _) (hq _)] at a
    rw [C38_integral (hq _) (hq _) (hq _) (hq _), C38_integral (hq _) (hq _) (hq _) (hq _)] at b
    exact ⟨a, b⟩
  obtain ⟨v1, v2⟩ := e1 i j k l h
  refine ⟨by rw [v1]; exact avg_one, ?_, ?_, ?_⟩
  · refine pairing_cases (P := fun i j k l => HasAvg q (fun x => dot3 (x i) (x j))
      (pairAverage (q i) (q j) (q k) (q l) (dot (q i) (q j)))) ?_ ?_ avg_01 avg_23 (avg_02 hq) (avg_13 hq) (avg_03 hq) (avg_12 hq) i j k l h
    · intro i j k l h
      rw [avg_swap, dot_symm]
      simpa only [dot3_symm] using h
    · intro i j k l h
      rw [avg_swap']; exact h
  · refine pairing_cases (P := fun i j k l => HasAvg q (fun x => dot3 (x k) (x l))
      (pairAverage (q i) (q j) (q k) (q l) (dot (q k) (q l)))) ?_ ?_ ?_ ?_ ?_ ?_ ?_ ?_ i j k l h
    · intro i j k l h
      rw [avg_swap]; exact h
    · intro i j k l h
      rw [avg_swap', dot_symm]
      simpa only [dot3_symm] using h
    · rw [pairAverage_pairs]; exact avg_23
    · rw [pairAverage_pairs]; exact avg_01
    · rw [pairAverage_pairs]; exact avg_13 hq
    · rw [pairAverage_pairs]; exact avg_02 hq
    · rw [pairAverage_pairs]; exact avg_12 hq
    · rw [pairAverage_pairs]; exact avg_03 hq
  · rw [v2]
    refine pairing_cases (P := fun i j k l => HasAvg q (fun x => dot3 (x i) (x j) * dot3 (x k) (x l))
      (pairAverage (q 0) (q 1) (q 2) (q 3) (fun d => dot (q 0) (q 1) d * dot (q 2) (q 3) d))) ?_ ?_ avg_dots ?_ avg_dots_02 ?_ avg_dots_03 ?_ i j k l h
    · intro i j k l h
      simpa only [dot3_symm (_ : Fin 3 → ℝ)] using h
    · intro i j k l h
      simpa only [dot3_symm] using h
    · simpa only [mul_comm] using avg_dots (q := q)
    · simpa only [mul_comm] using avg_dots_02 (q := q)
    · simpa only [mul_comm] using avg_dots_03 (q := q)



/-! ## Four-momenta of an event -/

/-- Four-momenta of an event: `x i` is the momentum of position `i`, with the opposite sign if it is incoming. -/
def eventQ (E : Fin 4 → ℝ) (x : Fin 4 → Fin 3 → ℝ) (i : Fin 4) : Fin 4 → ℝ :=
  ![E i, evSide i * x i 0, evSide i * x i 1, evSide i * x i 2]

theorem eventQ_mink (E : Fin 4 → ℝ) (x : Fin 4 → Fin 3 → ℝ) (i j : Fin 4) :
    mink (eventQ E x i) (eventQ E x j) = E i * E j - evSide i * evSide j * dot3 (x i) (x j) := by
  unfold mink eventQ dot3
  simp only [Matrix.cons_val]
  ring

theorem evSide_sq (i : Fin 4) : (evSide i : ℝ) * evSide i = 1 := by
  have : evSide i * evSide i = 1 := by fin_cases i <;> rfl
  exact_mod_cast this

theorem pairAverage_const (q1 q2 q3 q4 c : ℝ) : pairAverage q1 q2 q3 q4 (fun _ => c) = c * pairAverage q1 q2 q3 q4 fun _ => 1 := by
  rw [← pairAverage_mul]; simp

theorem avg_mass (hq : ∀ i, 0 ≤ q i) (E m : Fin 4 → ℝ) (i j k l : Fin 4) (h : [i, j, k, l].Nodup) :
    HasAvg q (fun x => evMass (eventQ E x) m i j k l)
      (pairAverage (q i) (q j) (q k) (q l) (amplitude E q m evSide 0 1 i j k l)) := by
  obtain ⟨a1, -, a3, -⟩ := avg_all hq i j k l h
  have := a1.lin a3 (m i * m j * (E k * E l)) (-(m i * m j * (evSide k * evSide l)))
  have e1 : (fun x => evMass (eventQ E x) m i j k l) = fun x : Fin 4 → Fin 3 → ℝ =>
      m i * m j * (E k * E l) * 1 + -(m i * m j * (evSide k * evSide l)) * dot3 (x k) (x l) := by
    funext x
    unfold evMass
    rw [eventQ_mink]; ring
  have e2 : amplitude E q m evSide 0 1 i j k l = fun d =>
      m i * m j * (E k * E l) * 1 + -(m i * m j * (evSide k * evSide l)) * dot (q k) (q l) d := by
    funext d
    unfold amplitude fourProduct; ring
  rw [e1, e2, pairAverage_add (f := fun d => m i * m j * (E k * E l) * 1) (by fun_prop) (by fun_prop), pairAverage_mul, pairAverage_mul]
  exact this

theorem avg_evDots (hq : ∀ i, 0 ≤ q i) (E m : Fin 4 → ℝ) (i j k l : Fin 4) (h : [i, j, k, l].Nodup) :
    HasAvg q (fun x => evDots (eventQ E x) i j k l)
      (pairAverage (q i) (q j) (q k) (q l) (amplitude E q m evSide 1 0 i j k l)) := by
  obtain ⟨a1, a2, a3, a4⟩ := avg_all hq i j k l h
  have := (a1.lin a2 (E i * E j * (E k * E l)) (-(E k * E l * (evSide i * evSide j)))).lin
    (a3.lin a4 (-(E i * E j * (evSide k * evSide l))) (evSide i * evSide j * (evSide k * evSide l))) 1 1
  have e1 : (fun x => evDots (eventQ E x) i j k l) = fun x : Fin 4 → Fin 3 → ℝ =>
      1 * (E i * E j * (E k * E l) * 1 + -(E k * E l * (evSide i * evSide j)) * dot3 (x i) (x j)) +
      1 * (-(E i * E j * (evSide k * evSide l)) * dot3 (x k) (x l) +
        evSide i * evSide j * (evSide k * evSide l) * (dot3 (x i) (x j) * dot3 (x k) (x l))) := by
    funext x
    unfold evDots
    rw [eventQ_mink, eventQ_mink]; ring
  have e2 : amplitude E q m evSide 1 0 i j k l = fun d =>
      1 * (E i * E j * (E k * E l) * 1 + -(E k * E l * (evSide i * evSide j)) * dot (q i) (q j) d) +
      1 * (-(E i * E j * (evSide k * evSide l)) * dot (q k) (q l) d +
        evSide i * evSide j * (evSide k * evSide l) * (dot (q i) (q j) d * dot (q k) (q l) d)) := by
    funext d
    unfold amplitude fourProduct; ring
  rw [e1, e2, pairAverage_add (f := fun d => 1 * (E i * E j * (E k * E l) * 1 + -(E k * E l * (evSide i * evSide j)) * dot (q i) (q j) d))
    (by fun_prop) (by fun_prop), pairAverage_mul, pairAverage_mul,
    pairAverage_add (f := fun d => E i * E j * (E k * E l) * 1) (by fun_prop) (by fun_prop), pairAverage_mul, pairAverage_mul,
    pairAverage_add (f := fun d => -(E i * E j * (evSide k * evSide l)) * dot (q k) (q l) d) (by fun_prop) (by fun_prop), pairAverage_mul, pairAverage_mul]
  exact this

theorem HasAvg.mul {F : (Fin 4 → Fin 3 → ℝ) → ℝ} {v : ℝ} (h : HasAvg q F v) (c : ℝ) : HasAvg q (fun x => c * F x) (c * v) := by
  simpa using h.lin h c 0

/-- The amplitude of an event is one average over all directions. -/
theorem avg_event (hq : ∀ i, 0 ≤ q i) (GF : ℝ) (E m : Fin 4 → ℝ) (Ms : List M4)
    (hM : ∀ x ∈ Ms, [x.order.a, x.order.b, x.order.c, x.order.d].Perm (List.range 4)) (γ : Equiv.Perm (Fin 4)) :
    HasAvg q (fun x => eventAmp (evDots (eventQ E x)) (evMass (eventQ E x) m) Ms γ / (32 * GF ^ 2))
      (eventAmp (avgTerm GF E q m 1 0) (avgTerm GF E q m 0 1) Ms γ) := by
  induction Ms with
  | nil => simpa [eventAmp] using HasAvg.zero (q := q)
  | cons a Ms ih =>
    have ih' := ih fun x hx => hM x (List.mem_cons_of_mem _ hx)
    have hp := hM a (List.mem_cons_self ..)
    have hnd : [γ.symm (fin4 a.order.a), γ.symm (fin4 a.order.b), γ.symm (fin4 a.order.c), γ.symm (fin4 a.order.d)].Nodup := by
      have h1 : [a.order.a, a.order.b, a.order.c, a.order.d].Nodup := hp.nodup_iff.mpr List.nodup_range
      have : [γ.symm (fin4 a.order.a), γ.symm (fin4 a.order.b), γ.symm (fin4 a.order.c), γ.symm (fin4 a.order.d)] =
        [a.order.a, a.order.b, a.order.c, a.order.d].map fun v => γ.symm (fin4 v) := rfl
      rw [this]
      refine List.Nodup.map_on ?_ h1
      intro x hx y hy e
      have e' := γ.symm.injective e
      have hlt : ∀ v ∈ [a.order.a, a.order.b, a.order.c, a.order.d], v < 4 := fun v hv => List.mem_range.mp (hp.mem_iff.mp hv)
      have hv : ∀ v, v < 4 → ((fin4 v : Fin 4) : ℕ) = v := fun v hv => Nat.mod_eq_of_lt hv
      rw [← hv x (hlt x hx), ← hv y (hlt y hy), e']
    have d := avg_evDots hq E m _ _ _ _ hnd
    have ms := avg_mass hq E m _ _ _ _ hnd
    have := ((d.mul (1 / (32 * GF ^ 2))).lin (ms.mul (1 / (32 * GF ^ 2))) a.K1 (if flips a γ then a.K2 * (-1) else a.K2)).lin ih' 1 1
    have e1 : (fun x => eventAmp (evDots (eventQ E x)) (evMass (eventQ E x) m) (a :: Ms) γ / (32 * GF ^ 2)) = fun x =>
        1 * (a.K1 * (1 / (32 * GF ^ 2) * evDots (eventQ E x) (γ.symm (fin4 a.order.a)) (γ.symm (fin4 a.order.b)) (γ.symm (fin4 a.order.c)) (γ.symm (fin4 a.order.d))) +
          (if flips a γ then a.K2 * (-1) else a.K2) * (1 / (32 * GF ^ 2) * evMass (eventQ E x) m (γ.symm (fin4 a.order.a)) (γ.symm (fin4 a.order.b)) (γ.symm (fin4 a.order.c)) (γ.symm (fin4 a.order.d)))) +
        1 * (eventAmp (evDots (eventQ E x)) (evMass (eventQ E x) m) Ms γ / (32 * GF ^ 2)) := by
      funext x
      unfold eventAmp
      rw [List.map_cons, List.sum_cons]; ring
    have e2 : eventAmp (avgTerm GF E q m 1 0) (avgTerm GF E q m 0 1) (a :: Ms) γ =
        1 * (a.K1 * (1 / (32 * GF ^ 2) * pairAverage (q (γ.symm (fin4 a.order.a))) (q (γ.symm (fin4 a.order.b))) (q (γ.symm (fin4 a.order.c))) (q (γ.symm (fin4 a.order.d))) (amplitude E q m evSide 1 0 (γ.symm (fin4 a.order.a)) (γ.symm (fin4 a.order.b)) (γ.symm (fin4 a.order.c)) (γ.symm (fin4 a.order.d)))) +
          (if flips a γ then a.K2 * (-1) else a.K2) * (1 / (32 * GF ^ 2) * pairAverage (q (γ.symm (fin4 a.order.a))) (q (γ.symm (fin4 a.order.b))) (q (γ.symm (fin4 a.order.c))) (q (γ.symm (fin4 a.order.d))) (amplitude E q m evSide 0 1 (γ.symm (fin4 a.order.a)) (γ.symm (fin4 a.order.b)) (γ.symm (fin4 a.order.c)) (γ.symm (fin4 a.order.d))))) +
        1 * eventAmp (avgTerm GF E q m 1 0) (avgTerm GF E q m 0 1) Ms γ := by
      unfold eventAmp avgTerm
      rw [List.map_cons, List.sum_cons]; ring
    rw [e1, e2]
    exact this

/-! ## Squares -/

theorem complete_exists' (l : Leg) (h0 : 0 ≤ l.p 0) (hs : mink l.p l.p = l.m ^ 2) : ∃ u : Fin 4 → Fin 4 → ℂ, SpinComplete l u := by
  rcases h0.lt_or_eq with h | h
  · exact complete_exists l h hs
  · refine ⟨fun _ => 0, ?_⟩
    unfold mink at hs
    rw [← h] at hs
    have h1 : l.p 1 = 0 := by nlinarith [sq_nonneg (l.p 1), sq_nonneg (l.p 2), sq_nonneg (l.p 3), sq_nonneg l.m]
    have h2 : l.p 2 = 0 := by nlinarith [sq_nonneg (l.p 1), sq_nonneg (l.p 2), sq_nonneg (l.p 3), sq_nonneg l.m]
    have h3 : l.p 3 = 0 := by nlinarith [sq_nonneg (l.p 1), sq_nonneg (l.p 2), sq_nonneg (l.p 3), sq_nonneg l.m]
    have hm : l.m = 0 := by nlinarith [sq_nonneg (l.p 1), sq_nonneg (l.p 2), sq_nonneg (l.p 3), sq_nonneg l.m]
    unfold SpinComplete
    rw [spinSum_eq, hm]
    ext i j
    cases l.anti <;> fin_cases i <;> fin_cases j <;> simp [dmat, ← h, h1, h2, h3]

/-- A squared amplitude of the theory is not negative. -/
theorem fermiSq_nonneg (GF a b c d x : ℝ) (X Y Z W : Leg) (hx : (x : ℂ) = fermiSq GF a b c d X Y Z W)
    (h : ∀ l ∈ [X, Y, Z, W], 0 ≤ l.p 0 ∧ mink l.p l.p = l.m ^ 2) : 0 ≤ x := by
  obtain ⟨u1, h1⟩ := complete_exists' X (h X (by simp)).1 (h X (by simp)).2
  obtain ⟨u2, h2⟩ := complete_exists' Y (h Y (by simp)).1 (h Y (by simp)).2
  obtain ⟨u3, h3⟩ := complete_exists' Z (h Z (by simp)).1 (h Z (by simp)).2
  obtain ⟨u4, h4⟩ := complete_exists' W (h W (by simp)).1 (h W (by simp)).2
  have := fermiSq_spins GF a b c d X Y Z W u1 u2 u3 u4 h1 h2 h3 h4
  rw [← hx] at this
  rw [← Complex.ofReal_injective this]
  exact Finset.sum_nonneg fun _ _ => Finset.sum_nonneg fun _ _ => Finset.sum_nonneg fun _ _ => Finset.sum_nonneg fun _ _ =>
    Complex.normSq_nonneg _

theorem weakNonneg_events (c : LibConst) (Q : Fin 4 → Fin 4 → ℝ) (m : Fin 4 → ℝ)
    (h : ∀ i, 0 ≤ Q i 0 ∧ mink (Q i) (Q i) = m i ^ 2) : WeakNonneg c (evDots Q) (evMass Q m) := by
  have hl : ∀ (anti : Fin 4 → Bool) (γ : Equiv.Perm (Fin 4)) (v w x y : Fin 4),
      ∀ l ∈ [evLeg anti Q m γ v, evLeg anti Q m γ w, evLeg anti Q m γ x, evLeg anti Q m γ y], 0 ≤ l.p 0 ∧ mink l.p l.p = l.m ^ 2 := by
    intro anti γ v w x y l hl
    simp only [List.mem_cons, List.not_mem_nil, or_false] at hl
    rcases hl with rfl | rfl | rfl | rfl <;> exact h _
  intro γ
  refine ⟨fermiSq_nonneg _ _ _ _ _ _ _ _ _ _ (scattering_fermi Q m γ) (hl _ _ _ _ _ _),
    fermiSq_nonneg _ _ _ _ _ _ _ _ _ _ (charged_fermi Q m γ) (hl _ _ _ _ _ _), fun gL => ?_⟩
  have hs := annihilation_swap (c := c) (α := evDots Q) (evMass_pair Q m) (Equiv.swap 2 3 * γ)
  rw [← mul_assoc, Equiv.swap_mul_self, one_mul] at hs
  rw [hs]
  exact fermiSq_nonneg _ _ _ _ _ _ _ _ _ _ (annihilation_fermi gL Q m _) (hl _ _ _ _ _ _)

/-- The amplitudes of the declarations, averaged over all directions of particles on shell, are not negative. -/
theorem weakNonneg_avg (c : LibConst) (GF : ℝ) (E p m : Fin 4 → ℝ) (h : ∀ i, 0 ≤ p i ∧ 0 ≤ E i ∧ E i ^ 2 = p i ^ 2 + m i ^ 2) :
    WeakNonneg c (avgTerm GF E p m 1 0) (avgTerm GF E p m 0 1) := by
  have hp : ∀ i, 0 ≤ p i := fun i => (h i).1
  have shell : ∀ d φ, Allowed p d → WeakNonneg c (evDots (eventQ E (kVec p d φ))) (evMass (eventQ E (kVec p d φ)) m) := by
    intro d φ hd
    refine weakNonneg_events c _ m fun i => ⟨(h i).2.1, ?_⟩
    rw [eventQ_mink, kVec_length φ hd i, evSide_sq, one_mul]
    linear_combination (h i).2.2
  have each : ∀ Ms : List M4, (∀ x ∈ Ms, [x.order.a, x.order.b, x.order.c, x.order.d].Perm (List.range 4)) → ∀ γ,
      (∀ d φ, Allowed p d → 0 ≤ eventAmp (evDots (eventQ E (kVec p d φ))) (evMass (eventQ E (kVec p d φ)) m) Ms γ) →
      0 ≤ eventAmp (avgTerm GF E p m 1 0) (avgTerm GF E p m 0 1) Ms γ := by
    intro Ms hM γ hpos
    exact (avg_event hp GF E m Ms hM γ).nonneg fun d φ hd => div_nonneg (hpos d φ hd) (by positivity)
  obtain ⟨o1, o2, o3, o4⟩ := normOrder_lits
  have perm : ∀ K K' : ℝ, ∀ o : Ord4, [(normOrder o).a, (normOrder o).b, (normOrder o).c, (normOrder o).d].Perm (List.range 4) →
      [(weakM c K K' o).order.a, (weakM c K K' o).order.b, (weakM c K K' o).order.c, (weakM c K K' o).order.d].Perm (List.range 4) :=
    fun _ _ _ h => h
  refine fun γ => ⟨each _ ?_ γ fun d φ hd => (shell d φ hd γ).1, each _ ?_ γ fun d φ hd => (shell d φ hd γ).2.1, fun gL =>
    each _ ?_ γ fun d φ hd => (shell d φ hd γ).2.2 gL⟩
  · intro x hx
    rw [List.mem_singleton.mp hx]
    exact perm _ _ _ (by rw [o1]; decide)
  · intro x hx
    rw [List.mem_singleton.mp hx]
    exact perm _ _ _ (by rw [o2]; decide)
  · intro x hx
    simp only [List.mem_cons, List.not_mem_nil, or_false] at hx
    rcases hx with rfl | rfl | rfl
    · exact perm _ _ _ (by rw [o2]; decide)
    · exact perm _ _ _ (by rw [o3]; decide)
    · exact perm _ _ _ (by rw [o4]; decide)

end PyBBN
