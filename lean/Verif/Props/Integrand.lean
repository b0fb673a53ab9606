import Verif.Props.Limits
import Verif.Props.Amplitude
import Mathlib.Analysis.SpecialFunctions.Sqrt
/-!
# C84–C85: the kinds of a collision integral and its integrand

Specification of the kinds: the net rate (gain minus loss) as a function of the occupation of the first
particle.  Specification of the integrand: squared amplitude averaged over the momentum-conserving
configurations, times the measure of the energies, over `p₀ E₀`, times the statistics factor.
-/
namespace PyBBN

/-! ## C84 -/

/-- Net rate of a reaction with first particle `r0` as a function of its occupation. -/
noncomputable def netRate (r0 : Reactant) (rest : List (Reactant × ℝ)) (f0 : ℝ) : ℝ :=
  gain ((r0, f0) :: rest) - loss ((r0, f0) :: rest)

section
variable (r0 : Reactant) (rs : List Reactant) (f0 : ℝ) (fs : List ℝ)

theorem netRate_eq (rest : List (Reactant × ℝ)) (h0 : r0.side = -1) :
    netRate r0 rest f0 = gain rest + f0 * (-loss rest - r0.specie.eta * gain rest) := by
  unfold netRate gain loss
  rw [occupied_cons, occupied_cons, blocked_cons, blocked_cons]
  simp only [h0]
  norm_num
  ring

theorem getLast_cons (f0 : ℝ) (fs : List ℝ) :
    (f0 :: fs).getLast? = some ((f0 :: fs).getLast (by simp)) := List.getLast?_eq_some_getLast _

/-- **C84.** What the integer `kind` means: 0 is the net rate, 1 the net rate for an empty first state,
2 its slope in the first occupation, 6 the gain, 7 minus the loss per occupation of the first state;
unknown integers mean 0. -/
theorem C84_kinds (h0 : r0.side = -1) (h2 : TwoSided (rs.zip fs)) (hf0 : 0 ≤ f0)
    (hf : ∀ x ∈ rs.zip fs, 0 ≤ x.2) (k : ℤ) :
    (k = 1 → kindFactor (Kind.ofInt k) (r0 :: rs) (f0 :: fs) = .ok (netRate r0 (rs.zip fs) 0)) ∧
    (k = 2 → kindFactor (Kind.ofInt k) (r0 :: rs) (f0 :: fs) =
      .ok (netRate r0 (rs.zip fs) 1 - netRate r0 (rs.zip fs) 0)) ∧
    (k = 6 → kindFactor (Kind.ofInt k) (r0 :: rs) (f0 :: fs) = .ok (gain ((r0, f0) :: rs.zip fs))) ∧
    (k = 7 → kindFactor (Kind.ofInt k) (r0 :: rs) (f0 :: fs) = .ok (-loss ((r0, 1) :: rs.zip fs))) ∧
    (k < 1 ∨ 7 < k → kindFactor (Kind.ofInt k) (r0 :: rs) (f0 :: fs) =
      .ok (netRate r0 (rs.zip fs) f0)) := by
  refine ⟨?_, ?_, ?_, ?_, ?_⟩
  · rintro rfl
    change kindFactor .f1 _ _ = _
    unfold kindFactor F_1
    simp only [List.getElem?_cons_zero, getLast_cons]
    rw [FB_skip_ok r0 rs f0 fs h2 hf, netRate_eq _ _ _ h0]
    simp
  · rintro rfl
    change kindFactor .ff _ _ = _
    unfold kindFactor F_f
    simp only [List.getElem?_cons_zero, getLast_cons]
    rw [FA_skip_ok r0 rs f0 fs h2 hf, FB_skip_ok r0 rs f0 fs h2 hf, netRate_eq _ _ _ h0,
      netRate_eq _ _ _ h0]
    simp only [bind, Except.bind]
    congr 1; ring
  · rintro rfl
    change kindFactor .creation _ _ = _
    unfold kindFactor F_creation F_B
    simp only [List.getElem?_cons_zero, getLast_cons, List.zip_cons_cons]
    rw [fLoop_ok 1 (-1) (by decide) _ ?_ ?_ _ _ (by simp)]
    · unfold gain; congr 1; ring_nf
    · intro x hx
      rcases List.mem_cons.mp hx with rfl | hx
      · right; exact h0
      · exact h2 x hx
    · intro x hx
      rcases List.mem_cons.mp hx with rfl | hx
      · exact hf0
      · exact hf x hx
  · rintro rfl
    change kindFactor .decay _ _ = _
    unfold kindFactor F_decay
    simp only [List.getElem?_cons_zero, getLast_cons]
    rw [FA_skip_ok r0 rs f0 fs h2 hf]
    unfold loss
    rw [occupied_cons, blocked_cons]
    simp [h0]
  · intro hk
    have : Kind.ofInt k = .full := by
      unfold Kind.ofInt
      rw [if_neg (by omega), if_neg (by omega), if_neg (by omega), if_neg (by omega),
        if_neg (by omega), if_neg (by omega), if_neg (by omega)]
    rw [this]
    unfold kindFactor F_1 F_f
    simp only [List.getElem?_cons_zero, getLast_cons]
    rw [FA_skip_ok r0 rs f0 fs h2 hf, FB_skip_ok r0 rs f0 fs h2 hf, netRate_eq _ _ _ h0]
    simp only [bind, Except.bind]

/-- **C84.** The slope kind is the derivative of the net rate with respect to the first occupation, so
the implicit solver gets the Jacobian of the slope it gets. -/
theorem C84_derivative (h0 : r0.side = -1) (rest : List (Reactant × ℝ)) :
    HasDerivAt (netRate r0 rest) (netRate r0 rest 1 - netRate r0 rest 0) f0 := by
  have e : netRate r0 rest = fun f => gain rest + f * (-loss rest - r0.specie.eta * gain rest) :=
    funext fun f => netRate_eq r0 f rest h0
  have d := ((hasDerivAt_id f0).mul_const (-loss rest - r0.specie.eta * gain rest)).const_add
    (gain rest)
  rw [e]
  refine d.congr_deriv ?_
  ring

theorem occupied_zero (s : ℤ) : ∀ l : List (Reactant × ℝ),
    (∃ x ∈ l, x.1.side = s ∧ x.2 = 0) → occupied s l = 0
  | [], h => by simp at h
  | x :: l, h => by
    rw [occupied_cons]
    obtain ⟨y, hy, h1, h2⟩ := h
    rcases List.mem_cons.mp hy with rfl | hy
    · rw [if_pos h1, h2, zero_mul]
    · rw [occupied_zero s l ⟨y, hy, h1, h2⟩, mul_zero]

theorem occupied_none (s : ℤ) : ∀ l : List (Reactant × ℝ), (∀ x ∈ l, x.1.side ≠ s) → occupied s l = 1
  | [], _ => rfl
  | x :: l, h => by
    rw [occupied_cons, if_neg (h x (by simp)), occupied_none s l fun y hy => h y (by simp [hy]), mul_one]

theorem blocked_none (s : ℤ) : ∀ l : List (Reactant × ℝ),
    (∀ x ∈ l, x.1.side = s → x.2 = 0) → blocked s l = 1
  | [], _ => rfl
  | x :: l, h => by
    rw [blocked_cons, blocked_none s l fun y hy => h y (by simp [hy]), mul_one]
    split_ifs with hs
    · rw [h x (by simp) hs]; ring
    · rfl

/-- **C84, vacuum decays.** For a decay of the first particle into empty states the vacuum kinds 3, 4, 5
agree with 0, 1, 2. -/
theorem C84_vacuum_decay (hlen : rs.length = fs.length) (hne : fs ≠ [])
    (h1 : ∀ r ∈ rs, r.side = 1) (hf : ∀ f ∈ fs, f = 0) (k : ℤ) (hk : k = 0 ∨ k = 1 ∨ k = 2) :
    kindFactor (Kind.ofInt (k + 3)) (r0 :: rs) (f0 :: fs) =
      kindFactor (Kind.ofInt k) (r0 :: rs) (f0 :: fs) := by
  have h1' : ∀ x ∈ rs.zip fs, x.1.side = 1 := fun x hx => h1 _ (List.of_mem_zip hx).1
  have hf' : ∀ x ∈ rs.zip fs, x.2 = 0 := fun x hx => hf _ (List.of_mem_zip hx).2
  have hz : ∃ x, x ∈ rs.zip fs := by
    cases rs with
    | nil => exact absurd (List.length_eq_zero_iff.mp hlen.symm) hne
    | cons r rs =>
      cases fs with
      | nil => exact absurd rfl hne
      | cons f fs => exact ⟨(r, f), by simp⟩
  obtain ⟨x, hx⟩ := hz
  have hg : gain (rs.zip fs) = 0 := by
    unfold gain; rw [occupied_zero 1 _ ⟨x, hx, h1' x hx, hf' x hx⟩, zero_mul]
  have hl : loss (rs.zip fs) = 1 := by
    unfold loss
    rw [occupied_none _ _ fun x hx => by rw [h1' x hx]; decide,
      blocked_none _ _ fun x hx _ => hf' x hx, mul_one]
  have h2 : TwoSided (rs.zip fs) := fun x hx => Or.inl (h1' x hx)
  have hA := FA_skip_ok r0 rs f0 fs h2 fun x hx => (hf' x hx).ge
  have hB := FB_skip_ok r0 rs f0 fs h2 fun x hx => (hf' x hx).ge
  have hlast : (f0 :: fs).getLast (by simp) = 0 := by
    rw [List.getLast_cons hne]; exact hf _ (List.getLast_mem hne)
  rw [hl] at hA
  rw [hg] at hB
  rcases hk with rfl | rfl | rfl
  · change kindFactor .fullVacuum _ _ = kindFactor .full _ _
    unfold kindFactor F_1 F_f
    simp only [List.getElem?_cons_zero, getLast_cons, hA, hB, hlast, bind, Except.bind]
    congr 1; ring
  · change kindFactor .f1Vacuum _ _ = kindFactor .f1 _ _
    unfold kindFactor F_1
    simp only [List.getElem?_cons_zero, getLast_cons, hB, hlast]
  · change kindFactor .ffVacuum _ _ = kindFactor .ff _ _
    unfold kindFactor F_f
    simp only [List.getElem?_cons_zero, getLast_cons, hA, hB, bind, Except.bind]
    congr 1; ring

/-- **C84, creation in vacuum.** For the creation of the first particle, with empty partners, by decay
of the last one, kind 4 agrees with 1; kind 3 is `f_last - f₀` where the net rate is
`f_last (1 - η f₀)`: the vacuum kinds 3 and 5 are meant for decays only. -/
theorem C84_vacuum_creation (r : List Reactant) (last : Reactant) (fl : ℝ) (hr : r ≠ [])
    (h0 : r0.side = -1) (h1 : ∀ x ∈ r, x.side = -1) (hs : last.side = 1) (hfl : 0 ≤ fl) :
    let R := r0 :: (r ++ [last])
    let F := f0 :: (r.map (fun _ => (0 : ℝ)) ++ [fl])
    kindFactor (Kind.ofInt 4) R F = kindFactor (Kind.ofInt 1) R F ∧
    kindFactor (Kind.ofInt 4) R F = .ok fl ∧
    kindFactor (Kind.ofInt 3) R F = .ok (fl - f0) ∧
    kindFactor (Kind.ofInt 0) R F = .ok (fl * (1 - r0.specie.eta * f0)) := by
  intro R F
  have hz : (r ++ [last]).zip (r.map (fun _ => (0 : ℝ)) ++ [fl]) =
      r.map (fun x => (x, (0 : ℝ))) ++ [(last, fl)] := by
    rw [List.zip_append (by simp)]
    congr 1
    clear hr h1 R F
    induction r with
    | nil => rfl
    | cons a r ih => simpa using ih
  set rest := r.map (fun x => (x, (0 : ℝ))) ++ [(last, fl)] with hrest
  have hm : ∀ x ∈ rest, (x.1.side = -1 ∧ x.2 = 0) ∨ x = (last, fl) := by
    intro x hx
    rcases List.mem_append.mp hx with hx | hx
    · obtain ⟨a, ha, rfl⟩ := List.mem_map.mp hx
      exact Or.inl ⟨h1 a ha, rfl⟩
    · exact Or.inr (List.mem_singleton.mp hx)
  have h2 : TwoSided rest := by
    intro x hx
    rcases hm x hx with ⟨h, -⟩ | rfl
    · exact Or.inr h
    · exact Or.inl hs
  have hf : ∀ x ∈ rest, 0 ≤ x.2 := by
    intro x hx
    rcases hm x hx with ⟨-, h⟩ | rfl
    · exact h.ge
    · exact hfl
  have ho : occupied 1 rest = fl := by
    have : ∀ l : List Reactant, (∀ x ∈ l, x.side = -1) →
        occupied 1 (l.map (fun x => (x, (0 : ℝ))) ++ [(last, fl)]) = fl := by
      intro l
      induction l with
      | nil => intro _; simp [occupied, hs]
      | cons a l ih =>
        intro h
        rw [List.map_cons, List.cons_append, occupied_cons, ih fun x hx => h x (by simp [hx]),
          if_neg (by rw [h a (by simp)]; decide), one_mul]
    exact this r h1
  have hg : gain rest = fl := by
    unfold gain
    rw [ho, blocked_none (-1) rest, mul_one]
    intro x hx hx1
    rcases hm x hx with ⟨-, h⟩ | rfl
    · exact h
    · rw [hs] at hx1; exact absurd hx1 (by decide)
  have hl : loss rest = 0 := by
    unfold loss
    obtain ⟨a, ha⟩ := List.exists_mem_of_ne_nil r hr
    rw [occupied_zero (-1) rest ⟨(a, 0), ?_, h1 a ha, rfl⟩, zero_mul]
    rw [hrest]
    exact List.mem_append_left _ (List.mem_map_of_mem ha)
  have hA := FA_skip_ok r0 (r ++ [last]) f0 (r.map (fun _ => (0 : ℝ)) ++ [fl]) (hz ▸ h2) (hz ▸ hf)
  have hB := FB_skip_ok r0 (r ++ [last]) f0 (r.map (fun _ => (0 : ℝ)) ++ [fl]) (hz ▸ h2) (hz ▸ hf)
  rw [hz, hl] at hA
  rw [hz, hg] at hB
  have hlast : F.getLast? = some fl := by
    change (f0 :: (_ ++ [fl])).getLast? = _
    rw [← List.cons_append, List.getLast?_append]; simp
  refine ⟨?_, ?_, ?_, ?_⟩
  · change kindFactor .f1Vacuum _ _ = kindFactor .f1 _ _
    unfold kindFactor F_1
    rw [hlast]
    simp only [R, F, List.getElem?_cons_zero, hB]
  · change kindFactor .f1Vacuum _ _ = _
    unfold kindFactor
    rw [hlast]
    simp only [F, List.getElem?_cons_zero]
  · change kindFactor .fullVacuum _ _ = _
    unfold kindFactor
    rw [hlast]
    simp only [F, List.getElem?_cons_zero]
    congr 1; ring
  · change kindFactor .full _ _ = _
    unfold kindFactor F_1 F_f
    rw [hlast]
    simp only [R, F, List.getElem?_cons_zero, hA, hB, bind, Except.bind]
    congr 1; ring

end

/-- Neutrino-like reactants: the neutron-decay pattern `0 → 1 + 2 + 3` with empty products and the
creation `0 + 1 ← 2`. -/
example : kindFactor (Kind.ofInt 3) [⟨⟨1, 1, [], [], false, 1⟩, -1⟩, ⟨⟨1, 0, [], [], false, 1⟩, 1⟩,
    ⟨⟨-1, 0, [], [], false, 1⟩, 1⟩] [1 / 2, 0, 0] = .ok (-(1 / 2)) := by
  rw [show (3 : ℤ) = 0 + 3 from rfl, C84_vacuum_decay _ _ _ _ (by simp) (by simp) (by simp) (by simp) 0
    (by simp), (C84_kinds _ _ _ _ rfl (by simp [TwoSided]) (by norm_num) (by simp) 0).2.2.2.2
    (Or.inl (by decide)), netRate_eq _ _ _ rfl]
  norm_num [gain, loss, occupied, blocked]

/-! ## C85 -/

/-- The energy of a particle as a function of its momentum. -/
noncomputable def energyOf (m q : ℝ) : ℝ := √(q ^ 2 + m ^ 2)

theorem energyOf_eq (m q : ℝ) : energyOf m q = energy q m := by
  unfold energyOf energy; congr 1; ring

theorem energyOf_deriv (m q : ℝ) (hq : 0 < q) : deriv (energyOf m) q = q / energyOf m q := by
  have h : HasDerivAt (fun x : ℝ => x ^ 2 + m ^ 2) (2 * q) q := by
    have := ((hasDerivAt_id q).pow 2).add_const (m ^ 2)
    refine this.congr_deriv ?_
    simp
  have := (h.sqrt (by positivity)).deriv
  unfold energyOf
  rw [this]
  field_simp

theorem jacobian4_eq (r : Fin 4 → Reactant) (p E : Fin 4 → ℝ)
    (hE : ∀ i, E i = energyOf (r i).specie.m (p i)) (h1 : 0 < p 1) (h2 : 0 < p 2) :
    jacobian4 r p E = deriv (energyOf (r 1).specie.m) (p 1) * deriv (energyOf (r 2).specie.m) (p 2) := by
  have key : ∀ i, 0 < p i → (open Classical in if (r i).specie.m ≠ 0 then p i / E i else 1) =
      deriv (energyOf (r i).specie.m) (p i) := by
    intro i hi
    rw [energyOf_deriv _ _ hi, hE]
    split_ifs with h
    · rfl
    · push Not at h
      rw [h]; unfold energyOf
      rw [show p i ^ 2 + 0 ^ 2 = p i ^ 2 by ring, Real.sqrt_sq hi.le, div_self hi.ne']
  unfold jacobian4
  rw [one_mul, key 1 h1, key 2 h2]

/-- A physical configuration of the reaction: energies on the mass shell, energy conserved. -/
structure OnShell (r : Fin 4 → Reactant) (p E : Fin 4 → ℝ) : Prop where
  sides : ∀ i, (r i).side = 1 ∨ (r i).side = -1
  mass : ∀ i, 0 ≤ (r i).specie.m
  mom : ∀ i, 0 ≤ p i
  energy : ∀ i, E i = energyOf (r i).specie.m (p i)
  conserved : ∑ i, ((r i).side : ℝ) * E i = 0

theorem OnShell.last {r : Fin 4 → Reactant} {p E : Fin 4 → ℝ} (h : OnShell r p E) :
    lastEnergy4 r (p 0) (p 1) (p 2) = E 3 := by
  have hc := h.conserved
  rw [Fin.sum_univ_four] at hc
  unfold lastEnergy4
  rw [← energyOf_eq, ← energyOf_eq, ← energyOf_eq, ← h.energy, ← h.energy, ← h.energy]
  rcases h.sides 3 with e | e <;> rw [e] at hc ⊢ <;> push_cast at hc ⊢ <;> linarith

theorem OnShell.mom3 {r : Fin 4 → Reactant} {p E : Fin 4 → ℝ} (h : OnShell r p E) :
    √(E 3 ^ 2 - (r 3).specie.m ^ 2) = p 3 := by
  rw [h.energy 3]
  unfold energyOf
  rw [Real.sq_sqrt (by positivity), show ∀ a b : ℝ, a + b - b = a by intros; ring,
    Real.sqrt_sq (h.mom 3)]

theorem OnShell.momenta {r : Fin 4 → Reactant} {p E : Fin 4 → ℝ} (h : OnShell r p E) :
    momenta4 r (p 0) (p 1) (p 2) = p := by
  unfold momenta4
  rw [h.last, h.mom3]
  funext i; fin_cases i <;> rfl

theorem OnShell.energies {r : Fin 4 → Reactant} {p E : Fin 4 → ℝ} (h : OnShell r p E) :
    energies4 r (p 0) (p 1) (p 2) = E := by
  unfold energies4
  rw [h.last, ← energyOf_eq, ← energyOf_eq, ← energyOf_eq, ← h.energy, ← h.energy, ← h.energy]
  funext i; fin_cases i <;> rfl

theorem OnShell.threshold {r : Fin 4 → Reactant} {p E : Fin 4 → ℝ} (h : OnShell r p E) :
    (r 3).specie.m ≤ E 3 := by
  rw [h.energy 3]
  apply Real.le_sqrt_of_sq_le
  nlinarith [h.mom 3]

/-- The code's integrand with the statistics factor `F`, for a given kernel value. -/
theorem integrand4_value {r : Fin 4 → Reactant} {p E : Fin 4 → ℝ} (h : OnShell r p E) {Ms : List CM}
    {kind : ℤ} {f : Fin 4 → ℝ} {F ds : ℝ} (hocc : ∀ i, occAt (r i).specie (p i) = .ok (f i))
    (hF : kindFactor (Kind.ofInt kind) [r 0, r 1, r 2, r 3] [f 0, f 1, f 2, f 3] = .ok F)
    (hds : kernel4 r Ms p E = .ok ds) :
    integrandFull4 (p 0) (p 1) (p 2) r Ms kind =
      .ok (open Classical in if CanClose p then jacobian4 r p E * ds * F else 0) := by
  unfold integrandFull4
  rw [h.last, if_neg (not_lt.mpr h.threshold), h.momenta, h.energies]
  dsimp only
  have hb := C35_four p E (fun i => (r i).specie.m) h.mom
  by_cases hc : CanClose p
  · rw [if_neg (not_not.mpr (hb.mpr ⟨h.threshold, hc⟩)), if_pos hc]
    split_ifs with hj
    · rw [hj]; simp
    · rw [hds]
      simp only [bind, Except.bind]
      split_ifs with hd
      · rw [hd, zero_mul]
      · simp only [hocc, hF]
  · rw [if_pos (fun hh => hc (hb.mp hh).2), if_neg hc]

/-- **C85.** For every physical configuration the four-particle integrand is the squared amplitude
averaged over the momentum-conserving configurations, divided by `p₀ E₀`, times the change of variables
from energies to momenta of the two integrated particles, times the statistics factor. -/
theorem C85_integrand_partial (r : Fin 4 → Reactant) (p E : Fin 4 → ℝ) (h : OnShell r p E)
    (Ms : List CM) (hMs : Ms ≠ []) (hK : ∀ M ∈ Ms, M.K = 0) (ho : ∀ M ∈ Ms, M.order.Bijective)
    (kind : ℤ) (f : Fin 4 → ℝ) (F : ℝ) (hocc : ∀ i, occAt (r i).specie (p i) = .ok (f i))
    (hF : kindFactor (Kind.ofInt kind) [r 0, r 1, r 2, r 3] [f 0, f 1, f 2, f 3] = .ok F)
    (h0 : 0 < p 0) (h1 : 0 < p 1) (h2 : 0 < p 2) :
    integrandFull4 (p 0) (p 1) (p 2) r Ms kind =
      .ok (deriv (energyOf (r 1).specie.m) (p 1) * deriv (energyOf (r 2).specie.m) (p 2) *
        ((Ms.map fun M => pairAverage (p (M.order 0)) (p (M.order 1)) (p (M.order 2)) (p (M.order 3))
          (amplitude E p (fun i => (r i).specie.m) (fun i => (r i).side) M.K1 M.K2
            (M.order 0) (M.order 1) (M.order 2) (M.order 3))).sum / (p 0 * E 0)) * F) := by
  obtain ⟨M0, Ms', rfl⟩ := List.exists_cons_of_ne_nil hMs
  have hD : ∀ M ∈ M0 :: Ms', D p E (fun i => (r i).specie.m) M.K1 M.K2 M.order (fun i => (r i).side) =
      pairAverage (p (M.order 0)) (p (M.order 1)) (p (M.order 2)) (p (M.order 3))
          (amplitude E p (fun i => (r i).specie.m) (fun i => (r i).side) M.K1 M.K2
            (M.order 0) (M.order 1) (M.order 2) (M.order 3)) := fun M hM =>
    C63_average p E _ M.K1 M.K2 (Equiv.ofBijective M.order (ho M hM)) _ h.mom
  have hds : kernel4 r (M0 :: Ms') p E = .ok (((M0 :: Ms').map fun M =>
      D p E (fun i => (r i).specie.m) M.K1 M.K2 M.order (fun i => (r i).side)).sum / (p 0 * E 0)) := by
    unfold kernel4
    simp only [hK M0 (by simp), ne_eq, not_true_eq_false, if_false, h0.ne', not_false_eq_true, if_true]
  rw [integrand4_value h hocc hF hds, jacobian4_eq r p E h.energy h1 h2, ← List.map_congr_left hD]
  split_ifs with hc
  · rfl
  · have hz : ∀ M ∈ M0 :: Ms', D p E (fun i => (r i).specie.m) M.K1 M.K2 M.order
        (fun i => (r i).side) = 0 := by
      intro M hM
      refine C63_support p E _ M.K1 M.K2 (Equiv.ofBijective M.order (ho M hM)) _ h.mom ?_
      rw [canClose4_iff p h.mom] at hc
      unfold Forbidden
      by_contra hh
      push Not at hh
      exact hc ⟨by linarith, by linarith, by linarith, by linarith⟩
    rw [List.map_congr_left hz]
    simp

/-- The averaged squared amplitude over `p₀ E₀` when the first particle has momentum `x` and the others
are as given. -/
noncomputable def movedKernel (r : Fin 4 → Reactant) (p E : Fin 4 → ℝ) (Ms : List CM) (x : ℝ) : ℝ :=
  let q := Function.update p 0 x
  let e := Function.update E 0 (energyOf (r 0).specie.m x)
  (Ms.map fun M => pairAverage (q (M.order 0)) (q (M.order 1)) (q (M.order 2)) (q (M.order 3))
    (amplitude e q (fun i => (r i).specie.m) (fun i => (r i).side) M.K1 M.K2
      (M.order 0) (M.order 1) (M.order 2) (M.order 3))).sum / (x * energyOf (r 0).specie.m x)

/-- **C85, at rest.** For a massive first particle at rest the integrand uses the limit of that kernel
for small momenta. -/
theorem C85_rest_partial (r : Fin 4 → Reactant) (p E : Fin 4 → ℝ) (h : OnShell r p E)
    (Ms : List CM) (hMs : Ms ≠ []) (hK : ∀ M ∈ Ms, M.K = 0) (ho : ∀ M ∈ Ms, M.order.Bijective)
    (kind : ℤ) (f : Fin 4 → ℝ) (F : ℝ) (hocc : ∀ i, occAt (r i).specie (p i) = .ok (f i))
    (hF : kindFactor (Kind.ofInt kind) [r 0, r 1, r 2, r 3] [f 0, f 1, f 2, f 3] = .ok F)
    (h0 : p 0 = 0) (h1 : 0 < p 1) (h2 : 0 < p 2) (hm : 0 < (r 0).specie.m) (hc : CanClose p) :
    ∃ L, Filter.Tendsto (movedKernel r p E Ms) (nhdsWithin 0 (Set.Ioi 0)) (nhds L) ∧
      integrandFull4 0 (p 1) (p 2) r Ms kind =
        .ok (deriv (energyOf (r 1).specie.m) (p 1) * deriv (energyOf (r 2).specie.m) (p 2) * L * F) := by
  obtain ⟨M0, Ms', rfl⟩ := List.exists_cons_of_ne_nil hMs
  have hds : kernel4 r (M0 :: Ms') p E = .ok (((M0 :: Ms').map fun M =>
      Db p E (fun i => (r i).specie.m) M.K1 M.K2 M.order (fun i => (r i).side)).sum) := by
    unfold kernel4
    simp only [hK M0 (by simp), ne_eq, not_true_eq_false, if_false, h0]
  have hi := integrand4_value h hocc hF hds
  rw [h0, if_pos hc, jacobian4_eq r p E h.energy h1 h2] at hi
  refine ⟨_, ?_, hi⟩
  have hlim : ∀ l : List CM, (∀ M ∈ l, M.order.Bijective) → Filter.Tendsto (fun x => (l.map fun M =>
      D (Function.update p 0 x) (Function.update E 0 √(x ^ 2 + (r 0).specie.m ^ 2))
        (fun i => (r i).specie.m) M.K1 M.K2 M.order (fun i => (r i).side)
        / (x * √(x ^ 2 + (r 0).specie.m ^ 2))).sum) (nhdsWithin 0 (Set.Ioi 0))
      (nhds ((l.map fun M => Db p E (fun i => (r i).specie.m) M.K1 M.K2 M.order
        (fun i => (r i).side)).sum)) := by
    intro l
    induction l with
    | nil => intro _; simp
    | cons M l ih =>
      intro hl
      simp only [List.map_cons, List.sum_cons]
      exact (C39_massive_no_jump p E (fun i => (r i).specie.m) M.K1 M.K2
        (Equiv.ofBijective M.order (hl M (by simp))) _ (fun i _ => h.mom i) hm).add
        (ih fun M' hM' => hl M' (by simp [hM']))
  refine (hlim _ ho).congr' ?_
  filter_upwards [self_mem_nhdsWithin] with x hx
  have hx : 0 < x := hx
  unfold movedKernel
  dsimp only
  have hq : ∀ i, 0 ≤ Function.update p 0 x i := by
    intro i
    by_cases hi : i = 0
    · subst hi; simpa using hx.le
    · simpa [hi] using h.mom i
  have hdiv : ∀ (l : List CM) (g : CM → ℝ) (c : ℝ), (l.map fun M => g M / c).sum = (l.map g).sum / c := by
    intro l g c
    induction l with
    | nil => simp
    | cons M l ih => simp [ih, add_div]
  rw [hdiv]
  congr 2
  refine List.map_congr_left fun M hM => ?_
  exact C63_average _ _ _ M.K1 M.K2 (Equiv.ofBijective M.order (ho M hM)) _ hq

/-- **C85, constant amplitudes.** A matrix element with `K ≠ 0` is used without the average over
directions and without `1/(p₀ E₀)`, and further matrix elements are ignored. -/
theorem C85_constant (r : Fin 4 → Reactant) (p E : Fin 4 → ℝ) (h : OnShell r p E)
    (M : CM) (Ms : List CM) (hK : M.K ≠ 0)
    (kind : ℤ) (f : Fin 4 → ℝ) (F : ℝ) (hocc : ∀ i, occAt (r i).specie (p i) = .ok (f i))
    (hF : kindFactor (Kind.ofInt kind) [r 0, r 1, r 2, r 3] [f 0, f 1, f 2, f 3] = .ok F)
    (h1 : 0 < p 1) (h2 : 0 < p 2) (hc : CanClose p) :
    integrandFull4 (p 0) (p 1) (p 2) r (M :: Ms) kind =
      .ok (deriv (energyOf (r 1).specie.m) (p 1) * deriv (energyOf (r 2).specie.m) (p 2) * M.K * F) := by
  have hds : kernel4 r (M :: Ms) p E = .ok M.K := by
    unfold kernel4
    simp only [ne_eq, hK, not_false_eq_true, if_true]
  rw [integrand4_value h hocc hF hds, if_pos hc, jacobian4_eq r p E h.energy h1 h2]

/-- Four massless fermions in equilibrium at temperature 1 with momenta `k`. -/
def flatReaction : Fin 4 → Reactant := fun i => ⟨⟨1, 0, [], [], true, 1⟩, if i.val < 2 then -1 else 1⟩

theorem flat_onShell (k : ℝ) (hk : 0 ≤ k) : OnShell flatReaction (fun _ => k) (fun _ => k) where
  sides i := by fin_cases i <;> simp [flatReaction]
  mass i := le_rfl
  mom i := hk
  energy i := by simp [energyOf, flatReaction, Real.sqrt_sq hk]
  conserved := by rw [Fin.sum_univ_four]; simp [flatReaction]

theorem flat_close (k : ℝ) (hk : 0 ≤ k) : CanClose (fun _ : Fin 4 => k) := by
  rw [canClose4_iff _ fun _ => hk]
  refine ⟨?_, ?_, ?_, ?_⟩ <;> linarith

/-- **C85, refuted for constant amplitudes.** For massless particles of momentum `k` the averaged
constant amplitude over `p₀E₀` is `K/k`; the code uses `K`. -/
theorem C85_constant_wrong (K k : ℝ) (hK : K ≠ 0) (hk : 0 < k) (hk1 : k ≠ 1) :
    pairAverage k k k k (fun _ => K) / (k * k) = K / k ∧
    integrandFull4 k k k flatReaction [⟨id, 0, 0, K⟩] 5 = .ok (K * -1) ∧
    integrandFull4 k k k flatReaction [⟨id, 0, 0, K⟩] 5 ≠
      .ok (pairAverage k k k k (fun _ => K) / (k * k) * -1) := by
  have e : pairAverage k k k k (fun _ => K) / (k * k) = K / k := by
    have := pairAverage_mul k k k k K (fun _ => 1)
    simp only [mul_one] at this
    rw [this, ← C36_integral hk.le hk.le hk.le hk.le, C36_published hk.le hk.le hk.le hk.le]
    unfold publishedD1
    simp only [max_self, min_self]
    rw [if_neg (by push Not; constructor <;> linarith), if_pos le_rfl, if_pos le_rfl]
    field_simp
    ring
  have i := C85_constant flatReaction (fun _ => k) (fun _ => k) (flat_onShell k hk.le) ⟨id, 0, 0, K⟩ [] hK 5
    (fun _ => 1 / (Real.exp (energy k 0 / 1) + (1 : ℤ))) (-1) (fun _ => rfl) rfl hk hk (flat_close k hk.le)
  have d : deriv (energyOf 0) k = 1 := by
    rw [energyOf_deriv _ _ hk]; unfold energyOf
    rw [show k ^ 2 + 0 ^ 2 = k ^ 2 by ring, Real.sqrt_sq hk.le, div_self hk.ne']
  have i' : integrandFull4 k k k flatReaction [⟨id, 0, 0, K⟩] 5 = .ok (K * -1) := by
    refine i.trans ?_
    change Except.ok (deriv (energyOf 0) k * deriv (energyOf 0) k * K * -1) = _
    rw [d]; simp
  refine ⟨e, i', ?_⟩
  rw [i', e]
  intro hh
  have := Except.ok.inj hh
  have : K = K / k := by linarith
  rw [eq_div_iff hk.ne'] at this
  exact hk1 (mul_left_cancel₀ hK (by linarith))

/-- The integrand of massless scattering at equal momenta for two couplings: occupations are those of a
thermal species and the average is over all closed configurations. -/
example (K1 k : ℝ) (hk : 0 < k) (kind : ℤ) (F : ℝ)
    (hF : kindFactor (Kind.ofInt kind) [flatReaction 0, flatReaction 1, flatReaction 2, flatReaction 3]
      [1 / (Real.exp (energy k 0 / 1) + (1 : ℤ)), 1 / (Real.exp (energy k 0 / 1) + (1 : ℤ)),
        1 / (Real.exp (energy k 0 / 1) + (1 : ℤ)), 1 / (Real.exp (energy k 0 / 1) + (1 : ℤ))] = .ok F) :
    integrandFull4 k k k flatReaction [⟨id, K1, 0, 0⟩] kind =
      .ok (deriv (energyOf 0) k * deriv (energyOf 0) k * (([⟨id, K1, 0, 0⟩].map fun M : CM =>
        pairAverage k k k k (amplitude (fun _ => k) (fun _ => k) (fun i => (flatReaction i).specie.m)
          (fun i => (flatReaction i).side) M.K1 M.K2 (M.order 0) (M.order 1) (M.order 2)
          (M.order 3))).sum / (k * k)) * F) :=
  C85_integrand_partial flatReaction (fun _ => k) (fun _ => k) (flat_onShell k hk.le) _ (by simp)
    (by simp) (fun M hM => by rw [List.mem_singleton.mp hM]; exact Function.bijective_id) kind
    (fun _ => 1 / (Real.exp (energy k 0 / 1) + (1 : ℤ))) F (fun _ => rfl) hF hk hk hk

end PyBBN
